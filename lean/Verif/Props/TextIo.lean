import Verif.Props.PrintExact
import Verif.Props.IoStream

/-
Property C87: text streams for reading and writing, used to take notes and to read them again.
-/

namespace Cmp

open Cmp.Spec (ArrayCursor Session)
open InStream OutStream

/-! ### C87 -/

/-- A note: values, each followed by a separator. -/
abbrev Note := List (TextValue × List Nat)

/-- The usual notation of a value. -/
def TextValue.text : TextValue → List Nat
  | int _ v => Spec.decimal v
  | bool b => [if b then 49 else 48]

/-- The text of a note. -/
def noteText (note : Note) : List Nat := note.flatMap fun i => i.1.text ++ i.2

/-- The text of several notes. -/
def notesText (notes : List Note) : List Nat := notes.flatMap noteText

/-- What a program does with its notes. -/
inductive NoteOp
  /-- write a note at the end -/
  | add (note : Note)
  /-- read note number `i` -/
  | reread (i : Nat)

/-- The program: it remembers the position of every note it adds, and goes there to read it again.
`fuel` bounds the number of characters of a word and the whitespace before it. -/
def IoStream.runNotes {ρ : Type} (native : Endian) (X : IoMembers ρ) (fuel : Nat) :
    List NoteOp → List (Int × Note) → M (IoStream ρ) (List (List TextValue))
  | [], _ => pure []
  | .add note :: ops, known => do
    onRes (X.setPosition 0 .end)
    let s ← M.get
    let p ← M.lift (X.getPosition s.res)
    let _ ← output (writeItems native X.writer note)
    runNotes native X fuel ops (known ++ [(p, note)])
  | .reread i :: ops, known =>
    match known[i]? with
    | none => runNotes native X fuel ops known
    | some (p, note) => do
      onRes (X.setPosition p .begin)
      let values ← input (readItems native X.reader fuel note)
      let more ← runNotes native X fuel ops known
      pure (values :: more)

/-- What the user expects to read. -/
def noteResults : List NoteOp → List Note → List (List TextValue)
  | [], _ => []
  | .add note :: ops, notes => noteResults ops (notes ++ [note])
  | .reread i :: ops, notes =>
    match notes[i]? with
    | none => noteResults ops notes
    | some note => note.map (·.1) :: noteResults ops notes

/-- The notes added. -/
def notesOf : List NoteOp → List Note
  | [] => []
  | .add note :: ops => note :: notesOf ops
  | .reread _ :: ops => notesOf ops

/-- What a program with a stream reads, and the resource after the stream is destroyed. -/
def IoStream.noteSession {ρ : Type} (native o : Endian) (form : EncodingForm) (X : IoMembers ρ)
    (fuel : Nat) (ops : List NoteOp) (res : ρ) : Outcome (List (List TextValue) × ρ) :=
  match (runNotes native X fuel ops [] >>= fun results =>
      destroy X.writer >>= fun _ => pure results) (make res o form) with
  | (.ok results, s) => .ok (results, s.res)
  | (.throw x, _) => .throw x
  | (.terminate, _) => .terminate
  | (.ub, _) => .ub
  | (.hang, _) => .hang

/-- Notes of values of their types, with a whitespace separator after each. -/
def NoteOk (note : Note) : Prop :=
  ∀ i ∈ note, i.1.Typed ∧ i.2 ≠ [] ∧ ∀ c ∈ i.2, Spec.IsWhiteSpace c

instance (note : Note) : Decidable (NoteOk note) := by unfold NoteOk; infer_instance

/-- Notes the library can handle: without the least value of a signed type and without separators that
are just a carriage return. -/
def NoteSupported (note : Note) : Prop := ∀ i ∈ note, ¬ i.1.IsLeast ∧ i.2 ≠ [13]

instance (note : Note) : Decidable (NoteSupported note) := by unfold NoteSupported; infer_instance

/-- What is required of notes in any case: values of their types, and whitespace after them. -/
def NoteTyped (note : Note) : Prop := ∀ i ∈ note, i.1.Typed ∧ ∀ c ∈ i.2, Spec.IsWhiteSpace c

instance (note : Note) : Decidable (NoteTyped note) := by unfold NoteTyped; infer_instance

theorem NoteOk.typed {note : Note} (h : NoteOk note) : NoteTyped note := fun i hi =>
  ⟨(h i hi).1, (h i hi).2.2⟩

/-- What reading a value makes of a word. -/
def TextValue.denoted : TextValue → List Nat → Outcome TextValue
  | int T _, word => (parseInteger .char8 T (encs .char8 word) .default).bind fun v => .ok (.int T v)
  | bool _, word =>
    if word = [49] then .ok (.bool true) else if word = [48] then .ok (.bool false)
    else if word = [] then .throw (.parseFailed .emptyInput)
    else .throw (.parseFailed .neitherBoolean)

/-- One word for each value; behind the last word there are empty ones. -/
def denotedAll : List TextValue → List (List Nat) → Outcome (List TextValue)
  | [], _ => .ok []
  | v :: vs, words => (v.denoted (words.headD [])).bind fun x =>
      (denotedAll vs words.tail).bind fun xs => .ok (x :: xs)

/-- The words of a text as text input sees it, in which a carriage return in front of anything is
left out. -/
def seenWords (text : List Nat) : List (List Nat) :=
  wordsFrom (fun c => isWhitespace (BitVec.ofNat 32 c)) [] (filt text)

/-- How writing a least value ends, as in C57. -/
def leastOf : List TextValue → Option Halt
  | [] => none
  | .bool _ :: vs => leastOf vs
  | .int T v :: vs => if T.signed = true ∧ v = T.min then some (leastHalts T) else leastOf vs

/-- What a program with notes of any values and separators gets: reading takes the words from the
start of the note on, as many as the note has values, wherever they come from. -/
def noteOutcome : List NoteOp → List Note → Outcome (List (List TextValue))
  | [], _ => .ok []
  | .add note :: ops, notes =>
    match leastOf (note.map (·.1)) with
    | some halt => halt.outcome
    | none => noteOutcome ops (notes ++ [note])
  | .reread i :: ops, notes =>
    match notes[i]? with
    | none => noteOutcome ops notes
    | some note => (denotedAll (note.map (·.1)) (seenWords (notesText (notes.drop i)))).bind fun xs =>
        (noteOutcome ops notes).bind fun more => .ok (xs :: more)

theorem separator_scalar {c : Nat} (hc : Spec.IsWhiteSpace c) :
    Spec.IsScalar c ∧ ¬ LowSurrogate c := by
  unfold Spec.IsWhiteSpace Spec.whiteSpaceRanges at hc
  unfold Spec.IsScalar LowSurrogate
  simp at hc
  omega

theorem whiteSpace_is {l : List Nat} (h : ∀ c ∈ l, Spec.IsWhiteSpace c) :
    ∀ c ∈ l, isWhitespace (BitVec.ofNat 32 c) = true := fun c hc =>
  (isWhitespace_iff c (isScalar_lt (separator_scalar (h c hc)).1)).mpr (h c hc)

theorem decimalDigits_visible (n : Nat) :
    (∀ c ∈ Spec.decimalDigits n, 48 ≤ c ∧ c < 58) ∧ Spec.decimalDigits n ≠ [] := by
  induction n using Nat.strongRecOn with
  | _ n ih =>
    rw [Spec.decimalDigits]
    split
    · exact ⟨by intro c hc; simp at hc; omega, by simp⟩
    · have := ih (n / 10) (by omega)
      refine ⟨?_, by simp⟩
      intro c hc
      rcases List.mem_append.mp hc with hc | hc
      · exact this.1 c hc
      · simp at hc; omega

theorem TextValue.text_visible (v : TextValue) : Visible v.text ∧ v.text ≠ [] := by
  cases v with
  | int T v =>
    have := decimalDigits_visible v.natAbs
    refine ⟨?_, by simp [TextValue.text, Spec.decimal, this.2]⟩
    intro c hc
    simp only [TextValue.text, Spec.decimal] at hc
    rcases List.mem_append.mp hc with hc | hc
    · split at hc
      · simp at hc; omega
      · simp at hc
    · have := this.1 c hc; omega
  | bool b => cases b <;> exact ⟨by intro c hc; simp [TextValue.text] at hc; omega, by simp [TextValue.text]⟩

/-- Reading the usual notation of a value. -/
theorem TextValue.read_text {ρ : Type} {R : Reader ρ} {native : Endian} (v : TextValue)
    (hv : v.Typed) (hl : ¬ v.IsLeast) (fuel : Nat) (s s' : InStream ρ)
    (h : readWord native R .char8 fuel s = (.ok (encs .char8 v.text), s')) :
    v.read native R fuel s = (.ok v, s') := by
  cases v with
  | int T v =>
    have hmin : T.signed = true → v ≠ T.min := fun h1 h2 => hl ⟨h1, h2⟩
    obtain ⟨e1, -⟩ := formatInteger_decimal .char8 T v hv.1 hv.2 hmin
    obtain ⟨s1, e2, e3⟩ := C21_partial .char8 T .default v hv.1 (by decide) hv.2 hmin
    rw [e1] at e2
    simp only [Outcome.ok.injEq] at e2
    subst e2
    show (readInteger native R T fuel >>= _) s = _
    have : readInteger native R T fuel s = (.ok v, s') := by
      rw [readInteger, M.bind_ok h]
      show M.lift (parseInteger .char8 T (encs .char8 (Spec.decimal v)) .default) s' = _
      rw [e3]
      rfl
    rw [M.bind_ok this]
    rfl
  | bool b =>
    show (readBool native R fuel >>= _) s = _
    have : readBool native R fuel s = (.ok b, s') := by
      rw [readBool, M.bind_ok h]
      cases b <;> rfl
    rw [M.bind_ok this]
    rfl

/-- Writing a value writes its usual notation. -/
theorem TextValue.write_text {ρ : Type} {W : Writer ρ} {fits : List Byte → Prop}
    {got out : List Byte → ρ → Prop} (C : W.Collects fits got out) (native : Endian) (v : TextValue)
    (hv : v.Typed) (hl : ¬ v.IsLeast) (st : OutStream ρ) (w : List Byte)
    (hf : fits (w ++ textBytes st.form st.endian v.text)) (h : got w st.res) :
    ∃ r', v.write native W st = (.ok (), { st with res := r' }) ∧
      got (w ++ textBytes st.form st.endian v.text) r' := by
  cases v with
  | int T v =>
    exact print_one C native st w (.int T v) (Spec.decimal v) ⟨hv.1, hv.2, rfl⟩
      (fun h1 h2 => hl ⟨h1, h2⟩) hf h
  | bool b => exact print_one C native st w (.bool b) _ rfl trivial hf h

theorem leastOf_none {vs : List TextValue} (h : leastOf vs = none) : ∀ v ∈ vs, ¬ v.IsLeast := by
  induction vs with
  | nil => simp
  | cons v vs ih =>
    intro x hx
    cases v with
    | bool b =>
      rcases List.mem_cons.mp hx with rfl | hx
      · exact fun h => h
      · exact ih h x hx
    | int T v =>
      rw [leastOf] at h
      split at h
      · simp at h
      · rename_i hn
        rcases List.mem_cons.mp hx with rfl | hx
        · exact hn
        · exact ih h x hx

theorem leastOf_eq_none {vs : List TextValue} (h : ∀ v ∈ vs, ¬ v.IsLeast) : leastOf vs = none := by
  induction vs with
  | nil => rfl
  | cons v vs ih =>
    cases v with
    | bool b => exact ih fun x hx => h x (by simp [hx])
    | int T v =>
      rw [leastOf, if_neg (show ¬ (T.signed = true ∧ v = T.min) from h (.int T v) (by simp))]
      exact ih fun x hx => h x (by simp [hx])

/-- Writing a note, until a least value. -/
theorem write_note {ρ : Type} {W : Writer ρ} {fits : List Byte → Prop}
    {got out : List Byte → ρ → Prop} (C : W.Collects fits got out) (native : Endian) (note : Note)
    (hn : NoteTyped note) : ∀ (st : OutStream ρ) (w : List Byte),
    fits (w ++ textBytes st.form st.endian (noteText note)) → got w st.res →
    match leastOf (note.map (·.1)) with
    | some halt => ∃ st', writeItems native W note st = (halt.outcome, st')
    | none => ∃ us r', writeItems native W note st = (.ok us, { st with res := r' }) ∧
      got (w ++ textBytes st.form st.endian (noteText note)) r' := by
  induction note with
  | nil =>
    intro st w _ h
    refine ⟨[], st.res, rfl, ?_⟩
    rw [noteText, List.flatMap_nil, textBytes_nil, List.append_nil]
    exact h
  | cons i note ih =>
    intro st w hf h
    obtain ⟨v, sep⟩ := i
    obtain ⟨hv, hsep⟩ := hn (v, sep) (by simp)
    by_cases hl : v.IsLeast
    · cases v with
      | bool b => exact hl.elim
      | int T v =>
        obtain ⟨hsg, rfl⟩ := hl
        rw [List.map_cons, leastOf, if_pos ⟨hsg, rfl⟩]
        refine ⟨st, ?_⟩
        have e1 := writeInteger_least native W st T hv.1 hv.2 hsg
        rw [writeItems, M.runList]
        apply Halt.bind
        rw [writeThen]
        apply Halt.bind
        exact e1
    · have hleast : leastOf (((v, sep) :: note).map (·.1)) = leastOf (note.map (·.1)) := by
        cases v with
        | bool b => rfl
        | int T v => rw [List.map_cons, leastOf, if_neg (show ¬ (T.signed = true ∧ v = T.min) from hl)]
      rw [hleast]
      rw [noteText, List.flatMap_cons, ← noteText, textBytes_append, textBytes_append,
        ← List.append_assoc, ← List.append_assoc] at hf
      obtain ⟨r1, e1, q1⟩ := v.write_text C native hv hl st w
        (C.shorter _ _ (C.shorter _ _ hf)) h
      obtain ⟨us, r2, e2, q2⟩ := writeCodePoints_eq C native sep { st with res := r1 } _
        (fun c hc => writeOk_of (separator_scalar (hsep c hc)).1
          (fun _ => (separator_scalar (hsep c hc)).2)) (C.shorter _ _ hf) q1
      have e12 : writeThen native W (fun v => TextValue.write native W v) (v, sep) st
          = (.ok (), { st with res := r2 }) := by
        rw [writeThen, M.bind_ok e1, M.bind_ok e2]
        rfl
      have := ih (fun j hj => hn j (by simp [hj])) { st with res := r2 } _ hf q2
      revert this
      generalize leastOf (note.map (·.1)) = least
      cases least with
      | some halt =>
        rintro ⟨st', e3⟩
        refine ⟨st', ?_⟩
        rw [writeItems, M.runList, M.bind_ok e12]
        exact Halt.bind e3
      | none =>
        rintro ⟨us', r3, e3, q3⟩
        refine ⟨_, r3, M.runList_cons (a := ()) e12 e3, ?_⟩
        rw [noteText, List.flatMap_cons, ← noteText, textBytes_append, textBytes_append,
          ← List.append_assoc, ← List.append_assoc]
        exact q3

/-- Reading a value, from the word it takes. -/
theorem TextValue.read_denoted {ρ : Type} {R : Reader ρ} {native : Endian} (v : TextValue)
    (word : List Nat) (hw : Visible word) (fuel : Nat) (s s' : InStream ρ)
    (h : readWord native R .char8 fuel s = (.ok (encs .char8 word), s')) :
    v.read native R fuel s = (v.denoted word, s') := by
  cases v with
  | int T v =>
    show (readInteger native R T fuel >>= _) s = _
    rw [M.bind_apply, readInteger, M.bind_ok h]
    simp only [M.lift_apply, TextValue.denoted]
    cases parseInteger .char8 T (encs .char8 word) IntegerFormat.default <;> rfl
  | bool b =>
    show (readBool native R fuel >>= _) s = _
    rw [M.bind_apply, readBool, M.bind_ok h]
    have hb : parseBool .char8 (encs .char8 word) BoolFormat.default =
        if word = [49] then .ok true else if word = [48] then .ok false
        else if word = [] then .throw (.parseFailed .emptyInput)
        else .throw (.parseFailed .neitherBoolean) := by
      have he : encs .char8 word = word.map (BitVec.ofNat 8) := by
        clear h
        induction word with
        | nil => rfl
        | cons c word ih =>
          have hc := hw c (by simp)
          have ih := ih fun x hx => hw x (by simp [hx])
          have e1 : encU .char8 c = [BitVec.ofNat 8 c] := by
            rw [encU, Spec.utf8, if_pos (by omega)]
            rfl
          rw [encs_cons, e1, ih]
          rfl
      have hinj : ∀ c, 33 ≤ c → c < 127 → (encs .char8 word = [BitVec.ofNat 8 c] ↔ word = [c]) := by
        intro c h1 h2
        rw [he]
        cases word with
        | nil => simp
        | cons x l =>
          cases l with
          | nil =>
            have hx := hw x (by simp)
            simp only [List.map_cons, List.map_nil, List.cons.injEq, and_true]
            rw [← BitVec.toNat_inj]
            simp
            omega
          | cons y l => simp
      rw [parseBool, parseBool.compare]
      have h1 := hinj 49 (by omega) (by omega)
      have h2 := hinj 48 (by omega) (by omega)
      have h0 : (encs .char8 word).length = 0 ↔ word = [] := by rw [he]; simp
      rw [if_congr h0 rfl rfl, show (BoolFormat.default).trueString = [BitVec.ofNat 8 49] from rfl,
        show (BoolFormat.default).falseString = [BitVec.ofNat 8 48] from rfl, if_congr h1 rfl rfl,
        if_congr h2 rfl rfl]
      by_cases ha : word = []
      · subst ha
        decide
      · simp only [if_neg ha]
    simp only [M.lift_apply, TextValue.denoted, hb]
    split_ifs <;> rfl

/-- Reading as many words as a note has values. -/
theorem read_note {ρ : Type} {R : Reader ρ} {sizes : Nat → Prop} {left : List Byte → ρ → Prop}
    (D : R.Delivers sizes true left) (native : Endian) (fuel : Nat) (note : Note) :
    ∀ (ts : List Nat) (ws : List (List Nat)) (s : InStream ρ),
      Spec.Words (fun c => isWhitespace (BitVec.ofNat 32 c) = true) ts ws →
      (∀ w ∈ ws, Visible w) → ts.length < fuel → HasText sizes true left s ts →
    ∃ r' ts', readItems native R fuel note s = (denotedAll (note.map (·.1)) ws, { s with res := r' }) ∧
      HasText sizes true left { s with res := r' } ts' := by
  induction note with
  | nil => intro ts ws s _ _ _ h; exact ⟨s.res, _, rfl, h⟩
  | cons i note ih =>
    intro ts ws s hws hvis hf h
    have key : ∃ r1 ts1, readWord native R .char8 fuel s = (.ok (encs .char8 (ws.headD [])), { s with res := r1 })
        ∧ HasText sizes true left { s with res := r1 } ts1 ∧ ts1.length ≤ ts.length
        ∧ Spec.Words (fun c => isWhitespace (BitVec.ofNat 32 c) = true) ts1 ws.tail := by
      cases hws with
      | none sp hs =>
        obtain ⟨r1, e1, q1⟩ := readWord_end D native .char8 ts [] hs (by simp) (by simp) fuel s
          (by simpa using hf) (by simpa using h)
        exact ⟨r1, [], e1, q1, by simp, .none [] (by simp)⟩
      | last sp w hs hne hn =>
        obtain ⟨r1, e1, q1⟩ := readWord_end D native .char8 sp w hs (by simpa using hn)
          (hvis w (by simp)).ins fuel s (by simpa using hf) h
        exact ⟨r1, [], e1, q1, by simp, .none [] (by simp)⟩
      | next sp w b cs ws hs hne hn hb hws =>
        simp only [List.length_append, List.length_cons] at hf
        obtain ⟨r1, e1, q1⟩ := readWord_space D native .char8 sp w b cs hs hne (by simpa using hn) hb
          (hvis w (by simp)).ins fuel s (by omega) h
        exact ⟨r1, cs, e1, q1, by simp; omega, hws⟩
    obtain ⟨r1, ts1, e1, q1, hlen, hws1⟩ := key
    have hvh : Visible (ws.headD []) := by
      cases ws with
      | nil => intro c hc; simp at hc
      | cons w ws => exact hvis w (by simp)
    have e2 := i.1.read_denoted _ hvh fuel s _ e1
    obtain ⟨r2, ts2, e3, q3⟩ := ih ts1 ws.tail _ hws1 (fun w hw => hvis w (List.mem_of_mem_tail hw))
      (by omega) q1
    rw [List.map_cons, denotedAll, readItems, M.runList, M.bind_apply, e2]
    cases i.1.denoted (ws.headD []) with
    | ok x =>
      simp only [Outcome.bind]
      rw [M.bind_apply, show M.runList (fun i : TextValue × List Nat => i.1.read native R fuel) note
        { s with res := r1 } = _ from e3]
      refine ⟨r2, ts2, ?_, q3⟩
      cases denotedAll (note.map (·.1)) ws.tail <;> rfl
    | _ => exact ⟨r1, ts1, rfl, q1⟩

theorem noteText_typed (note : Note) (hn : NoteTyped note) :
    ∀ c ∈ noteText note, (33 ≤ c ∧ c < 127) ∨ Spec.IsWhiteSpace c := by
  intro c hc
  obtain ⟨i, hi, hc⟩ := List.mem_flatMap.mp hc
  rcases List.mem_append.mp hc with hc | hc
  · exact .inl (i.1.text_visible.1 c hc)
  · exact .inr ((hn i hi).2 c hc)

/-- The words of such texts. -/
theorem words_visible {ts : List Nat} {ws : List (List Nat)}
    (h : Spec.Words (fun c => isWhitespace (BitVec.ofNat 32 c) = true) ts ws)
    (ht : ∀ c ∈ ts, (33 ≤ c ∧ c < 127) ∨ Spec.IsWhiteSpace c) : ∀ w ∈ ws, Visible w := by
  have hword : ∀ w : List Nat, (∀ c ∈ w, ¬ isWhitespace (BitVec.ofNat 32 c) = true) →
      (∀ c ∈ w, (33 ≤ c ∧ c < 127) ∨ Spec.IsWhiteSpace c) → Visible w := by
    intro w h1 h2 c hc
    rcases h2 c hc with h | h
    · exact h
    · exact absurd (whiteSpace_is (l := [c]) (by simpa using h) c (by simp)) (h1 c hc)
  induction h with
  | none => simp
  | last s w hs hw hn => simpa using hword w hn fun c hc => ht c (by simp [hc])
  | next s w b cs ws hs hw hn hb h ih =>
    intro x hx
    rcases List.mem_cons.mp hx with rfl | hx
    · exact hword _ hn fun c hc => ht c (by simp [hc])
    · exact ih (fun c hc => ht c (by simp [hc])) x hx

/-- A session ends with the outcome, and, if it completes, with the resource as described. -/
def EndsAs {ρ α : Type} (outcome : Outcome α) (final : ρ → Prop) (session : Outcome (α × ρ)) : Prop :=
  match outcome with
  | .ok results => ∃ res, session = .ok (results, res) ∧ final res
  | .throw e => session = .throw e
  | .terminate => session = .terminate
  | .ub => session = .ub
  | .hang => session = .hang

theorem EndsAs.mono {ρ α : Type} {outcome : Outcome α} {final final' : ρ → Prop}
    {session : Outcome (α × ρ)} (h : EndsAs outcome final session) (hf : ∀ r, final r → final' r) :
    EndsAs outcome final' session := by
  cases outcome with
  | ok results =>
    obtain ⟨res, e, h⟩ := h
    exact ⟨res, e, hf res h⟩
  | _ => exact h

section Notes

variable {ρ : Type} {X : IoMembers ρ} {sizes : Nat → Prop} {allowed : Nat → Nat → Nat → Prop}
  {rep : Session → ArrayCursor → ρ → Prop} {holds : List Byte → ρ → Prop}

/-- What the program remembers about its notes. -/
def positions (form : EncodingForm) (o : Endian) (start : Nat) : List Note → List (Int × Note)
  | [] => []
  | note :: notes => ((start : Int), note) ::
      positions form o (start + (textBytes form o (noteText note)).length) notes

theorem positions_append (form : EncodingForm) (o : Endian) (notes : List Note) (note : Note) :
    ∀ start, positions form o start (notes ++ [note]) = positions form o start notes ++
      [(((start + (textBytes form o (notesText notes)).length : Nat) : Int), note)] := by
  induction notes with
  | nil => intro start; simp [positions, notesText, textBytes_nil]
  | cons n notes ih =>
    intro start
    have hc : notesText (n :: notes) = noteText n ++ notesText notes := rfl
    rw [List.cons_append, positions, ih, positions, hc, textBytes_append, List.length_append,
      List.cons_append, Nat.add_assoc]

theorem positions_get (form : EncodingForm) (o : Endian) (notes : List Note) :
    ∀ (start i : Nat), (positions form o start notes)[i]? = notes[i]?.map fun note =>
      (((start + (textBytes form o (notesText (notes.take i))).length : Nat) : Int), note) := by
  induction notes with
  | nil => intro start i; simp [positions]
  | cons n notes ih =>
    intro start i
    cases i with
    | zero => simp [positions, notesText, textBytes_nil]
    | succ i =>
      rw [positions, List.getElem?_cons_succ, ih, List.getElem?_cons_succ, List.take_succ_cons,
        notesText, notesText, List.flatMap_cons, textBytes_append, List.length_append,
        Nat.add_assoc]

theorem runNotes_acts (A : X.Acts sizes allowed rep holds) (native o : Endian) (form : EncodingForm)
    (hz : sizes form.form.unitSize) (orig : List Byte) (fuel : Nat) (ops : List NoteOp) :
    ∀ (notes : List Note), (∀ n ∈ notes ++ notesOf ops, NoteTyped n) →
      (notesText (notes ++ notesOf ops)).length < fuel →
      (∀ n ∈ notesOf ops, ∀ m, allowed m m (textBytes form o (noteText n)).length) →
      ∀ (st : IoStream ρ), st.inEndian = o → st.inForm = form → st.outEndian = o →
        st.outForm = form →
      ∀ (s : Session) (p : Nat), rep s ⟨orig ++ textBytes form o (notesText notes), p⟩ st.res →
    ∃ st', IoStream.runNotes native X fuel ops (positions form o orig.length notes) st =
        (noteOutcome ops notes, st') ∧ ∀ results, noteOutcome ops notes = .ok results →
      ∃ s' p', rep s' ⟨orig ++ textBytes form o (notesText (notes ++ notesOf ops)), p'⟩ st'.res := by
  induction ops with
  | nil =>
    intro notes _ _ _ st _ _ _ _ s p h
    exact ⟨st, rfl, fun _ _ => ⟨s, p, by simpa [notesOf] using h⟩⟩
  | cons op ops ih =>
    intro notes hok hfuel hall st hie hif hoe hof s p h
    cases op with
    | add note =>
      have hmem : note ∈ notes ++ notesOf (.add note :: ops) := by simp [notesOf]
      obtain ⟨r1, e1, h1⟩ := A.toEnd s _ st.res h
      have hpos := A.position _ _ _ h1
      have C := A.collects (orig ++ textBytes form o (notesText notes))
        (orig ++ textBytes form o (notesText notes)).length (Nat.le_refl _)
      have g0 : ActsGot rep (orig ++ textBytes form o (notesText notes))
          (orig ++ textBytes form o (notesText notes)).length [] r1 := by
        unfold ActsGot
        rw [Res.overlay_nil]
        exact A.begin _ _ h1
      have hwrite := write_note C native note (hok note hmem) ⟨r1, st.outEndian, st.outForm⟩ [] (by
          rw [List.nil_append, hoe, hof]
          exact hall note (by simp [notesOf]) _) g0
      rw [IoStream.runNotes, M.bind_ok (IoStream.onRes_ok e1), M.bind_ok (M.get_apply _)]
      simp only [hpos]
      rw [M.bind_ok (M.lift_apply _ _), noteOutcome]
      revert hwrite
      generalize leastOf (note.map (·.1)) = least
      cases least with
      | some halt =>
        rintro ⟨st', e2⟩
        have e3 : IoStream.output (writeItems native X.writer note) { st with res := r1 } =
            (halt.outcome, { st with
              res := st'.res
              outEndian := st'.endian
              outForm := st'.form }) := by
          simp only [IoStream.output, e2]
        refine ⟨_, Halt.bind e3, ?_⟩
        intro results hr
        cases halt <;> simp [Halt.outcome] at hr
      | none =>
        rintro ⟨us, r2, e2, g2⟩
        simp only [List.nil_append, ActsGot, hoe, hof] at g2
        have hov : Res.overlay (orig ++ textBytes form o (notesText notes))
            (orig ++ textBytes form o (notesText notes)).length (textBytes form o (noteText note)) =
            orig ++ textBytes form o (notesText (notes ++ [note])) := by
          rw [Res.overlay, List.take_length, List.drop_eq_nil_of_le (by omega), List.append_nil,
            notesText, notesText, List.flatMap_append, textBytes_append, List.append_assoc]
          simp
        rw [hov] at g2
        obtain ⟨st3, e3, h3⟩ := ih (notes ++ [note])
          (by simpa [notesOf] using hok) (by simpa [notesOf] using hfuel)
          (fun n hn => hall n (by simp [notesOf, hn])) { st with res := r2 } hie hif hoe hof _ _ g2
        refine ⟨st3, ?_, by simpa [notesOf] using h3⟩
        rw [M.bind_ok (IoStream.output_ok (s := { st with res := r1 }) e2)]
        rw [positions_append] at e3
        rw [← e3, List.length_append]
    | reread i =>
      rw [IoStream.runNotes, noteOutcome, positions_get]
      cases hi : notes[i]? with
      | none =>
        obtain ⟨st3, e3, h3⟩ := ih notes (by simpa [notesOf] using hok)
          (by simpa [notesOf] using hfuel) (fun n hn => hall n (by simpa [notesOf] using hn)) st hie
          hif hoe hof s p h
        exact ⟨st3, e3, by simpa [notesOf] using h3⟩
      | some note =>
        simp only [Option.map_some]
        have hlt : i < notes.length := by
          rcases Nat.lt_or_ge i notes.length with h | h
          · exact h
          · rw [List.getElem?_eq_none h] at hi; simp at hi
        have hsplit : notesText notes = notesText (notes.take i) ++ notesText (notes.drop i) := by
          rw [notesText, notesText, notesText, ← List.flatMap_append, List.take_append_drop]
        have hstart : orig.length + (textBytes form o (notesText (notes.take i))).length ≤
            (orig ++ textBytes form o (notesText notes)).length := by
          rw [hsplit, textBytes_append, List.length_append, List.length_append]
          omega
        obtain ⟨r1, e1, h1⟩ := A.seek s _ st.res _ h hstart
        have hdrop : (orig ++ textBytes form o (notesText notes)).drop
            (orig.length + (textBytes form o (notesText (notes.take i))).length) =
            textBytes form o (notesText (notes.drop i)) := by
          rw [hsplit, textBytes_append, ← List.append_assoc, List.drop_left' (by
            rw [List.length_append])]
        have hchars : ∀ c ∈ notesText (notes.drop i), (33 ≤ c ∧ c < 127) ∨ Spec.IsWhiteSpace c := by
          intro c hc
          obtain ⟨n, hn, hc⟩ := List.mem_flatMap.mp hc
          exact noteText_typed n (hok n (List.mem_append_left _ (List.mem_of_mem_drop hn))) c hc
        have htext : Spec.IsText (notesText (notes.drop i)) := by
          intro c hc
          rcases hchars c hc with h | h
          · unfold Spec.IsScalar; omega
          · exact (separator_scalar h).1
        have hwords := words_exist (fun c => isWhitespace (BitVec.ofNat 32 c)) _
          (filt (notesText (notes.drop i))) (Nat.le_refl _)
        have hlen : (filt (notesText (notes.drop i))).length < fuel := by
          have h1 := filt_length (notesText (notes.drop i))
          have h2 := congrArg List.length hsplit
          have h3 : (notesText notes).length ≤ (notesText (notes ++ notesOf (.reread i :: ops))).length := by
            rw [notesText, notesText, List.flatMap_append, List.length_append]
            omega
          rw [List.length_append] at h2
          omega
        have D := A.delivers (orig ++ textBytes form o (notesText notes))
        obtain ⟨r2, ts, e2, -, cs, -, -, -, s2, p2, -, h2, -⟩ := read_note D native fuel note _ _
          ⟨r1, st.inEndian, st.inForm⟩ hwords
          (words_visible hwords fun c hc => hchars c (filt_subset _ c hc)) hlen
          ⟨by rw [hif]; exact hz, notesText (notes.drop i), htext, .inl rfl, rfl, .fresh, _, .inl rfl, h1, by
            rw [hdrop, hif, hie]⟩
        obtain ⟨st3, e3, h3⟩ := ih notes (by simpa [notesOf] using hok)
          (by simpa [notesOf] using hfuel) (fun n hn => hall n (by simpa [notesOf] using hn))
          { st with res := r2 } hie hif hoe hof s2 p2 h2
        rw [M.bind_ok (IoStream.onRes_ok e1)]
        have e4 : denotedAll (note.map (·.1)) (wordsFrom (fun c => isWhitespace (BitVec.ofNat 32 c)) []
          (filt (notesText (notes.drop i)))) = denotedAll (note.map (·.1))
            (seenWords (notesText (notes.drop i))) := rfl
        rw [e4] at e2
        revert e2
        generalize denotedAll (note.map (·.1)) (seenWords (notesText (notes.drop i))) = x
        intro e2
        have e5 : IoStream.input (readItems native X.reader fuel note) { st with res := r1 } =
            (x, { st with res := r2 }) := by
          simp only [IoStream.input, e2]
        cases x with
        | ok xs =>
          rw [M.bind_ok e5, M.bind_apply, e3]
          refine ⟨st3, ?_, ?_⟩
          · simp only [Outcome.bind]
            cases noteOutcome ops notes <;> rfl
          · intro results hr
            cases e6 : noteOutcome ops notes with
            | ok more => exact by simpa [notesOf] using h3 more e6
            | _ => rw [e6] at hr; simp [Outcome.bind] at hr
        | _ => exact ⟨{ st with res := r2 }, by rw [M.bind_apply, e5]; rfl, by simp [Outcome.bind]⟩

/-- The whole life of a stream. -/
theorem noteSession_acts (A : X.Acts sizes allowed rep holds) (native o : Endian)
    (form : EncodingForm) (hz : sizes form.form.unitSize) (orig : List Byte) (fuel : Nat)
    (ops : List NoteOp) (hok : ∀ n ∈ notesOf ops, NoteTyped n)
    (hfuel : (notesText (notesOf ops)).length < fuel)
    (hall : ∀ n ∈ notesOf ops, ∀ m, allowed m m (textBytes form o (noteText n)).length)
    (res : ρ) (s : Session) (p : Nat) (h : rep s ⟨orig, p⟩ res) :
    EndsAs (noteOutcome ops [])
      (fun res' => holds (orig ++ textBytes form o (notesText (notesOf ops))) res')
      (IoStream.noteSession native o form X fuel ops res) := by
  obtain ⟨st1, e1, h1⟩ := runNotes_acts A native o form hz orig fuel ops [] (by simpa using hok)
    (by simpa using hfuel) hall (IoStream.make res o form) rfl rfl rfl rfl s p
    (by rw [notesText, List.flatMap_nil, textBytes_nil, List.append_nil]; exact h)
  rw [positions] at e1
  unfold IoStream.noteSession
  cases e : noteOutcome ops [] with
  | ok results =>
    rw [e] at e1
    obtain ⟨s1, p1, h1⟩ := h1 results e
    obtain ⟨r2, e2, h2⟩ := IoStream.destroy_acts A h1
    rw [M.bind_ok e1, M.bind_ok e2]
    exact ⟨r2, rfl, by simpa using h2⟩
  | _ => rw [M.bind_apply, e1, e]; rfl

end Notes

/-- The claim for a container of bytes with any content: the notes read are those added, and after
the stream is destroyed the texts of the notes are behind the old content. -/
def CtrNotes (native o : Endian) (form : EncodingForm) (cap : Nat) (content : List Byte)
    (ops : List NoteOp) : Prop :=
  ∀ fuel, (notesText (notesOf ops)).length < fuel →
    ∃ r, IoStream.noteSession native o form Ctr.members fuel ops (freshCtr cap 1 content) =
        .ok (noteResults ops [], r)
      ∧ r.dev.content =
        content ++ asBytes (form.form.serialize o.order (notesText (notesOf ops)))

/-- The claim for a file; other files stay as they are. -/
def FileNotes (P : FilePlatform) (reads : List Nat) (native o : Endian) (form : EncodingForm)
    (cap : Nat) (content : List Byte) (ops : List NoteOp) : Prop :=
  ∀ fuel files path, (notesText (notesOf ops)).length < fuel → files path = some content →
    ∃ f, IoStream.noteSession native o form (FileObj.members P) fuel ops
        (freshFile P cap files reads path .readAndWrite) = .ok (noteResults ops [], f)
      ∧ f.res.dev.files path =
        some (content ++ asBytes (form.form.serialize o.order (notesText (notesOf ops))))
      ∧ ∀ other, other ≠ path → f.res.dev.files other = files other

/-- The full claim fails: the least value of `int` cannot be noted. -/
theorem C87_violated :
    ¬ ∀ (native o : Endian) (form : EncodingForm) (cap : Nat) (content : List Byte)
      (ops : List NoteOp), RoomFor form cap → (∀ n ∈ notesOf ops, NoteOk n) →
      CtrNotes native o form cap content ops := by
  intro h
  obtain ⟨r, e, -⟩ := h .little .little .utf8 0 [] [.add [(.int .int (-2147483648), [10])]]
    (by decide) (by decide) 20 (by decide +kernel)
  have : (match IoStream.noteSession .little .little .utf8 Ctr.members 20
      [.add [(.int .int (-2147483648), [10])]] (freshCtr 0 1 []) with | .ub => true | _ => false) =
      true := by decide +kernel
  rw [e] at this
  simp at this

/-- The other way in which it fails: values separated by carriage returns are read as one. -/
theorem C87_violated_separator :
    ¬ ∀ (native o : Endian) (form : EncodingForm) (cap : Nat) (content : List Byte)
      (ops : List NoteOp), RoomFor form cap → (∀ n ∈ notesOf ops, NoteOk n) →
      (∀ n ∈ notesOf ops, ∀ i ∈ n, ¬ i.1.IsLeast) →
      CtrNotes native o form cap content ops := by
  intro h
  obtain ⟨r, e, -⟩ := h .little .little .utf8 0 []
    [.add [(.int .int 1, [13]), (.int .int 2, [13])], .reread 0]
    (by decide) (by decide) (by decide) 20 (by decide +kernel)
  have : (match IoStream.noteSession .little .little .utf8 Ctr.members 20
      [.add [(.int .int 1, [13]), (.int .int 2, [13])], .reread 0] (freshCtr 0 1 []) with
      | .ok (l, _) => decide (l = [[.int .int 1, .int .int 2]]) | _ => false) =
      false := by decide +kernel
  rw [e] at this
  simp only at this
  exact absurd this (by decide)

/-- C87 in full, for all values of their types and all whitespace after them, in containers and in
files on both platforms, in every encoding form and byte order: adding a least value ends the program;
reading a note takes as many words as the note has values from where it starts, out of the text in
which carriage returns in front of other characters are left out, and fails if one of these words is not
such a value.  The text in the resource is right whenever the program completes. -/
theorem C87_exact (P : FilePlatform) (reads : List Nat) (hr : P.Steady reads) (native o : Endian)
    (form : EncodingForm) (cap : Nat) (content : List Byte) (ops : List NoteOp)
    (hcap : RoomFor form cap) (hok : ∀ n ∈ notesOf ops, NoteTyped n) (fuel : Nat)
    (hfuel : (notesText (notesOf ops)).length < fuel) :
    EndsAs (noteOutcome ops [])
      (fun r => r.dev.content =
        content ++ asBytes (form.form.serialize o.order (notesText (notesOf ops))))
      (IoStream.noteSession native o form Ctr.members fuel ops (freshCtr cap 1 content))
    ∧ (cap ≤ P.most → (∀ n ∈ notesOf ops,
        (asBytes (form.form.serialize o.order (noteText n))).length ≤ P.most) →
      ∀ files path, files path = some content →
      EndsAs (noteOutcome ops [])
        (fun f => f.res.dev.files path =
            some (content ++ asBytes (form.form.serialize o.order (notesText (notesOf ops))))
          ∧ ∀ other, other ≠ path → f.res.dev.files other = files other)
        (IoStream.noteSession native o form (FileObj.members P) fuel ops
          (freshFile P cap files reads path .readAndWrite))) := by
  constructor
  · exact noteSession_acts (Ctr.acts cap) native o form hcap content fuel ops hok hfuel
      (fun n hn m => .inr ⟨rfl, Nat.one_dvd _⟩) _ .fresh 0
      (Res.represents_make cap _ (Ctr.make 1 _) ⟨rfl, rfl, rfl, rfl⟩)
  · intro hcap' hall files path hc
    have hfs : files = FileDev.withFile files path content := by
      funext p
      by_cases hp : p = path <;> simp [FileDev.withFile, hp, hc]
    have hunit : form.form.unitSize ≤ P.most := by
      have : 4 ≤ P.most := by cases P <;> decide
      have h4 : form.form.unitSize ≤ 4 := by cases form <;> decide
      omega
    have key := noteSession_acts (FileObj.acts P cap hcap' files path) native o form
      ⟨hunit, hcap⟩ content fuel ops hok hfuel (fun n hn _ => hall n hn)
      ⟨⟨IoBuffer.make cap, ⟨files, some ⟨path, 0, .readAndWrite⟩, 0, reads⟩⟩,
        some path, .readAndWrite⟩ .fresh 0
      ⟨rfl, rfl, Res.represents_make cap _ _ ⟨reads, hr, by rw [← hfs]⟩⟩
    rw [freshFile_eq P cap files reads path .readAndWrite _ hc]
    refine key.mono fun f h1 => ⟨by rw [h1]; simp [FileDev.withFile]; rfl, fun other ho => by
      rw [h1]; simp [FileDev.withFile, ho]⟩

theorem notesText_joined (notes : List Note) :
    notesText notes = joined (notes.flatten.map fun i => (i.1.text, i.2)) := by
  rw [notesText, joined, List.flatMap_map]
  induction notes with
  | nil => rfl
  | cons n notes ih => rw [List.flatMap_cons, ih, List.flatten_cons, List.flatMap_append, noteText]

/-- Separators that separate: the words are those that were written. -/
theorem words_separate (ts : List (List Nat × List Nat)) (ht : ∀ p ∈ ts, p.1 ≠ [] ∧ Visible p.1)
    (hs : ∀ p ∈ ts, (∀ c ∈ p.2, Spec.IsWhiteSpace c) ∧ p.2 ≠ [] ∧ p.2 ≠ [13]) :
    seenWords (joined ts) = ts.map (·.1) := by
  have hseps : ∀ (sep acc cs : List Nat), (∀ c ∈ sep, Spec.IsWhiteSpace c) → sep ≠ [] → acc ≠ [] →
      wordsFrom (fun c => isWhitespace (BitVec.ofNat 32 c)) acc (sep ++ cs)
        = acc :: wordsFrom (fun c => isWhitespace (BitVec.ofNat 32 c)) [] cs := by
    intro sep acc cs h hn ha
    cases sep with
    | nil => simp at hn
    | cons b sep =>
      rw [List.cons_append, wordsFrom, if_pos (whiteSpaces h b (by simp)), if_neg ha,
        wordsFrom_seps _ sep cs (fun c hc => whiteSpaces h c (by simp [hc]))]
  unfold seenWords
  induction ts with
  | nil => rfl
  | cons p ts ih =>
    obtain ⟨t, sep⟩ := p
    obtain ⟨htne, hvis⟩ := ht (t, sep) (by simp)
    obtain ⟨hsp, hne, h13⟩ := hs (t, sep) (by simp)
    simp only at htne hvis hsp hne h13
    have ih' := ih (fun p hp => ht p (by simp [hp])) (fun p hp => hs p (by simp [hp]))
    rw [joined_cons, filt_append t _ hvis.noCR, wordsFrom_word _ [] t _ hvis.word, List.nil_append,
      List.map_cons]
    cases ts with
    | nil =>
      have : ∃ b f, filt sep = b :: f := by
        cases sep with
        | nil => exact absurd rfl hne
        | cons b sep =>
          cases sep with
          | nil => exact ⟨b, [], rfl⟩
          | cons d sep =>
            rw [filt]
            split
            · exact ⟨_, _, rfl⟩
            · exact ⟨_, _, rfl⟩
      obtain ⟨b, f, e⟩ := this
      have hfs := filt_subset sep
      have := hseps (filt sep) t [] (fun c hc => hsp c (hfs c hc)) (by rw [e]; simp) htne
      rw [List.append_nil] at this
      simp only [joined, List.flatMap_nil, List.append_nil, List.map_nil]
      rw [this]
      simp [wordsFrom]
    | cons q ts =>
      obtain ⟨t2, sep2⟩ := q
      obtain ⟨hne2, hvis2⟩ := ht (t2, sep2) (by simp)
      cases t2 with
      | nil => simp at hne2
      | cons c0 t2 =>
      have hc0 : c0 ≠ 13 := by
        rintro rfl
        exact hvis2.noCR (by simp)
      obtain ⟨sep', f1, f2, -, f4⟩ := filt_separator sep c0 (t2 ++ (sep2 ++ joined ts)) hc0
      have f1' : filt (sep ++ joined ((c0 :: t2, sep2) :: ts))
          = sep' ++ filt (joined ((c0 :: t2, sep2) :: ts)) := by
        rw [joined_cons, List.cons_append, f1]
      rw [f1', hseps sep' t _ (fun c hc => hsp c (f2 c hc)) (fun h => by
        rcases f4.mp h with h | h
        · exact hne h
        · exact h13 h) htne, ih']

theorem TextValue.denoted_text (v : TextValue) (hv : v.Typed) (hl : ¬ v.IsLeast) :
    v.denoted v.text = .ok v := by
  cases v with
  | int T v =>
    have hmin : T.signed = true → v ≠ T.min := fun h1 h2 => hl ⟨h1, h2⟩
    obtain ⟨e1, -⟩ := formatInteger_decimal .char8 T v hv.1 hv.2 hmin
    obtain ⟨s1, e2, e3⟩ := C21_partial .char8 T .default v hv.1 (by decide) hv.2 hmin
    rw [e1] at e2
    simp only [Outcome.ok.injEq] at e2
    subst e2
    simp only [TextValue.denoted, TextValue.text]
    rw [e3]
    rfl
  | bool b => cases b <;> rfl

theorem denotedAll_texts (vs : List TextValue) (hv : ∀ v ∈ vs, v.Typed ∧ ¬ v.IsLeast)
    (more : List (List Nat)) : denotedAll vs (vs.map (·.text) ++ more) = .ok vs := by
  induction vs with
  | nil => rfl
  | cons v vs ih =>
    have h := hv v (by simp)
    rw [denotedAll, List.map_cons, List.cons_append, List.headD_cons, List.tail_cons,
      v.denoted_text h.1 h.2, ih fun x hx => hv x (by simp [hx])]
    rfl

/-- Supported notes: what is read is what was added. -/
theorem noteOutcome_supported (ops : List NoteOp) :
    ∀ notes, (∀ n ∈ notes ++ notesOf ops, NoteOk n ∧ NoteSupported n) →
      noteOutcome ops notes = .ok (noteResults ops notes) := by
  induction ops with
  | nil => intro notes _; rfl
  | cons op ops ih =>
    intro notes h
    cases op with
    | add note =>
      have hm := h note (by simp [notesOf])
      rw [noteOutcome, leastOf_eq_none (by
        intro v hv
        obtain ⟨i, hi, rfl⟩ := List.mem_map.mp hv
        exact (hm.2 i hi).1)]
      exact ih _ (by simpa [notesOf] using h)
    | reread i =>
      have ih' := ih notes (by simpa [notesOf] using h)
      rw [noteOutcome, noteResults]
      cases hi : notes[i]? with
      | none => exact ih'
      | some note =>
        have hlt : i < notes.length := by
          rcases Nat.lt_or_ge i notes.length with h | h
          · exact h
          · rw [List.getElem?_eq_none h] at hi; simp at hi
        have hget : notes[i] = note := by
          rw [List.getElem?_eq_getElem hlt, Option.some.injEq] at hi
          exact hi
        have hmem : note ∈ notes := by rw [← hget]; exact List.getElem_mem hlt
        have hall : ∀ x ∈ (notes.drop i).flatten, ∃ n, (NoteOk n ∧ NoteSupported n) ∧ x ∈ n := by
          intro x hx
          obtain ⟨n, hn, hx⟩ := List.mem_flatten.mp hx
          exact ⟨n, h n (List.mem_append_left _ (List.mem_of_mem_drop hn)), hx⟩
        have hw : seenWords (notesText (notes.drop i))
            = (note.map (·.1)).map (·.text) ++ ((notes.drop (i + 1)).flatten.map fun i => i.1.text) := by
          rw [notesText_joined, words_separate, List.map_map]
          · rw [List.drop_eq_getElem_cons hlt, hget]
            simp [Function.comp_def]
          · intro p hp
            obtain ⟨x, -, rfl⟩ := List.mem_map.mp hp
            exact x.1.text_visible.symm
          · intro p hp
            obtain ⟨x, hx, rfl⟩ := List.mem_map.mp hp
            obtain ⟨n, hn, hx⟩ := hall x hx
            exact ⟨(hn.1 x hx).2.2, (hn.1 x hx).2.1, (hn.2 x hx).2⟩
        have hnote := h note (List.mem_append_left _ hmem)
        simp only
        rw [hw, denotedAll_texts _ (by
          intro v hv
          obtain ⟨x, hx, rfl⟩ := List.mem_map.mp hv
          exact ⟨(hnote.1 x hx).1, (hnote.2 x hx).1⟩), ih']
        rfl

/-- Notes in containers and in files on both platforms, in every encoding form and byte order, with
any sequence of adding and reading.  Missing: the least value of a signed type, and separators that are
just a carriage return (what happens with them is `C87_exact`). -/
theorem C87_partial (P : FilePlatform) (reads : List Nat) (hr : P.Steady reads) (native o : Endian)
    (form : EncodingForm) (cap : Nat) (content : List Byte) (ops : List NoteOp)
    (hcap : RoomFor form cap) (hok : ∀ n ∈ notesOf ops, NoteOk n)
    (hs : ∀ n ∈ notesOf ops, NoteSupported n) :
    CtrNotes native o form cap content ops
    ∧ (cap ≤ P.most → (∀ n ∈ notesOf ops,
        (asBytes (form.form.serialize o.order (noteText n))).length ≤ P.most) →
      FileNotes P reads native o form cap content ops) := by
  have hno := noteOutcome_supported ops [] (by simpa using fun n hn => ⟨hok n hn, hs n hn⟩)
  constructor
  · intro fuel hfuel
    have := (C87_exact P reads hr native o form cap content ops hcap (fun n hn => (hok n hn).typed) fuel
      hfuel).1
    rw [hno] at this
    exact this
  · intro hcap' hall fuel files path hfuel hc
    have := (C87_exact P reads hr native o form cap content ops hcap (fun n hn => (hok n hn).typed) fuel
      hfuel).2 hcap' hall files path hc
    rw [hno] at this
    obtain ⟨f, e, h1, h2⟩ := this
    exact ⟨f, e, h1, h2⟩

/-- Carriage returns between values, and none between notes: the first note is read as `12` and, since
its last value has gone into the second note, as `34`. -/
example :
    let ops : List NoteOp := [.add [(.int .int 1, [13]), (.int .int 2, [13, 10]), (.int .uint8 3, [])], .reread 0,
      .add [(.int .int 4, [32])]]
    (∀ n ∈ notesOf ops, NoteTyped n) ∧ noteOutcome ops [] = .throw (.parseFailed .emptyInput)
    ∧ noteOutcome (ops ++ [.reread 1]) [] = .throw (.parseFailed .emptyInput)
    ∧ noteOutcome (ops.eraseIdx 1 ++ [.add [(.bool true, [10])], .reread 0, .reread 1]) [] =
      .ok [[.int .int 12, .int .int 34, .int .uint8 1], [.int .int 4]] := by
  decide +kernel

/-- Two notes, the first read after each. -/
def exampleNotes : List NoteOp :=
  [.add [(.int .int (-17), [13, 10]), (.bool true, [0x3000, 10])], .reread 0,
    .add [(.int .uint8 255, [10])], .reread 0, .reread 1]

example : RoomFor .utf16 8 ∧ (∀ n ∈ notesOf exampleNotes, NoteOk n ∧ NoteSupported n)
    ∧ noteResults exampleNotes [] = [[.int .int (-17), .bool true], [.int .int (-17), .bool true],
      [.int .uint8 255]]
    ∧ notesText (notesOf exampleNotes) = [45, 49, 55, 13, 10, 49, 0x3000, 10, 50, 53, 53, 10] := by
  decide +kernel

end Cmp
