import Verif.Props.Text

/-
Properties C57 and C75: numbers, booleans and strings through text streams.
-/

namespace Cmp

open InStream OutStream

/-! ### C75 -/

/-- The full claim fails: the emoji U+1F600 in a `std::u16string` is not written properly to a UTF-8
stream. -/
theorem C75_violated :
    ¬ ∀ (native o : Endian) (form : EncodingForm) (cap : Nat) (e : Enc) (s : Str e) (cs : List Nat),
      TextOf e s cs →
      written cap o form (writeString native Ctr.writer e s) =
        .ok (asBytes (form.form.serialize o.order cs)) := by
  intro h
  have ht : Spec.IsText [0x1F600, 0x41] := by unfold Spec.IsText; decide
  have := h .little .little .utf8 0 .char16 (encs .char16 [0x1F600, 0x41]) [0x1F600, 0x41]
    (textOf_encs .char16 _ ht (by decide))
  revert this
  decide +kernel

/-- The stream can take the memory of the string: same code units, same byte order. -/
def SameUnits (native o : Endian) (form : EncodingForm) (e : Enc) : Prop :=
  e.form = form.form ∧ (form = .utf8 ∨ o = native)

instance (native o : Endian) (form : EncodingForm) (e : Enc) : Decidable (SameUnits native o form e) := by
  unfold SameUnits; infer_instance

theorem stringOk_of {ρ : Type} {native : Endian} {e : Enc} {st : OutStream ρ} {s : Str e}
    {cs : List Nat} (ht : TextOf e s cs)
    (hok : SameUnits native st.endian st.form e ∨
      (e.form = .utf16 → ∀ c ∈ cs, Spec.IsBmp c) ∧ (st.form = .utf8 → ∀ c ∈ cs, ¬ LowSurrogate c)) :
    ∀ c ∈ cs, StringOk native e st c := by
  intro c hc
  refine ⟨ht.1.1 c hc, ?_⟩
  by_cases hm : takesMemory native e st = true
  · rw [if_pos hm]
    intro he
    exact ht.2 he c hc
  · rw [if_neg hm]
    rcases hok with ⟨h1, h2⟩ | ⟨h1, h2⟩
    · exfalso
      apply hm
      unfold takesMemory
      cases e <;> cases hf : st.form <;> rw [hf] at h1 h2 <;>
        simp_all [Enc.form, EncodingForm.form]
    · exact ⟨ht.fwd h1 c hc, writeOk_of (ht.1.1 c hc) (fun h => h2 h c hc)⟩

/-- C75 on every output resource.  Missing, where the stream has other code units or another byte
order than the string: supplementary code points in UTF-16 strings, and code points whose low 16
bits are a surrogate value on UTF-8 streams. -/
theorem C75_partial {ρ : Type} {W : Writer ρ} {fits : List Byte → Prop}
    {got out : List Byte → ρ → Prop}
    (C : W.Collects fits got out) (native : Endian) (st : OutStream ρ) (sofar : List Byte) (e : Enc)
    (s : Str e) (cs : List Nat) (ht : TextOf e s cs)
    (hok : SameUnits native st.endian st.form e ∨
      (e.form = .utf16 → ∀ c ∈ cs, Spec.IsBmp c) ∧ (st.form = .utf8 → ∀ c ∈ cs, ¬ LowSurrogate c))
    (hf : fits (sofar ++ asBytes (st.form.form.serialize st.endian.order cs)))
    (h : got sofar st.res) :
    ∃ r', writeString native W e s st = (.ok (), { st with res := r' }) ∧
      got (sofar ++ asBytes (st.form.form.serialize st.endian.order cs)) r' := by
  rw [ht.eq]
  exact writeString_eq C native e st cs (stringOk_of ht hok) sofar hf h

/-- The same on containers. -/
theorem C75_partial_container (native o : Endian) (form : EncodingForm) (cap : Nat) (e : Enc)
    (s : Str e) (cs : List Nat) (ht : TextOf e s cs)
    (hok : SameUnits native o form e ∨
      (e.form = .utf16 → ∀ c ∈ cs, Spec.IsBmp c) ∧ (form = .utf8 → ∀ c ∈ cs, ¬ LowSurrogate c)) :
    written cap o form (writeString native Ctr.writer e s) =
      .ok (asBytes (form.form.serialize o.order cs)) := by
  obtain ⟨r', e', q⟩ := C75_partial (Ctr.collects cap []) native ⟨freshCtr cap 1 [], o, form⟩ [] e s
    cs ht hok trivial (Ctr.got_fresh cap)
  exact written_eq cap o form _ () _ r' e' q

example : TextOf .char16 (encs .char16 [0x41, 0x20AC]) [0x41, 0x20AC]
    ∧ (Enc.char16.form = .utf16 → ∀ c ∈ [0x41, 0x20AC], Spec.IsBmp c)
    ∧ ∀ c ∈ [0x41, 0x20AC], ¬ LowSurrogate c :=
  ⟨textOf_encs _ _ (by unfold Spec.IsText; decide) (by decide),
    by unfold Spec.IsBmp; decide, by decide⟩

example : SameUnits .big .big .utf16 .char16
    ∧ TextOf .char16 (encs .char16 [0x1F600]) [0x1F600] :=
  ⟨by decide, textOf_encs _ _ (by unfold Spec.IsText; decide) (by decide)⟩

/-! ### C57 -/

/-- Values that text streams write and read. -/
inductive TextValue
  | int (T : IntTy) (v : Int)
  | bool (b : Bool)
deriving DecidableEq

namespace TextValue

/-- The value is one of its type, which is a standard integer type or `bool`. -/
def Typed : TextValue → Prop
  | int T v => T.Std ∧ T.Has v
  | bool _ => True

/-- The value is the least one of a signed integer type. -/
def IsLeast : TextValue → Prop
  | int T v => T.signed = true ∧ v = T.min
  | bool _ => False

/-- `stream << value`. -/
def write {ρ : Type} (native : Endian) (W : Writer ρ) : TextValue → M (OutStream ρ) Unit
  | int T v => writeInteger native W T v
  | bool b => writeBool native W b

/-- `stream >> object`, where the object has the type of the given value. -/
def read {ρ : Type} (native : Endian) (R : Reader ρ) (fuel : Nat) :
    TextValue → M (InStream ρ) TextValue
  | int T _ => do
    let v ← readInteger native R T fuel
    pure (int T v)
  | bool _ => do
    let b ← readBool native R fuel
    pure (bool b)

instance (v : TextValue) : Decidable v.Typed := by
  cases v <;> unfold Typed <;> infer_instance

instance (v : TextValue) : Decidable v.IsLeast := by
  cases v <;> unfold IsLeast <;> infer_instance

end TextValue

/-- Writing something and then the characters of a separator. -/
def writeThen {ρ ι : Type} (native : Endian) (W : Writer ρ) (wr : ι → M (OutStream ρ) Unit)
    (i : ι × List Nat) : M (OutStream ρ) Unit := do
  wr i.1
  let _ ← M.runList (fun c => writeCodePoint native W (BitVec.ofNat 32 c)) i.2
  pure ()

/-- Writing values, each followed by a separator. -/
abbrev writeItems {ρ : Type} (native : Endian) (W : Writer ρ) (items : List (TextValue × List Nat)) :
    M (OutStream ρ) (List Unit) :=
  M.runList (writeThen native W fun v => v.write native W) items

/-- Reading values of the same types. -/
abbrev readItems {ρ : Type} (native : Endian) (R : Reader ρ) (fuel : Nat)
    (items : List (TextValue × List Nat)) : M (InStream ρ) (List TextValue) :=
  M.runList (fun i => i.1.read native R fuel) items

/-- Separators are whitespace, and non-empty between values. -/
def Separated {ι : Type} (items : List (ι × List Nat)) : Prop :=
  (∀ i ∈ items, ∀ c ∈ i.2, Spec.IsWhiteSpace c) ∧ ∀ i ∈ items.dropLast, i.2 ≠ []

instance {ι : Type} (items : List (ι × List Nat)) : Decidable (Separated items) := by
  unfold Separated; infer_instance

/-- Visible ASCII characters. -/
def Visible (t : List Nat) : Prop := ∀ c ∈ t, 33 ≤ c ∧ c < 127

theorem Visible.word {t : List Nat} (h : Visible t) :
    ∀ x ∈ t, isWhitespace (BitVec.ofNat 32 x) = false := by
  intro x hx
  have h1 := h x hx
  have h2 : ¬ Spec.IsWhiteSpace x := by
    have : ∀ x < 127, 33 ≤ x → ¬ Spec.IsWhiteSpace x := by decide
    exact this x h1.2 h1.1
  rw [← isWhitespace_iff x (by omega)] at h2
  simpa using h2

theorem Visible.text {t : List Nat} (h : Visible t) : Spec.IsText t := fun c hc => by
  have := h c hc
  unfold Spec.IsScalar
  omega

theorem Visible.noCR {t : List Nat} (h : Visible t) : 13 ∉ t := fun hc => by
  have := h 13 hc
  omega

section Values

variable {ρ : Type} {W : Writer ρ} {fits : List Byte → Prop} {got out : List Byte → ρ → Prop}
  {ρ' : Type} {R : Reader ρ'}

/-- Something to be written with `wr` and read back with `rd` is written as the text `t`, and the
object `rd` makes of that text satisfies `P`. -/
def HasForm (fits : List Byte → Prop) (got : List Byte → ρ → Prop) (R : Reader ρ') (native : Endian) (form : EncodingForm)
    {β : Type} (wr : M (OutStream ρ) Unit) (rd : Nat → M (InStream ρ') β) (P : β → Prop)
    (t : List Nat) : Prop :=
  t ≠ [] ∧ Visible t
    ∧ (∀ (s : OutStream ρ) (w : List Byte), s.form = form →
        fits (w ++ textBytes form s.endian t) → got w s.res →
        ∃ r', wr s = (.ok (), { s with res := r' }) ∧ got (w ++ textBytes form s.endian t) r')
    ∧ (∀ (fuel : Nat) (s s' : InStream ρ'),
        readWord native R .char8 fuel s = (.ok (encs .char8 t), s') →
        ∃ b, P b ∧ rd fuel s = (.ok b, s'))

/-- Words, each followed by its separator. -/
def joined (ts : List (List Nat × List Nat)) : List Nat := ts.flatMap fun p => p.1 ++ p.2

theorem joined_cons (t sep : List Nat) (ts : List (List Nat × List Nat)) :
    joined ((t, sep) :: ts) = t ++ (sep ++ joined ts) := by
  simp [joined]

theorem isWhiteSpace_scalar {c : Nat} (hc : Spec.IsWhiteSpace c) : Spec.IsScalar c := by
  unfold Spec.IsWhiteSpace Spec.whiteSpaceRanges at hc
  unfold Spec.IsScalar
  simp at hc
  omega

theorem whiteSpaces {l : List Nat} (h : ∀ c ∈ l, Spec.IsWhiteSpace c) :
    ∀ c ∈ l, isWhitespace (BitVec.ofNat 32 c) = true := fun c hc =>
  (isWhitespace_iff c (isScalar_lt (isWhiteSpace_scalar (h c hc)))).mpr (h c hc)

theorem Visible.ins {t : List Nat} (h : Visible t) : ∀ c ∈ t, InsOk .char8 c := fun c hc => by
  have := h c hc
  exact ⟨h.text c hc, by omega⟩

/-- What is left of a separator in front of a visible character. -/
theorem filt_separator (sep : List Nat) (t : Nat) (rest : List Nat) (ht : t ≠ 13) :
    ∃ sep', filt (sep ++ t :: rest) = sep' ++ filt (t :: rest) ∧ (∀ c ∈ sep', c ∈ sep)
      ∧ sep'.length ≤ sep.length ∧ (sep' = [] ↔ sep = [] ∨ sep = [13]) := by
  suffices ∀ n (sep : List Nat), sep.length ≤ n → ∃ sep', filt (sep ++ t :: rest) = sep' ++ filt (t :: rest) ∧ (∀ c ∈ sep', c ∈ sep)
      ∧ sep'.length ≤ sep.length ∧ (sep' = [] ↔ sep = [] ∨ sep = [13]) from
    this _ _ (Nat.le_refl _)
  intro n
  induction n with
  | zero =>
    intro sep h
    cases sep with
    | nil => exact ⟨[], rfl, by simp, by simp, by simp⟩
    | cons => simp at h
  | succ n ih =>
    intro sep h
    match sep, h with
    | [], _ => exact ⟨[], rfl, by simp, by simp, by simp⟩
    | [c], _ =>
      by_cases hc : c = 13
      · subst hc
        refine ⟨[], ?_, by simp, by simp, by simp⟩
        rw [List.singleton_append, filt, if_pos rfl, filt_cons_ne t _ ht, List.nil_append]
      · refine ⟨[c], ?_, by simp, by simp, by simp [hc]⟩
        rw [List.singleton_append, filt_cons_ne c _ hc]
        rfl
    | c :: d :: sep, h =>
      by_cases hc : c = 13
      · obtain ⟨sep', h1, h2, h3, -⟩ := ih sep (by simp at h; omega)
        refine ⟨d :: sep', ?_, ?_, by simp; omega, by simp⟩
        · rw [List.cons_append, List.cons_append, filt, if_pos hc, h1]
          rfl
        · intro x hx
          rcases List.mem_cons.mp hx with rfl | hx
          · simp
          · simp [h2 x hx]
      · obtain ⟨sep', h1, h2, h3, -⟩ := ih (d :: sep) (by simp at h ⊢; omega)
        refine ⟨c :: sep', ?_, ?_, by simp at h3 ⊢; omega, by simp⟩
        · rw [List.cons_append, filt_cons_ne c _ hc, h1]
          rfl
        · intro x hx
          rcases List.mem_cons.mp hx with rfl | hx
          · simp
          · exact List.mem_cons_of_mem _ (h2 x hx)

theorem filt_subset (cs : List Nat) : ∀ c ∈ filt cs, c ∈ cs := by
  fun_induction filt cs with
  | case1 => simp
  | case2 => simp
  | case3 d cs ih =>
    intro x hx
    rcases List.mem_cons.mp hx with rfl | hx
    · simp
    · simp [ih x hx]
  | case4 c d cs _ ih =>
    intro x hx
    rcases List.mem_cons.mp hx with rfl | hx
    · simp
    · exact List.mem_cons_of_mem _ (ih x hx)

theorem filt_length (cs : List Nat) : (filt cs).length ≤ cs.length := by
  fun_induction filt cs <;> (simp_all; try omega)

/-- Writing a sequence of things, each followed by a separator. -/
theorem sequence_written (C : W.Collects fits got out) (native : Endian) (form : EncodingForm)
    {ι β : Type} (wr : ι → M (OutStream ρ) Unit) (rd : ι → Nat → M (InStream ρ') β)
    (P : ι → β → Prop) (items : List (ι × List Nat))
    (hv : ∀ i ∈ items, ∃ t, HasForm fits got R native form (wr i.1) (rd i.1) (P i.1) t)
    (hs : ∀ i ∈ items, ∀ c ∈ i.2, Spec.IsWhiteSpace c) :
    ∃ ts, List.Forall₂ (fun i p => p.2 = i.2 ∧
          HasForm fits got R native form (wr i.1) (rd i.1) (P i.1) p.1) items ts
      ∧ Spec.IsText (joined ts)
      ∧ (∀ (s : OutStream ρ) (w : List Byte), s.form = form →
          fits (w ++ textBytes form s.endian (joined ts)) → got w s.res →
          ∃ us r', M.runList (writeThen native W wr) items s = (.ok us, { s with res := r' }) ∧
            got (w ++ textBytes form s.endian (joined ts)) r') := by
  induction items with
  | nil =>
    refine ⟨[], .nil, by intro c hc; simp [joined] at hc, ?_⟩
    intro s w _ _ h
    exact ⟨[], s.res, rfl, by simpa [joined, textBytes_nil] using h⟩
  | cons i items ih =>
    obtain ⟨v, sep⟩ := i
    have hsep : ∀ c ∈ sep, Spec.IsWhiteSpace c := hs (v, sep) (by simp)
    obtain ⟨t, hform⟩ := hv (v, sep) (by simp)
    obtain ⟨htne, hvis, hw, -⟩ := id hform
    obtain ⟨ts, hall, ht, hw'⟩ := ih (fun i hi => hv i (by simp [hi])) (fun i hi => hs i (by simp [hi]))
    refine ⟨(t, sep) :: ts, .cons ⟨rfl, hform⟩ hall, ?_, ?_⟩
    · rw [joined_cons]
      intro c hc
      simp only [List.mem_append] at hc
      rcases hc with hc | hc | hc
      · exact hvis.text c hc
      · exact isWhiteSpace_scalar (hsep c hc)
      · exact ht c hc
    · intro s w hf hfit h
      rw [joined_cons, textBytes_append, textBytes_append, ← List.append_assoc,
        ← List.append_assoc] at hfit
      obtain ⟨r1, e1, q1⟩ := hw s w hf (C.shorter _ _ (C.shorter _ _ hfit)) h
      obtain ⟨us, r2, e2, q2⟩ := writeCodePoints_eq C native sep { s with res := r1 } _
        (fun c hc => writeOk_of (isWhiteSpace_scalar (hsep c hc)) (fun _ => by
          have := hsep c hc
          unfold Spec.IsWhiteSpace Spec.whiteSpaceRanges at this
          unfold LowSurrogate
          simp at this
          omega)) (by rw [hf]; exact C.shorter _ _ hfit) q1
      have q2' : got (w ++ textBytes form s.endian t ++ textBytes form s.endian sep) r2 := by
        subst hf
        exact q2
      obtain ⟨vs, r3, e3, q3⟩ := hw' { s with res := r2 } _ hf hfit q2'
      refine ⟨_, r3, M.runList_cons (a := ()) (s' := { s with res := r2 }) ?_ e3, ?_⟩
      · rw [writeThen, M.bind_ok e1, M.bind_ok e2]
        rfl
      · rw [joined_cons, textBytes_append, textBytes_append, ← List.append_assoc,
          ← List.append_assoc]
        exact q3

/-- Reading the sequence back.  A carriage return in a separator is lost, so the separator must not
consist of just that. -/
theorem sequence_read (native : Endian) (form : EncodingForm)
    {ι β : Type} (wr : ι → M (OutStream ρ) Unit) (rd : ι → Nat → M (InStream ρ') β)
    (P : ι → β → Prop) (items : List (ι × List Nat)) (ts : List (List Nat × List Nat))
    (hts : List.Forall₂ (fun i p => p.2 = i.2 ∧
          HasForm fits got R native form (wr i.1) (rd i.1) (P i.1) p.1) items ts)
    (hs : Separated items) (hcr : ∀ i ∈ items.dropLast, i.2 ≠ [13]) :
    ∀ (sizes : Nat → Prop) (left : List Byte → ρ' → Prop), R.Delivers sizes true left →
      ∀ (fuel : Nat) (sp : List Nat) (s : InStream ρ'), sp.length + (joined ts).length < fuel →
      (∀ c ∈ sp, Spec.IsWhiteSpace c) → HasText sizes true left s (sp ++ filt (joined ts)) →
      ∃ bs r' rest, M.runList (fun i => rd i.1 fuel) items s = (.ok bs, { s with res := r' })
        ∧ left rest r' ∧ List.Forall₂ (fun i b => P i.1 b) items bs := by
  induction hts with
  | nil =>
    intro sizes left D fuel sp s _ _ h
    obtain ⟨-, cs, -, -, -, hl⟩ := h
    exact ⟨[], s.res, _, rfl, hl, .nil⟩
  | cons hi hrest ih =>
    rename_i i p items ts
    obtain ⟨v, sep⟩ := i
    obtain ⟨t, sep2⟩ := p
    obtain ⟨hp, hform⟩ := hi
    simp only at hp
    subst hp
    have hsep : ∀ c ∈ sep2, Spec.IsWhiteSpace c := hs.1 (v, sep2) (by simp)
    obtain ⟨htne, hvis, -, hr⟩ := hform
    intro sizes left D fuel sp s hfuel hsp h
    rw [joined_cons] at hfuel h
    rw [filt_append t _ hvis.noCR] at h
    simp only [List.length_append] at hfuel
    cases hrest with
    | nil =>
      have hfl := filt_length sep2
      have hfs := filt_subset sep2
      simp only [joined, List.flatMap_nil, List.append_nil] at h
      rw [← List.append_assoc] at h
      revert hfl hfs h
      generalize filt sep2 = f
      intro hfl hfs h
      cases f with
      | nil =>
        rw [List.append_nil] at h
        obtain ⟨r1, e1, -, cs, -, -, -, hl⟩ := readWord_end D native .char8 sp t (whiteSpaces hsp)
          hvis.word hvis.ins fuel s (by omega) h
        obtain ⟨b, hb, e3⟩ := hr fuel s _ e1
        exact ⟨_, r1, _, M.runList_cons e3 (M.runList_nil _ _), hl, .cons hb .nil⟩
      | cons b f =>
        obtain ⟨r1, e1, -, cs, -, -, -, hl⟩ := readWord_space D native .char8 sp t b f
          (whiteSpaces hsp) htne hvis.word (whiteSpaces hsep b (hfs b (by simp))) hvis.ins fuel s
          (by omega) h
        obtain ⟨x, hx, e3⟩ := hr fuel s _ e1
        exact ⟨_, r1, _, M.runList_cons e3 (M.runList_nil _ _), hl, .cons hx .nil⟩
    | cons hj hrest =>
      rename_i j q items ts
      have hj' := hj
      obtain ⟨t2, sep3⟩ := q
      obtain ⟨-, hne2, hvis2, -, -⟩ := hj
      cases t2 with
      | nil => simp at hne2
      | cons c0 t2 =>
      have hc0 : c0 ≠ 13 := by
        rintro rfl
        exact hvis2.noCR (by simp)
      obtain ⟨sep', f1, f2, f3, f4⟩ := filt_separator sep2 c0 (t2 ++ (sep3 ++ joined ts)) hc0
      have hne' : sep' ≠ [] := fun he => by
        rcases f4.mp he with h0 | h0
        · exact hs.2 (v, sep2) (by simp) h0
        · exact hcr (v, sep2) (by simp) h0
      rw [joined_cons, List.cons_append, f1, ← List.cons_append, ← joined_cons] at h
      cases sep' with
      | nil => simp at hne'
      | cons b sep' =>
        obtain ⟨r1, e1, q1⟩ := readWord_space D native .char8 sp t b
          (sep' ++ filt (joined ((c0 :: t2, sep3) :: ts))) (whiteSpaces hsp) htne
          hvis.word (whiteSpaces hsep b (f2 b (by simp))) hvis.ins fuel s (by omega)
          (by simpa using h)
        obtain ⟨bs, r2, rest, e2, hl, hbs⟩ := ih
          ⟨fun i hi => hs.1 i (by simp [hi]), fun i hi => hs.2 i (by
            rw [List.dropLast_cons_cons]; exact List.mem_cons_of_mem _ hi)⟩
          (fun i hi => hcr i (by
            rw [List.dropLast_cons_cons]; exact List.mem_cons_of_mem _ hi))
          sizes left D fuel sep' _ (by simp at f3; omega)
          (fun c hc => hsep c (f2 c (by simp [hc]))) q1
        obtain ⟨x, hx, e3⟩ := hr fuel s _ e1
        exact ⟨_, r2, rest, M.runList_cons e3 e2, hl, .cons hx hbs⟩

/-- The text of a sequence of things, each followed by a separator. -/
theorem sequence_text (C : W.Collects fits got out) (native : Endian) (form : EncodingForm)
    {ι β : Type} (wr : ι → M (OutStream ρ) Unit) (rd : ι → Nat → M (InStream ρ') β)
    (P : ι → β → Prop) (items : List (ι × List Nat))
    (hv : ∀ i ∈ items, ∃ t, HasForm fits got R native form (wr i.1) (rd i.1) (P i.1) t)
    (hs : Separated items) (hcr : ∀ i ∈ items.dropLast, i.2 ≠ [13]) :
    ∃ text, Spec.IsText text
      ∧ (∀ (s : OutStream ρ) (w : List Byte), s.form = form →
          fits (w ++ textBytes form s.endian text) → got w s.res →
          ∃ us r', M.runList (writeThen native W wr) items s = (.ok us, { s with res := r' }) ∧
            got (w ++ textBytes form s.endian text) r')
      ∧ (∀ (sizes : Nat → Prop) (left : List Byte → ρ' → Prop), R.Delivers sizes true left →
          ∀ (fuel : Nat) (s : InStream ρ'), text.length < fuel →
          HasText sizes true left s (filt text) →
          ∃ bs r' rest, M.runList (fun i => rd i.1 fuel) items s = (.ok bs, { s with res := r' })
            ∧ left rest r' ∧ List.Forall₂ (fun i b => P i.1 b) items bs) := by
  obtain ⟨ts, h1, h2, h3⟩ := sequence_written (R := R) C native form wr rd P items hv hs.1
  exact ⟨joined ts, h2, h3, fun sizes left D fuel s hf h =>
    sequence_read native form wr rd P items ts h1 hs hcr sizes left D fuel [] s (by simpa using hf)
      (by simp) h⟩

/-- The text of a value: written by the output operator, and read back by the input operator. -/
theorem value_text (C : W.Collects fits got out) (native : Endian) (form : EncodingForm) (v : TextValue)
    (hv : v.Typed) (hl : ¬ v.IsLeast) :
    ∃ t, HasForm fits got R native form (v.write native W) (fun fuel => v.read native R fuel)
      (· = v) t := by
  cases v with
  | int T v =>
    have hmin : T.signed = true → v ≠ T.min := fun h1 h2 => hl ⟨h1, h2⟩
    have hval : IntegerFormat.default.Valid := by decide
    obtain ⟨ds, e1, -, hd, hne, -⟩ := formatInteger_eq (formatEnc form) hv.1 hval.1 hval.2 hv.2 hmin
    obtain ⟨s1, e2, e3⟩ := C21_partial (formatEnc form) T .default v hv.1 hval hv.2 hmin
    rw [e1] at e2
    simp only [Outcome.ok.injEq] at e2
    subst e2
    have hasc := formatted_ascii .default hval.2 v ds hd
    have hvis : Visible (signText IntegerFormat.default.sign v ++
        Spec.group IntegerFormat.default.separator.char (ds.map Spec.upperDigit)) := by
      intro c hc
      rcases List.mem_append.mp hc with hc | hc
      · unfold signText at hc
        split at hc
        · simp at hc; omega
        · split at hc
          · simp at hc; omega
          · simp at hc
      · rcases mem_group hc with hc | hc
        · obtain ⟨d, hd', rfl⟩ := List.mem_map.mp hc
          have := hd d hd'
          have : d < 10 := this
          unfold Spec.upperDigit
          rw [if_pos this]
          omega
        · simp [IntegerFormat.default, Separator.char] at hc
    have htne : signText IntegerFormat.default.sign v ++
        Spec.group IntegerFormat.default.separator.char (ds.map Spec.upperDigit) ≠ [] := by
      simp [IntegerFormat.default, Separator.char, Spec.group, hne]
    generalize signText IntegerFormat.default.sign v ++
        Spec.group IntegerFormat.default.separator.char (ds.map Spec.upperDigit) = t at *
    rw [parseInteger_encs _ T _ _ (fun c hc => (textOf_ascii _ _ hasc).bwd c hc)] at e3
    refine ⟨t, htne, hvis, ?_, ?_⟩
    · intro s w hf hfit hw
      obtain ⟨r', e4, q⟩ := writeString_eq C native (formatEnc form) s t
        (fun c hc => stringOk_ascii native _ s c (hasc c hc)) w (by rw [hf]; exact hfit) hw
      rw [hf] at q
      refine ⟨r', ?_, q⟩
      show writeInteger native W T v s = _
      rw [writeInteger, M.bind_ok (M.get_apply s), hf]
      rw [M.bind_ok (by rw [e1]; rfl), e4, hf]
    · intro fuel s s' h
      refine ⟨_, rfl, ?_⟩
      show (readInteger native R T fuel >>= _) s = _
      have : readInteger native R T fuel s = (.ok v, s') := by
        rw [readInteger, M.bind_ok h]
        rw [parseInteger_encs _ T _ _ (fun c hc => (textOf_ascii _ _ hasc).bwd c hc), e3]
        rfl
      rw [M.bind_ok this]
      rfl
  | bool b =>
    refine ⟨[if b then 49 else 48], by simp, ?_, ?_, ?_⟩
    · intro c hc
      cases b <;> simp at hc <;> omega
    · intro s w hf hfit hw
      have h1 : formatBool (formatEnc form) b .default =
          .ok (encs (formatEnc form) [if b then 49 else 48]) := by
        cases b <;> cases form <;> decide +kernel
      obtain ⟨r', e4, q⟩ := writeString_eq C native (formatEnc form) s [if b then 49 else 48]
        (fun c hc => stringOk_ascii native _ s c (by cases b <;> simp at hc <;> omega)) w
        (by rw [hf]; exact hfit) hw
      rw [hf] at q
      refine ⟨r', ?_, q⟩
      show writeBool native W b s = _
      rw [writeBool, M.bind_ok (M.get_apply s), hf]
      rw [M.bind_ok (by rw [h1]; rfl), e4, hf]
    · intro fuel s s' h
      refine ⟨_, rfl, ?_⟩
      show (readBool native R fuel >>= _) s = _
      have : readBool native R fuel s = (.ok b, s') := by
        rw [readBool, M.bind_ok h]
        cases b <;> rfl
      rw [M.bind_ok this]
      rfl

/-- The text of a sequence of values. -/
theorem items_text (C : W.Collects fits got out) (native : Endian)
    (form : EncodingForm) (items : List (TextValue × List Nat)) (hv : ∀ i ∈ items, i.1.Typed)
    (hl : ∀ i ∈ items, ¬ i.1.IsLeast) (hs : Separated items)
    (hcr : ∀ i ∈ items.dropLast, i.2 ≠ [13]) :
    ∃ text, Spec.IsText text
      ∧ (∀ (s : OutStream ρ) (w : List Byte), s.form = form →
          fits (w ++ textBytes form s.endian text) → got w s.res →
          ∃ us r', writeItems native W items s = (.ok us, { s with res := r' }) ∧
            got (w ++ textBytes form s.endian text) r')
      ∧ (∀ (sizes : Nat → Prop) (left : List Byte → ρ' → Prop), R.Delivers sizes true left →
          ∀ (fuel : Nat) (s : InStream ρ'), text.length < fuel →
          HasText sizes true left s (filt text) →
          ∃ r' rest, readItems native R fuel items s = (.ok (items.map (·.1)), { s with res := r' })
            ∧ left rest r') := by
  obtain ⟨text, h1, h3, h4⟩ := sequence_text (R := R) C native form
    (fun v => TextValue.write native W v) (fun v fuel => TextValue.read native R fuel v)
    (fun v b => b = v) items (fun i hi => value_text C native form i.1 (hv i hi) (hl i hi)) hs hcr
  refine ⟨text, h1, h3, ?_⟩
  intro sizes left D fuel s hf ht
  obtain ⟨bs, r', rest, e, hleft, hb⟩ := h4 sizes left D fuel s hf ht
  refine ⟨r', rest, ?_, hleft⟩
  have : bs = items.map (·.1) := by
    clear e h4 h3 hv hl hs hcr hleft
    induction hb with
    | nil => rfl
    | cons h _ ih => rw [h, ih, List.map_cons]
  rw [← this]
  exact e

end Values

theorem textBytes_length (form : EncodingForm) (o : Endian) (cs : List Nat) :
    cs.length ≤ (textBytes form o cs).length := by
  induction cs with
  | nil => simp
  | cons c cs ih =>
    have := List.length_pos_iff.mpr (cpBytes_ne_nil form o c)
    rw [textBytes_cons, List.length_append, List.length_cons]
    omega

/-- The full claim fails: the least value of `int` cannot be written. -/
theorem C57_violated :
    ¬ ∀ (native o : Endian) (form : EncodingForm) (cap cap' : Nat)
      (items : List (TextValue × List Nat)), RoomFor form cap' → (∀ i ∈ items, i.1.Typed) →
      Separated items →
      ∃ wire, written cap o form (writeItems native Ctr.writer items) = .ok wire ∧
        ∀ fuel > wire.length, received cap' wire o form (readItems native Ctr.reader fuel items) =
          .ok (items.map (·.1)) := by
  intro h
  obtain ⟨wire, h1, -⟩ := h .little .little .utf8 0 0 [(.int .int (-2147483648), [])] (by decide)
    (by decide) (by decide)
  have : written 0 .little .utf8 (writeItems .little Ctr.writer
      [(.int .int (-2147483648), [])]) = .ub := by decide +kernel
  rw [this] at h1
  simp at h1

/-- The other way in which it fails: a carriage return does not separate. -/
theorem C57_violated_separator :
    received 0 (asBytes (EncodingForm.utf8.form.serialize Endian.little.order [49, 13, 50])) .little
      .utf8 (readItems .little Ctr.reader 4 [(.int .int 1, [13]), (.int .int 2, [])]) ≠
        .ok [.int .int 1, .int .int 2] := by decide +kernel

/-- C57 for sequences of integers of any types, also mixed with booleans, separated by any whitespace
other than just a carriage return.  Missing: the least value of a signed type, and a carriage return as
the separator. -/
theorem C57_partial (native o : Endian) (form : EncodingForm) (cap cap' : Nat)
    (items : List (TextValue × List Nat)) (hcap : RoomFor form cap') (hv : ∀ i ∈ items, i.1.Typed)
    (hs : Separated items) (hl : ∀ i ∈ items, ¬ i.1.IsLeast)
    (hcr : ∀ i ∈ items.dropLast, i.2 ≠ [13]) :
    ∃ wire, written cap o form (writeItems native Ctr.writer items) = .ok wire ∧
      ∀ fuel > wire.length, received cap' wire o form (readItems native Ctr.reader fuel items) =
        .ok (items.map (·.1)) := by
  obtain ⟨text, ht, hw, hr⟩ := items_text (R := Ctr.reader) (Ctr.collects cap []) native form
    items hv hl hs hcr
  obtain ⟨us, r', e1, q1⟩ := hw ⟨freshCtr cap 1 [], o, form⟩ [] rfl trivial (Ctr.got_fresh cap)
  refine ⟨_, written_eq cap o form _ us _ r' e1 q1, ?_⟩
  intro fuel hfuel
  have hlen := textBytes_length form o text
  have h := fresh_hasText o form cap' hcap text ht
  obtain ⟨r2, -, e2, -⟩ := hr _ _ (ctr_delivers cap' (textBytes form o text)) fuel _
    (by simp only [List.nil_append] at hfuel; omega) h
  exact congrArg Prod.fst e2

example : (∀ i ∈ [(TextValue.int .int (-17), [13, 10]), (.bool true, [13, 13]), (.int .uint8 255, [13])],
      i.1.Typed ∧ ¬ i.1.IsLeast)
    ∧ Separated [(TextValue.int .int (-17), [13, 10]), (.bool true, [13, 13]), (.int .uint8 255, [13])]
    ∧ (∀ i ∈ [(TextValue.int .int (-17), [13, 10]), (.bool true, [13, 13]), (.int .uint8 255, [13])].dropLast,
      i.2 ≠ [13])
    ∧ RoomFor .utf16 2 := by decide

end Cmp
