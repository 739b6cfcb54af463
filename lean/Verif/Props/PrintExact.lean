import Verif.Props.TextOutput
import Verif.Props.TextExact
import Verif.Props.NumberExact
import Verif.Props.Stream

/-
What happens beyond the limits of claims C29, C48, C53, C57 and C77: values and texts that cannot be
printed, separators that do not separate, texts without a byte order mark, values in the other byte
order, and radices set without validation.
-/

namespace Cmp

open InStream OutStream

/-- How an operation ends that does not complete. -/
inductive Halt
  | throws (e : Exn)
  | undefined
  | endless
deriving DecidableEq

/-- The outcome of such an operation. -/
def Halt.outcome {α : Type} : Halt → Outcome α
  | throws e => .throw e
  | undefined => .ub
  | endless => .hang

theorem Halt.bind {σ α β : Type} {x : M σ α} {f : α → M σ β} {s s' : σ} {w : Halt}
    (h : x s = (w.outcome, s')) : (x >>= f) s = (w.outcome, s') := by
  rw [M.bind_apply, h]
  cases w <;> rfl

theorem runList_halt {σ ι α : Type} {step : ι → M σ α} {is js : List ι} {i : ι} {s s' s'' : σ}
    {as : List α} {w : Halt} (h : M.runList step is s = (.ok as, s'))
    (hi : step i s' = (w.outcome, s'')) :
    M.runList step (is ++ i :: js) s = (w.outcome, s'') := by
  induction is generalizing s as with
  | nil =>
    simp only [M.runList_nil, Prod.mk.injEq, Outcome.ok.injEq] at h
    obtain ⟨rfl, rfl⟩ := h
    exact Halt.bind hi
  | cons i is ih =>
    simp only [M.runList] at h
    rw [M.bind_apply] at h
    rw [List.cons_append, M.runList]
    cases e : step i s with
    | mk o t =>
      rw [e] at h
      cases o with
      | ok a =>
        simp only at h
        rw [M.bind_apply] at h
        rw [M.bind_ok e]
        cases e' : M.runList step is t with
        | mk o' t' =>
          rw [e'] at h
          cases o' with
          | ok cs =>
            simp only [M.pure_apply, Prod.mk.injEq, Outcome.ok.injEq] at h
            obtain ⟨rfl, rfl⟩ := h
            exact Halt.bind (ih e')
          | _ => simp at h
      | _ => simp at h

/-! ### C77 -/

/-- The least value of a signed type: undefined behaviour from 32 bits on, else no end. -/
def leastHalts (T : IntTy) : Halt := if 32 ≤ T.bits then .undefined else .endless

/-- The string has to be transcoded, and stops with the given part of its text written. -/
def StringStops (native o : Endian) (form : EncodingForm) (e : Enc) (t : List Nat) (halt : Halt)
    (done : List Nat) : Prop :=
  ¬ SameUnits native o form e ∧ ∃ as c bs, t = as ++ c :: bs
    ∧ (∀ x ∈ as, (e.form = .utf16 → Spec.IsBmp x) ∧ (form = .utf8 → ¬ LowSurrogate x))
    ∧ ((form = .utf8 ∧ LowSurrogate c ∧ halt = .throws .invalidCodePoint ∧ done = as)
      ∨ (¬ (form = .utf8 ∧ LowSurrogate c) ∧ e.form = .utf16 ∧ ¬ Spec.IsBmp c
        ∧ halt = .throws .invalidUnicodeEncoding ∧ done = as ++ [c]))

/-- How an argument that is not supported ends the output, and what of its text is written. -/
def Printed.Stops (native o : Endian) (form : EncodingForm) :
    Printed → List Nat → Halt → List Nat → Prop
  | char _, _, _, _ => False
  | codePoint c, _, halt, done =>
    form = .utf8 ∧ LowSurrogate c.toNat ∧ halt = .throws .invalidCodePoint ∧ done = []
  | bool _, _, _, _ => False
  | int T v, _, halt, done => T.signed = true ∧ v = T.min ∧ halt = leastHalts T ∧ done = []
  | array e _, t, halt, done => StringStops native o form e t halt done
  | view e _, t, halt, done => StringStops native o form e t halt done

section

variable {ρ : Type} {W : Writer ρ} {fits : List Byte → Prop} {got out : List Byte → ρ → Prop}

theorem writeInteger_least (native : Endian) (W : Writer ρ) (st : OutStream ρ) (T : IntTy)
    (hT : T.Std) (hv : T.Has T.min) (hs : T.signed = true) :
    writeInteger native W T T.min st = ((leastHalts T).outcome, st) := by
  rw [writeInteger, M.bind_ok (M.get_apply st)]
  apply Halt.bind
  rw [(formatInteger_returns (formatEnc st.form) T .default T.min hT (by decide) hv).2 (by
    rintro (h | ⟨-, h⟩ | ⟨-, h⟩)
    · exact h ⟨hs, rfl⟩
    · revert h; decide
    · revert h; decide)]
  unfold leastHalts
  split <;> rfl

/-- A string is written, or stops. -/
theorem string_or_stops (C : W.Collects fits got out) (native : Endian) (st : OutStream ρ)
    (sofar : List Byte) (e : Enc) (s : Str e) (t : List Nat) (ht : TextOf e s t)
    (hf : fits (sofar ++ textBytes st.form st.endian t)) (h : got sofar st.res) :
    (SameUnits native st.endian st.form e ∨
        (e.form = .utf16 → ∀ c ∈ t, Spec.IsBmp c) ∧ (st.form = .utf8 → ∀ c ∈ t, ¬ LowSurrogate c))
    ∨ ∃ halt done r', StringStops native st.endian st.form e t halt done
      ∧ writeString native W e s st = (halt.outcome, { st with res := r' })
      ∧ got (sofar ++ textBytes st.form st.endian done) r' := by
  rcases C75_exact C native st sofar e s t ht hf h with h1 | ⟨h1, as, c, bs, r', h2, h3, h4⟩
  · exact .inl h1.1
  right
  rcases h4 with ⟨a1, a2, a3, a4⟩ | ⟨a1, a2, a3, a4, a5⟩
  · exact ⟨.throws .invalidCodePoint, as, r', ⟨h1, as, c, bs, h2, h3, .inl ⟨a1, a2, rfl, rfl⟩⟩, a3, a4⟩
  · exact ⟨.throws .invalidUnicodeEncoding, as ++ [c], r',
      ⟨h1, as, c, bs, h2, h3, .inr ⟨a1, a2, a3, rfl, rfl⟩⟩, a4, a5⟩

/-- An argument is supported, or stops. -/
theorem print_or_stops (C : W.Collects fits got out) (native : Endian) (st : OutStream ρ)
    (sofar : List Byte) (i : Printed) (t : List Nat) (ht : i.Means t)
    (hf : fits (sofar ++ textBytes st.form st.endian t)) (h : got sofar st.res) :
    i.Supported native st.endian st.form t
    ∨ ∃ halt done r', i.Stops native st.endian st.form t halt done
      ∧ i.write native W st = (halt.outcome, { st with res := r' })
      ∧ got (sofar ++ textBytes st.form st.endian done) r' := by
  cases i with
  | char c => exact .inl trivial
  | bool b => exact .inl trivial
  | codePoint c =>
    obtain ⟨h1, rfl⟩ := ht
    by_cases hc : st.form = .utf8 ∧ LowSurrogate c.toNat
    · refine .inr ⟨.throws .invalidCodePoint, [], st.res, ⟨hc.1, hc.2, rfl, rfl⟩, ?_,
        by simpa [textBytes_nil] using h⟩
      have := writeCodePoint_refused native W st hc.1 h1 hc.2
      rw [BitVec.ofNat_toNat, BitVec.setWidth_eq] at this
      exact this
    · exact .inl fun h8 hl => hc ⟨h8, hl⟩
  | int T v =>
    obtain ⟨h1, h2, rfl⟩ := ht
    by_cases hm : T.signed = true ∧ v = T.min
    · obtain ⟨hs, rfl⟩ := hm
      exact .inr ⟨leastHalts T, [], st.res, ⟨hs, rfl, rfl, rfl⟩, writeInteger_least native W st T h1 h2 hs,
        by simpa [textBytes_nil] using h⟩
    · exact .inl fun hs hv => hm ⟨hs, hv⟩
  | array e memory =>
    obtain ⟨s, rest, rfl, h0, ht⟩ := ht
    have hv : viewOf (s ++ 0 :: rest) = .ok s := by
      rw [viewOf, if_pos (by simp)]
      rw [List.takeWhile_append_of_pos (by
        intro x hx
        simp
        rintro rfl
        exact h0 hx)]
      simp
    rcases string_or_stops C native st sofar e s t ht hf h with hok | ⟨halt, done, r', h1, h2, h3⟩
    · exact .inl hok
    · refine .inr ⟨halt, done, r', h1, ?_, h3⟩
      rw [Printed.write, writeArray, M.bind_ok (by rw [hv]; rfl)]
      exact h2
  | view e s => exact string_or_stops C native st sofar e s t ht hf h

/-- An argument that stops is not supported. -/
theorem Printed.Stops.not_supported {native o : Endian} {form : EncodingForm} {i : Printed}
    {t : List Nat} {halt : Halt} {done : List Nat} (h : i.Stops native o form t halt done) :
    ¬ i.Supported native o form t := by
  have hstr : ∀ e, StringStops native o form e t halt done → ¬ (SameUnits native o form e ∨
      (e.form = .utf16 → ∀ c ∈ t, Spec.IsBmp c) ∧ (form = .utf8 → ∀ c ∈ t, ¬ LowSurrogate c)) := by
    rintro e ⟨h1, as, c, bs, rfl, -, h2⟩ (h3 | ⟨h3, h4⟩)
    · exact h1 h3
    · rcases h2 with ⟨a, b, -⟩ | ⟨-, a, b, -⟩
      · exact h4 a c (by simp) b
      · exact b (h3 a c (by simp))
  cases i with
  | char c => exact h.elim
  | bool b => exact h.elim
  | codePoint c => exact fun hs => hs h.1 h.2.1
  | int T v => exact fun hs => hs h.1 h.2.1
  | array e memory => exact hstr e h
  | view e s => exact hstr e h

/-- C77 exactly, on every output resource: all arguments are supported and all of their texts are
written, or there is a first one that is not, what precedes it is written along with what of it can
be, and the output ends the way its kind ends. -/
theorem C77_exact (C : W.Collects fits got out) (native : Endian) (st : OutStream ρ)
    (sofar : List Byte) (items : List (Printed × List Nat)) (ht : ∀ i ∈ items, i.1.Means i.2)
    (hf : fits (sofar ++ asBytes (st.form.form.serialize st.endian.order (items.flatMap (·.2)))))
    (h : got sofar st.res) :
    ((∀ i ∈ items, i.1.Supported native st.endian st.form i.2)
      ∧ ∃ us r', printAll native W (items.map (·.1)) st = (.ok us, { st with res := r' })
        ∧ got (sofar ++ asBytes (st.form.form.serialize st.endian.order (items.flatMap (·.2)))) r')
    ∨ ∃ before i after halt done r', items = before ++ i :: after
      ∧ (∀ j ∈ before, j.1.Supported native st.endian st.form j.2)
      ∧ ¬ i.1.Supported native st.endian st.form i.2
      ∧ i.1.Stops native st.endian st.form i.2 halt done
      ∧ printAll native W (items.map (·.1)) st = (halt.outcome, { st with res := r' })
      ∧ got (sofar ++ asBytes (st.form.form.serialize st.endian.order
          (before.flatMap (·.2) ++ done))) r' := by
  classical
  rcases split_first (fun i : Printed × List Nat => i.1.Supported native st.endian st.form i.2) items
    with hall | ⟨before, i, after, rfl, hb, hi⟩
  · exact .inl ⟨hall, C77_partial C native st sofar items ht hall hf h⟩
  right
  have hf' : fits (sofar ++ textBytes st.form st.endian (before.flatMap (·.2)) ++
      textBytes st.form st.endian i.2 ++ textBytes st.form st.endian (after.flatMap (·.2))) := by
    rw [List.append_assoc, List.append_assoc, ← textBytes_append, ← textBytes_append]
    have e : (before ++ i :: after).flatMap (·.2)
        = before.flatMap (·.2) ++ (i.2 ++ after.flatMap (·.2)) := by simp
    rw [e] at hf
    exact hf
  obtain ⟨us, r1, e1, q1⟩ := C77_partial C native st sofar before (fun j hj => ht j (by simp [hj])) hb
    (C.shorter _ _ (C.shorter _ _ hf')) h
  rcases print_or_stops C native { st with res := r1 } _ i.1 i.2 (ht i (by simp))
    (C.shorter _ _ hf') q1 with hok | ⟨halt, done, r2, h1, h2, h3⟩
  · exact absurd hok hi
  refine ⟨before, i, after, halt, done, r2, rfl, hb, hi, h1, ?_, ?_⟩
  · rw [List.map_append, List.map_cons]
    exact runList_halt e1 h2
  · have e := textBytes_append st.form st.endian (before.flatMap (·.2)) done
    unfold textBytes at e h3
    rw [e, ← List.append_assoc]
    exact h3

end

/-- `7`, then the least value of `int`, then `8`: the output is undefined after `7`. -/
example : (∀ i ∈ [(Printed.int .int 7, [55]), (.int .int (-2147483648), Spec.decimal (-2147483648)),
      (.int .int 8, [56])], i.1.Means i.2)
    ∧ Printed.Stops .little .little .utf8 (.int .int (-2147483648)) (Spec.decimal (-2147483648))
      .undefined [] := by
  refine ⟨?_, by decide, by decide, by decide, rfl⟩
  intro i hi
  simp only [List.mem_cons, List.not_mem_nil, or_false] at hi
  rcases hi with rfl | rfl | rfl
  · exact ⟨by decide, by decide, by decide +kernel⟩
  · exact ⟨by decide, by decide, rfl⟩
  · exact ⟨by decide, by decide, by decide +kernel⟩

/-! ### C57 -/

/-- Values and separators in front of a least value are written, and then the output ends. -/
theorem C57_exact_least (native o : Endian) (form : EncodingForm) (cap : Nat)
    (before after : List (TextValue × List Nat)) (T : IntTy) (sep : List Nat)
    (hv : ∀ i ∈ before, i.1.Typed) (hs : ∀ i ∈ before, ∀ c ∈ i.2, Spec.IsWhiteSpace c)
    (hl : ∀ i ∈ before, ¬ i.1.IsLeast) (hT : T.Std) (hsg : T.signed = true) :
    written cap o form (writeItems native Ctr.writer (before ++ (.int T T.min, sep) :: after)) =
      if 32 ≤ T.bits then .ub else .hang := by
  obtain ⟨ts, -, -, hw⟩ := sequence_written (R := Ctr.reader) (Ctr.collects cap []) native form
    (fun v => TextValue.write native Ctr.writer v) (fun v fuel => TextValue.read native Ctr.reader fuel v)
    (fun v b => b = v) before
    (fun i hi => value_text (Ctr.collects cap []) native form i.1 (hv i hi) (hl i hi)) hs
  obtain ⟨us, r', e1, -⟩ := hw ⟨freshCtr cap 1 [], o, form⟩ [] rfl trivial (Ctr.got_fresh cap)
  have hmin : T.Has T.min := by
    have := hT
    unfold IntTy.Std at this
    obtain ⟨b, sg⟩ := T
    simp only at hsg
    subst hsg
    simp only at this
    rcases this with rfl | rfl | rfl | rfl <;> decide
  have e2 := runList_halt (js := after) e1 (w := leastHalts T)
    (s'' := { (⟨freshCtr cap 1 [], o, form⟩ : OutStream (Res Ctr)) with res := r' })
    (i := (TextValue.int T T.min, sep)) (by
      rw [writeThen]
      apply Halt.bind
      exact writeInteger_least native Ctr.writer _ T hT hmin hsg)
  rw [written]
  rw [show writeItems native Ctr.writer (before ++ (.int T T.min, sep) :: after)
      = M.runList (writeThen native Ctr.writer fun v => TextValue.write native Ctr.writer v)
        (before ++ (.int T T.min, sep) :: after) from rfl, Halt.bind e2]
  by_cases hb : 32 ≤ T.bits <;> simp [leastHalts, hb, Halt.outcome]

/-- Reading a value: when it completes it has read one word, which is not empty. -/
theorem read_value_word {ρ : Type} {R : Reader ρ} (native : Endian) (fuel : Nat) (v x : TextValue)
    (s s' : InStream ρ) (h : v.read native R fuel s = (.ok x, s')) :
    ∃ word, readWord native R .char8 fuel s = (.ok word, s') ∧ word ≠ [] := by
  have hne : ∀ {α : Type} (p : Str .char8 → Outcome α) (y : α) (t : InStream ρ),
      (readWord native R .char8 fuel >>= fun i => M.lift (p i)) s = (.ok y, t) →
      (∀ y, p [] ≠ .ok y) → ∃ word, readWord native R .char8 fuel s = (.ok word, t) ∧ word ≠ [] := by
    intro α p y t h hp
    rw [M.bind_apply] at h
    cases e : readWord native R .char8 fuel s with
    | mk o u =>
      rw [e] at h
      cases o with
      | ok word =>
        simp only [M.lift_apply, Prod.mk.injEq] at h
        obtain ⟨h1, rfl⟩ := h
        refine ⟨word, rfl, ?_⟩
        rintro rfl
        exact hp y h1
      | _ => simp at h
  cases v with
  | int T v =>
    simp only [TextValue.read] at h
    rw [M.bind_apply] at h
    cases e : readInteger native R T fuel s with
    | mk o u =>
      rw [e] at h
      cases o with
      | ok y =>
        simp only [M.pure_apply, Prod.mk.injEq] at h
        obtain ⟨-, rfl⟩ := h
        rw [readInteger] at e
        exact hne _ y _ e (by intro y; simp [parseInteger])
      | _ => simp at h
  | bool b =>
    simp only [TextValue.read] at h
    rw [M.bind_apply] at h
    cases e : readBool native R fuel s with
    | mk o u =>
      rw [e] at h
      cases o with
      | ok y =>
        simp only [M.pure_apply, Prod.mk.injEq] at h
        obtain ⟨-, rfl⟩ := h
        rw [readBool] at e
        exact hne _ y _ e (by intro y; cases y <;> simp [parseBool])
      | _ => simp at h

/-- More values than words cannot be read. -/
theorem few_words {ρ : Type} {R : Reader ρ} {sizes : Nat → Prop} {left : List Byte → ρ → Prop}
    (D : R.Delivers sizes true left) (native : Endian) (fuel : Nat) (ts : List Nat)
    (ws : List (List Nat)) (hw : Spec.Words (fun c => isWhitespace (BitVec.ofNat 32 c) = true) ts ws)
    (hi : ∀ w ∈ ws, ∀ c ∈ w, InsOk .char8 c) (hf : ts.length < fuel) :
    ∀ (items : List (TextValue × List Nat)) (s : InStream ρ), ws.length < items.length →
      HasText sizes true left s ts → ∀ xs, (readItems native R fuel items s).1 ≠ .ok xs := by
  have hstep : ∀ (i : TextValue × List Nat) (items : List (TextValue × List Nat)) (s : InStream ρ) xs,
      (readItems native R fuel (i :: items) s).1 = .ok xs →
      ∃ s' ys, (∃ word, readWord native R .char8 fuel s = (.ok word, s') ∧ word ≠ [])
        ∧ (readItems native R fuel items s').1 = .ok ys := by
    intro i items s xs h
    simp only [readItems, M.runList] at h
    rw [M.bind_apply] at h
    cases e : i.1.read native R fuel s with
    | mk o s' =>
      rw [e] at h
      cases o with
      | ok x =>
        simp only at h
        rw [M.bind_apply] at h
        cases e' : M.runList (fun i : TextValue × List Nat => i.1.read native R fuel) items s' with
        | mk o' s'' =>
          rw [e'] at h
          cases o' with
          | ok ys => exact ⟨s', ys, read_value_word native fuel i.1 x s s' e, congrArg Prod.fst e'⟩
          | _ => simp at h
      | _ => simp at h
  have hempty : ∀ (sp : List Nat) (items : List (TextValue × List Nat)) (s : InStream ρ),
      (∀ c ∈ sp, isWhitespace (BitVec.ofNat 32 c) = true) → sp.length < fuel → 0 < items.length →
      HasText sizes true left s sp → ∀ xs, (readItems native R fuel items s).1 ≠ .ok xs := by
    intro sp items s hsp hl hn h xs hx
    cases items with
    | nil => simp at hn
    | cons i items =>
      obtain ⟨s', ys, ⟨word, e1, hne⟩, -⟩ := hstep i items s xs hx
      obtain ⟨r, e2, -⟩ := readWord_end D native .char8 sp [] hsp (by simp) (by simp) fuel s
        (by simpa using hl) (by simpa using h)
      rw [e2] at e1
      simp only [Prod.mk.injEq, Outcome.ok.injEq] at e1
      exact hne (by rw [← e1.1]; rfl)
  induction hw with
  | none sp hs => exact fun items s hn h => hempty sp items s hs hf hn h
  | last sp w hs hne hn =>
    intro items s hlen h xs hx
    cases items with
    | nil => simp at hlen
    | cons i items =>
      obtain ⟨s', ys, ⟨word, e1, -⟩, e2⟩ := hstep i items s xs hx
      obtain ⟨r, e3, q⟩ := readWord_end D native .char8 sp w hs (by simpa using hn)
        (hi w (by simp)) fuel s (by simpa using hf) h
      rw [e3] at e1
      simp only [Prod.mk.injEq] at e1
      obtain ⟨-, rfl⟩ := e1
      exact hempty [] items _ (by simp) (by simp; omega) (by simp at hlen; omega) q ys e2
  | next sp w b cs ws hs hne hn hb hws ih =>
    intro items s hlen h xs hx
    cases items with
    | nil => simp at hlen
    | cons i items =>
      simp only [List.length_append, List.length_cons] at hf
      obtain ⟨s', ys, ⟨word, e1, -⟩, e2⟩ := hstep i items s xs hx
      obtain ⟨r, e3, q⟩ := readWord_space D native .char8 sp w b cs hs hne (by simpa using hn) hb
        (hi w (by simp)) fuel s (by omega) h
      rw [e3] at e1
      simp only [Prod.mk.injEq] at e1
      obtain ⟨-, rfl⟩ := e1
      exact ih (fun x hx => hi x (by simp [hx])) (by omega) items _ (by simpa using hlen) q ys e2

/-- The number of words: one for each text, except where a text is joined to the next by a lone
carriage return. -/
theorem words_joined (ts : List (List Nat × List Nat)) (hne : ts ≠ [])
    (ht : ∀ p ∈ ts, p.1 ≠ [] ∧ Visible p.1) (hs : ∀ p ∈ ts, ∀ c ∈ p.2, Spec.IsWhiteSpace c)
    (hsep : ∀ p ∈ ts.dropLast, p.2 ≠ []) :
    ∀ acc, Visible acc →
      (wordsFrom (fun c => isWhitespace (BitVec.ofNat 32 c)) acc (filt (joined ts))).length ≤ ts.length
      ∧ ((∃ p ∈ ts.dropLast, p.2 = [13]) →
        (wordsFrom (fun c => isWhitespace (BitVec.ofNat 32 c)) acc (filt (joined ts))).length < ts.length)
      ∧ ∀ w ∈ wordsFrom (fun c => isWhitespace (BitVec.ofNat 32 c)) acc (filt (joined ts)), Visible w := by
  have hseps : ∀ (sep acc cs : List Nat), (∀ c ∈ sep, Spec.IsWhiteSpace c) → sep ≠ [] → acc ≠ [] →
      wordsFrom (fun c => isWhitespace (BitVec.ofNat 32 c)) acc (sep ++ cs)
        = acc :: wordsFrom (fun c => isWhitespace (BitVec.ofNat 32 c)) [] cs := by
    intro sep acc cs h hn ha
    cases sep with
    | nil => simp at hn
    | cons b sep =>
      rw [List.cons_append, wordsFrom, if_pos (whiteSpaces h b (by simp)), if_neg ha,
        wordsFrom_seps _ sep cs (fun c hc => whiteSpaces h c (by simp [hc]))]
  induction ts with
  | nil => exact absurd rfl hne
  | cons p ts ih =>
    obtain ⟨t, sep⟩ := p
    obtain ⟨htne, hvis⟩ := ht (t, sep) (by simp)
    simp only at htne hvis
    have hsp : ∀ c ∈ sep, Spec.IsWhiteSpace c := hs (t, sep) (by simp)
    intro acc hacc
    have hacc' : Visible (acc ++ t) := by
      intro c hc
      rcases List.mem_append.mp hc with hc | hc
      · exact hacc c hc
      · exact hvis c hc
    have hane : acc ++ t ≠ [] := by simp [htne]
    rw [joined_cons, filt_append t _ hvis.noCR, wordsFrom_word _ acc t _ hvis.word]
    cases ts with
    | nil =>
      have hfs := filt_subset sep
      simp only [joined, List.flatMap_nil, List.append_nil, List.dropLast_singleton]
      revert hfs
      generalize filt sep = f
      intro hfs
      have : wordsFrom (fun c => isWhitespace (BitVec.ofNat 32 c)) (acc ++ t) f = [acc ++ t] := by
        cases f with
        | nil => rw [wordsFrom, if_neg hane]
        | cons b f =>
          have := hseps (b :: f) (acc ++ t) [] (fun c hc => hsp c (hfs c hc)) (by simp) hane
          rw [List.append_nil] at this
          rw [this]
          simp [wordsFrom]
      rw [this]
      exact ⟨by simp, by simp, by simpa using hacc'⟩
    | cons q ts =>
      obtain ⟨t2, sep2⟩ := q
      obtain ⟨hne2, hvis2⟩ := ht (t2, sep2) (by simp)
      have ih' := ih (by simp) (fun p hp => ht p (by simp [hp])) (fun p hp => hs p (by simp [hp]))
        (fun p hp => hsep p (by rw [List.dropLast_cons_cons]; exact List.mem_cons_of_mem _ hp))
      cases t2 with
      | nil => simp at hne2
      | cons c0 t2 =>
      have hc0 : c0 ≠ 13 := by
        rintro rfl
        exact hvis2.noCR (by simp)
      obtain ⟨sep', f1, f2, -, f4⟩ := filt_separator sep c0 (t2 ++ (sep2 ++ joined ts)) hc0
      have f1' : filt (sep ++ joined ((c0 :: t2, sep2) :: ts))
          = sep' ++ filt (joined ((c0 :: t2, sep2) :: ts)) := by
        rw [joined_cons, List.cons_append, f1]
      rw [f1']
      by_cases he : sep' = []
      · subst he
        have h13 : sep = [13] := by
          rcases f4.mp rfl with h | h
          · exact absurd h (hsep (t, sep) (by simp))
          · exact h
        obtain ⟨a1, a2, a3⟩ := ih' (acc ++ t) hacc'
        rw [List.nil_append]
        refine ⟨by simp only [List.length_cons] at a1 ⊢; omega,
          fun _ => by simp only [List.length_cons] at a1 ⊢; omega, a3⟩
      · obtain ⟨a1, a2, a3⟩ := ih' [] (by intro c hc; simp at hc)
        rw [hseps sep' (acc ++ t) _ (fun c hc => hsp c (f2 c hc)) he hane]
        refine ⟨by simp only [List.length_cons] at a1 ⊢; omega, ?_, ?_⟩
        · rintro ⟨p, hp, h13⟩
          rw [List.dropLast_cons_cons] at hp
          rcases List.mem_cons.mp hp with rfl | hp
          · exact absurd (f4.mpr (.inr h13)) he
          · have := a2 ⟨p, hp, h13⟩
            simp only [List.length_cons] at this ⊢
            omega
        · intro w hw
          rcases List.mem_cons.mp hw with rfl | hw
          · exact hacc'
          · exact a3 w hw

/-- C57 exactly: a sequence comes back if and only if it has no least value of a signed type, and no
separator between values that is just a carriage return. -/
theorem C57_exact (native o : Endian) (form : EncodingForm) (cap cap' : Nat)
    (items : List (TextValue × List Nat)) (hcap : RoomFor form cap') (hv : ∀ i ∈ items, i.1.Typed)
    (hs : Separated items) :
    (∃ wire, written cap o form (writeItems native Ctr.writer items) = .ok wire ∧
      ∀ fuel > wire.length, received cap' wire o form (readItems native Ctr.reader fuel items) =
        .ok (items.map (·.1)))
    ↔ (∀ i ∈ items, ¬ i.1.IsLeast) ∧ ∀ i ∈ items.dropLast, i.2 ≠ [13] := by
  refine ⟨?_, fun ⟨hl, hcr⟩ => C57_partial native o form cap cap' items hcap hv hs hl hcr⟩
  rintro ⟨wire, h1, h2⟩
  have hl : ∀ i ∈ items, ¬ i.1.IsLeast := by
    rcases split_first (fun i : TextValue × List Nat => ¬ i.1.IsLeast) items with h | ⟨as, i, bs, rfl, ha, hi⟩
    · exact h
    exfalso
    obtain ⟨v, sep⟩ := i
    cases v with
    | bool b => exact hi (fun h => h)
    | int T v =>
      obtain ⟨hsg, rfl⟩ := not_not.mp hi
      have := C57_exact_least native o form cap as bs T sep (fun j hj => hv j (by simp [hj]))
        (fun j hj => hs.1 j (by simp [hj])) ha (hv (.int T T.min, sep) (by simp)).1 hsg
      rw [this] at h1
      split at h1 <;> cases h1
  refine ⟨hl, fun i hi h13 => ?_⟩
  obtain ⟨ts, hall, htx, hw⟩ := sequence_written (R := Ctr.reader) (Ctr.collects cap []) native form
    (fun v => TextValue.write native Ctr.writer v) (fun v fuel => TextValue.read native Ctr.reader fuel v)
    (fun v b => b = v) items
    (fun i hi => value_text (Ctr.collects cap []) native form i.1 (hv i hi) (hl i hi)) hs.1
  obtain ⟨us, r', e1, q1⟩ := hw ⟨freshCtr cap 1 [], o, form⟩ [] rfl trivial (Ctr.got_fresh cap)
  have hwire := written_eq cap o form _ us _ r' e1 q1
  rw [List.nil_append] at hwire
  rw [hwire] at h1
  simp only [Outcome.ok.injEq] at h1
  subst h1
  have h3 := h2 (textBytes form o (joined ts)).length.succ (Nat.lt_succ_self _)
  have h := fresh_hasText o form cap' hcap (joined ts) htx
  have hlen := textBytes_length form o (joined ts)
  have hsnd : ts.map Prod.snd = items.map Prod.snd
      ∧ ∀ p ∈ ts, p.1 ≠ [] ∧ Visible p.1 := by
    clear hw h3 h hlen htx hwire e1 q1 h2 hi hl hs hv
    induction hall with
    | nil => exact ⟨rfl, by simp⟩
    | cons ha _ ih =>
      refine ⟨by rw [List.map_cons, List.map_cons, ih.1, ha.1], ?_⟩
      intro p hp
      rcases List.mem_cons.mp hp with rfl | hp
      · exact ⟨ha.2.1, ha.2.2.1⟩
      · exact ih.2 p hp
  obtain ⟨hsnd, hvis⟩ := hsnd
  have hdrop : ts.dropLast.map Prod.snd = items.dropLast.map Prod.snd := by
    rw [List.map_dropLast, List.map_dropLast, hsnd]
  have hlt : ts.length = items.length := by
    have := congrArg List.length hsnd
    simpa using this
  have hback : ∀ p ∈ ts.dropLast, ∃ j ∈ items.dropLast, j.2 = p.2 := by
    intro p hp
    have : p.2 ∈ ts.dropLast.map Prod.snd := List.mem_map.mpr ⟨p, hp, rfl⟩
    rw [hdrop] at this
    obtain ⟨j, hj, hjp⟩ := List.mem_map.mp this
    exact ⟨j, hj, hjp⟩
  have hback' : ∀ p ∈ ts, ∃ j ∈ items, j.2 = p.2 := by
    intro p hp
    have : p.2 ∈ ts.map Prod.snd := List.mem_map.mpr ⟨p, hp, rfl⟩
    rw [hsnd] at this
    obtain ⟨j, hj, hjp⟩ := List.mem_map.mp this
    exact ⟨j, hj, hjp⟩
  have hcr : ∃ p ∈ ts.dropLast, p.2 = [13] := by
    have : i.2 ∈ items.dropLast.map Prod.snd := List.mem_map.mpr ⟨i, hi, rfl⟩
    rw [← hdrop] at this
    obtain ⟨p, hp, hpi⟩ := List.mem_map.mp this
    exact ⟨p, hp, hpi.trans h13⟩
  have hne : ts ≠ [] := by
    rintro rfl
    obtain ⟨p, hp, -⟩ := hcr
    simp at hp
  obtain ⟨-, hfew, hvw⟩ := words_joined ts hne hvis
    (fun p hp => by obtain ⟨j, hj, e⟩ := hback' p hp; rw [← e]; exact hs.1 j hj)
    (fun p hp => by obtain ⟨j, hj, e⟩ := hback p hp; rw [← e]; exact hs.2 j hj)
    [] (by intro c hc; simp at hc)
  have hfl := filt_length (joined ts)
  exact few_words (ctr_delivers cap' (textBytes form o (joined ts))) native _ _ _
    (words_exist (fun c => isWhitespace (BitVec.ofNat 32 c)) _ (filt (joined ts)) (Nat.le_refl _))
    (fun w hw => (hvw w hw).ins) (by omega) items _ (by have := hfew hcr; omega) h _ h3

example : Separated [(TextValue.int .int 1, [13, 32]), (.bool true, [13]), (.int .int 2, [])]
    ∧ (∀ i ∈ [(TextValue.int .int 1, [13, 32]), (.bool true, [13]), (.int .int 2, [])], i.1.Typed)
    ∧ RoomFor .utf8 1 := by decide

/-! ### C53 -/

/-- The other byte order. -/
def Endian.other : Endian → Endian
  | .little => .big
  | .big => .little

/-- What `read_bom` makes of the first character of a text: the code point it returns, the byte order
of the stream after it, and the bytes of that character which are still in front of the rest. -/
def bomRead (form : EncodingForm) (o : Endian) (c : Nat) : Nat × Endian × List Byte :=
  match form with
  | .utf8 => (c, o, [])
  | .utf16 =>
    if c = 0xFEFF then (c, o, [])
    else if c = 0xFFFE then (0xFEFF, o.other, [])
    else if c < 0x10000 then (c % 256, o, [])
    else ((0xD800 + (c - 0x10000) / 1024) % 256, o, objectBytes o 2 (0xDC00 + (c - 0x10000) % 1024))
  | .utf32 => if c = 0xFEFF then (c, o, []) else (c % 256, o, [])

/-- C53 exactly, for every text on every input resource: in UTF-16 and UTF-32 `read_bom` returns only
the lowest byte of the first code unit, U+FFFE passes for a mark in the other byte order, and the
second half of a surrogate pair stays on the stream. -/
theorem C53_exact {ρ : Type} {R : Reader ρ} {sizes : Nat → Prop} {tells : Bool}
    {left : List Byte → ρ → Prop} (D : R.Delivers sizes tells left) (native : Endian)
    (s : InStream ρ) (h1 : sizes 1) (c : Nat) (cs : List Nat) (hc : Spec.IsText (c :: cs))
    (h : left (asBytes (s.form.form.serialize s.endian.order (c :: cs))) s.res) :
    ∃ r', readBom native R s = (.ok (BitVec.ofNat 32 (bomRead s.form s.endian c).1),
        { s with res := r', endian := (bomRead s.form s.endian c).2.1 })
      ∧ left ((bomRead s.form s.endian c).2.2
          ++ asBytes (s.form.form.serialize s.endian.order cs)) r' := by
  have hsc : Spec.IsScalar c := hc c (by simp)
  have h : left (textBytes s.form s.endian (c :: cs)) s.res := h
  rw [textBytes_cons] at h
  obtain ⟨res, o, form⟩ := s
  simp only at h ⊢
  cases form with
  | utf8 =>
    obtain ⟨r', e', q⟩ := readCodePoint_text D native ⟨res, o, .utf8⟩ h1 c hsc _ h
    exact ⟨r', by rw [readBom, M.bind_ok (M.get_apply _)]; exact e', q⟩
  | utf16 =>
    by_cases hm : c = 0xFEFF
    · subst hm
      obtain ⟨r', e', q⟩ := readBom_mark D native ⟨res, o, .utf16⟩ (by simp) h1 o _ h
      exact ⟨r', e', q⟩
    by_cases hr : c = 0xFFFE
    · subst hr
      have he : cpBytes .utf16 o 0xFFFE = cpBytes .utf16 o.other 0xFEFF := by cases o <;> decide
      rw [he] at h
      obtain ⟨r', e', q⟩ := readBom_mark D native ⟨res, o, .utf16⟩ (by simp) h1 o.other _ h
      exact ⟨r', e', q⟩
    by_cases hb : c < 0x10000
    · have h16 : cpBytes .utf16 o c = objectBytes o 2 c := by
        rw [objectBytes_eq]
        simp [cpBytes, EncodingForm.form, Spec.Form.encode1, Spec.Form.unitSize, Spec.utf16, hb]
      rw [h16] at h
      obtain ⟨r', e', q⟩ := readBom_unmarked16 D native ⟨res, o, .utf16⟩ rfl h1 c (by omega) (by omega) _ h
      simp only [bomRead, if_neg hm, if_neg hr, if_pos hb]
      exact ⟨r', e', q⟩
    · have h16 : cpBytes .utf16 o c = objectBytes o 2 (0xD800 + (c - 0x10000) / 1024)
          ++ objectBytes o 2 (0xDC00 + (c - 0x10000) % 1024) := by
        rw [objectBytes_eq, objectBytes_eq]
        simp [cpBytes, EncodingForm.form, Spec.Form.encode1, Spec.Form.unitSize, Spec.utf16, hb, asBytes]
      rw [h16, List.append_assoc] at h
      have hle := hsc.1
      obtain ⟨r', e', q⟩ := readBom_unmarked16 D native ⟨res, o, .utf16⟩ rfl h1
        (0xD800 + (c - 0x10000) / 1024) (by omega) (by omega) _ h
      simp only [bomRead, if_neg hm, if_neg hr, if_neg hb]
      exact ⟨r', e', q⟩
  | utf32 =>
    by_cases hm : c = 0xFEFF
    · subst hm
      obtain ⟨r', e', q⟩ := readBom_mark D native ⟨res, o, .utf32⟩ (by simp) h1 o _ h
      exact ⟨r', e', q⟩
    · have h32 : cpBytes .utf32 o c = objectBytes o 4 c := by
        rw [objectBytes_eq]
        simp [cpBytes, EncodingForm.form, Spec.Form.encode1, Spec.Form.unitSize, Spec.utf32]
      rw [h32] at h
      obtain ⟨r', e', q⟩ := readBom_unmarked32 D native ⟨res, o, .utf32⟩ rfl h1 c hsc.1 hm _ h
      simp only [bomRead, if_neg hm]
      exact ⟨r', e', q⟩

example : Spec.IsText [0x1F600, 0x41] ∧ bomRead .utf16 .big 0x1F600 = (0x3D, .big, [0xDE, 0x00]) :=
  ⟨by unfold Spec.IsText; decide, by decide⟩

/-- So `read_bom` returns the first code point of a text exactly in UTF-8, when it is the mark, or
when it is below U+0100. -/
theorem C53_exact_when (form : EncodingForm) (o : Endian) (c : Nat) (hc : Spec.IsScalar c) :
    (bomRead form o c).1 = c ↔ form = .utf8 ∨ c = 0xFEFF ∨ c < 0x100 := by
  have := hc.1
  cases form with
  | utf8 => simp [bomRead]
  | utf16 =>
    simp only [bomRead]
    split_ifs <;> simp <;> omega
  | utf32 =>
    simp only [bomRead]
    split_ifs <;> simp <;> omega

/-! ### C48 -/

/-- C48 exactly: values come back if and only if the byte order is the host's or each of them is the
same backwards. -/
theorem C48_exact (native e : Endian) (form : EncodingForm) (cap cap' : Nat)
    (objects : List (List Byte)) (ho : ∀ o ∈ objects, o ≠ [] ∧ (o.length ≤ cap' ∨ cap' = 0)) :
    (∃ wire, written cap e form (writeValues native objects) = .ok wire ∧
      received cap' wire e form (readValues native objects) = .ok objects)
    ↔ e = native ∨ ∀ o ∈ objects, o.reverse = o := by
  by_cases he : e = native
  · exact ⟨fun _ => .inl he, fun _ => C48_partial native e form cap cap' objects (.inl he) ho⟩
  obtain ⟨wire, h1, h2⟩ := C48_violated_always native e form cap cap' objects he ho
  have hiff : objects.map List.reverse = objects ↔ ∀ o ∈ objects, o.reverse = o := by
    clear h1 h2 ho
    induction objects with
    | nil => simp
    | cons o objects ih => simp [ih]
  constructor
  · rintro ⟨wire', h3, h4⟩
    rw [h1] at h3
    simp only [Outcome.ok.injEq] at h3
    subst h3
    rw [h2] at h4
    simp only [Outcome.ok.injEq] at h4
    exact .inr (hiff.mp h4)
  · rintro (h | h)
    · exact absurd h he
    · exact ⟨wire, h1, by rw [h2, hiff.mpr h]⟩

example : ∀ o ∈ [[(1 : Byte), 1], [7]], o ≠ [] ∧ (o.length ≤ 2 ∨ 2 = 0) := by decide

/-! ### C29 -/

/-- The radix that a call sets. -/
def IntegerFormatCall.radix : IntegerFormatCall → Option Nat
  | setRadix r => some r
  | _ => none

/-- The radix that a call sets. -/
def FloatFormatCall.radix : FloatFormatCall → Option Nat
  | setRadix r => some r
  | _ => none

theorem lastRadix {α : Type} (g : α → Option Nat) (c : α) (cs : List α) (r : Nat) :
    ((c :: cs).filterMap g).getLastD r = (cs.filterMap g).getLastD ((g c).getD r) := by
  cases h : g c with
  | none => rw [List.filterMap_cons_none h]; rfl
  | some v => rw [List.filterMap_cons_some h, List.getLastD_cons]; rfl

/-- C29 exactly: every history of calls succeeds, and the radix is the last one set, whatever it is, or
the one at the beginning. -/
theorem C29_exact :
    (∀ (f : IntegerFormat) (calls : List IntegerFormatCall), ∃ g,
      calls.foldlM IntegerFormatCall.run f = .ok g
        ∧ g.radix = (calls.filterMap IntegerFormatCall.radix).getLastD f.radix)
    ∧ ∀ (f : FloatFormat) (calls : List FloatFormatCall), ∃ g,
      calls.foldlM FloatFormatCall.run f = .ok g
        ∧ g.radix = (calls.filterMap FloatFormatCall.radix).getLastD f.radix := by
  constructor
  · intro f calls
    induction calls generalizing f with
    | nil => exact ⟨f, rfl, rfl⟩
    | cons c calls ih =>
      obtain ⟨f', h1, h2⟩ : ∃ f', IntegerFormatCall.run f c = .ok f'
          ∧ f'.radix = (IntegerFormatCall.radix c).getD f.radix := by
        cases c <;> exact ⟨_, rfl, rfl⟩
      obtain ⟨g, h3, h4⟩ := ih f'
      refine ⟨g, ?_, ?_⟩
      · rw [List.foldlM_cons, h1]
        exact h3
      · rw [h4, lastRadix, h2]
  · intro f calls
    induction calls generalizing f with
    | nil => exact ⟨f, rfl, rfl⟩
    | cons c calls ih =>
      obtain ⟨f', h1, h2⟩ : ∃ f', FloatFormatCall.run f c = .ok f'
          ∧ f'.radix = (FloatFormatCall.radix c).getD f.radix := by
        cases c <;> exact ⟨_, rfl, rfl⟩
      obtain ⟨g, h3, h4⟩ := ih f'
      refine ⟨g, ?_, ?_⟩
      · rw [List.foldlM_cons, h1]
        exact h3
      · rw [h4, lastRadix, h2]

example : ([IntegerFormatCall.setRadix 10, .setRadix 77, .setSeparator .comma].filterMap
    IntegerFormatCall.radix).getLastD 10 = 77 := by decide

end Cmp
