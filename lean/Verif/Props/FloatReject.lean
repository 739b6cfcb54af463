import Verif.Props.Float
import Mathlib.Data.List.TakeWhile

/-
Property theorems C108, C109, C110 (what `parse_floating_point` does not accept, what becomes of
the place limit, and which reasons are given).  The specification of numerals is `Spec/Numeral` and
`Spec/Real`.  Of the rounding of the machine it is assumed, where at all, that it does not take a
number that is at least one below one.
-/

namespace Cmp

open IntTy

/-! ### The two parts of a text -/

theorem convert_text {e : Enc} {s : Str e} {cs : List Nat} (ht : TextOf e s cs)
    (hb : e.form = .utf16 → ∀ c ∈ cs, Spec.IsBmp c) :
    convertString e .char32 s = .ok (encs .char32 cs) := by
  rw [ht.eq]
  exact convertString_enc e .char32 cs (ht.fwd hb) (fun c hc => by
    have := (ht.1.1 c hc).1
    show c < 2 ^ 32
    omega)

theorem equivalentFormat {f : FloatFormat} (hf : f.Valid) :
    IntegerFormat.make f.radix f.sign f.separator = .ok ⟨f.radix, f.sign, f.separator⟩ := by
  rw [IntegerFormat.make, if_neg (by have := hf.1; have := hf.2; simp; omega)]

theorem radixCharacter_not_mem {rc : RadixCharacter} {cs : List Nat}
    (hc : ∀ c ∈ cs, c ≤ 0x10FFFF) (h : rc.char ∉ cs) :
    BitVec.ofNat 32 rc.char ∉ encs .char32 cs := by
  rw [encs32]
  intro hm
  obtain ⟨c, hmem, h1⟩ := List.mem_map.mp hm
  have := hc c hmem
  have hrc := rc.char_cases
  have h2 := congrArg BitVec.toNat h1
  simp only [BitVec.toNat_ofNat] at h2
  exact h (by rwa [show rc.char = c by omega])

/-- A text without a radix character is parsed as an integer. -/
theorem parseFloat_whole {e : Enc} (rnd : ℚ → ℚ) {f : FloatFormat} {s : Str e} {cs : List Nat}
    (hf : f.Valid) (ht : TextOf e s cs) (hb : e.form = .utf16 → ∀ c ∈ cs, Spec.IsBmp c)
    (hrc : f.radixCharacter.char ∉ cs) :
    parseFloat e rnd s f
      = (parseInteger .char32 .llong (encs .char32 cs) ⟨f.radix, f.sign, f.separator⟩
          >>= fun v => .ok (rnd v)) := by
  have hnot := radixCharacter_not_mem (fun c hc => (ht.1.1 c hc).1) hrc
  rw [parseFloat, convert_text ht hb, Outcome.ok_bind, equivalentFormat hf, Outcome.ok_bind,
    List.findIdx?_eq_none_iff.mpr (by
      intro y hy
      simp
      rintro rfl
      exact hnot hy)]

/-- A text with a radix character is parsed as an integer and a sequence of digits. -/
theorem parseFloat_parts {e : Enc} (rnd : ℚ → ℚ) {f : FloatFormat} {s : Str e}
    {head tail : List Nat} (hf : f.Valid) (ht : TextOf e s (head ++ f.radixCharacter.char :: tail))
    (hb : e.form = .utf16 → ∀ c ∈ head ++ f.radixCharacter.char :: tail, Spec.IsBmp c)
    (hrc : f.radixCharacter.char ∉ head) :
    parseFloat e rnd s f
      = (parseInteger .char32 .llong (encs .char32 head) ⟨f.radix, f.sign, f.separator⟩
          >>= fun v =>
            if tail = [] ∧ f.placeLimit = .none then .ok (rnd v)
            else if tail = [] ∧ f.placeCount > 0 then .throw (.parseFailed .wrongPlaceLimit)
            else (tail.map (BitVec.ofNat 32)).foldlM (parseFractionStep rnd f.radix) (1, rnd v)
              >>= fun st => .ok st.2) := by
  have hnot := radixCharacter_not_mem
    (fun c hc => (ht.1.1 c (List.mem_append_left _ hc)).1) hrc
  have hu : encs .char32 (head ++ f.radixCharacter.char :: tail)
      = encs .char32 head ++ BitVec.ofNat 32 f.radixCharacter.char :: encs .char32 tail := by
    rw [encs_append, encs_cons]
    rfl
  have hdrop : (encs .char32 head ++ BitVec.ofNat 32 f.radixCharacter.char
      :: encs .char32 tail).drop ((encs .char32 head).length + 1) = encs .char32 tail := by
    rw [List.drop_append]
    simp
  have hlen : (encs .char32 tail).length = 0 ↔ tail = [] := by
    rw [encs32, List.length_map]
    exact List.length_eq_zero_iff
  rw [parseFloat, convert_text ht hb, Outcome.ok_bind, equivalentFormat hf, Outcome.ok_bind, hu,
    findIdx_head hnot]
  simp only
  rw [List.take_left, hdrop]
  simp only [hlen]
  rw [encs32 tail]

theorem parseFractionStep_ok {rnd : ℚ → ℚ} {r : Nat} {st st' : ℚ × ℚ} {c : Nat} (h36 : r ≤ 36)
    (hc : c ≤ 0x10FFFF) (h : parseFractionStep rnd r st (BitVec.ofNat 32 c) = .ok st') :
    Spec.IsDigit r c := by
  rw [parseFractionStep, Outcome.bind_eq_ok] at h
  obtain ⟨d, hd, h⟩ := h
  refine getNextDigit_ok_isDigit (d := d) h36 hc ?_
  rw [getNextDigit, hd, Outcome.ok_bind]
  split_ifs at h with h1
  rw [if_neg h1]

theorem parseFraction_ok {rnd : ℚ → ℚ} {r : Nat} (h36 : r ≤ 36) (tail : List Nat) :
    ∀ st st' : ℚ × ℚ, (∀ c ∈ tail, c ≤ 0x10FFFF) →
      (tail.map (BitVec.ofNat 32)).foldlM (parseFractionStep rnd r) st = .ok st' →
      ∀ c ∈ tail, Spec.IsDigit r c := by
  induction tail with
  | nil => intro _ _ _ _ c hc; simp at hc
  | cons c tail ih =>
    intro st st' hall h x hx
    rw [List.map_cons, List.foldlM_cons] at h
    obtain ⟨st1, h1, h2⟩ := Outcome.bind_eq_ok.mp h
    rcases List.mem_cons.mp hx with rfl | hx
    · exact parseFractionStep_ok h36 (hall x (by simp)) h1
    · exact ih st1 st' (fun y hy => hall y (by simp [hy])) h2 x hx

theorem parseFractionStep_nondigit {rnd : ℚ → ℚ} {r : Nat} (st : ℚ × ℚ) {c : Nat} (h36 : r ≤ 36)
    (hc : c ≤ 0x10FFFF) (hok : r < 10 ∨ c ≤ 255) (hn : ¬ Spec.IsDigit r c) :
    parseFractionStep rnd r st (BitVec.ofNat 32 c) = .throw (.parseFailed .wrongPlaceLimit) := by
  rw [parseFractionStep, digitCharacterToInteger, isRadixDigit_eq h36 (by omega) hok,
    Outcome.ok_bind, decide_eq_false hn]
  rfl

theorem parseFractionStep_digit {rnd : ℚ → ℚ} {r : Nat} {st : ℚ × ℚ} {c : Nat} (h36 : r ≤ 36)
    (h2 : 2 ≤ r) (hr : ∀ q, 1 ≤ q → 1 ≤ rnd q) (hst : 1 ≤ st.1) (hd : Spec.IsDigit r c) :
    ∃ st', parseFractionStep rnd r st (BitVec.ofNat 32 c) = .ok st' ∧ 1 ≤ st'.1 := by
  obtain ⟨d, hv, hlt⟩ := hd
  have hrq : (1 : ℚ) ≤ r := by exact_mod_cast (by omega : 1 ≤ r)
  have h1 : 1 ≤ rnd (st.1 * r) := hr _ (one_le_mul_of_one_le_of_one_le hst hrq)
  refine ⟨(rnd (st.1 * r), rnd (st.2 + rnd (((d : Nat) : Int) / rnd (st.1 * r)))), ?_, h1⟩
  rw [parseFractionStep, digitCharacterToInteger_digit h36 hv hlt, Outcome.ok_bind,
    if_neg (by omega), appendDigit]
  rw [if_neg (by intro h0; rw [h0] at h1; norm_num at h1)]

/-- The digits before the first character that is none are passed. -/
theorem parseFraction_digits {rnd : ℚ → ℚ} {r : Nat} (h36 : r ≤ 36) (h2 : 2 ≤ r)
    (hr : ∀ q, 1 ≤ q → 1 ≤ rnd q) (tail : List Nat) :
    ∀ st : ℚ × ℚ, 1 ≤ st.1 → (∀ c ∈ tail, Spec.IsDigit r c) →
      ∃ st', (tail.map (BitVec.ofNat 32)).foldlM (parseFractionStep rnd r) st = .ok st'
        ∧ 1 ≤ st'.1 := by
  induction tail with
  | nil => intro st hst _; exact ⟨st, rfl, hst⟩
  | cons c tail ih =>
    intro st hst hall
    obtain ⟨st1, e1, h1⟩ := parseFractionStep_digit h36 h2 hr hst (hall c (by simp))
    obtain ⟨st2, e2, h2'⟩ := ih st1 h1 (fun x hx => hall x (by simp [hx]))
    refine ⟨st2, ?_, h2'⟩
    rw [List.map_cons, List.foldlM_cons, e1, Outcome.ok_bind, e2]

theorem parseFraction_stop {rnd : ℚ → ℚ} {r : Nat} (h36 : r ≤ 36) (h2 : 2 ≤ r)
    (hr : ∀ q, 1 ≤ q → 1 ≤ rnd q) (tail : List Nat) {st : ℚ × ℚ} (hst : 1 ≤ st.1)
    (hall : ∀ c ∈ tail, c ≤ 0x10FFFF ∧ (r < 10 ∨ c ≤ 255))
    (hn : ¬ ∀ c ∈ tail, Spec.IsDigit r c) :
    (tail.map (BitVec.ofNat 32)).foldlM (parseFractionStep rnd r) st
      = .throw (.parseFailed .wrongPlaceLimit) := by
  induction tail generalizing st with
  | nil => simp at hn
  | cons c tail ih =>
    rw [List.map_cons, List.foldlM_cons]
    by_cases hd : Spec.IsDigit r c
    · obtain ⟨st1, e1, h1⟩ := parseFractionStep_digit h36 h2 hr hst hd
      rw [e1, Outcome.ok_bind]
      refine ih h1 (fun x hx => hall x (by simp [hx])) (fun h => hn ?_)
      intro x hx
      rcases List.mem_cons.mp hx with rfl | hx
      · exact hd
      · exact h x hx
    · rw [parseFractionStep_nondigit st h36 (hall c (by simp)).1 (hall c (by simp)).2 hd]
      rfl

theorem parseInteger_short {f : FloatFormat} {head : List Nat}
    (ht : TextOf .char32 (encs .char32 head) head) (hf : f.Valid)
    (hlen : (f.radix : Int) ^ head.length ≤ llong.max) (h255 : ∀ c ∈ head, f.radix < 10 ∨ c ≤ 255) :
    OkOrFailed
      (parseInteger .char32 .llong (encs .char32 head) ⟨f.radix, f.sign, f.separator⟩) := by
  rw [parseInteger_encs .char32 .llong _ _ ht.bwd]
  refine parseRev_short (by decide) hf.1 hf.2 head.reverse (by rwa [List.length_reverse]) ?_
  intro c hc
  have hc' : c ∈ head := by simpa using hc
  exact ⟨(ht.1.1 c hc').1, h255 c hc'⟩

/-! ### C108 -/

/-- The text in front of the first radix character. -/
def integralPart (f : FloatFormat) (cs : List Nat) : List Nat :=
  cs.takeWhile (fun c => decide (c ≠ f.radixCharacter.char))

theorem split_text (f : FloatFormat) (cs : List Nat) :
    f.radixCharacter.char ∉ integralPart f cs
    ∧ ((cs = integralPart f cs ∧ f.radixCharacter.char ∉ cs)
      ∨ ∃ tail, cs = integralPart f cs ++ f.radixCharacter.char :: tail) := by
  have hnot : f.radixCharacter.char ∉ integralPart f cs := by
    intro h
    have := List.mem_takeWhile_imp h
    simp at this
  refine ⟨hnot, ?_⟩
  have happ := List.takeWhile_append_dropWhile (p := fun c => decide (c ≠ f.radixCharacter.char))
    (l := cs)
  cases hd : cs.dropWhile (fun c => decide (c ≠ f.radixCharacter.char)) with
  | nil =>
    rw [hd, List.append_nil] at happ
    have : cs = integralPart f cs := happ.symm
    exact .inl ⟨this, by rw [this]; exact hnot⟩
  | cons c tail =>
    rw [hd] at happ
    have hc := List.head_dropWhile_not (fun c => decide (c ≠ f.radixCharacter.char))
      (l := cs) (by rw [hd]; simp)
    simp only [hd, List.head_cons] at hc
    have : c = f.radixCharacter.char := by simpa using hc
    subst this
    exact .inr ⟨tail, happ.symm⟩

/-- C108 for texts whose integral part has no sign after the first character and no leading
separator: what is accepted is a numeral, and everything else is reported as a parse failure, if
its characters are below 256 and its integral part is so short that no number of that length
overflows `long long`.  Missing: signs in the middle and leading separators, which are accepted;
undefined behaviour on overflow and in `std::tolower`; characters outside of the Basic Multilingual
Plane in UTF-16. -/
theorem C108_partial (e : Enc) (rnd : ℚ → ℚ) (f : FloatFormat) (s : Str e) (cs : List Nat)
    (hf : f.Valid) (ht : TextOf e s cs) (hb : e.form = .utf16 → ∀ c ∈ cs, Spec.IsBmp c)
    (hst : NoStray ⟨f.radix, f.sign, f.separator⟩ (integralPart f cs))
    (hnum : ¬ ∃ neg ds fs, Spec.RealNumeral f.radix f.separator.char (f.sign = .alwaysShow)
      f.radixCharacter.char none cs neg ds fs) :
    (∀ v, parseFloat e rnd s f ≠ .ok v)
    ∧ ((f.radix : Int) ^ (integralPart f cs).length ≤ llong.max →
        (∀ c ∈ cs, f.radix < 10 ∨ c ≤ 255) → (∀ q, 1 ≤ q → 1 ≤ rnd q) →
        ∃ k, parseFloat e rnd s f = .throw (.parseFailed k)) := by
  have hsc : ∀ c ∈ cs, c ≤ 0x10FFFF := fun c hc => (ht.1.1 c hc).1
  obtain ⟨hrc, hsplit⟩ := split_text f cs
  generalize hhd : integralPart f cs = head at *
  have hint : ∀ c ∈ head, c ∈ cs := by
    rcases hsplit with ⟨h, _⟩ | ⟨tail, h⟩
    · intro c hc; rw [h]; exact hc
    · intro c hc; rw [h]; exact List.mem_append_left _ hc
  have hthead : TextOf .char32 (encs .char32 head) head :=
    textOf_encs .char32 head (fun c hc => ht.1.1 c (hint c hc)) (by simp)
  have hC23 := fun h => C23_partial .char32 .llong ⟨f.radix, f.sign, f.separator⟩ _ head (by decide)
    hf hthead hst h
  rcases hsplit with ⟨rfl, -⟩ | ⟨tail, rfl⟩
  · rw [parseFloat_whole rnd hf ht hb hrc]
    have hno : ¬ ∃ neg ds, Spec.Numeral f.radix f.separator.char (f.sign = .alwaysShow) cs neg ds := by
      rintro ⟨neg, ds, h⟩
      exact hnum ⟨neg, ds, [], cs, h, by simp, .inl ⟨rfl, rfl⟩⟩
    obtain ⟨h1, h2⟩ := hC23 hno
    refine ⟨fun v hv => ?_, fun hlen h255 _ => ?_⟩
    · obtain ⟨w, hw, _⟩ := Outcome.bind_eq_ok.mp hv
      exact h1 w hw
    · obtain ⟨k, hk⟩ := h2 (.inr hlen) h255
      exact ⟨k, by rw [hk]; rfl⟩
  · rw [parseFloat_parts rnd hf ht hb hrc]
    have htl : ∀ c ∈ tail, c ∈ head ++ f.radixCharacter.char :: tail := by
      intro c hc
      simp [hc]
    by_cases hno : ∃ neg ds,
        Spec.Numeral f.radix f.separator.char (f.sign = .alwaysShow) head neg ds
    · have hdig : ¬ ∀ c ∈ tail, Spec.IsDigit f.radix c := by
        intro hall
        obtain ⟨neg, ds, h⟩ := hno
        obtain ⟨fs, hm, hlt⟩ := isDigit_values tail hall
        exact hnum ⟨neg, ds, fs, head, h, hlt, .inr ⟨tail, rfl, hm⟩⟩
      have hne : tail ≠ [] := by
        rintro rfl
        simp at hdig
      simp only [hne, false_and, if_false]
      refine ⟨fun v hv => ?_, fun hlen h255 hr => ?_⟩
      · obtain ⟨w, _, hw⟩ := Outcome.bind_eq_ok.mp hv
        obtain ⟨st, hst', _⟩ := Outcome.bind_eq_ok.mp hw
        exact hdig (parseFraction_ok hf.2 tail _ _ (fun c hc => hsc c (htl c hc)) hst')
      · rcases parseInteger_short hthead hf hlen (fun c hc => h255 c (hint c hc)) with ⟨v, hv⟩ | ⟨k, hk⟩
        · rw [hv, Outcome.ok_bind, parseFraction_stop hf.2 hf.1 hr tail le_rfl
            (fun c hc => ⟨hsc c (htl c hc), h255 c (htl c hc)⟩) hdig]
          exact ⟨_, rfl⟩
        · rw [hk]
          exact ⟨k, rfl⟩
    · obtain ⟨h1, h2⟩ := hC23 hno
      refine ⟨fun v hv => ?_, fun hlen h255 _ => ?_⟩
      · obtain ⟨w, hw, _⟩ := Outcome.bind_eq_ok.mp hv
        exact h1 w hw
      · obtain ⟨k, hk⟩ := h2 (.inr hlen) (fun c hc => h255 c (hint c hc))
        exact ⟨k, by rw [hk]; rfl⟩

/-- The text `1.2.3`. -/
example : NoStray ⟨10, .onlyWhenNegative, .none⟩ (integralPart .default [49, 46, 50, 46, 51])
    ∧ ¬ (∃ neg ds fs, Spec.RealNumeral 10 none false 46 none [49, 46, 50, 46, 51] neg ds fs)
    ∧ ((10 : Nat) : Int) ^ (integralPart .default [49, 46, 50, 46, 51]).length ≤ llong.max := by
  refine ⟨⟨by decide, by simp [Separator.char]⟩, ?_, by decide⟩
  rintro ⟨neg, ds, fs, head, ⟨sign, body, rfl, ⟨-, -, _, hm, rfl⟩, hsign⟩, -, hcs⟩
  have hdig : ∀ c ∈ body, c ≠ 46 := by
    intro c hc
    obtain ⟨d, hd⟩ := mem_digits hm hc
    exact (digit_char hd).2.2.1
  have hh : ∀ c ∈ sign ++ body, c ≠ 46 := by
    intro c hc
    rcases List.mem_append.mp hc with hc | hc
    · rcases hsign with ⟨rfl, _⟩ | ⟨rfl, _⟩ | ⟨rfl, _⟩ <;> simp at hc <;> omega
    · exact hdig c hc
  rcases hcs with ⟨h, -⟩ | ⟨tail, h, hmt⟩
  · exact hh 46 (by show 46 ∈ sign ++ body; rw [← show _ = sign ++ body from h]; simp) rfl
  · have hh' : ∀ c ∈ sign ++ body, c ≠ 46 := hh
    have h' : [49, 46, 50, 46, 51] = (sign ++ body) ++ 46 :: tail := h
    generalize sign ++ body = l at h' hh'
    have ht46 : 46 ∈ tail := by
      match l, h', hh' with
      | [], h', _ => simp at h'
      | [a], h', _ =>
        simp at h'
        rw [← h'.2]
        simp
      | a :: b :: l, h', hh' =>
        simp at h'
        exact absurd h'.2.1.symm (hh' b (by simp))
    obtain ⟨d, hd⟩ := mem_digits hmt ht46
    exact (digit_char hd).2.2.1 rfl

/-- `"1-2"` is not a numeral but is accepted (as -12). -/
theorem C108_violated :
    ¬ ∀ (e : Enc) (rnd : ℚ → ℚ) (f : FloatFormat) (s : Str e) (cs : List Nat), f.Valid →
      TextOf e s cs → (∀ q, 1 ≤ q → 1 ≤ rnd q) →
      (¬ ∃ neg ds fs, Spec.RealNumeral f.radix f.separator.char (f.sign = .alwaysShow)
        f.radixCharacter.char none cs neg ds fs) →
      ∃ k, parseFloat e rnd s f = .throw (.parseFailed k) := by
  intro h
  have ht : TextOf .char8 [0x31#8, 0x2D#8, 0x32#8] [49, 45, 50] :=
    ⟨⟨by unfold Spec.IsText; decide, by decide⟩, by simp⟩
  obtain ⟨k, hk⟩ := h .char8 id .default _ _ (by unfold FloatFormat.Valid; decide) ht
    (fun _ hq => hq) (by
      rintro ⟨neg, ds, fs, head, ⟨sign, body, rfl, ⟨-, -, _, hm, rfl⟩, hsign⟩, -, hcs⟩
      have hdash : 45 ∉ body := by
        intro hc
        obtain ⟨d, hd⟩ := mem_digits hm hc
        exact (digit_char hd).2.2.2.2 rfl
      rcases hcs with ⟨h, -⟩ | ⟨tail, h, -⟩
      · have h : [49, 45, 50] = sign ++ body := h
        rcases hsign with ⟨rfl, _⟩ | ⟨rfl, _⟩ | ⟨rfl, _⟩
        · exact hdash (by rw [← show _ = body from h]; simp)
        · simp at h
        · simp at h
      · have : 46 ∈ [49, 45, 50] := by
          rw [h]
          exact List.mem_append_right _ (List.mem_cons_self ..)
        simp at this)
  rw [parseFloat_whole id (by unfold FloatFormat.Valid; decide) ht (by simp [Enc.form]) (by decide),
    show parseInteger .char32 .llong (encs .char32 [49, 45, 50])
      ⟨FloatFormat.default.radix, FloatFormat.default.sign, FloatFormat.default.separator⟩ = .ok (-12)
      by decide] at hk
  cases hk

/-! ### C109 -/

/-- A number of places that a format admits. -/
def FloatFormat.Admits (f : FloatFormat) (places : Nat) : Prop :=
  match f.placeLimit with
  | .none => True
  | .exactlyEqual => places = f.placeCount
  | .upTo => places ≤ f.placeCount

/-- What becomes of the place limit for numerals that fit `long long`: it is only looked at when
the text ends in the radix character.  Missing: everything the limit is meant for. -/
theorem C109_partial (e : Enc) (rnd : ℚ → ℚ) (f : FloatFormat) (s : Str e) (cs : List Nat)
    (neg : Bool) (ds fs : List Nat) (hf : f.Valid) (ht : TextOf e s cs)
    (hr : ∀ q, 1 ≤ q → 1 ≤ rnd q)
    (hn : Spec.RealNumeral f.radix f.separator.char (f.sign = .alwaysShow)
      f.radixCharacter.char none cs neg ds fs)
    (hsep : f.separator.char ≠ some f.radixCharacter.char)
    (hfit : (Spec.positional f.radix ds : Int) ≤ llong.max)
    (hplace : (f.radix ^ (ds.length - 1) : Nat) ≤ llong.max) :
    (f.placeLimit ≠ .none ∧ f.placeCount ≠ 0 ∧ fs = [] ∧ f.radixCharacter.char ∈ cs →
      parseFloat e rnd s f = .throw (.parseFailed .wrongPlaceLimit))
    ∧ (¬ (f.placeLimit ≠ .none ∧ f.placeCount ≠ 0 ∧ fs = [] ∧ f.radixCharacter.char ∈ cs) →
      ∃ v, parseFloat e rnd s f = .ok v) := by
  constructor
  · rintro ⟨h1, h2, rfl, h4⟩
    obtain ⟨head, hnum, -, hcs⟩ := hn
    have hhead := numeral_chars hnum
    have hrc := f.radixCharacter.char_cases
    have hnot : f.radixCharacter.char ∉ head := by
      intro h
      rcases (hhead _ h).2 with h1 | h1
      · omega
      · exact hsep h1
    rcases hcs with ⟨rfl, -⟩ | ⟨tail, rfl, htail⟩
    · exact absurd h4 hnot
    · have htl : tail = [] := by simpa [Spec.ungroup] using htail
      subst htl
      have hint : parseInteger .char32 .llong (encs .char32 head) ⟨f.radix, f.sign, f.separator⟩
          = .ok (Spec.denote f.radix neg ds) :=
        C22_partial .char32 .llong ⟨f.radix, f.sign, f.separator⟩ _ head neg ds (by decide) hf
          (textOf_ascii .char32 head (fun c hc => (hhead c hc).1)) hnum (fun _ => rfl) hfit
          (fun _ => hplace)
      rw [parseFloat_parts rnd hf ht (fun _ c hc => by
          rcases List.mem_append.mp hc with hc | hc
          · have := (hhead c hc).1; unfold Spec.IsBmp; omega
          · simp at hc; unfold Spec.IsBmp; omega) hnot, hint, Outcome.ok_bind,
        if_neg (fun h => h1 h.2), if_pos ⟨rfl, by omega⟩]
  · intro hno
    rw [parseFloat_text e rnd f s cs neg ds fs hf ht hn hsep (by
      intro hfs
      by_contra hcon
      simp only [not_or, not_not] at hcon
      exact hno ⟨hcon.1, hcon.2.1, hfs, hcon.2.2⟩) hfit hplace]
    obtain ⟨head, -, hlt, -⟩ := hn
    have : ∀ st : ℚ × ℚ, 1 ≤ st.1 →
        ∃ st', fs.foldlM (fun st (d : Nat) => appendDigit rnd f.radix st d) st = .ok st' := by
      clear hno
      induction fs with
      | nil => exact fun st _ => ⟨st, rfl⟩
      | cons d fs ih =>
        intro st hst
        have hrq : (1 : ℚ) ≤ f.radix := by
          have := hf.1
          exact_mod_cast (by omega : 1 ≤ f.radix)
        have h1 : 1 ≤ rnd (st.1 * f.radix) := hr _ (one_le_mul_of_one_le_of_one_le hst hrq)
        obtain ⟨st', e'⟩ := ih (fun x hx => hlt x (by simp [hx]))
          (rnd (st.1 * f.radix), rnd (st.2 + rnd (((d : Nat) : Int) / rnd (st.1 * f.radix)))) h1
        refine ⟨st', ?_⟩
        rw [List.foldlM_cons, appendDigit, if_neg (by
          intro h0
          rw [h0] at h1
          norm_num at h1)]
        exact e'
    obtain ⟨st', e'⟩ := this (1, rnd (Spec.denote f.radix neg ds)) le_rfl
    exact ⟨st'.2, by rw [e']; rfl⟩

/-- The format of the counterexample: exactly three places. -/
abbrev threePlaces : FloatFormat :=
  { FloatFormat.default with placeLimit := .exactlyEqual, placeCount := 3 }

/-- The text `1.5`. -/
theorem numeral_oneHalf : Spec.RealNumeral 10 none false 46 none [49, 46, 53] false [1] [5] :=
  ⟨[49], ⟨[], [49], rfl, ⟨by simp, by decide, [49], by decide, rfl⟩, .inl ⟨rfl, rfl⟩⟩, by decide,
    .inr ⟨[53], rfl, by decide⟩⟩

theorem text_oneHalf : TextOf .char8 [0x31#8, 0x2E#8, 0x35#8] [49, 46, 53] :=
  ⟨⟨by unfold Spec.IsText; decide, by decide⟩, by simp⟩

example : threePlaces.Valid ∧ (∀ q : ℚ, 1 ≤ q → 1 ≤ id q)
    ∧ Spec.RealNumeral threePlaces.radix threePlaces.separator.char
        (threePlaces.sign = .alwaysShow) threePlaces.radixCharacter.char none [49, 46, 53] false [1] [5]
    ∧ threePlaces.separator.char ≠ some threePlaces.radixCharacter.char
    ∧ (Spec.positional 10 [1] : Int) ≤ llong.max :=
  ⟨by unfold FloatFormat.Valid; decide, fun _ h => h, numeral_oneHalf, by decide, by decide⟩

/-- With exactly three places demanded `1.5` is accepted. -/
theorem C109_violated :
    ¬ ∀ (e : Enc) (rnd : ℚ → ℚ) (f : FloatFormat) (s : Str e) (cs : List Nat)
      (neg : Bool) (ds fs : List Nat), f.Valid → TextOf e s cs → (∀ q, 1 ≤ q → 1 ≤ rnd q) →
      Spec.RealNumeral f.radix f.separator.char (f.sign = .alwaysShow)
        f.radixCharacter.char none cs neg ds fs →
      f.separator.char ≠ some f.radixCharacter.char →
      (Spec.positional f.radix ds : Int) ≤ llong.max →
      (f.radix ^ (ds.length - 1) : Nat) ≤ llong.max → ¬ f.Admits fs.length →
      parseFloat e rnd s f = .throw (.parseFailed .wrongPlaceLimit) := by
  intro h
  have h1 := h .char8 id threePlaces _ _ false [1] [5] (by unfold FloatFormat.Valid; decide)
    text_oneHalf (fun _ h => h) numeral_oneHalf (by decide) (by decide) (by decide)
    (by simp [FloatFormat.Admits])
  obtain ⟨v, h2⟩ := (C109_partial .char8 id threePlaces _ _ false [1] [5]
    (by unfold FloatFormat.Valid; decide) text_oneHalf (fun _ h => h) numeral_oneHalf (by decide)
    (by decide) (by decide)).2 (by simp)
  rw [h2] at h1
  cases h1

/-- With at most three places allowed `1.`, which has none, is refused. -/
theorem C109_violated_none :
    ¬ ∀ (e : Enc) (rnd : ℚ → ℚ) (f : FloatFormat) (s : Str e) (cs : List Nat)
      (neg : Bool) (ds fs : List Nat), f.Valid → TextOf e s cs → (∀ q, 1 ≤ q → 1 ≤ rnd q) →
      Spec.RealNumeral f.radix f.separator.char (f.sign = .alwaysShow)
        f.radixCharacter.char none cs neg ds fs →
      f.separator.char ≠ some f.radixCharacter.char →
      (Spec.positional f.radix ds : Int) ≤ llong.max →
      (f.radix ^ (ds.length - 1) : Nat) ≤ llong.max → f.Admits fs.length →
      ∃ v, parseFloat e rnd s f = .ok v := by
  intro h
  have ht : TextOf .char8 [0x31#8, 0x2E#8] [49, 46] :=
    ⟨⟨by unfold Spec.IsText; decide, by decide⟩, by simp⟩
  have hn : Spec.RealNumeral 10 none false 46 none [49, 46] false [1] [] :=
    ⟨[49], ⟨[], [49], rfl, ⟨by simp, by decide, [49], by decide, rfl⟩, .inl ⟨rfl, rfl⟩⟩, by simp,
      .inr ⟨[], rfl, by decide⟩⟩
  obtain ⟨v, h1⟩ := h .char8 id { threePlaces with placeLimit := .upTo } _ _ false [1] []
    (by unfold FloatFormat.Valid; decide) ht (fun _ h => h) hn (by decide) (by decide) (by decide)
    (by simp [FloatFormat.Admits])
  rw [(C109_partial .char8 id { threePlaces with placeLimit := .upTo } _ _ false [1] []
    (by unfold FloatFormat.Valid; decide) ht (fun _ h => h) hn (by decide)
    (by decide) (by decide)).1 (by simp [RadixCharacter.char, FloatFormat.default])] at h1
  cases h1

/-! ### C110 -/

/-- What is reported: a failure in the integral part with the reason that `parse_integer` gives for
it, whatever its encoding; otherwise a character in the fraction part that is no digit, as a wrong
place limit.  Missing: the right reason for such characters; undefined behaviour in
`std::tolower`; characters outside of the Basic Multilingual Plane in UTF-16. -/
theorem C110_partial (e : Enc) (rnd : ℚ → ℚ) (f : FloatFormat) (s : Str e) (cs : List Nat)
    (hf : f.Valid) (ht : TextOf e s cs) (hb : e.form = .utf16 → ∀ c ∈ cs, Spec.IsBmp c) :
    (∀ (e' : Enc) (s' : Str e') (k : ParseFailure), TextOf e' s' (integralPart f cs) →
      parseInteger e' .llong s' ⟨f.radix, f.sign, f.separator⟩ = .throw (.parseFailed k) →
      parseFloat e rnd s f = .throw (.parseFailed k))
    ∧ (∀ (e' : Enc) (s' : Str e') (v : Int) (tail : List Nat), TextOf e' s' (integralPart f cs) →
      parseInteger e' .llong s' ⟨f.radix, f.sign, f.separator⟩ = .ok v →
      cs = integralPart f cs ++ f.radixCharacter.char :: tail → (∀ q, 1 ≤ q → 1 ≤ rnd q) →
      (∀ c ∈ tail, f.radix < 10 ∨ c ≤ 255) → (∃ c ∈ tail, ¬ Spec.IsDigit f.radix c) →
      parseFloat e rnd s f = .throw (.parseFailed .wrongPlaceLimit)) := by
  obtain ⟨hrc, hsplit⟩ := split_text f cs
  generalize hhd : integralPart f cs = head at *
  have hint : ∀ c ∈ head, c ∈ cs := by
    rcases hsplit with ⟨h, _⟩ | ⟨tail, h⟩
    · intro c hc; rw [h]; exact hc
    · intro c hc; rw [h]; exact List.mem_append_left _ hc
  have hthead : TextOf .char32 (encs .char32 head) head :=
    textOf_encs .char32 head (fun c hc => ht.1.1 c (hint c hc)) (by simp)
  have hsame : ∀ (e' : Enc) (s' : Str e'), TextOf e' s' head →
      parseInteger e' .llong s' ⟨f.radix, f.sign, f.separator⟩
        = parseInteger .char32 .llong (encs .char32 head) ⟨f.radix, f.sign, f.separator⟩ := by
    intro e' s' h
    rw [h.eq, parseInteger_encs e' _ _ _ h.bwd, parseInteger_encs .char32 _ _ _ hthead.bwd]
  refine ⟨fun e' s' k h hk => ?_, fun e' s' v tail h hv hcs hr h255 hno => ?_⟩
  · rw [hsame e' s' h] at hk
    rcases hsplit with ⟨rfl, -⟩ | ⟨tail, rfl⟩
    · rw [parseFloat_whole rnd hf ht hb hrc, hk]
      rfl
    · rw [parseFloat_parts rnd hf ht hb hrc, hk]
      rfl
  · rw [hsame e' s' h] at hv
    subst hcs
    have hne : tail ≠ [] := by
      rintro rfl
      simp at hno
    rw [parseFloat_parts rnd hf ht hb hrc, hv, Outcome.ok_bind, if_neg (fun h => hne h.1),
      if_neg (fun h => hne h.1), parseFraction_stop hf.2 hf.1 hr tail le_rfl
        (fun c hc => ⟨(ht.1.1 c (by simp [hc])).1, h255 c hc⟩) (by
          obtain ⟨c, hc, hcd⟩ := hno
          exact fun h => hcd (h c hc))]
    rfl

theorem text_oneX : TextOf .char8 [0x31#8, 0x2E#8, 0x78#8] [49, 46, 120] :=
  ⟨⟨by unfold Spec.IsText; decide, by decide⟩, by simp⟩

/-- The `x` in `1.x` is reported as a wrong place limit, although there is none. -/
theorem C110_violated :
    ¬ ∀ (e : Enc) (rnd : ℚ → ℚ) (f : FloatFormat) (s : Str e) (cs tail : List Nat), f.Valid →
      TextOf e s cs → (∀ q, 1 ≤ q → 1 ≤ rnd q) →
      cs = integralPart f cs ++ f.radixCharacter.char :: tail →
      (∃ neg ds, Spec.Numeral f.radix f.separator.char (f.sign = .alwaysShow) (integralPart f cs) neg ds
        ∧ (Spec.positional f.radix ds : Int) ≤ llong.max) →
      (∀ c ∈ cs, c ≤ 255) → (∃ c ∈ tail, ¬ Spec.IsDigit f.radix c) →
      parseFloat e rnd s f = .throw (.parseFailed .digitCharacterExpected) := by
  intro h
  have h1 := h .char8 id .default _ _ [120] (by unfold FloatFormat.Valid; decide) text_oneX
    (fun _ h => h) (by decide)
    ⟨false, [1], ⟨[], [49], by decide, ⟨by simp, by decide, [49], by decide, rfl⟩, .inl ⟨rfl, rfl⟩⟩,
      by decide⟩ (by decide) ⟨120, by simp, by decide⟩
  rw [(C110_partial .char8 id .default _ _ (by unfold FloatFormat.Valid; decide) text_oneX
    (by simp [Enc.form])).2 .char8 [0x31#8] 1 [120]
      ⟨⟨by unfold Spec.IsText; decide, by decide⟩, by simp⟩ (by decide) (by decide) (fun _ h => h)
      (by decide) ⟨120, by simp, by decide⟩] at h1
  cases h1

end Cmp
