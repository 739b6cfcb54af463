import Verif.Proofs.NumberFormat

/-
Helper lemmas: what `parse_integer` accepts, and that it never does anything undefined for
unsigned types and characters below 256.
-/

namespace Cmp

open IntTy

theorem not_isDigit_sign {r c : Nat} (h : c = 45 ∨ c = 43) : ¬ Spec.IsDigit r c := by
  rw [isDigit_iff]; omega

theorem isRadixDigit_true {c r : Nat} (h36 : r ≤ 36) (hc : c ≤ 0x10FFFF)
    (h : isRadixDigit (BitVec.ofNat 32 c) r = .ok true) : Spec.IsDigit r c := by
  by_cases hok : r < 10 ∨ c ≤ 255
  · rw [isRadixDigit_eq h36 (by omega) hok] at h
    simpa using h
  · exfalso
    unfold isRadixDigit at h
    rw [if_neg (by omega), tolower, if_neg] at h
    · simp at h
    · rintro (h1 | h1)
      · rw [BitVec.toNat_ofNat, Nat.mod_eq_of_lt (by omega)] at h1; omega
      · have := congrArg BitVec.toNat h1
        rw [BitVec.toNat_ofNat, Nat.mod_eq_of_lt (by omega), BitVec.toNat_ofNat] at this
        omega

theorem prependDigit_ok_fields {T : IntTy} {r : Nat} {d : Int} {st st' : ParseState}
    (h : prependDigit T r d st = .ok st') :
    st'.counted = st.counted + 1 ∧ st'.signFound = st.signFound ∧ st'.negate = st.negate := by
  unfold prependDigit at h
  simp only [Outcome.bind_eq_ok] at h
  obtain ⟨p, _, m, _, s, _, h⟩ := h
  cases h
  exact ⟨rfl, rfl, rfl⟩

theorem getNextDigit_ok_isDigit {c r : Nat} {d : Int} (h36 : r ≤ 36) (hc : c ≤ 0x10FFFF)
    (h : getNextDigit (BitVec.ofNat 32 c) r = .ok d) : Spec.IsDigit r c := by
  unfold getNextDigit digitCharacterToInteger at h
  rcases isRadixDigit_defined (c := BitVec.ofNat 32 c) (r := r) with ⟨b, hb⟩ | hb
  · rw [hb] at h
    cases b with
    | true => exact isRadixDigit_true h36 hc hb
    | false => simp [reportNonDigit] at h
  · rw [hb] at h
    simp at h

/-- A character other than a sign that passes the loop body is the separator, where one is due,
or a digit, elsewhere. -/
theorem parseStep_ok {T : IntTy} {f : IntegerFormat} (h36 : f.radix ≤ 36)
    {st st' : ParseState} {c : Nat} (hc : c ≤ 0x10FFFF)
    (hns : ¬ (c = 45 ∨ c = 43) ∨ (¬ SignOk f.sign c ∧ st.signFound = false))
    (h : parseStep T f st (BitVec.ofNat 32 c) = .ok st') :
    st'.signFound = st.signFound
    ∧ ((AtSep f st ∧ f.separator.char = some c ∧ st'.counted = 0)
      ∨ (¬ AtSep f st ∧ Spec.IsDigit f.radix c ∧ st'.counted = st.counted + 1)) := by
  by_cases ha : AtSep f st
  · have hsome := sep_isSome ha.2
    cases hs : f.separator.char with
    | none => rw [hs] at hsome; simp at hsome
    | some s =>
      by_cases hcs : c = s
      · subst hcs
        rw [parseStep_sep T ha.1 hs] at h
        cases h
        exact ⟨rfl, .inl ⟨ha, rfl, rfl⟩⟩
      · rw [parseStep_nosep T ha.1 hs (by omega) hcs hns] at h
        simp at h
  · have e : checkForSign (BitVec.ofNat 32 c) st f.sign = .ok (false, st) := by
      rcases hns with hs | ⟨hs, hf⟩
      · exact checkForSign_other (by omega) hs st
      · exact checkForSign_unaccepted (by omega) st hs hf
    rw [parseStep_notAtSep T ha, e, Outcome.ok_bind] at h
    simp only [Bool.false_eq_true, if_false] at h
    rcases isRadixDigit_defined (c := BitVec.ofNat 32 c) (r := f.radix) with ⟨b, hb⟩ | hb
    · rw [hb, Outcome.ok_bind] at h
      cases b with
      | false => simp [reportNonDigit] at h
      | true =>
        simp only [Bool.not_true, Bool.false_eq_true, if_false, Outcome.bind_eq_ok] at h
        obtain ⟨d, _, h⟩ := h
        obtain ⟨h1, h2, h3⟩ := prependDigit_ok_fields h
        exact ⟨h2, .inr ⟨ha, isRadixDigit_true h36 hc hb, h1⟩⟩
    · rw [hb] at h
      simp at h

/-- Sign-free text that passes the loop is grouped digits, possibly with one more separator at
the left end. -/
theorem parseFold_ok {T : IntTy} {f : IntegerFormat} (h36 : f.radix ≤ 36) (rs : List Nat) :
    ∀ (st st' : ParseState), (∀ c ∈ rs, c ≤ 0x10FFFF ∧ ¬ (c = 45 ∨ c = 43)) →
      parseFold T f st rs = .ok st' →
      st'.signFound = st.signFound
      ∧ ∃ l, (∀ c ∈ l, Spec.IsDigit f.radix c)
        ∧ (rs = groupFrom f.separator.char st.counted l
          ∨ ∃ s, f.separator.char = some s ∧ rs = groupFrom f.separator.char st.counted l ++ [s]
            ∧ (l ≠ [] ∨ st.counted = 3)) := by
  induction rs with
  | nil =>
    intro st st' _ h
    rw [parseFold_nil] at h
    cases h
    exact ⟨rfl, [], by simp, .inl rfl⟩
  | cons c rs ih =>
    intro st st' hall h
    rw [parseFold_cons, Outcome.bind_eq_ok] at h
    obtain ⟨st1, h1, h2⟩ := h
    have hc := hall c (by simp)
    obtain ⟨hsf1, hcase⟩ := parseStep_ok h36 hc.1 (.inl hc.2) h1
    obtain ⟨hsf2, l, hl, hrs⟩ := ih st1 st' (fun x hx => hall x (by simp [hx])) h2
    refine ⟨hsf2.trans hsf1, ?_⟩
    rcases hcase with ⟨ha, hs, hk⟩ | ⟨ha, hd, hk⟩
    · have h3 := ha.1
      rw [hk] at hrs
      rcases hrs with hrs | ⟨s, hs', hrs, hne⟩
      · by_cases hl0 : l = []
        · subst hl0
          refine ⟨[], by simp, .inr ⟨c, hs, ?_, .inr h3⟩⟩
          rw [hrs]; rfl
        · refine ⟨l, hl, .inl ?_⟩
          rw [h3, hs, groupFrom_three c l hl0, ← hs, hrs]
      · have hl0 : l ≠ [] := by
          rcases hne with h | h
          · exact h
          · omega
        refine ⟨l, hl, .inr ⟨s, hs', ?_, .inl hl0⟩⟩
        rw [h3, hs, groupFrom_three c l hl0, ← hs, hrs]; rfl
    · have hgf : groupFrom f.separator.char st.counted (c :: l)
          = c :: groupFrom f.separator.char (st.counted + 1) l := by
        cases hs : f.separator.char with
        | none => rfl
        | some s =>
          have : st.counted ≠ 3 := by
            intro h3
            refine ha ⟨h3, ?_⟩
            intro hn
            rw [hn] at hs
            simp [Separator.char] at hs
          exact groupFrom_ne _ this _ _
      rw [hk] at hrs
      have hl' : ∀ x ∈ c :: l, Spec.IsDigit f.radix x := by
        intro x hx
        rcases List.mem_cons.mp hx with rfl | hx
        · exact hd
        · exact hl x hx
      rcases hrs with hrs | ⟨s, hs', hrs, _⟩
      · exact ⟨c :: l, hl', .inl (by rw [hgf, hrs])⟩
      · exact ⟨c :: l, hl', .inr ⟨s, hs', by rw [hgf, hrs]; rfl, .inl (by simp)⟩⟩

/-- The digit values of a list of digit characters. -/
theorem isDigit_values {r : Nat} (l : List Nat) (h : ∀ c ∈ l, Spec.IsDigit r c) :
    ∃ ds : List Nat, l.map Spec.digitValue = ds.map some ∧ ∀ d ∈ ds, d < r := by
  induction l with
  | nil => exact ⟨[], rfl, by simp⟩
  | cons c l ih =>
    obtain ⟨ds, e, hd⟩ := ih (fun x hx => h x (by simp [hx]))
    obtain ⟨d, hv, hlt⟩ := h c (by simp)
    exact ⟨d :: ds, by simp [e, hv], by
      intro x hx
      rcases List.mem_cons.mp hx with rfl | hx
      · exact hlt
      · exact hd x hx⟩

/-- Sign-free text accepted from the start of the loop is a spelled digit sequence, unless it
begins with a separator. -/
theorem body_of_ok {T : IntTy} {f : IntegerFormat} (h36 : f.radix ≤ 36) {c : Nat}
    {rs : List Nat} {st' : ParseState} {o : Int}
    (hd : Spec.IsDigit f.radix c) (hall : ∀ c ∈ rs, c ≤ 0x10FFFF ∧ ¬ (c = 45 ∨ c = 43))
    (h : parseFold T f ⟨o, 1, 1, false, false⟩ rs = .ok st')
    (hlead : ∀ s, f.separator.char = some s → (c :: rs).getLast? ≠ some s) :
    st'.signFound = false ∧ ∃ ds, Spec.Spells f.radix f.separator.char (c :: rs).reverse ds := by
  obtain ⟨hsf, l, hl, hrs⟩ := parseFold_ok h36 rs _ st' hall h
  refine ⟨hsf, ?_⟩
  rcases hrs with hrs | ⟨s, hs, hrs, _⟩
  · obtain ⟨ds, hm, hlt⟩ := isDigit_values (c :: l) (by
      intro x hx
      rcases List.mem_cons.mp hx with rfl | hx
      · exact hd
      · exact hl x hx)
    refine ⟨ds.reverse, ?_, by simpa using hlt, (c :: l).reverse, ?_, ?_⟩
    · cases ds with
      | nil => simp at hm
      | cons x xs => simp
    · rw [List.map_reverse, hm, List.map_reverse]
    · rw [group_eq, List.reverse_reverse, groupFrom_ne _ (by omega), hrs]
  · exfalso
    refine hlead s hs ?_
    rw [hrs, ← List.cons_append, List.getLast?_concat]

/-! ### Definedness for unsigned types -/

/-- A value or a parse failure. -/
def OkOrFailed {α : Type} (o : Outcome α) : Prop :=
  (∃ a, o = .ok a) ∨ ∃ k, o = .throw (.parseFailed k)

theorem parseStep_unsigned {T : IntTy} (h : T.Std) (hu : T.signed = false) {f : IntegerFormat}
    (h36 : f.radix ≤ 36) {st : ParseState} (ho : T.Has st.output) (hp : T.Has st.power) {c : Nat}
    (hc : c ≤ 0x10FFFF) (hok : f.radix < 10 ∨ c ≤ 255) :
    (∃ st', parseStep T f st (BitVec.ofNat 32 c) = .ok st' ∧ T.Has st'.output ∧ T.Has st'.power)
      ∨ ∃ k, parseStep T f st (BitVec.ofNat 32 c) = .throw (.parseFailed k) := by
  by_cases hsg : c = 45 ∨ c = 43
  · cases hf : st.signFound with
    | true => exact .inr ⟨_, parseStep_second T st hsg hf⟩
    | false =>
      by_cases hok' : SignOk f.sign c
      · exact .inl ⟨_, parseStep_sign T st hok' hf, ho, hp⟩
      · right
        by_cases ha : AtSep f st
        · have hsome := sep_isSome ha.2
          cases hs : f.separator.char with
          | none => rw [hs] at hsome; simp at hsome
          | some s =>
            refine ⟨_, parseStep_nosep T ha.1 hs (by omega) ?_ (.inr ⟨hok', hf⟩)⟩
            have := Separator.char_eq_some hs
            omega
        · exact ⟨_, parseStep_nondigit T h36 ha (by omega) hok (not_isDigit_sign hsg)
            (.inr ⟨hok', hf⟩)⟩
  · by_cases ha : AtSep f st
    · have hsome := sep_isSome ha.2
      cases hs : f.separator.char with
      | none => rw [hs] at hsome; simp at hsome
      | some s =>
        by_cases hcs : c = s
        · subst hcs
          exact .inl ⟨_, parseStep_sep T ha.1 hs, ho, hp⟩
        · exact .inr ⟨_, parseStep_nosep T ha.1 hs (by omega) hcs (.inl hsg)⟩
    · by_cases hd : Spec.IsDigit f.radix c
      · obtain ⟨d, hv, hlt⟩ := hd
        left
        refine ⟨_, (parseStep_digit T h36 ha hv hlt).trans
          (prependDigit_modular h hu h36 hlt st ho hp), has_wrap h _, has_wrap h _⟩
      · exact .inr ⟨_, parseStep_nondigit T h36 ha (by omega) hok hd (.inl hsg)⟩

theorem parseFold_unsigned {T : IntTy} (h : T.Std) (hu : T.signed = false) {f : IntegerFormat}
    (h36 : f.radix ≤ 36) (rs : List Nat) :
    ∀ (st : ParseState), T.Has st.output → T.Has st.power →
      (∀ c ∈ rs, c ≤ 0x10FFFF ∧ (f.radix < 10 ∨ c ≤ 255)) → OkOrFailed (parseFold T f st rs) := by
  induction rs with
  | nil => intro st _ _ _; exact .inl ⟨_, rfl⟩
  | cons c rs ih =>
    intro st ho hp hall
    have hc := hall c (by simp)
    rw [parseFold_cons]
    rcases parseStep_unsigned h hu h36 ho hp hc.1 hc.2 with ⟨st', e, ho', hp'⟩ | ⟨k, e⟩
    · rw [e, Outcome.ok_bind]
      exact ih st' ho' hp' (fun x hx => hall x (by simp [hx]))
    · rw [e]
      exact .inr ⟨k, rfl⟩

/-- For unsigned types and characters below 256 `parse_integer` returns or reports a failure. -/
theorem parseRev_unsigned {T : IntTy} (h : T.Std) (hu : T.signed = false) {f : IntegerFormat}
    (h36 : f.radix ≤ 36) (rs : List Nat)
    (hall : ∀ c ∈ rs, c ≤ 0x10FFFF ∧ (f.radix < 10 ∨ c ≤ 255)) :
    OkOrFailed (parseRev T f rs) := by
  cases rs with
  | nil => exact .inr ⟨_, rfl⟩
  | cons c rs =>
    have hc := hall c (by simp)
    rw [parseRev]
    by_cases hd : Spec.IsDigit f.radix c
    · obtain ⟨d, hv, hlt⟩ := hd
      rw [getNextDigit_digit h36 hv hlt, Outcome.ok_bind]
      have h1 : T.Has 1 := has_of_nonneg h (by omega) (by have := max_ge h; omega)
      rcases parseFold_unsigned h hu h36 rs ⟨T.wrap d, 1, 1, false, false⟩ (has_wrap h _) h1
        (fun x hx => hall x (by simp [hx])) with ⟨st, e⟩ | ⟨k, e⟩
      · unfold parseFold at e
        rw [e, Outcome.ok_bind]
        unfold parseFinish
        split
        · rw [if_neg (by simp [hu])]; exact .inr ⟨_, rfl⟩
        · exact .inl ⟨_, rfl⟩
      · unfold parseFold at e
        rw [e]
        exact .inr ⟨k, rfl⟩
    · rw [getNextDigit_nondigit h36 (by omega) hc.2 hd]
      exact .inr ⟨_, rfl⟩

/-! ### Positions of the separators -/

theorem groupRev_index {s : Nat} : ∀ (l : List Nat) (i : Nat),
    (i % 4 = 3 → i < (Spec.groupRev s l).length → (Spec.groupRev s l)[i]? = some s)
    ∧ (i % 4 ≠ 3 → (Spec.groupRev s l)[i]? = l[i - i / 4]?)
    ∧ (l ≠ [] → (Spec.groupRev s l).length % 4 ≠ 0)
  | [], i => by simp [Spec.groupRev]
  | [a], i => by
    simp only [Spec.groupRev]
    refine ⟨fun h1 h2 => ?_, fun h1 => ?_, by simp⟩
    · simp at h2; omega
    · rcases Nat.lt_or_ge i 4 with h | h
      · rw [Nat.div_eq_of_lt h, Nat.sub_zero]
      · rw [List.getElem?_eq_none (by simp; omega), List.getElem?_eq_none (by simp; omega)]
  | [a, b], i => by
    simp only [Spec.groupRev]
    refine ⟨fun h1 h2 => ?_, fun h1 => ?_, by simp⟩
    · simp at h2; omega
    · rcases Nat.lt_or_ge i 4 with h | h
      · rw [Nat.div_eq_of_lt h, Nat.sub_zero]
      · rw [List.getElem?_eq_none (by simp; omega), List.getElem?_eq_none (by simp; omega)]
  | [a, b, c], i => by
    simp only [Spec.groupRev]
    refine ⟨fun h1 h2 => ?_, fun h1 => ?_, by simp⟩
    · simp at h2; omega
    · rcases Nat.lt_or_ge i 4 with h | h
      · rw [Nat.div_eq_of_lt h, Nat.sub_zero]
      · rw [List.getElem?_eq_none (by simp; omega), List.getElem?_eq_none (by simp; omega)]
  | a :: b :: c :: d :: l, i => by
    have ih := groupRev_index (s := s) (d :: l) (i - 4)
    obtain ⟨ih1, ih2, ih3⟩ := ih
    have e : Spec.groupRev s (a :: b :: c :: d :: l)
        = a :: b :: c :: s :: Spec.groupRev s (d :: l) := by rw [Spec.groupRev]
    have hget : ∀ j, 4 ≤ j → (Spec.groupRev s (a :: b :: c :: d :: l))[j]?
        = (Spec.groupRev s (d :: l))[j - 4]? := by
      intro j hj
      obtain ⟨j', rfl⟩ : ∃ j', j = j' + 4 := ⟨j - 4, by omega⟩
      rw [e]
      simp
    refine ⟨fun h1 h2 => ?_, fun h1 => ?_, fun _ => ?_⟩
    · rcases Nat.lt_or_ge i 4 with h | h
      · have : i = 3 := by omega
        subst this
        rw [e]; rfl
      · rw [hget i h]
        apply ih1 (by omega)
        rw [e] at h2
        simp only [List.length_cons] at h2
        omega
    · rcases Nat.lt_or_ge i 4 with h | h
      · have : i = 0 ∨ i = 1 ∨ i = 2 := by omega
        rw [e]
        rcases this with rfl | rfl | rfl <;> rfl
      · rw [hget i h, ih2 (by omega)]
        have : i - i / 4 = (i - 4 - (i - 4) / 4) + 3 := by omega
        rw [this]
        rfl
    · have := ih3 (by simp)
      rw [e]
      simp only [List.length_cons]
      omega

end Cmp
