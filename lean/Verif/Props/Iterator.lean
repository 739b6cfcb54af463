import Verif.Model.Iterator
import Verif.Props.Unicode

/-
Iterators as objects (C79, C80, C81) and the size of strings (C82).
-/

namespace Cmp

/-! ### Auxiliary facts -/

theorem Iter.moveTo_eq (f : Nat → Outcome Nat) (i : Nat) :
    Iter.moveTo f i = match f i with
      | .ok j => (.ok (), j)
      | .throw e => (.throw e, i)
      | .terminate => (.terminate, i)
      | .ub => (.ub, i)
      | .hang => (.hang, i) := rfl

/-- What the object does is what the position does, as far as it succeeds or fails. -/
theorem Iter.finish8_outcome (s : List Char8) (n i : Nat) :
    (Iter.finish8 s n i).1 = (do let _ ← Utf8.advFinish s n i; .ok ()) ∧
      ∀ j, Utf8.advFinish s n i = .ok j → (Iter.finish8 s n i).2 = j + 1 := by
  induction n generalizing i with
  | zero => exact ⟨rfl, fun j h => by cases h; rfl⟩
  | succ n ih =>
    simp only [Utf8.advFinish, Iter.finish8]
    rw [M.bind_ok (M.get_apply _)]
    by_cases he : i = s.length
    · rw [if_pos he, if_pos he]
      exact ⟨rfl, fun j h => by cases h⟩
    · rw [if_neg he, if_neg he]
      cases hu : unitAt s (i + 1) with
      | ok u =>
        rw [M.bind_ok (M.lift_apply _ _), Outcome.ok_bind]
        by_cases ht : isTrailingByte u
        · simp only [ht, Bool.not_true, Bool.false_eq_true, if_false]
          rw [M.bind_ok (M.modify_apply _ _)]
          exact ih (i + 1)
        · simp only [ht, Bool.not_false, if_true]
          exact ⟨rfl, fun j h => by cases h⟩
      | throw x => exact ⟨rfl, fun j h => by cases h⟩
      | terminate => exact ⟨rfl, fun j h => by cases h⟩
      | ub => exact ⟨rfl, fun j h => by cases h⟩
      | hang => exact ⟨rfl, fun j h => by cases h⟩

theorem Iter.moveTo_outcome (f : Nat → Outcome Nat) (i : Nat) :
    (Iter.moveTo f i).1 = (do let _ ← f i; .ok ()) ∧
      ∀ j, f i = .ok j → (Iter.moveTo f i).2 = j := by
  rw [Iter.moveTo_eq]
  cases f i <;> simp

theorem Iter.inc_outcome (e : Enc) (s : Str e) (i : Nat) :
    (Iter.inc e s i).1 = (do let _ ← advance e s i; .ok ()) ∧
      ∀ j, advance e s i = .ok j → (Iter.inc e s i).2 = j := by
  cases e with
  | char8 =>
    simp only [Iter.inc, advance, Utf8.advance, Iter.advance8]
    rw [M.bind_ok (M.get_apply _)]
    cases hu : unitAt s i with
    | ok u =>
      rw [M.bind_ok (M.lift_apply _ _), Outcome.ok_bind]
      cases hl : initializeUtf8Sequence u with
      | ok p =>
        rw [M.bind_ok (M.lift_apply _ _), Outcome.ok_bind]
        have h := Iter.finish8_outcome s (p.1 - 1) i
        refine ⟨h.1.trans ?_, fun j hj => ?_⟩
        · cases Utf8.advFinish s (p.1 - 1) i <;> rfl
        · cases ha : Utf8.advFinish s (p.1 - 1) i with
          | ok k =>
            rw [ha, Outcome.ok_bind] at hj
            cases hj
            exact h.2 k ha
          | throw => rw [ha] at hj; cases hj
          | terminate => rw [ha] at hj; cases hj
          | ub => rw [ha] at hj; cases hj
          | hang => rw [ha] at hj; cases hj
      | throw x => exact ⟨rfl, fun j h => by cases h⟩
      | terminate => exact ⟨rfl, fun j h => by cases h⟩
      | ub => exact ⟨rfl, fun j h => by cases h⟩
      | hang => exact ⟨rfl, fun j h => by cases h⟩
    | throw x => exact ⟨rfl, fun j h => by cases h⟩
    | terminate => exact ⟨rfl, fun j h => by cases h⟩
    | ub => exact ⟨rfl, fun j h => by cases h⟩
    | hang => exact ⟨rfl, fun j h => by cases h⟩
  | narrow => exact Iter.moveTo_outcome _ _
  | char16 => exact Iter.moveTo_outcome _ _
  | char32 => exact Iter.moveTo_outcome _ _
  | wide2 => exact Iter.moveTo_outcome _ _
  | wide4 => exact Iter.moveTo_outcome _ _

/-- A trailing byte, by its value. -/
def IsTrailing (u : Char8) : Prop := 0x80 ≤ u.toNat ∧ u.toNat < 0xC0

theorem isTrailingByte_iff (u : Char8) : isTrailingByte u = true ↔ IsTrailing u := by
  unfold isTrailingByte IsTrailing
  revert u
  decide +kernel

/-- Where `finish_sequence` leaves the iterator when it throws. -/
theorem Iter.finish8_throw (s : List Char8) (n i : Nat) (hi : i < s.length) (x : Exn)
    (h : (Iter.finish8 s n i).1 = .throw x) :
    x = .invalidUnicodeEncoding
      ∧ i ≤ (Iter.finish8 s n i).2 ∧ (Iter.finish8 s n i).2 + 1 < s.length
      ∧ (∀ k, i < k → k ≤ (Iter.finish8 s n i).2 → ∃ u, s[k]? = some u ∧ IsTrailing u)
      ∧ ∃ u, s[(Iter.finish8 s n i).2 + 1]? = some u ∧ ¬ IsTrailing u := by
  induction n generalizing i with
  | zero => cases h
  | succ n ih =>
    simp only [Iter.finish8] at h ⊢
    rw [M.bind_ok (M.get_apply _), if_neg (by omega)] at h ⊢
    cases hu : s[i + 1]? with
    | none =>
      rw [show unitAt s (i + 1) = .ub by simp [unitAt, hu]] at h
      cases h
    | some u =>
      have hlt : i + 1 < s.length := (List.getElem?_eq_some_iff.mp hu).1
      rw [show unitAt s (i + 1) = .ok u by simp [unitAt, hu],
        M.bind_ok (M.lift_apply _ _)] at h ⊢
      by_cases ht : isTrailingByte u
      · simp only [ht, Bool.not_true, Bool.false_eq_true, if_false] at h ⊢
        rw [M.bind_ok (M.modify_apply _ _)] at h ⊢
        obtain ⟨h1, h2, h3, h4, h5⟩ := ih (i + 1) hlt h
        refine ⟨h1, by omega, h3, fun k hk hk' => ?_, h5⟩
        by_cases he : k = i + 1
        · exact ⟨u, he ▸ hu, (isTrailingByte_iff u).mp ht⟩
        · exact h4 k (by omega) hk'
      · simp only [ht, Bool.not_false, if_true, M.throw_apply] at h ⊢
        cases h
        exact ⟨rfl, Nat.le_refl _, hlt, fun k hk hk' => by omega,
          u, hu, fun hc => ht ((isTrailingByte_iff u).mpr hc)⟩

/-! ### C79 -/

/-- The claim: an increment that throws leaves the iterator where it was. -/
def StaysOnFailure (e : Enc) (s : Str e) (i : Nat) : Prop :=
  ∀ x, (Iter.inc e s i).1 = .throw x → (Iter.inc e s i).2 = i

/-- On E2 82 41, `++it` throws and leaves the iterator at 82. -/
theorem C79_violated :
    ¬ ∀ (e : Enc) (s : Str e) (i : Nat), i < s.length → StaysOnFailure e s i := by
  intro h
  exact absurd (h .char8 [0xE2#8, 0x82#8, 0x41#8] 0 (by decide) .invalidUnicodeEncoding
    (by decide)) (by decide)

/-- It holds for every character type but `char8_t`. -/
theorem C79_partial (e : Enc) (he : e ≠ .char8) (s : Str e) (i : Nat) : StaysOnFailure e s i := by
  have key : ∀ f : Nat → Outcome Nat, ∀ x, (Iter.moveTo f i).1 = .throw x →
      (Iter.moveTo f i).2 = i := by
    intro f x h
    rw [Iter.moveTo_eq] at h ⊢
    cases hf : f i with
    | ok j => rw [hf] at h; cases h
    | throw => rfl
    | terminate => rfl
    | ub => rfl
    | hang => rfl
  intro x h
  cases e with
  | char8 => exact absurd rfl he
  | narrow => exact key _ x h
  | char16 => exact key _ x h
  | char32 => exact key _ x h
  | wide2 => exact key _ x h
  | wide4 => exact key _ x h

/-- A `char8_t` iterator that was before the end is left before the end: behind the trailing bytes
that were there, in front of a unit that is not one.  If it has moved, it is at a trailing byte, and
every further increment throws and leaves it there. -/
theorem C79_partial_utf8 (s : Str .char8) (i : Nat) (hi : i < s.length) (x : Exn)
    (h : (Iter.inc .char8 s i).1 = .throw x) :
    x = .invalidUnicodeEncoding
      ∧ i ≤ (Iter.inc .char8 s i).2 ∧ (Iter.inc .char8 s i).2 < s.length
      ∧ (∀ k, i < k → k ≤ (Iter.inc .char8 s i).2 → ∃ u, s[k]? = some u ∧ IsTrailing u)
      ∧ ((Iter.inc .char8 s i).2 ≠ i →
          Iter.inc .char8 s (Iter.inc .char8 s i).2 =
            (.throw .invalidUnicodeEncoding, (Iter.inc .char8 s i).2)) := by
  have stuck : ∀ j u, s[j]? = some u → IsTrailing u →
      Iter.inc .char8 s j = (.throw .invalidUnicodeEncoding, j) := by
    intro j u hj hu
    simp only [Iter.inc, Iter.advance8]
    rw [M.bind_ok (M.get_apply _), show unitAt s j = .ok u by simp [unitAt, hj],
      M.bind_ok (M.lift_apply _ _)]
    have : initializeUtf8Sequence u = .throw .invalidUnicodeEncoding := by
      clear hj
      revert hu
      unfold IsTrailing
      revert u
      decide +kernel
    rw [this]
    rfl
  have hs : s[i]? = some s[i] := List.getElem?_eq_getElem hi
  have hinc : Iter.inc .char8 s i =
      (do let (len, _) ← M.lift (initializeUtf8Sequence s[i])
          Iter.finish8 s (len - 1)) i := by
    simp only [Iter.inc, Iter.advance8]
    rw [M.bind_ok (M.get_apply _), show unitAt s i = .ok s[i] by simp [unitAt, hs],
      M.bind_ok (M.lift_apply _ _)]
  cases hl : initializeUtf8Sequence s[i] with
  | ok p =>
    rw [hinc, hl, M.bind_ok (M.lift_apply _ _)] at h ⊢
    simp only at h ⊢
    obtain ⟨h1, h2, h3, h4, -⟩ := Iter.finish8_throw s (p.1 - 1) i hi x h
    refine ⟨h1, h2, by omega, h4, fun hne => ?_⟩
    obtain ⟨u, hu, ht⟩ := h4 _ (by omega) (Nat.le_refl _)
    exact stuck _ u hu ht
  | throw y =>
    rw [hinc, hl] at h ⊢
    have hy : y = .invalidUnicodeEncoding := by
      unfold initializeUtf8Sequence at hl
      repeat' split at hl
      all_goals cases hl
      rfl
    subst hy
    cases h
    exact ⟨rfl, Nat.le_refl _, hi, fun k hk hk' => absurd (Nat.lt_of_lt_of_le hk hk')
      (Nat.lt_irrefl _), fun hne => absurd rfl hne⟩
  | terminate => rw [hinc, hl] at h; cases h
  | ub => rw [hinc, hl] at h; cases h
  | hang => rw [hinc, hl] at h; cases h

example : Iter.inc .char8 [0xF0#8, 0x9F#8, 0x98#8, 0x41#8] 0 =
      (.throw .invalidUnicodeEncoding, 2)
    ∧ Iter.inc .char16 [0xD83D#16, 0x41#16] 0 = (.throw .invalidUnicodeEncoding, 0) := by
  decide

/-! ### C80 -/

/-- `n` times the same step. -/
def times (x : M Nat Unit) : Nat → M Nat Unit
  | 0 => pure ()
  | n + 1 => do
    x
    times x n

/-- `n` steps forward, or `-n` steps back. -/
def bySteps (forward back : M Nat Unit) (n : Int) : M Nat Unit :=
  if 0 ≤ n then times forward n.toNat else times back (-n).toNat

/-- The same outcome and, if nothing went wrong, the same position. -/
def SameMove (x y : Outcome Unit × Nat) : Prop := x.1 = y.1 ∧ (x.1 = .ok () → x.2 = y.2)

/-- `it += -1` on a `char8_t` iterator does not move it. -/
theorem C80_violated :
    ¬ ∀ (e : Enc) (s : Str e) (n : Int) (i : Nat), i ≤ s.length →
      SameMove (Iter.plusAssign e s n i) (bySteps (Iter.inc e s) (Iter.dec e s) n i) := by
  intro h
  exact absurd ((h .char8 [0x41#8, 0x42#8] (-1) 2 (by decide)).2 (by decide)) (by decide)

theorem Iter.go_eq (x : M Nat Unit) (n : Nat) : Iter.whilePositive.go x n = times x n := by
  induction n with
  | zero => rfl
  | succ n ih => simp only [Iter.whilePositive.go, times, ih]

theorem times_forward {α : Type} (s : List α) (n i : Nat) (hi : i ≤ s.length) :
    SameMove (times (Iter.moveTo (rawAdvance s)) n i)
      (if i + n ≤ s.length then (.ok (), i + n) else (.ub, i)) := by
  induction n generalizing i with
  | zero => simp [times, hi, SameMove]
  | succ n ih =>
    simp only [times]
    by_cases h : i < s.length
    · have : Iter.moveTo (rawAdvance s) i = (.ok (), i + 1) := by
        rw [Iter.moveTo_eq]; simp [rawAdvance, h]
      rw [M.bind_ok this]
      have := ih (i + 1) (by omega)
      rw [show i + 1 + n = i + (n + 1) by omega] at this
      by_cases hb : i + (n + 1) ≤ s.length
      · simpa [if_pos hb] using this
      · rw [if_neg hb] at this ⊢
        exact ⟨this.1, fun hc => absurd (this.1.symm.trans hc) (by simp)⟩
    · have : Iter.moveTo (rawAdvance s) i = (.ub, i) := by
        rw [Iter.moveTo_eq]; simp [rawAdvance, h]
      rw [M.bind_apply, this, if_neg (by omega)]
      exact ⟨rfl, fun hc => by cases hc⟩

theorem times_back (n i : Nat) :
    SameMove (times (M.noexcept (Iter.moveTo rawRetreat)) n i)
      (if n ≤ i then (.ok (), i - n) else (.ub, i)) := by
  induction n generalizing i with
  | zero => simp [times, SameMove]
  | succ n ih =>
    simp only [times]
    cases i with
    | zero =>
      rw [M.bind_apply, if_neg (by omega)]
      exact ⟨rfl, fun hc => by cases hc⟩
    | succ i =>
      have : M.noexcept (Iter.moveTo rawRetreat) (i + 1) = (.ok (), i) := rfl
      rw [M.bind_ok this]
      have := ih i
      by_cases hb : n ≤ i
      · simpa [hb, show i + 1 - (n + 1) = i - n by omega] using this
      · rw [if_neg hb] at this
        rw [if_neg (by omega)]
        exact ⟨this.1, fun hc => absurd (this.1.symm.trans hc) (by simp)⟩

theorem rawMove_steps {α : Type} (s : List α) (n : Int) (i : Nat) (hi : i ≤ s.length) :
    SameMove (Iter.rawMove s.length n i)
        (bySteps (Iter.moveTo (rawAdvance s)) (M.noexcept (Iter.moveTo rawRetreat)) n i)
      ∧ SameMove (M.noexcept (Iter.rawMove s.length n) i)
        (bySteps (Iter.moveTo (rawAdvance s)) (M.noexcept (Iter.moveTo rawRetreat)) n i) := by
  have key : SameMove (Iter.rawMove s.length n i)
      (bySteps (Iter.moveTo (rawAdvance s)) (M.noexcept (Iter.moveTo rawRetreat)) n i) := by
    unfold bySteps Iter.rawMove
    rw [Iter.moveTo_eq]
    by_cases h0 : 0 ≤ n
    · rw [if_pos h0]
      have h := times_forward s n.toNat i hi
      by_cases hb : i + n.toNat ≤ s.length
      · rw [if_pos hb] at h
        rw [if_pos ⟨by omega, by omega⟩]
        exact ⟨h.1.symm, fun _ => by rw [h.2 h.1]; simp only; omega⟩
      · rw [if_neg hb] at h
        rw [if_neg (by omega)]
        exact ⟨h.1.symm, fun hc => by cases hc⟩
    · rw [if_neg h0]
      have h := times_back (-n).toNat i
      by_cases hb : (-n).toNat ≤ i
      · rw [if_pos hb] at h
        rw [if_pos ⟨by omega, by omega⟩]
        exact ⟨h.1.symm, fun _ => by rw [h.2 h.1]; simp only; omega⟩
      · rw [if_neg hb] at h
        rw [if_neg (by omega)]
        exact ⟨h.1.symm, fun hc => by cases hc⟩
  refine ⟨key, ?_, ?_⟩
  · rw [M.noexcept_apply, ← key.1]
    simp only [Iter.rawMove, Iter.moveTo_eq]
    by_cases hb : 0 ≤ (i : Int) + n ∧ (i : Int) + n ≤ s.length
    · rw [if_pos hb]; rfl
    · rw [if_neg hb]; rfl
  · intro hc
    rw [M.noexcept_apply] at hc ⊢
    apply key.2
    simp only at hc
    cases hr : (Iter.rawMove s.length n i).1 <;> rw [hr] at hc <;> simp at hc ⊢

/-- Types whose code points are single units move by every offset, forward and back. -/
theorem C80_partial (e : Enc) (he : e = .narrow ∨ e = .char32 ∨ e = .wide4) (s : Str e) (n : Int)
    (i : Nat) (hi : i ≤ s.length) :
    SameMove (Iter.plusAssign e s n i) (bySteps (Iter.inc e s) (Iter.dec e s) n i)
      ∧ SameMove (Iter.minusAssign e s n i) (bySteps (Iter.inc e s) (Iter.dec e s) (-n) i) := by
  rcases he with rfl | rfl | rfl
  · exact ⟨(rawMove_steps s n i hi).1, (rawMove_steps s (-n) i hi).2⟩
  · exact ⟨(rawMove_steps s n i hi).1, (rawMove_steps s (-n) i hi).2⟩
  · exact ⟨(rawMove_steps s n i hi).1, (rawMove_steps s (-n) i hi).2⟩

theorem times_noexcept_retreat (s : Str .char8) (n i : Nat) :
    M.noexcept (times (Iter.moveTo (retreat .char8 s)) n) i = times (Iter.dec .char8 s) n i := by
  have hd : ∀ j, Iter.dec .char8 s j = Iter.moveTo (retreat .char8 s) j := by
    intro j
    have hn := utf8_retreat_noThrow s j
    simp only [Iter.dec, M.noexcept_apply, Iter.moveTo_eq, retreat]
    cases hr : Utf8.retreat s j with
    | throw x => exact absurd hr (hn x)
    | ok => rfl
    | terminate => rfl
    | ub => rfl
    | hang => rfl
  have hD : Iter.dec .char8 s = Iter.moveTo (retreat .char8 s) := funext hd
  rw [hD, M.noexcept_apply]
  have : ∀ n i x, (times (Iter.moveTo (retreat .char8 s)) n i).1 ≠ .throw x := by
    intro n
    induction n with
    | zero => intro i x h; cases h
    | succ n ih =>
      intro i x h
      simp only [times] at h
      rw [M.bind_apply] at h
      have hn := utf8_retreat_noThrow s i
      rw [Iter.moveTo_eq] at h
      cases hr : retreat .char8 s i with
      | ok j => rw [hr] at h; exact ih j x h
      | throw y => exact hn y hr
      | terminate => rw [hr] at h; cases h
      | ub => rw [hr] at h; cases h
      | hang => rw [hr] at h; cases h
  have h := this n i
  cases hr : times (Iter.moveTo (retreat .char8 s)) n i with
  | mk o j =>
    rw [hr] at h
    cases o with
    | throw x => exact absurd rfl (h x)
    | ok => rfl
    | terminate => rfl
    | ub => rfl
    | hang => rfl

/-- The other types move by offsets that are not negative: `+=` all of them, `-=` only `char8_t`.
A negative offset does nothing. -/
theorem C80_partial_nonnegative (e : Enc) (he : e = .char8 ∨ e = .char16 ∨ e = .wide2) (s : Str e)
    (n : Int) (i : Nat) :
    (0 ≤ n → Iter.plusAssign e s n i = bySteps (Iter.inc e s) (Iter.dec e s) n i)
      ∧ (0 ≤ n → e = .char8 →
          Iter.minusAssign e s n i = bySteps (Iter.inc e s) (Iter.dec e s) (-n) i)
      ∧ (n < 0 → Iter.plusAssign e s n i = (.ok (), i) ∧ Iter.minusAssign e s n i = (.ok (), i)) := by
  have hn : n < 0 → n.toNat = 0 := by omega
  have hback : 0 ≤ n → bySteps (Iter.inc e s) (Iter.dec e s) (-n) i =
      times (Iter.dec e s) n.toNat i := by
    intro h
    unfold bySteps
    by_cases h0 : n = 0
    · subst h0; rfl
    · rw [if_neg (by omega)]
      simp
  rcases he with rfl | rfl | rfl
  · refine ⟨fun h => ?_, fun h _ => ?_, fun h => ?_⟩
    · simp only [Iter.plusAssign, Iter.whilePositive, Iter.go_eq, bySteps, if_pos h]
    · rw [hback h]
      simp only [Iter.minusAssign, Iter.whilePositive, Iter.go_eq]
      exact times_noexcept_retreat s n.toNat i
    · simp only [Iter.plusAssign, Iter.minusAssign, Iter.whilePositive, hn h]
      exact ⟨rfl, rfl⟩
  · refine ⟨fun h => ?_, fun _ h' => (by cases h'), fun h => ?_⟩
    · simp only [Iter.plusAssign, Iter.whilePositive, Iter.go_eq, bySteps, if_pos h]
    · simp only [Iter.plusAssign, Iter.minusAssign, Iter.whilePositive, hn h]
      exact ⟨rfl, rfl⟩
  · refine ⟨fun h => ?_, fun _ h' => (by cases h'), fun h => ?_⟩
    · simp only [Iter.plusAssign, Iter.whilePositive, Iter.go_eq, bySteps, if_pos h]
    · simp only [Iter.plusAssign, Iter.minusAssign, Iter.whilePositive, hn h]
      exact ⟨rfl, rfl⟩

example : Iter.plusAssign .char32 [1#32, 2#32, 3#32] (-2) 3 = (.ok (), 1)
    ∧ Iter.minusAssign .char8 [0x41#8, 0xC3#8, 0xA9#8] 1 3 = (.ok (), 1)
    ∧ Iter.plusAssign .char8 [0x41#8, 0xC3#8, 0xA9#8] (-1) 3 = (.ok (), 3) := by decide

/-! ### C81 -/

/-- The postfix operators give the position before, do to the iterator what the prefix operators do
to it, and fail when those fail. -/
theorem C81_postfix (e : Enc) (s : Str e) (i : Nat) :
    (Iter.postInc e s i).2 = (Iter.inc e s i).2
      ∧ (Iter.postInc e s i).1 = (do let _ ← (Iter.inc e s i).1; .ok i)
      ∧ (Iter.postDec e s i).2 = (Iter.dec e s i).2
      ∧ (Iter.postDec e s i).1 = (do let _ ← (Iter.dec e s i).1; .ok i) := by
  refine ⟨?_, ?_, ?_, ?_⟩
  · simp only [Iter.postInc]
    rw [M.bind_ok (M.get_apply _), M.bind_apply]
    split <;> simp_all
  · simp only [Iter.postInc]
    rw [M.bind_ok (M.get_apply _), M.bind_apply]
    split <;> simp_all
  · simp only [Iter.postDec, Iter.dec, M.noexcept_apply]
    rw [M.bind_ok (M.get_apply _), M.bind_apply]
    split <;> simp_all
  · simp only [Iter.postDec, Iter.dec, M.noexcept_apply]
    rw [M.bind_ok (M.get_apply _), M.bind_apply]
    split <;> simp_all

/-- `while (it != range.end()) result.push_back(*it++);` -/
def collect (e : Enc) (s : Str e) : Nat → List Char32 → M Nat (List Char32)
  | 0, _ => M.hang
  | fuel + 1, acc => do
    let i ← M.get
    if Iter.eq i (Iter.end e s) then pure acc
    else do
      let old ← Iter.postInc e s
      let c ← M.lift (deref e s old)
      collect e s fuel (acc ++ [c])

theorem collect_eq (e : Enc) (s : Str e) (fuel i : Nat) (acc : List Char32)
    (xs : List Char32)
    (ok : forEachFrom e s (fun acc c => .ok (acc ++ [c])) fuel i acc = .ok xs) :
    (collect e s fuel acc i).1 = .ok xs := by
  induction fuel generalizing i acc with
  | zero => cases ok
  | succ fuel ih =>
    simp only [forEachFrom] at ok
    simp only [collect]
    rw [M.bind_ok (M.get_apply _)]
    by_cases he : i = s.length
    · rw [if_pos he] at ok
      rw [if_pos (by simp [Iter.eq, Iter.end, he])]
      exact ok
    · rw [if_neg he] at ok
      rw [if_neg (by simp [Iter.eq, Iter.end, he])]
      obtain ⟨c, hc, ok⟩ := Outcome.bind_eq_ok.mp ok
      rw [Outcome.ok_bind] at ok
      obtain ⟨j, hj, ok⟩ := Outcome.bind_eq_ok.mp ok
      have hinc := Iter.inc_outcome e s i
      have hpost := C81_postfix e s i
      rw [hj, Outcome.ok_bind] at hinc
      have h2 : Iter.postInc e s i = (.ok i, j) := by
        refine Prod.ext ?_ ?_
        · rw [hpost.2.1, hinc.1]; rfl
        · rw [hpost.1, hinc.2 j rfl]
      rw [M.bind_ok h2, M.bind_ok (show M.lift (deref e s i) j = (.ok c, j) by rw [hc]; rfl)]
      exact ih j (acc ++ [c]) ok

/-- A loop with postfix increments and a comparison with the end sees what range-for sees, if that
comes to the end.  (On a truncated text it does not: `*it++` increments first, see C10.) -/
theorem C81_traversal (e : Enc) (s : Str e) (cs : List Char32) (h : codePoints e s = .ok cs) :
    (collect e s (s.length + 1) [] Iter.begin).1 = .ok cs :=
  collect_eq e s _ _ [] cs h

example : codePoints .char8 [0x41#8, 0xC3#8, 0xA9#8] = .ok [0x41#32, 0xE9#32] := by decide

/-! ### C82 -/

/-- The size of a zero-terminated array is the number of units before the first zero; nothing behind
it is read.  An array without zero is read past its end. -/
theorem C82_pointer {w : Nat} (text behind : List (BitVec w)) (h : 0 ∉ text) :
    stringSizePtr (text ++ 0 :: behind) = .ok text.length ∧ stringSizePtr text = .ub := by
  induction text with
  | nil => simp [stringSizePtr]
  | cons u text ih =>
    obtain ⟨h1, h2⟩ : (0 : BitVec w) ≠ u ∧ 0 ∉ text := by simpa [List.mem_cons, not_or] using h
    obtain ⟨i1, i2⟩ := ih h2
    simp only [List.cons_append, stringSizePtr, if_neg (Ne.symm h1), i1, i2]
    exact ⟨rfl, rfl⟩

/-- The overloads for pointers and for strings agree on a text exactly if it has no zero unit. -/
theorem C82_agree {w : Nat} (text : List (BitVec w)) :
    stringSizePtr (text ++ [0]) = .ok (stringSize text) ↔ 0 ∉ text := by
  refine ⟨fun h hm => ?_, fun h => (C82_pointer text [] h).1⟩
  obtain ⟨a, b, rfl, ha⟩ := List.eq_append_cons_of_mem hm
  rw [List.append_assoc, List.cons_append, (C82_pointer a (b ++ [0]) ha).1] at h
  simp only [stringSize, Outcome.ok.injEq, List.length_append, List.length_cons] at h
  omega

example : (0 : BitVec 16) ∉ [0x41#16, 0xD83D#16] := by decide

end Cmp
