import Verif.Proofs.NumberReject
import Mathlib.Tactic.Linarith
import Mathlib.Tactic.Positivity
import Mathlib.Algebra.Order.Ring.Int

/-
Helper lemmas: `parse_integer` does nothing undefined on texts so short that no number of their
length overflows.
-/

namespace Cmp

open IntTy

theorem parseStep_short {T : IntTy} (h : T.Std) {f : IntegerFormat} (h2 : 2 ≤ f.radix) (h36 : f.radix ≤ 36)
    {st : ParseState} (n : Nat) (ho : 0 ≤ st.output) (hop : st.output < st.power * f.radix)
    (hp : 1 ≤ st.power) (hm : st.power * (f.radix : Int) ^ (n + 2) ≤ T.max) {c : Nat}
    (hc : c ≤ 0x10FFFF) (hok : f.radix < 10 ∨ c ≤ 255) :
    (∃ st', parseStep T f st (BitVec.ofNat 32 c) = .ok st' ∧ 0 ≤ st'.output
        ∧ st'.output < st'.power * f.radix ∧ 1 ≤ st'.power
        ∧ st'.power * (f.radix : Int) ^ (n + 1) ≤ T.max)
      ∨ ∃ k, parseStep T f st (BitVec.ofNat 32 c) = .throw (.parseFailed k) := by
  have hr : (2 : Int) ≤ f.radix := by exact_mod_cast h2
  have hrn : (1 : Int) ≤ (f.radix : Int) ^ n := one_le_pow₀ (by omega)
  have hle : st.power * (f.radix : Int) ^ (n + 1) ≤ T.max := by
    refine le_trans ?_ hm
    apply Int.mul_le_mul_of_nonneg_left _ (by omega)
    rw [pow_succ _ (n + 1)]
    have : 0 ≤ (f.radix : Int) ^ (n + 1) := by positivity
    nlinarith
  by_cases hsg : c = 45 ∨ c = 43
  · cases hsf : st.signFound with
    | true => exact .inr ⟨_, parseStep_second T st hsg hsf⟩
    | false =>
      by_cases hok' : SignOk f.sign c
      · exact .inl ⟨_, parseStep_sign T st hok' hsf, ho, hop, hp, hle⟩
      · right
        by_cases ha : AtSep f st
        · have hsome := sep_isSome ha.2
          cases hs : f.separator.char with
          | none => rw [hs] at hsome; simp at hsome
          | some s =>
            refine ⟨_, parseStep_nosep T ha.1 hs (by omega) ?_ (.inr ⟨hok', hsf⟩)⟩
            have := Separator.char_eq_some hs
            omega
        · exact ⟨_, parseStep_nondigit T h36 ha (by omega) hok (not_isDigit_sign hsg)
            (.inr ⟨hok', hsf⟩)⟩
  · by_cases ha : AtSep f st
    · have hsome := sep_isSome ha.2
      cases hs : f.separator.char with
      | none => rw [hs] at hsome; simp at hsome
      | some s =>
        by_cases hcs : c = s
        · subst hcs
          exact .inl ⟨_, parseStep_sep T ha.1 hs, ho, hop, hp, hle⟩
        · exact .inr ⟨_, parseStep_nosep T ha.1 hs (by omega) hcs (.inl hsg)⟩
    · by_cases hd : Spec.IsDigit f.radix c
      · obtain ⟨d, hv, hlt⟩ := hd
        left
        have hq : 0 < st.power * (f.radix : Int) := by positivity
        have hdr : (d : Int) + 1 ≤ f.radix := by exact_mod_cast hlt
        have hd0 : (0 : Int) ≤ d := by omega
        have hq2 : st.power * (f.radix : Int) * f.radix ≤ T.max := by
          refine le_trans ?_ hm
          rw [pow_add, mul_assoc]
          apply Int.mul_le_mul_of_nonneg_left _ (by omega)
          nlinarith
        have hsum : st.output + d * (st.power * f.radix) < st.power * f.radix * f.radix := by
          nlinarith
        have hq1 : st.power * (f.radix : Int) ≤ T.max := by nlinarith
        refine ⟨_, (parseStep_digit T h36 ha hv hlt).trans
          (prependDigit_exact h h36 hlt st ho (by omega) (by nlinarith) hq1 (by omega)), ?_, hsum,
          by show 1 ≤ st.power * (f.radix : Int); omega, ?_⟩
        · show 0 ≤ st.output + d * (st.power * f.radix)
          positivity
        · show st.power * f.radix * (f.radix : Int) ^ (n + 1) ≤ T.max
          rw [mul_assoc, ← pow_succ']
          exact hm
      · exact .inr ⟨_, parseStep_nondigit T h36 ha (by omega) hok hd (.inl hsg)⟩

theorem parseFold_short {T : IntTy} (h : T.Std) {f : IntegerFormat} (h2 : 2 ≤ f.radix) (h36 : f.radix ≤ 36)
    (rs : List Nat) :
    ∀ (st : ParseState), 0 ≤ st.output → st.output < st.power * f.radix → 1 ≤ st.power →
      st.power * (f.radix : Int) ^ (rs.length + 1) ≤ T.max →
      (∀ c ∈ rs, c ≤ 0x10FFFF ∧ (f.radix < 10 ∨ c ≤ 255)) →
      (∃ st', parseFold T f st rs = .ok st' ∧ 0 ≤ st'.output ∧ st'.output ≤ T.max)
        ∨ ∃ k, parseFold T f st rs = .throw (.parseFailed k) := by
  induction rs with
  | nil =>
    intro st ho hop _ hm _
    refine .inl ⟨_, rfl, ho, ?_⟩
    simp only [List.length_nil, Nat.zero_add, pow_one] at hm
    omega
  | cons c rs ih =>
    intro st ho hop hp hm hall
    have hc := hall c (by simp)
    rw [parseFold_cons]
    rcases parseStep_short h h2 h36 rs.length ho hop hp hm hc.1 hc.2 with
      ⟨st', e, ho', hop', hp', hm'⟩ | ⟨k, e⟩
    · rw [e, Outcome.ok_bind]
      exact ih st' ho' hop' hp' hm' (fun x hx => hall x (by simp [hx]))
    · rw [e]
      exact .inr ⟨k, rfl⟩

/-- For texts so short that no number of their length overflows, and characters below 256,
`parse_integer` returns or reports a failure. -/
theorem parseRev_short {T : IntTy} (h : T.Std) {f : IntegerFormat} (h2 : 2 ≤ f.radix) (h36 : f.radix ≤ 36) (rs : List Nat)
    (hm : (f.radix : Int) ^ rs.length ≤ T.max)
    (hall : ∀ c ∈ rs, c ≤ 0x10FFFF ∧ (f.radix < 10 ∨ c ≤ 255)) :
    OkOrFailed (parseRev T f rs) := by
  cases rs with
  | nil => exact .inr ⟨_, rfl⟩
  | cons c rs =>
    have hc := hall c (by simp)
    rw [parseRev]
    by_cases hd : Spec.IsDigit f.radix c
    · obtain ⟨d, hv, hlt⟩ := hd
      rw [getNextDigit_digit h36 hv hlt, Outcome.ok_bind]
      have hmax := max_ge h
      have hw : T.wrap d = d := (has_of_nonneg h (by omega) (by omega)).wrap_eq h
      rw [hw]
      rcases parseFold_short h h2 h36 rs ⟨d, 1, 1, false, false⟩ (by simp) (by simpa using hlt) le_rfl
        (by simpa using hm) (fun x hx => hall x (by simp [hx])) with ⟨st, e, ho, ho1⟩ | ⟨k, e⟩
      · unfold parseFold at e
        rw [e, Outcome.ok_bind]
        cases hn : st.negate with
        | false => exact .inl ⟨_, parseFinish_plus T hn⟩
        | true =>
          cases hs : T.signed with
          | true => exact .inl ⟨_, parseFinish_minus h hs hn ho ho1⟩
          | false => exact .inr ⟨_, parseFinish_unsigned hs hn⟩
      · unfold parseFold at e
        rw [e]
        exact .inr ⟨k, rfl⟩
    · rw [getNextDigit_nondigit h36 (by omega) hc.2 hd]
      exact .inr ⟨_, rfl⟩

end Cmp
