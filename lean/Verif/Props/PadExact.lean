import Verif.Props.TestModule

/-
C63 in full: zero padding for every total and every number.
-/

namespace Cmp

open Cmp.Spec TestModule

/-- The absolute value of what is left of a total that is converted to an `int` of 32 bits. -/
def Spec.wrapped (total : Nat) : Nat :=
  if total % 2 ^ 32 < 2 ^ 31 then total % 2 ^ 32 else 2 ^ 32 - total % 2 ^ 32

theorem countDigitsLoop_neg (f : Nat) (n c : Nat) :
    countDigitsLoop f (-(n : Int)) c = countDigitsLoop f (n : Int) c := by
  induction f generalizing n c with
  | zero => rfl
  | succ f ih =>
    have ht : (n : Int).tdiv 10 = ((n / 10 : Nat) : Int) := by
      rw [Int.tdiv_eq_ediv_of_nonneg (by omega)]
      rfl
    rw [countDigitsLoop, countDigitsLoop, Int.neg_tdiv, ht, ih]
    by_cases h : ((n / 10 : Nat) : Int) = 0
    · rw [if_neg (by omega), if_neg (by omega)]
    · rw [if_pos (by omega), if_pos h]

theorem wrapped_le (total : Nat) : wrapped total ≤ 2 ^ 31 := by
  unfold wrapped
  split <;> omega

theorem countDigits_wrapped (total : Nat) :
    countDigits (BitVec.ofNat 32 total).toInt = .ok (decimal (wrapped total)).length := by
  have hl : (decimal (wrapped total)).length ≤ 11 := by
    have := decimal_length_le 9 (wrapped total) (by have := wrapped_le total; omega)
    omega
  have e := countDigitsLoop_eq 11 (wrapped total) 0 hl
  rw [Nat.zero_add] at e
  rw [countDigits, BitVec.toInt_eq_toNat_cond, BitVec.toNat_ofNat]
  unfold wrapped at e ⊢
  by_cases h : total % 2 ^ 32 < 2 ^ 31
  · rw [if_pos h] at e ⊢
    rw [if_pos (by omega), e]
  · rw [if_neg h] at e ⊢
    have hv : ((total % 2 ^ 32 : Nat) : Int) - ((2 ^ 32 : Nat) : Int)
        = -((2 ^ 32 - total % 2 ^ 32 : Nat) : Int) := by omega
    rw [if_neg (by omega), hv, countDigitsLoop_neg, e]

theorem wrapped_of_lt {n : Nat} (hn : n < 2 ^ 32) : (decimal (wrapped n)).length ≤ (decimal n).length := by
  apply decimal_length_mono
  unfold wrapped
  rw [Nat.mod_eq_of_lt hn]
  split <;> omega

/-- Writing digits from a place behind the end of the room on. -/
theorem putDigits_ub (length : Nat) (hl : length < 2 ^ 31) (f n : Nat) (hn : n < 2 ^ 32)
    (hf : (decimal n).length ≤ f) (k : Nat) (s : List Char) (hs : s.length = length) (hk : k ≤ length)
    (hlong : length - k < (decimal n).length) :
    putDigits (BitVec.ofNat 32 length) f (BitVec.ofNat 32 (k + 1)) (BitVec.ofNat 32 n) s = .ub := by
  induction f generalizing n k s with
  | zero =>
    have := decimal_length_pos n
    omega
  | succ f ih =>
    rw [putDigits]
    by_cases hk' : k = length
    · have : ¬ (BitVec.ofNat 32 length - BitVec.ofNat 32 (k + 1)).toNat < s.length := by
        rw [BitVec.toNat_sub, BitVec.toNat_ofNat, BitVec.toNat_ofNat]
        omega
      simp only [if_neg this]
    · have hat : (BitVec.ofNat 32 length - BitVec.ofNat 32 (k + 1)).toNat = length - (k + 1) :=
        ofNat_sub_toNat _ _ (by omega) (by omega)
      have hdiv : BitVec.ofNat 32 n / 10 = BitVec.ofNat 32 (n / 10) := by
        apply BitVec.eq_of_toNat_eq
        rw [BitVec.toNat_udiv, BitVec.toNat_ofNat, BitVec.toNat_ofNat, Nat.mod_eq_of_lt hn,
          Nat.mod_eq_of_lt (by omega)]
        rfl
      have h10 : ¬ n < 10 := by
        intro h
        rw [decimal_small h] at hlong
        simp only [List.length_cons, List.length_nil] at hlong
        omega
      have hd := decimal_large (n := n) (by omega)
      have hlen : (decimal n).length = (decimal (n / 10)).length + 1 := by rw [hd]; simp
      have hne : BitVec.ofNat 32 (n / 10) ≠ 0 := by
        intro h
        have := congrArg BitVec.toNat h
        rw [BitVec.toNat_ofNat, Nat.mod_eq_of_lt (by omega)] at this
        simp at this
        omega
      have hidx : BitVec.ofNat 32 (k + 1) + 1 = BitVec.ofNat 32 (k + 1 + 1) := by
        apply BitVec.eq_of_toNat_eq
        simp [BitVec.toNat_add, BitVec.toNat_ofNat]
      simp only [hat, hdiv]
      rw [if_pos (by omega), if_pos hne, hidx]
      exact ih (n / 10) (by omega) (by omega) (k + 1) _ (by rw [List.length_set]; exact hs) (by omega)
        (by omega)

/-- C63 in full: a number is padded to the width of what an `int` keeps of the total; if the number
is wider than that, memory in front of the string is written to. -/
theorem C63_exact (total n : Nat) (hn : n < 2 ^ 32) :
    zeroPad total (BitVec.ofNat 32 n) =
      if (decimal n).length ≤ (decimal (wrapped total)).length then
        .ok (padded (wrapped total) n) else .ub := by
  have h1 := wrapped_of_lt hn
  have hT := decimal_length_le 9 (wrapped total) (by have := wrapped_le total; omega)
  have hD := decimal_length_le 9 (wrapped n) (by have := wrapped_le n; omega)
  have hE := decimal_length_le 9 n (by omega)
  rw [zeroPad, countDigits_wrapped, Outcome.ok_bind, countDigits_wrapped, Outcome.ok_bind, padded]
  generalize (decimal (wrapped total)).length = T at hT ⊢
  generalize (decimal (wrapped n)).length = D at h1 hD ⊢
  by_cases hd : D ≤ T
  · have hdiff : (BitVec.ofNat 32 T - BitVec.ofNat 32 D).toNat = T - D :=
      ofNat_sub_toNat _ _ hd (by omega)
    have e1 := putZeros_eq (T - D) [] (List.replicate T '\x00') (by simp)
    simp only [List.length_nil, List.nil_append, List.drop_replicate] at e1
    simp only [hdiff]
    rw [e1, Outcome.ok_bind]
    by_cases he : (decimal n).length ≤ T
    · rw [if_pos he]
      have e2 := putDigits_eq T (by omega) 11 n hn (by omega)
        (List.replicate (T - D) '0' ++ List.replicate (T - (T - D)) '\x00') []
        (by simp) (by simp; omega)
      rw [List.append_nil, List.length_nil] at e2
      rw [show (1 : BitVec 32) = BitVec.ofNat 32 (0 + 1) from rfl, e2, List.append_nil]
      congr 2
      rw [List.length_append, List.length_replicate, List.length_replicate,
        List.take_append_of_le_length (by rw [List.length_replicate]; omega), List.take_replicate]
      congr 1
      omega
    · rw [if_neg he, show (1 : BitVec 32) = BitVec.ofNat 32 (0 + 1) from rfl]
      exact putDigits_ub T (by omega) 11 n hn (by omega) 0 _ (by simp) (Nat.zero_le _) (by omega)
  · rw [if_neg (by omega)]
    have : (BitVec.ofNat 32 T - BitVec.ofNat 32 D).toNat = 2 ^ 32 - (D - T) := by
      rw [BitVec.toNat_sub, BitVec.toNat_ofNat, BitVec.toNat_ofNat]
      omega
    simp only [this]
    rw [putZeros_ub _ _ _ (by rw [List.length_replicate]; omega)]
    rfl

/-- A total of 2^32 + 12345 pads to five digits, one of 2^32 - 7 to one. -/
example : padded (wrapped (2 ^ 32 + 12345)) 42 = "00042".toList
    ∧ (decimal (wrapped (2 ^ 32 - 7))).length = 1 ∧ (decimal 42).length = 2 := by decide +kernel

end Cmp
