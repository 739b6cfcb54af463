import Mathlib.Tactic.Linarith
import Mathlib.Tactic.Ring
import Mathlib.Tactic.FieldSimp
import Mathlib.Tactic.Positivity
import Mathlib.Tactic.NormNum
import Verif.Spec.Real

/-
Lemmas on the values of digit sequences after the radix character and on the values of a binary
floating-point format.
-/

namespace Spec

theorem positional_foldl (r : Nat) (ds : List Nat) (a : Nat) :
    ds.foldl (fun a d => a * r + d) a = a * r ^ ds.length + positional r ds := by
  induction ds generalizing a with
  | nil => simp [positional]
  | cons d ds ih =>
    have e : positional r (d :: ds) = (0 * r + d) * r ^ ds.length + positional r ds := ih _
    rw [List.foldl_cons, ih, e, List.length_cons]
    ring

theorem positional_cons (r d : Nat) (ds : List Nat) :
    positional r (d :: ds) = d * r ^ ds.length + positional r ds := by
  rw [positional, List.foldl_cons, positional_foldl]
  ring

theorem positional_append (r : Nat) (xs ys : List Nat) :
    positional r (xs ++ ys) = positional r xs * r ^ ys.length + positional r ys := by
  rw [positional, List.foldl_append, positional_foldl]
  rfl

theorem fraction_nil (r : Nat) : fraction r [] = 0 := by simp [fraction, positional]

theorem fraction_cons {r : Nat} (hr : 0 < r) (d : Nat) (ds : List Nat) :
    fraction r (d :: ds) = (d + fraction r ds) / r := by
  have hr' : (r : ℚ) ≠ 0 := by exact_mod_cast hr.ne'
  have hp : (r : ℚ) ^ ds.length ≠ 0 := pow_ne_zero _ hr'
  rw [fraction, fraction, positional_cons, List.length_cons]
  push_cast
  field_simp
  ring

theorem fraction_zeros {r : Nat} (hr : 0 < r) (ds : List Nat) (n : Nat) :
    fraction r (ds ++ List.replicate n 0) = fraction r ds := by
  induction ds with
  | nil =>
    rw [List.nil_append]
    induction n with
    | zero => rfl
    | succ n ih => rw [List.replicate_succ, fraction_cons hr, ih, fraction_nil]; simp
  | cons d ds ih => rw [List.cons_append, fraction_cons hr, ih, fraction_cons hr]

theorem truncated_zero {r : Nat} {q : ℚ} (h0 : 0 ≤ q) (h1 : q < 1) : truncated r 0 q = 0 := by
  rw [truncated]
  have : ⌊q * (r : ℚ) ^ 0⌋ = 0 := by
    rw [Int.floor_eq_zero_iff]
    simpa using ⟨h0, h1⟩
  rw [this]
  simp

theorem truncated_of_zero (r n : Nat) : truncated r n 0 = 0 := by simp [truncated]

theorem truncated_add_int {r : Nat} (hr : 0 < r) (n : Nat) (z : Int) (q : ℚ) :
    truncated r n (z + q) = z + truncated r n q := by
  have hr' : (r : ℚ) ≠ 0 := by exact_mod_cast hr.ne'
  have hp : (r : ℚ) ^ n ≠ 0 := pow_ne_zero _ hr'
  have : (z + q) * (r : ℚ) ^ n = ((z * (r : Int) ^ n : Int) : ℚ) + q * (r : ℚ) ^ n := by
    push_cast
    ring
  rw [truncated, this, Int.floor_intCast_add, truncated]
  push_cast
  field_simp

theorem truncated_succ {r : Nat} (hr : 0 < r) (n : Nat) (q : ℚ) :
    truncated r (n + 1) q = (⌊q * r⌋ + truncated r n (Int.fract (q * r))) / r := by
  have hr' : (r : ℚ) ≠ 0 := by exact_mod_cast hr.ne'
  have hp : (r : ℚ) ^ n ≠ 0 := pow_ne_zero _ hr'
  rw [← truncated_add_int hr, Int.floor_add_fract, truncated, truncated, pow_succ]
  have : q * ((r : ℚ) ^ n * r) = q * r * (r : ℚ) ^ n := by ring
  rw [this]
  field_simp

theorem truncated_of_int {r : Nat} (hr : 0 < r) {n : Nat} {q : ℚ}
    (h : ∃ z : Int, q * (r : ℚ) ^ n = z) : truncated r n q = q := by
  have hr' : (r : ℚ) ≠ 0 := by exact_mod_cast hr.ne'
  have hp : (r : ℚ) ^ n ≠ 0 := pow_ne_zero _ hr'
  obtain ⟨z, hz⟩ := h
  rw [truncated, hz, Int.floor_intCast, ← hz]
  field_simp

/-! ### Values of a binary format -/

namespace BinFmt

variable {F : BinFmt}

theorem Std.emin_nonpos (h : F.Std) : F.emin ≤ 0 := by
  rcases h with rfl | rfl <;> decide

theorem Std.prec_ge (h : F.Std) : 24 ≤ F.prec := by
  rcases h with rfl | rfl <;> decide

theorem Std.emin_le (h : F.Std) : F.emin ≤ -(F.prec : Int) := by
  rcases h with rfl | rfl <;> decide

theorem Std.emax_ge (h : F.Std) : F.prec + 5 ≤ F.emax := by
  rcases h with rfl | rfl <;> decide

theorem has_zero (hF : F.Std) : F.Has 0 :=
  ⟨0, F.emin, by simp, ⟨by omega, by have := hF.emin_nonpos; have := hF.emax_ge; omega⟩, by simp⟩

theorem Has.neg {q : ℚ} (h : F.Has q) : F.Has (-q) := by
  obtain ⟨m, e, hm, he, rfl⟩ := h
  exact ⟨-m, e, by simpa using hm, he, by push_cast; ring⟩

theorem Has.mul_two_pow (hF : F.Std) {q : ℚ} (h : F.Has q) (h0 : 0 ≤ q) (h1 : q < 1) {j : Nat}
    (hj : j ≤ 5) : F.Has (q * 2 ^ j) := by
  obtain ⟨m, e, hm, he, rfl⟩ := h
  have hmax := hF.emax_ge
  by_cases hej : e + j + F.prec ≤ F.emax
  · refine ⟨m, e + j, hm, by omega, ?_⟩
    rw [zpow_add₀ (by norm_num), zpow_natCast]
    ring
  · have h2 : (1 : ℚ) ≤ 2 ^ e := one_le_zpow₀ (by norm_num) (by omega)
    have hm1 : (m : ℚ) < 1 := by
      by_contra hge
      have := mul_le_mul (not_lt.mp hge) h2 (by norm_num) (by linarith [not_lt.mp hge])
      linarith
    have hm0 : (-1 : ℚ) < m := by
      by_contra hge
      nlinarith [not_lt.mp hge]
    have hm1' : m < 1 := by exact_mod_cast hm1
    have hm0' : -1 < m := by exact_mod_cast hm0
    rw [show m = 0 by omega]
    simpa using has_zero hF

/-- Powers of two in the range of the format. -/
theorem has_two_pow (hF : F.Std) {n : Nat} (h : n < F.emax) : F.Has (2 ^ n) := by
  have hmax := hF.emax_ge
  have hprec := hF.prec_ge
  have hmin := hF.emin_nonpos
  by_cases hn : n + F.prec ≤ F.emax
  · refine ⟨1, n, ?_, by omega, by simp⟩
    exact Nat.one_lt_two_pow (by omega)
  · refine ⟨2 ^ (n + F.prec - F.emax), (F.emax - F.prec : Nat), ?_, by omega, ?_⟩
    · rw [Int.natAbs_pow]
      exact Nat.pow_lt_pow_right (by norm_num) (by omega)
    · push_cast
      rw [zpow_natCast, ← pow_add]
      congr 1
      omega

/-- Truncating a value below some power of two keeps it in the format. -/
theorem Has.trunc (hF : F.Std) {q : ℚ} (h : F.Has q) (h0 : 0 ≤ q) (k : Nat) :
    F.Has ((⌊q * 2 ^ k⌋ : ℚ) / 2 ^ k) := by
  obtain ⟨m, e, hm, he, rfl⟩ := h
  have h2 : (0 : ℚ) < 2 ^ e := zpow_pos (by norm_num) _
  have hm0 : 0 ≤ m := by
    by_contra hneg
    have : (m : ℚ) < 0 := by exact_mod_cast (by omega : m < 0)
    have := mul_neg_of_neg_of_pos this h2
    linarith
  by_cases hke : -(k : Int) ≤ e
  · have : (m : ℚ) * 2 ^ e * 2 ^ k = ((m * 2 ^ (e + k).toNat : Int) : ℚ) := by
      push_cast
      rw [mul_assoc]
      congr 1
      rw [← zpow_natCast, ← zpow_natCast, ← zpow_add₀ (by norm_num)]
      congr 1
      omega
    rw [this, Int.floor_intCast, ← this]
    refine ⟨m, e, hm, he, ?_⟩
    field_simp
  · obtain ⟨s, hs⟩ : ∃ s : Nat, (s : Int) = -(k : Int) - e := ⟨(-(k : Int) - e).toNat, by omega⟩
    have hv : (m : ℚ) * 2 ^ e * 2 ^ k = (m : ℚ) / ((2 ^ s : Nat) : ℚ) := by
      have : (2 : ℚ) ^ e * 2 ^ k * 2 ^ s = 1 := by
        rw [← zpow_natCast, ← zpow_natCast, ← zpow_add₀ (by norm_num),
          ← zpow_add₀ (by norm_num), show e + (k : Int) + (s : Int) = 0 by omega, zpow_zero]
      push_cast
      field_simp
      calc (m : ℚ) * 2 ^ e * 2 ^ k * 2 ^ s = m * (2 ^ e * 2 ^ k * 2 ^ s) := by ring
        _ = m := by rw [this, mul_one]
    have hmax := hF.emax_ge
    refine ⟨m / (2 ^ s : Nat), -(k : Int), ?_, by omega, ?_⟩
    · have h1 : m / (2 ^ s : Nat) ≤ m := Int.ediv_le_self _ hm0
      have h2 : 0 ≤ m / (2 ^ s : Nat) := Int.ediv_nonneg hm0 (by positivity)
      omega
    · rw [hv, Rat.floor_intCast_div_natCast]
      rw [zpow_neg, zpow_natCast]
      rfl

theorem Has.fract (hF : F.Std) {q : ℚ} (h : F.Has q) (h0 : 0 ≤ q) :
    F.Has (Int.fract q) := by
  obtain ⟨m, e, hm, he, rfl⟩ := h
  have h2 : (0 : ℚ) < 2 ^ e := zpow_pos (by norm_num) _
  have hm0 : 0 ≤ m := by
    by_contra hneg
    have : (m : ℚ) < 0 := by exact_mod_cast (by omega : m < 0)
    have := mul_neg_of_neg_of_pos this h2
    linarith
  by_cases hz : 0 ≤ e
  · have : (m : ℚ) * 2 ^ e = ((m * 2 ^ e.toNat : Int) : ℚ) := by
      push_cast
      rw [← zpow_natCast]
      congr 2
      omega
    rw [this, Int.fract_intCast]
    exact has_zero hF
  · obtain ⟨s, hs⟩ : ∃ s : Nat, (s : Int) = -e := ⟨(-e).toNat, by omega⟩
    have hp : (2 : ℚ) ^ e = 1 / ((2 ^ s : Nat) : ℚ) := by
      rw [show e = -(s : Int) by omega, zpow_neg, zpow_natCast]
      push_cast
      simp
    refine ⟨m % (2 ^ s : Nat), e, ?_, he, ?_⟩
    · have h2 : 0 ≤ m % (2 ^ s : Nat) := Int.emod_nonneg _ (by positivity)
      have h3 : 0 ≤ m / (2 ^ s : Nat) := Int.ediv_nonneg hm0 (by positivity)
      have h4 := Int.emod_add_mul_ediv m (2 ^ s : Nat)
      have h5 : 0 ≤ ((2 ^ s : Nat) : Int) * (m / (2 ^ s : Nat)) := mul_nonneg (by positivity) h3
      omega
    · have hne : ((2 ^ s : Nat) : ℚ) ≠ 0 := by positivity
      rw [Int.fract, hp, mul_one_div, Rat.floor_intCast_div_natCast]
      have := Int.emod_add_mul_ediv m (2 ^ s : Nat)
      have hq : (m : ℚ) = ((m % (2 ^ s : Nat) : Int) : ℚ)
          + ((2 ^ s : Nat) : ℚ) * ((m / (2 ^ s : Nat) : Int) : ℚ) := by
        exact_mod_cast this.symm
      field_simp
      linarith

end BinFmt

end Spec
