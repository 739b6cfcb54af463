import Verif.Model.Compare
import Verif.Spec.Real
import Mathlib.Tactic.Linarith
import Mathlib.Tactic.NormNum
import Mathlib.Tactic.Positivity
import Mathlib.Tactic.FieldSimp
import Mathlib.Tactic.Ring

/-
Property C120: `cmp_equal` compares numbers up to a number of decimal places.
-/

namespace Cmp

namespace Spec

/-- The digit at a decimal place; place 1 is the first behind the point. -/
def digitAt (x : ℚ) (place : Nat) : Int := ⌊|x| * 10 ^ place⌋ % 10

/-- Two numbers of the same sign, written in the decimal system, look the same when all places behind
the `n`-th are left out. -/
def AgreeUpTo (n : Nat) (x y : ℚ) : Prop :=
  (x < 0 ↔ y < 0) ∧ ⌊|x|⌋ = ⌊|y|⌋ ∧ ∀ k, 1 ≤ k → k ≤ n → digitAt x k = digitAt y k

/-- The arithmetic of `double`: products that are values of the type do not round, the others are
off by half a unit in the last place, and what is too large becomes infinite.  The function `pow` gives
the powers of ten that are values of the type, and infinity if they are too large. -/
structure Arithmetic (F : _root_.Spec.BinFmt) (rnd : ℚ → FloatValue) (pow : Nat → FloatValue) : Prop where
  exact : ∀ q, F.Has q → rnd q = .fin q
  near : ∀ q, |q| ≤ 2 ^ (F.emax - 1) →
    ∃ r, rnd q = .fin r ∧ |r - q| ≤ max (|q| / 2 ^ F.prec) (2 ^ F.emin)
  over : ∀ q, 2 ^ F.emax ≤ |q| → rnd q = .inf (decide (q < 0))
  power : ∀ n : Nat, F.Has (10 ^ n) → pow n = .fin (10 ^ n)
  powerOver : ∀ n : Nat, (2 : ℚ) ^ F.emax ≤ 10 ^ n → pow n = .inf false

end Spec

open _root_.Spec (binary64)

/-! ### Floors and digits -/

theorem floor_shift (x : ℚ) (k : Nat) : ⌊x * 10 ^ (k + 1)⌋ / 10 = ⌊x * 10 ^ k⌋ := by
  have h := Int.floor_div_natCast (x * 10 ^ (k + 1)) 10
  have h2 : x * 10 ^ (k + 1) / ((10 : Nat) : ℚ) = x * 10 ^ k := by
    rw [pow_succ]; push_cast; field_simp
  rw [h2] at h
  rw [h]; norm_num

theorem digits_iff (x y : ℚ) : ∀ n : Nat,
    (⌊|x|⌋ = ⌊|y|⌋ ∧ ∀ k, 1 ≤ k → k ≤ n → Spec.digitAt x k = Spec.digitAt y k) ↔
      ⌊|x| * 10 ^ n⌋ = ⌊|y| * 10 ^ n⌋
  | 0 => by
    simp only [pow_zero, mul_one]
    exact ⟨fun h => h.1, fun h => ⟨h, fun k h1 h2 => by omega⟩⟩
  | n + 1 => by
    have ih := digits_iff x y n
    have hx := floor_shift |x| n
    have hy := floor_shift |y| n
    constructor
    · rintro ⟨h1, h2⟩
      have h3 := ih.1 ⟨h1, fun k a b => h2 k a (by omega)⟩
      have h4 := h2 (n + 1) (by omega) le_rfl
      unfold Spec.digitAt at h4
      omega
    · intro h
      have h3 := ih.2 (by omega)
      refine ⟨h3.1, fun k h1 h2 => ?_⟩
      by_cases hk : k = n + 1
      · subst hk; unfold Spec.digitAt; rw [h]
      · exact h3.2 k h1 (by omega)

open FloatValue in
/-- Without infinities it is the comparison of C71. -/
theorem cmpEqualValues_finite (rnd : ℚ → ℚ) (power x y : ℚ) :
    cmpEqualValues (fun q => .fin (rnd q)) (fun q => .fin (rnd q)) (.fin power) (.fin x) (.fin y) =
      cmpEqual rnd power x y := by
  simp only [cmpEqualValues, mul, FloatValue.floor, FloatValue.eq, cmpEqual]
  rw [Bool.eq_iff_iff]
  simp

open FloatValue in
theorem cmpEqualValues_exact {rnd1 rnd2 : ℚ → FloatValue} {power x y : ℚ}
    (hx : rnd1 (x * power) = .fin (x * power)) (hy : rnd2 (y * power) = .fin (y * power)) :
    cmpEqualValues rnd1 rnd2 (.fin power) (.fin x) (.fin y) = true ↔ ⌊x * power⌋ = ⌊y * power⌋ := by
  simp only [cmpEqualValues, mul, FloatValue.floor, FloatValue.eq, hx, hy, decide_eq_true_eq]
  exact Int.cast_inj

/-! ### C120 -/

/-- The documentation promises a comparison of the digits; for negative numbers that is not so even
where nothing rounds: -1.5 and -1.53125 agree in the first place. -/
theorem C120_violated (rnd : ℚ → FloatValue) (pow : Nat → FloatValue)
    (hA : Spec.Arithmetic binary64 rnd pow) :
    ¬ ∀ (x y : ℚ) (n : Nat), binary64.Has x → binary64.Has y → n ≤ 22 →
      (cmpEqualValues rnd rnd (pow n) (.fin x) (.fin y) = true ↔ Spec.AgreeUpTo n x y) := by
  intro h
  have h1 := h (-3 / 2) (-49 / 32) 1
    ⟨-3, -1, by norm_num [binary64], by norm_num [binary64], by norm_num⟩
    ⟨-49, -5, by norm_num [binary64], by norm_num [binary64], by norm_num⟩ (by omega)
  rw [hA.power 1 ⟨10, 0, by norm_num [binary64], by norm_num [binary64], by norm_num⟩] at h1
  rw [cmpEqualValues_exact
    (hA.exact _ ⟨-15, 0, by norm_num [binary64], by norm_num [binary64], by norm_num⟩)
    (hA.exact _ ⟨-245, -4, by norm_num [binary64], by norm_num [binary64], by norm_num⟩)] at h1
  have h2 : Spec.AgreeUpTo 1 (-3 / 2) (-49 / 32) := by
    refine ⟨by norm_num, ?_⟩
    rw [digits_iff, abs_of_neg (by norm_num), abs_of_neg (by norm_num)]
    norm_num
  have h3 := h1.2 h2
  norm_num at h3

/-- When the power of ten is too large for a `double`, zero does not compare equal to itself. -/
theorem C120_violated_zero (rnd : ℚ → FloatValue) (pow : Nat → FloatValue)
    (hA : Spec.Arithmetic binary64 rnd pow) :
    ¬ ∀ (x : ℚ) (n : Nat), binary64.Has x →
      cmpEqualValues rnd rnd (pow n) (.fin x) (.fin x) = true := by
  intro h
  have h1 := h 0 309 ⟨0, 0, by norm_num [binary64], by norm_num [binary64], by norm_num⟩
  rw [hA.powerOver 309 (by
    have : (2 : Nat) ^ 1024 ≤ 10 ^ 309 := by decide +kernel
    have h2 : ((2 ^ 1024 : Nat) : ℚ) ≤ ((10 ^ 309 : Nat) : ℚ) := by exact_mod_cast this
    rw [Nat.cast_pow, Nat.cast_pow] at h2
    exact h2)] at h1
  simp [cmpEqualValues, FloatValue.mul, FloatValue.floor, FloatValue.eq] at h1

/-- When the products are too large for a `double`, numbers that differ in all places compare equal. -/
theorem C120_violated_large (rnd : ℚ → FloatValue) (pow : Nat → FloatValue)
    (hA : Spec.Arithmetic binary64 rnd pow) :
    ¬ ∀ (x y : ℚ) (n : Nat), binary64.Has x → binary64.Has y → 0 ≤ x → 0 ≤ y → n ≤ 22 →
      cmpEqualValues rnd rnd (pow n) (.fin x) (.fin y) = true → Spec.AgreeUpTo n x y := by
  intro h
  have has : ∀ k : Nat, k < 53 → binary64.Has (2 ^ (971 + k)) := fun k hk =>
    ⟨2 ^ k, 971, by
      rw [Int.natAbs_pow]
      exact Nat.pow_lt_pow_right (by norm_num) hk, by norm_num [binary64], by
      rw [pow_add, mul_comm, Int.cast_pow]; rfl⟩
  have over : ∀ k : Nat, 50 ≤ k → rnd (2 ^ (971 + k) * 10 ^ 1) = .inf false := by
    intro k hk
    have h0 : (0 : ℚ) < 2 ^ (971 + k) * 10 ^ 1 := by positivity
    rw [hA.over _ ?_, decide_eq_false (not_lt.2 h0.le)]
    rw [abs_of_pos h0]
    calc (2 : ℚ) ^ 1024 = 2 ^ 1021 * 2 ^ 3 := by rw [← pow_add]
      _ ≤ 2 ^ (971 + k) * 10 ^ 1 := by
        gcongr
        · norm_num
        · omega
        · norm_num
  have h1 := h (2 ^ (971 + 50)) (2 ^ (971 + 51)) 1 (has 50 (by omega)) (has 51 (by omega))
    (by positivity) (by positivity) (by omega) (by
      rw [hA.power 1 ⟨10, 0, by norm_num [binary64], by norm_num [binary64], by norm_num⟩]
      simp only [cmpEqualValues, FloatValue.mul, over 50 le_rfl, over 51 (by omega),
        FloatValue.floor, FloatValue.eq, beq_self_eq_true])
  have h2 := h1.2.1
  rw [abs_of_nonneg (by positivity), abs_of_nonneg (by positivity)] at h2
  have fl : ∀ k : Nat, ⌊(2 : ℚ) ^ k⌋ = 2 ^ k := fun k => by
    have : (2 : ℚ) ^ k = ((2 ^ k : Int) : ℚ) := by push_cast; rfl
    rw [this, Int.floor_intCast]
  rw [fl, fl] at h2
  exact absurd (pow_right_injective₀ (by norm_num : (0 : Int) < 2) (by norm_num) h2) (by omega)

/-- Where the products do not round, numbers that are not negative compare as promised. -/
theorem C120_partial (rnd1 rnd2 : ℚ → FloatValue) (x y : ℚ) (n : Nat) (hx : 0 ≤ x) (hy : 0 ≤ y)
    (hrx : rnd1 (x * 10 ^ n) = .fin (x * 10 ^ n)) (hry : rnd2 (y * 10 ^ n) = .fin (y * 10 ^ n)) :
    cmpEqualValues rnd1 rnd2 (.fin (10 ^ n)) (.fin x) (.fin y) = true ↔ Spec.AgreeUpTo n x y := by
  rw [cmpEqualValues_exact hrx hry, Spec.AgreeUpTo, digits_iff, abs_of_nonneg hx, abs_of_nonneg hy]
  exact ⟨fun h => ⟨by constructor <;> intro h <;> linarith, h⟩, fun h => h.2⟩

/-- Where the products do not round: numbers of different sign differ, those that are not negative
are compared as promised, and for negative ones the decimal places are those of the next number with
`n` places away from zero. -/
theorem C120_exact (rnd1 rnd2 : ℚ → FloatValue) (x y : ℚ) (n : Nat)
    (hrx : rnd1 (x * 10 ^ n) = .fin (x * 10 ^ n)) (hry : rnd2 (y * 10 ^ n) = .fin (y * 10 ^ n)) :
    cmpEqualValues rnd1 rnd2 (.fin (10 ^ n)) (.fin x) (.fin y) = true ↔
      (0 ≤ x ∧ 0 ≤ y ∧ Spec.AgreeUpTo n x y) ∨
      (x < 0 ∧ y < 0 ∧ ∃ z : Int, ∀ v ∈ [|x|, |y|], (z - 1) / 10 ^ n < v ∧ v ≤ z / (10 ^ n : ℚ)) := by
  have hp : (0 : ℚ) < 10 ^ n := by positivity
  rcases lt_or_ge x 0 with hx | hx <;> rcases lt_or_ge y 0 with hy | hy
  · rw [cmpEqualValues_exact hrx hry]
    simp only [not_le.2 hx, false_and, false_or, hx, hy, true_and, List.mem_cons, List.not_mem_nil,
      or_false, forall_eq_or_imp, forall_eq, abs_of_neg]
    have key : ∀ (v : ℚ) (z : Int), ((z - 1) / 10 ^ n < -v ∧ -v ≤ z / (10 ^ n : ℚ)) ↔ ⌊v * 10 ^ n⌋ = -z := by
      intro v z
      rw [div_lt_iff₀ hp, le_div_iff₀ hp, Int.floor_eq_iff]
      push_cast
      constructor
      · rintro ⟨a, b⟩; constructor <;> linarith
      · rintro ⟨a, b⟩; constructor <;> linarith
    constructor
    · intro h
      exact ⟨-⌊x * 10 ^ n⌋, (key x _).2 (by omega), (key y _).2 (by omega)⟩
    · rintro ⟨z, h1, h2⟩
      rw [(key x z).1 h1, (key y z).1 h2]
  · rw [cmpEqualValues_exact hrx hry]
    simp only [not_le.2 hx, not_lt.2 hy, false_and, and_false, or_false, iff_false]
    intro h
    have h1 : ⌊x * 10 ^ n⌋ < 0 := Int.floor_lt.2 (by push_cast; nlinarith)
    have h2 : 0 ≤ ⌊y * 10 ^ n⌋ := Int.floor_nonneg.2 (by positivity)
    omega
  · rw [cmpEqualValues_exact hrx hry]
    simp only [not_le.2 hy, not_lt.2 hx, false_and, and_false, or_false, iff_false]
    intro h
    have h1 : ⌊y * 10 ^ n⌋ < 0 := Int.floor_lt.2 (by push_cast; nlinarith)
    have h2 : 0 ≤ ⌊x * 10 ^ n⌋ := Int.floor_nonneg.2 (by positivity)
    omega
  · rw [C120_partial rnd1 rnd2 x y n hx hy hrx hry]
    simp [hx, hy, not_lt.2 hx]

/-- With rounding: numbers that compare equal lie no farther apart than one unit of the last place that
matters, up to the precision of the numbers themselves. -/
theorem C120_near (rnd : ℚ → FloatValue) (pow : Nat → FloatValue) (F : _root_.Spec.BinFmt)
    (hA : Spec.Arithmetic F rnd pow) (x y : ℚ) (n : Nat) (hn : F.Has (10 ^ n))
    (hx : |x| * 10 ^ n ≤ 2 ^ (F.emax - 1)) (hy : |y| * 10 ^ n ≤ 2 ^ (F.emax - 1))
    (h : cmpEqualValues rnd rnd (pow n) (.fin x) (.fin y) = true) :
    |x - y| < (1 + 2 * 2 ^ F.emin) / 10 ^ n + (|x| + |y|) / 2 ^ F.prec := by
  have hp : (0 : ℚ) < 10 ^ n := by positivity
  have ha : ∀ v : ℚ, |v * 10 ^ n| = |v| * 10 ^ n := fun v => by rw [abs_mul, abs_of_pos hp]
  obtain ⟨r, hr, hr2⟩ := hA.near (x * 10 ^ n) (by rw [ha]; exact hx)
  obtain ⟨t, ht, ht2⟩ := hA.near (y * 10 ^ n) (by rw [ha]; exact hy)
  rw [hA.power n hn] at h
  simp only [cmpEqualValues, FloatValue.mul, FloatValue.floor, FloatValue.eq, hr, ht,
    decide_eq_true_eq, Int.cast_inj] at h
  have h1 : |r - t| < 1 := by
    have a1 := Int.floor_le r
    have a2 := Int.lt_floor_add_one r
    have b1 := Int.floor_le t
    have b2 := Int.lt_floor_add_one t
    rw [h] at a1 a2
    rw [abs_lt]; constructor <;> linarith
  have em : (0 : ℚ) < 2 ^ F.emin := zpow_pos (by norm_num) _
  have mx : ∀ v : ℚ, max (|v * 10 ^ n| / 2 ^ F.prec) (2 ^ F.emin) ≤ |v| * 10 ^ n / 2 ^ F.prec + 2 ^ F.emin := by
    intro v
    rw [ha]
    have : 0 ≤ |v| * 10 ^ n / 2 ^ F.prec := by positivity
    exact max_le (by linarith) (by linarith)
  have h2 := hr2.trans (mx x)
  have h3 := ht2.trans (mx y)
  have h4 : |x - y| * 10 ^ n < 1 + 2 * 2 ^ F.emin + (|x| + |y|) * 10 ^ n / 2 ^ F.prec := by
    rw [← ha, sub_mul]
    have e : x * 10 ^ n - y * 10 ^ n = (r - t) - (r - x * 10 ^ n) + (t - y * 10 ^ n) := by ring
    rw [e]
    have := (abs_add_le ((r - t) - (r - x * 10 ^ n)) (t - y * 10 ^ n)).trans
      (add_le_add_left (abs_sub (r - t) (r - x * 10 ^ n)) _)
    have e2 : (|x| + |y|) * 10 ^ n / 2 ^ F.prec = |x| * 10 ^ n / 2 ^ F.prec + |y| * 10 ^ n / 2 ^ F.prec := by ring
    rw [e2]
    linarith
  have e3 : (1 + 2 * 2 ^ F.emin) / 10 ^ n + (|x| + |y|) / 2 ^ F.prec =
      (1 + 2 * 2 ^ F.emin + (|x| + |y|) * 10 ^ n / 2 ^ F.prec) / 10 ^ n := by
    field_simp
  rw [e3, lt_div_iff₀ hp]
  exact h4

/-- Arithmetic as described exists. -/
example : Spec.Arithmetic binary64
    (fun q => if 2 ^ binary64.emax ≤ |q| then .inf (decide (q < 0)) else .fin q)
    (fun n => if (2 : ℚ) ^ binary64.emax ≤ 10 ^ n then .inf false else .fin (10 ^ n)) := by
  have small : ∀ q, binary64.Has q → ¬ (2 : ℚ) ^ binary64.emax ≤ |q| := by
    rintro q ⟨m, e, h1, ⟨h2, h3⟩, rfl⟩
    rw [not_le, abs_mul, abs_of_pos (zpow_pos (by norm_num : (0 : ℚ) < 2) e)]
    have h4 : |(m : ℚ)| < 2 ^ binary64.prec := by
      rw [← Int.cast_abs, Int.abs_eq_natAbs]
      exact_mod_cast h1
    calc |(m : ℚ)| * 2 ^ e < 2 ^ binary64.prec * 2 ^ e :=
          mul_lt_mul_of_pos_right h4 (zpow_pos (by norm_num) e)
      _ = 2 ^ ((binary64.prec : Int) + e) := by
          rw [zpow_add₀ (by norm_num), zpow_natCast]
      _ ≤ 2 ^ (binary64.emax : Int) := zpow_le_zpow_right₀ (by norm_num) (by omega)
      _ = 2 ^ binary64.emax := zpow_natCast _ _
  refine ⟨fun q hq => if_neg (small q hq), fun q hq => ⟨q, if_neg ?_, ?_⟩, fun q hq => if_pos hq,
    fun n hn => if_neg ?_, fun n hn => if_pos hn⟩
  · rw [not_le]
    exact hq.trans_lt (pow_lt_pow_right₀ (by norm_num) (by norm_num [binary64]))
  · rw [sub_self, abs_zero]
    exact le_max_of_le_left (by positivity)
  · have h1 := small _ hn
    rwa [abs_of_pos (by positivity)] at h1

/-- 1.5 and 1.53125 agree in the first place but not in the second. -/
example : Spec.AgreeUpTo 1 (3 / 2) (49 / 32) ∧ ¬ Spec.AgreeUpTo 2 (3 / 2) (49 / 32)
    ∧ cmpEqualValues .fin .fin (.fin (10 ^ 1)) (.fin (3 / 2)) (.fin (49 / 32)) = true
    ∧ cmpEqualValues .fin .fin (.fin (10 ^ 2)) (.fin (3 / 2)) (.fin (49 / 32)) = false
    ∧ cmpEqualValues .fin .fin (.fin (10 ^ 1)) (.fin (-3 / 2)) (.fin (-49 / 32)) = false := by
  have h : ∀ n, cmpEqualValues .fin .fin (.fin (10 ^ n)) (.fin (3 / 2)) (.fin (49 / 32)) = true ↔
      Spec.AgreeUpTo n (3 / 2) (49 / 32) := fun n =>
    C120_partial .fin .fin _ _ n (by norm_num) (by norm_num) rfl rfl
  have h1 : Spec.AgreeUpTo 1 (3 / 2) (49 / 32) := by
    rw [← h, cmpEqualValues_exact rfl rfl]; norm_num
  have h2 : ¬ Spec.AgreeUpTo 2 (3 / 2) (49 / 32) := by
    rw [← h, cmpEqualValues_exact rfl rfl]; norm_num
  refine ⟨h1, h2, (h 1).2 h1, ?_, ?_⟩
  · rw [← Bool.not_eq_true, h]; exact h2
  · rw [← Bool.not_eq_true, cmpEqualValues_exact rfl rfl]; norm_num

end Cmp
