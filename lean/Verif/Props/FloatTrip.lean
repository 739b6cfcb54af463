import Verif.Props.FloatNear
import Verif.Props.TextReal

/-
Property C107: numbers formatted and parsed again; and C78 for numbers with many binary places.
-/

namespace Cmp

open IntTy

/-- There is room for `k` places in the range of the format: `radix ^ (k + 2) * 2 ^ prec` is at most
the greatest power of two.  In radix 10 that is up to 289 places for `double`, 29 for `float`. -/
def PlacesFit (F : Spec.BinFmt) (r k : Nat) : Prop := r ^ (k + 2) * 2 ^ F.prec ≤ 2 ^ (F.emax - 1)

/-- The text is accurate relative to the number. -/
theorem formatFloat_relative (e : Enc) {F : Spec.BinFmt} {rnd : ℚ → ℚ} {f : FloatFormat} {x : ℚ}
    {k : Nat} (hF : F.Std) (hn : F.Nearest rnd) (hf : f.Valid) (hx : F.Has x)
    (hk : (k : Int) + F.prec ≤ 1 - F.emin) (hxk : Spec.BinaryPlaces k x)
    (hll : llong.Has ⌊x⌋) (hmin : ⌊x⌋ ≠ llong.min) (hx0 : 0 ≤ x ∨ ∃ z : Int, x = z)
    (hlim : f.placeLimit = .none) (heven : f.radix % 2 = 0) :
    ∃ y cs, FormatsTo e rnd x f cs ∧ DenotesReal f y k cs
      ∧ |y - x| ≤ |x| * ((1 + 1 / 2 ^ F.prec) ^ k - 1) ∧ ((∃ z : Int, x = z) → y = x) := by
  have hxa : Spec.BinaryPlaces k |x| := by
    obtain ⟨z, hz⟩ := hxk
    rcases abs_choice x with h | h <;> rw [h]
    · exact ⟨z, hz⟩
    · exact ⟨-z, by rw [hz]; push_cast; ring⟩
  have hprec := hF.prec_ge
  have hp : (1 : ℚ) ≤ (1 + 1 / 2 ^ F.prec) ^ k := one_le_pow₀ (by
    have : (0 : ℚ) ≤ 1 / 2 ^ F.prec := by positivity
    linarith)
  obtain ⟨y, cs, h1, h2, h3, h4, -⟩ := formatFloat_shown e hF hn hf hx hll hmin (need := k + 1)
    (places := k) (ε := |x| * ((1 + 1 / 2 ^ F.prec) ^ k - 1)) (by
      intro hh
      obtain ⟨fs, hfs, -, herr, hlen, hrun⟩ := formatFractionLoop_even e hF hn hf.1 hf.2
        heven hlim k (by omega) _ hh (Int.fract_nonneg _)
        (Int.fract_lt_one _) (Spec.BinFmt.BinaryPlaces.fract hxa) 0
      refine ⟨fs, 0, hfs, (herr hk).trans ?_, hlen, fun h => ?_, fun fuel hfuel => ?_⟩
      · apply mul_le_mul_of_nonneg_right _ (by linarith)
        have h5 := Int.floor_add_fract |x|
        have h6 : (0 : ℚ) ≤ ⌊|x|⌋ := by
          exact_mod_cast Int.floor_nonneg.mpr (abs_nonneg x)
        linarith
      · rw [hlim] at h
        cases h
      · rw [hrun fuel hfuel, List.nil_append])
  have hs : shown x = x := by
    rcases hx0 with h | ⟨z, rfl⟩
    · exact shown_nonneg h
    · exact shown_int z
  rw [hs] at h3
  exact ⟨y, cs, h1, h2, h3, h4⟩

/-- Values of the format that are not integers are small. -/
theorem Spec.BinFmt.Has.small_of_not_int {F : Spec.BinFmt} {x : ℚ} (hx : F.Has x)
    (hxi : ¬ ∃ z : Int, x = z) : |x| < 2 ^ F.prec := by
  obtain ⟨m, e, hm, he, rfl⟩ := hx
  have hneg : e < 0 := by
    by_contra h
    refine hxi ⟨m * 2 ^ e.toNat, ?_⟩
    push_cast
    rw [← zpow_natCast, Int.toNat_of_nonneg (not_lt.mp h)]
  have h1 : |(m : ℚ)| < 2 ^ F.prec := by
    rw [← Int.cast_abs, Int.abs_eq_natAbs, Int.cast_natCast]
    exact_mod_cast hm
  have h2 : (2 : ℚ) ^ e ≤ 1 := zpow_le_one_of_nonpos₀ (by norm_num) hneg.le
  have h3 : (0 : ℚ) < 2 ^ e := zpow_pos (by norm_num) _
  rw [abs_mul, abs_of_pos h3]
  calc |(m : ℚ)| * 2 ^ e ≤ |(m : ℚ)| * 1 := by gcongr
    _ < _ := by rwa [mul_one]

/-- Powers of numbers near 1. -/
theorem near_one {u : ℚ} {n : Nat} (hu : 0 ≤ u) (hnu : (n + 1) * u ≤ 1 / 1024) :
    1 - n * u ≤ (1 - u) ^ n ∧ (1 + u) ^ n ≤ 1 + 9 / 8 * (n * u) ∧ (1 + u) ^ n * (1 - u) ^ n ≤ 1 := by
  have hn0 : (0 : ℚ) ≤ n := by positivity
  have hn1 : 0 ≤ n * u := by positivity
  have hu1 : u ≤ 1 / 1024 := by nlinarith
  have h1 : 1 - n * u ≤ (1 - u) ^ n := by
    have := one_add_mul_le_pow (a := -u) (by linarith) n
    have e : 1 + (n : ℚ) * -u = 1 - n * u := by ring
    rw [e, ← sub_eq_add_neg] at this
    exact this
  have h3 : (1 + u) ^ n * (1 - u) ^ n ≤ 1 := by
    rw [← mul_pow]
    exact pow_le_one₀ (by nlinarith) (by nlinarith)
  refine ⟨h1, ?_, h3⟩
  have hp : (0 : ℚ) < (1 + u) ^ n := by positivity
  have h4 : (1 + u) ^ n * (1 - n * u) ≤ 1 := le_trans (by gcongr) h3
  have h5 : (1 + u) ^ n ≤ 1 / (1 - n * u) := by
    rw [le_div_iff₀ (by linarith)]
    exact h4
  refine h5.trans ?_
  rw [div_le_iff₀ (by linarith)]
  nlinarith

/-- The relative error after formatting and parsing with `n` places. -/
theorem trip_error {u : ℚ} {n l : Nat} (hl : l ≤ n) (hu : 0 ≤ u) (hnu : (n + 1) * u ≤ 1 / 1024) :
    (1 + u) ^ n * ((1 + u) ^ (l + 1) / (1 - u) ^ l) ≤ 1 + 4 * ((n + 1) * u)
    ∧ 1 - 4 * ((n + 1) * u) ≤ (2 - (1 + u) ^ n) * ((1 - u) ^ (l + 1) / (1 + u) ^ l) := by
  have hn0 : (0 : ℚ) ≤ n := by positivity
  have hn1 : 0 ≤ n * u := by positivity
  have hu1 : u ≤ 1 / 1024 := by nlinarith
  obtain ⟨a1, a2, a3⟩ := near_one hu hnu
  have hl1 : (1 + u) ^ l ≤ (1 + u) ^ n := pow_le_pow_right₀ (by linarith) hl
  have hl2 : (1 - u) ^ n ≤ (1 - u) ^ l := pow_le_pow_of_le_one (by linarith) (by linarith) hl
  have hd0 : (0 : ℚ) < (1 - u) ^ l := pow_pos (by linarith) _
  have hd1 : (0 : ℚ) < (1 + u) ^ l := by positivity
  obtain ⟨t, ht⟩ : ∃ t, t = n * u := ⟨_, rfl⟩
  have ht1 : t ≤ 1 / 1024 := by nlinarith
  have hexp : (n + 1 : ℚ) * u = t + u := by rw [ht]; ring
  rw [hexp] at hnu ⊢
  rw [← ht] at a1 a2 hn1
  constructor
  · rw [← mul_div_assoc, div_le_iff₀ hd0, pow_succ]
    have hA : (1 + u) ^ n * ((1 + u) ^ l * (1 + u))
        ≤ (1 + 9 / 8 * t) * ((1 + 9 / 8 * t) * (1 + u)) := by
      have : (1 + u) ^ l ≤ 1 + 9 / 8 * t := hl1.trans a2
      gcongr
    have hB : (1 + 4 * (t + u)) * (1 - t) ≤ (1 + 4 * (t + u)) * (1 - u) ^ l :=
      mul_le_mul_of_nonneg_left (a1.trans hl2) (by linarith)
    refine hA.trans (le_trans ?_ hB)
    have h1 : t * t ≤ t * (1 / 1024) := mul_le_mul_of_nonneg_left ht1 hn1
    have h2 : t * u ≤ t * (1 / 1024) := mul_le_mul_of_nonneg_left hu1 hn1
    have h3 : t * t * u ≤ t * (1 / 1024) * (1 / 1024) := mul_le_mul h1 hu1 hu (by positivity)
    nlinarith
  · have hinv : 1 - t ≤ 1 / (1 + u) ^ l := by
      rw [le_div_iff₀ hd1]
      calc (1 - t) * (1 + u) ^ l ≤ (1 - u) ^ n * (1 + u) ^ n := by
            apply mul_le_mul a1 hl1 hd1.le
            exact pow_nonneg (by linarith) _
        _ ≤ 1 := by rw [mul_comm]; exact a3
    have hB : (1 - t) * (1 - u) ≤ (1 - u) ^ (l + 1) := by
      rw [pow_succ]
      exact mul_le_mul_of_nonneg_right (a1.trans hl2) (by linarith)
    have hC : (1 - t) * (1 - u) * (1 - t) ≤ (1 - u) ^ (l + 1) / (1 + u) ^ l := by
      rw [div_eq_mul_one_div]
      exact mul_le_mul hB hinv (by linarith) (pow_nonneg (by linarith) _)
    have hD : (1 - 9 / 8 * t) * ((1 - t) * (1 - u) * (1 - t))
        ≤ (2 - (1 + u) ^ n) * ((1 - u) ^ (l + 1) / (1 + u) ^ l) := by
      apply mul_le_mul (by linarith) hC
      · have : 0 ≤ 1 - t := by linarith
        have : 0 ≤ 1 - u := by linarith
        positivity
      · linarith
    refine le_trans ?_ hD
    have g1 : 1 - 2 * t ≤ (1 - t) * (1 - t) := by nlinarith
    have g2 : 1 - 2 * t - u ≤ (1 - t) * (1 - t) * (1 - u) := by
      have : (1 - 2 * t) * (1 - u) ≤ (1 - t) * (1 - t) * (1 - u) :=
        mul_le_mul_of_nonneg_right g1 (by linarith)
      nlinarith [mul_nonneg hn1 hu]
    have g3 : (1 - 9 / 8 * t) * (1 - 2 * t - u) ≤ (1 - 9 / 8 * t) * ((1 - t) * (1 - t) * (1 - u)) :=
      mul_le_mul_of_nonneg_left g2 (by linarith)
    have g4 : (1 - 9 / 8 * t) * ((1 - t) * (1 - u) * (1 - t))
        = (1 - 9 / 8 * t) * ((1 - t) * (1 - t) * (1 - u)) := by ring
    rw [g4]
    refine le_trans ?_ g3
    nlinarith [mul_nonneg hn1 hu, mul_nonneg hn1 hn1]

/-- What the constants of the two formats leave room for. -/
theorem trip_room {F : Spec.BinFmt} (hF : F.Std) {r k l : Nat} (hr2 : 2 ≤ r) (hl : l ≤ k)
    (hfit : PlacesFit F r k) {V : ℚ} (hV : V ≤ 9 / 8 * 2 ^ F.prec) :
    (k : Int) + F.prec ≤ 1 - F.emin ∧ ((k : ℚ) + 1) * (1 / 2 ^ F.prec) ≤ 1 / 1024
    ∧ (2 : ℚ) ^ (F.emin + F.prec - 1) ≤
        ((1 - 1 / 2 ^ F.prec) / ((1 + 1 / 2 ^ F.prec) * r)) ^ (l + 1)
    ∧ (V + r) * ((1 + 1 / 2 ^ F.prec) / (1 - 1 / 2 ^ F.prec) * r) ^ (l + 1)
        ≤ 2 ^ (F.emax - 1) := by
  have hk2 : k + 2 + F.prec ≤ F.emax - 1 := by
    have h1 : 2 ^ (k + 2) * 2 ^ F.prec ≤ 2 ^ (F.emax - 1) :=
      le_trans (Nat.mul_le_mul_right _ (Nat.pow_le_pow_left hr2 _)) hfit
    rw [← pow_add] at h1
    exact (Nat.pow_le_pow_iff_right (by norm_num)).mp h1
  have hke : (k : Int) + F.prec ≤ 1 - F.emin := by
    rcases hF with rfl | rfl <;> simp only [Spec.binary32, Spec.binary64] at hk2 ⊢ <;> omega
  have hku : ((k : ℚ) + 1) * (1 / 2 ^ F.prec) ≤ 1 / 1024 := by
    rcases hF with rfl | rfl
    · have : (k : ℚ) ≤ 101 := by
        have : k ≤ 101 := by simp only [Spec.binary32] at hk2; omega
        exact_mod_cast this
      norm_num [Spec.binary32]
      linarith
    · have : (k : ℚ) ≤ 968 := by
        have : k ≤ 968 := by simp only [Spec.binary64] at hk2; omega
        exact_mod_cast this
      norm_num [Spec.binary64]
      linarith
  refine ⟨hke, hku, ?_, ?_⟩
  all_goals
    obtain ⟨u, hu⟩ : ∃ u : ℚ, u = 1 / 2 ^ F.prec := ⟨_, rfl⟩
    have hu0 : 0 ≤ u := by rw [hu]; positivity
    rw [← hu] at hku ⊢
    have hl' : (l : ℚ) ≤ k := by exact_mod_cast hl
    have hl0 : (0 : ℚ) ≤ l := by positivity
    have hlu : l * u ≤ 1 / 1024 := by nlinarith
    have hu1 : u ≤ 1 / 1024 := by nlinarith
    have hrq : (2 : ℚ) ≤ r := by exact_mod_cast hr2
    obtain ⟨b1, b2, b3⟩ := near_one (u := u) (n := l) hu0 (by nlinarith)
    have hfit' : (r : ℚ) ^ (l + 1) * r * 2 ^ F.prec ≤ 2 ^ (F.emax - 1) := by
      have h1 : r ^ (l + 2) * 2 ^ F.prec ≤ 2 ^ (F.emax - 1) :=
        le_trans (Nat.mul_le_mul_right _ (Nat.pow_le_pow_right (by omega) (by omega))) hfit
      have h2 : (r : ℚ) ^ (l + 2) * 2 ^ F.prec ≤ 2 ^ (F.emax - 1) := by exact_mod_cast h1
      rwa [pow_succ] at h2
    have hp1 : (1 / 2 : ℚ) ≤ (1 - u) ^ (l + 1) := by
      rw [pow_succ]
      have : (1 - l * u) * (1 - u) ≤ (1 - u) ^ l * (1 - u) :=
        mul_le_mul_of_nonneg_right b1 (by linarith)
      nlinarith
    have hp2 : (1 + u) ^ (l + 1) ≤ 5 / 4 := by
      rw [pow_succ]
      have : (1 + u) ^ l * (1 + u) ≤ (1 + 9 / 8 * (l * u)) * (1 + u) :=
        mul_le_mul_of_nonneg_right b2 (by linarith)
      nlinarith
    have hR : (0 : ℚ) < (r : ℚ) ^ (l + 1) := by positivity
  · have hlow : (2 : ℚ) ^ (F.emin + F.prec - 1) = 2 / 2 ^ (F.emax - 1) := by
      have : F.emin + F.prec - 1 = 1 - ((F.emax - 1 : Nat) : Int) := by
        rcases hF with rfl | rfl <;> decide
      rw [this, zpow_sub₀ (by norm_num), zpow_one, zpow_natCast]
    rw [hlow, div_pow, mul_pow, div_le_div_iff₀ (by positivity) (by positivity)]
    have hP : (1 : ℚ) ≤ 2 ^ F.prec := one_le_pow₀ (by norm_num)
    have h24 : (2 : ℚ) ^ 4 ≤ 2 ^ F.prec :=
      pow_le_pow_right₀ (by norm_num) (by have := hF.prec_ge; omega)
    calc 2 * ((1 + u) ^ (l + 1) * (r : ℚ) ^ (l + 1)) ≤ 2 * (5 / 4 * (r : ℚ) ^ (l + 1)) := by gcongr
      _ ≤ 1 / 2 * ((r : ℚ) ^ (l + 1) * r * 2 ^ F.prec) := by
        have : (r : ℚ) ^ (l + 1) * 32 ≤ (r : ℚ) ^ (l + 1) * (r * 2 ^ F.prec) := by
          apply mul_le_mul_of_nonneg_left _ hR.le
          nlinarith
        nlinarith
      _ ≤ (1 - u) ^ (l + 1) * 2 ^ (F.emax - 1) := by
        apply mul_le_mul hp1 hfit' (by positivity)
        exact pow_nonneg (by linarith) _
  · rw [mul_pow, div_pow]
    have hq : (1 + u) ^ (l + 1) / (1 - u) ^ (l + 1) ≤ 3 / 2 := by
      have hp3 : (9 / 10 : ℚ) ≤ (1 - u) ^ (l + 1) := by
        rw [pow_succ]
        have : (1 - l * u) * (1 - u) ≤ (1 - u) ^ l * (1 - u) :=
          mul_le_mul_of_nonneg_right b1 (by linarith)
        nlinarith
      rw [div_le_iff₀ (by linarith)]
      linarith
    have hq0 : (0 : ℚ) ≤ (1 + u) ^ (l + 1) / (1 - u) ^ (l + 1) :=
      div_nonneg (by positivity) (by linarith)
    have hP : (2 : ℚ) ^ 4 ≤ 2 ^ F.prec :=
      pow_le_pow_right₀ (by norm_num) (by have := hF.prec_ge; omega)
    calc (V + r) * ((1 + u) ^ (l + 1) / (1 - u) ^ (l + 1) * (r : ℚ) ^ (l + 1))
        ≤ (9 / 8 * 2 ^ F.prec + r) * ((1 + u) ^ (l + 1) / (1 - u) ^ (l + 1) * (r : ℚ) ^ (l + 1)) :=
          mul_le_mul_of_nonneg_right (by linarith) (by positivity)
      _ ≤ (9 / 8 * 2 ^ F.prec + r) * (3 / 2 * (r : ℚ) ^ (l + 1)) := by gcongr
      _ = (r : ℚ) ^ (l + 1) * (3 / 2 * (9 / 8 * 2 ^ F.prec + r)) := by ring
      _ ≤ (r : ℚ) ^ (l + 1) * (r * 2 ^ F.prec) := by
        apply mul_le_mul_of_nonneg_left _ hR.le
        nlinarith
      _ ≤ _ := by rwa [← mul_assoc]

/-! ### C107 -/

/-- The number `y` is `x`, or nearly so if `x` is not an integer: the relative error is at most
`4 (k + 1)` times that of a single operation. -/
def NearlyBack (F : Spec.BinFmt) (k : Nat) (x y : ℚ) : Prop :=
  ((∃ z : Int, x = z) → y = x) ∧ |y - x| ≤ |x| * (4 * ((k + 1) / 2 ^ F.prec))

/-- The numbers that survive: an integral part within `long long`, not negative unless an integer,
and at most `k` binary places. -/
def Storable (F : Spec.BinFmt) (k : Nat) (x : ℚ) : Prop :=
  F.Has x ∧ llong.Has ⌊x⌋ ∧ ⌊x⌋ ≠ llong.min ∧ (0 ≤ x ∨ ∃ z : Int, x = z) ∧ Spec.BinaryPlaces k x

/-- The numeral of a number and what it denotes. -/
theorem stored_numeral (e : Enc) {F : Spec.BinFmt} {rnd : ℚ → ℚ} {f : FloatFormat} {x : ℚ} {k : Nat}
    (hF : F.Std) (hn : F.Nearest rnd) (hf : f.Valid) (hlim : f.placeLimit = .none)
    (heven : f.radix % 2 = 0) (hfit : PlacesFit F f.radix k) (hx : Storable F k x) :
    ∃ cs neg ds fs, FormatsTo e rnd x f cs
      ∧ Spec.RealNumeral f.radix f.separator.char (f.sign = .alwaysShow) f.radixCharacter.char
        f.separator.char cs neg ds fs
      ∧ (ds.head? = some 0 → ds = [0])
      ∧ |Spec.denoteReal f.radix neg ds fs - x| ≤ |x| * ((1 + 1 / 2 ^ F.prec) ^ k - 1)
      ∧ fs.length ≤ k ∧ ((∃ z : Int, x = z) → fs = [] ∧ Spec.denoteReal f.radix neg ds fs = x)
      ∧ ((¬ ∃ z : Int, x = z) → neg = false) := by
  obtain ⟨hx1, hll, hmin, hx0, hxk⟩ := hx
  obtain ⟨hke, hku, -, -⟩ := trip_room hF hf.1 le_rfl hfit (V := 0) (by positivity)
  by_cases hz : ∃ z : Int, x = z
  · obtain ⟨z, hz'⟩ := hz
    obtain ⟨y, cs, h1, ⟨neg, ds, fs, h2, h3, h4, h5⟩, -, h7⟩ := formatFloat_relative e hF hn hf hx1
      (k := 0) (by have := hF.emin_le; push_cast; omega) ⟨z, by simp [hz']⟩ hll hmin hx0 hlim heven
    have hfs : fs = [] := List.length_eq_zero_iff.mp (by omega)
    have hy := h7 ⟨z, hz'⟩
    rw [hy] at h4
    refine ⟨cs, neg, ds, fs, h1, h2, h3, ?_, by simp [hfs], fun _ => ⟨hfs, h4⟩,
      fun h => absurd ⟨z, hz'⟩ h⟩
    rw [h4, sub_self, abs_zero]
    have : (1 : ℚ) ≤ (1 + 1 / 2 ^ F.prec) ^ k := one_le_pow₀ (by
      have : (0 : ℚ) ≤ 1 / 2 ^ F.prec := by positivity
      linarith)
    exact mul_nonneg (abs_nonneg _) (by linarith)
  · obtain ⟨y, cs, h1, ⟨neg, ds, fs, h2, h3, h4, h5⟩, h6, -⟩ := formatFloat_relative e hF hn hf hx1
      hke hxk hll hmin hx0 hlim heven
    rw [← h4] at h6
    refine ⟨cs, neg, ds, fs, h1, h2, h3, h6, h5, fun h => absurd h hz, fun _ => ?_⟩
    cases neg with
    | false => rfl
    | true =>
      exfalso
      have hx0 : 0 ≤ x := hx0.resolve_right hz
      have hxne : x ≠ 0 := fun h => hz ⟨0, by simpa using h⟩
      have hxp : 0 < x := lt_of_le_of_ne hx0 (Ne.symm hxne)
      have hneg : Spec.denoteReal f.radix true ds fs ≤ 0 := by
        have : (0 : ℚ) ≤ Spec.fraction f.radix fs := by unfold Spec.fraction; positivity
        unfold Spec.denoteReal
        rw [if_pos rfl]
        have h2 : (0 : ℚ) ≤ Spec.positional f.radix ds := by positivity
        linarith
      have hb := (near_one (u := 1 / 2 ^ F.prec) (n := k) (by positivity) hku).2.1
      have hk0 : (0 : ℚ) ≤ 1 / 2 ^ F.prec := by positivity
      rw [abs_of_pos hxp] at h6
      have h8 := (abs_le.mp h6).1
      have : x * ((1 + 1 / 2 ^ F.prec) ^ k - 1) ≤ x * (1 / 2) := by
        apply mul_le_mul_of_nonneg_left _ hx0
        nlinarith
      linarith

/-- The numeral is read back. -/
theorem stored_parsed_plain {e : Enc} {F : Spec.BinFmt} {rnd : ℚ → ℚ} {f : FloatFormat} {x : ℚ} {k : Nat}
    (hF : F.Std) (hn : F.Nearest rnd) (hf : f.Valid) (hlim : f.placeLimit = .none)
    (hsep : f.separator.char ≠ some f.radixCharacter.char) (hfit : PlacesFit F f.radix k) (hx : Storable F k x)
    {s : Str e} {t : List Nat} {neg : Bool} {ds fs : List Nat} (hs : TextOf e s t)
    (hnum : Spec.RealNumeral f.radix f.separator.char (f.sign = .alwaysShow) f.radixCharacter.char
      none t neg ds fs) (hd : ds.head? = some 0 → ds = [0])
    (hv : |Spec.denoteReal f.radix neg ds fs - x| ≤ |x| * ((1 + 1 / 2 ^ F.prec) ^ k - 1))
    (hl : fs.length ≤ k)
    (hint : (∃ z : Int, x = z) → fs = [] ∧ Spec.denoteReal f.radix neg ds fs = x)
    (hnon : (¬ ∃ z : Int, x = z) → neg = false) :
    ∃ y, parseFloat e rnd s f = .ok y ∧ NearlyBack F k x y := by
  obtain ⟨hx1, hll, hmin, hx0, hxk⟩ := hx
  obtain ⟨u, hu⟩ : ∃ u : ℚ, u = 1 / 2 ^ F.prec := ⟨_, rfl⟩
  have hu0 : 0 ≤ u := by rw [hu]; positivity
  obtain ⟨hke, hku, -, -⟩ := trip_room hF hf.1 hl hfit (V := 0) (by positivity)
  rw [← hu] at hku hv
  have hu1 : u ≤ 1 / 1024 := by
    have : (0 : ℚ) ≤ k := by positivity
    nlinarith
  obtain ⟨b1, b2, b3⟩ := near_one hu0 hku
  have hP : (2 : ℚ) ^ F.prec * u = 1 := by rw [hu]; field_simp
  have hfr : (0 : ℚ) ≤ Spec.fraction f.radix fs ∧ Spec.fraction f.radix fs < 1 := by
    obtain ⟨_, _, hfd, _⟩ := hnum
    exact fraction_bounds (by have := hf.1; omega) fs hfd
  have hmx : llong.max = 9223372036854775807 := by decide
  have hmn : llong.min = -9223372036854775808 := by decide
  have hprec53 : F.prec ≤ 53 := by rcases hF with rfl | rfl <;> decide
  -- a number that is not an integer
  have hfrac : (¬ ∃ z : Int, x = z) → 0 < x ∧ x < 2 ^ F.prec
      ∧ Spec.denoteReal f.radix neg ds fs ≤ x * (1 + u) ^ k
      ∧ x * (2 - (1 + u) ^ k) ≤ Spec.denoteReal f.radix neg ds fs
      ∧ Spec.denoteReal f.radix neg ds fs ≤ 9 / 8 * 2 ^ F.prec := by
    intro hz
    have h0 : 0 ≤ x := hx0.resolve_right hz
    have hne : x ≠ 0 := fun h => hz ⟨0, by simpa using h⟩
    have hsm := Spec.BinFmt.Has.small_of_not_int hx1 hz
    rw [abs_of_nonneg h0] at hsm hv
    have hku' : (k : ℚ) * u ≤ 1 / 1024 := by linarith
    obtain ⟨g1, g2⟩ := abs_le.mp hv
    have e1 : Spec.denoteReal f.radix neg ds fs ≤ x * (1 + u) ^ k := by linarith
    have hpow : (1 + u) ^ k ≤ 9 / 8 := by linarith
    refine ⟨lt_of_le_of_ne h0 (Ne.symm hne), hsm, e1, by linarith, e1.trans ?_⟩
    calc x * (1 + u) ^ k ≤ 2 ^ F.prec * (9 / 8) := by gcongr
      _ = _ := by ring
  have hpos : ((Spec.positional f.radix ds : Nat) : Int) ≤ llong.max := by
    rw [hmx]
    by_cases hz : ∃ z : Int, x = z
    · obtain ⟨hfs, hden⟩ := hint hz
      have h2 := hll.2
      have h3 := hll.1
      rw [hmx] at h2
      rw [hmn] at h3 hmin
      have hfl : ⌊x⌋ = Spec.denote f.radix neg ds := by
        rw [← hden, Spec.denoteReal, hfs, Spec.fraction_nil, add_zero, Spec.denote]
        split
        · rw [← Int.cast_natCast, ← Int.cast_neg, Int.floor_intCast]
        · rw [← Int.cast_natCast, Int.floor_intCast]
      rw [hfl, Spec.denote] at h2 h3 hmin
      split at h2 <;> simp_all
      omega
    · obtain ⟨-, -, -, -, hV⟩ := hfrac hz
      rw [hnon hz, Spec.denoteReal, if_neg (by simp)] at hV
      have h5 : (Spec.positional f.radix ds : ℚ) ≤ 9 / 8 * 2 ^ 53 := by
        have : (2 : ℚ) ^ F.prec ≤ 2 ^ 53 := pow_le_pow_right₀ (by norm_num) hprec53
        linarith [hfr.1]
      have h6 : ((Spec.positional f.radix ds : Int) : ℚ) ≤ ((9223372036854775807 : Int) : ℚ) := by
        rw [Int.cast_natCast]
        refine h5.trans ?_
        norm_num
      exact_mod_cast h6
  have hne : ds ≠ [] := by
    obtain ⟨_, ⟨_, _, _, ⟨h, _⟩, _⟩, _⟩ := hnum
    exact h
  have hplace : ((f.radix ^ (ds.length - 1) : Nat) : Int) ≤ llong.max := by
    by_cases h0 : ds.head? = some 0
    · rw [hd h0, hmx]
      simp
    · have := place_le (r := f.radix) ds hne h0
      omega
  have hprec : (1 : ℚ) / 2 ^ F.prec ≤ 1 / 2 := by rw [← hu]; linarith
  have hr := hn.rounding hF
  have hr' : ∀ lo hi : ℚ, (2 : ℚ) ^ (F.emin + F.prec - 1) ≤ lo → hi ≤ 2 ^ (F.emax - 1) →
      ∀ q : ℚ, q = 0 ∨ (lo ≤ q ∧ q ≤ hi) →
      (1 - 1 / 2 ^ F.prec) * q ≤ rnd q ∧ rnd q ≤ (1 + 1 / 2 ^ F.prec) * q := by
    rintro lo hi hlo hhi q (rfl | ⟨h1, h2⟩)
    · rw [hn.exact (Spec.BinFmt.has_zero hF)]
      simp
    · exact hr.2 q (hlo.trans h1) (h2.trans hhi)
  by_cases hz : ∃ z : Int, x = z
  · obtain ⟨hfs, hden⟩ := hint hz
    have hmin' : F.emin + F.prec - 1 ≤ -7 := by rcases hF with rfl | rfl <;> decide
    have hmax' : 70 ≤ F.emax - 1 := by rcases hF with rfl | rfl <;> decide
    have hr36 : (f.radix : ℚ) ≤ 36 := by exact_mod_cast hf.2
    have hr2 : (2 : ℚ) ≤ f.radix := by exact_mod_cast hf.1
    obtain ⟨y, e1, e2, -⟩ := C28_partial e rnd (1 / 2 ^ F.prec) _ _ f s t
      neg ds fs (by positivity) hprec (hr' _ _ le_rfl le_rfl) hf hs hnum hsep
      (fun _ => .inl hlim) hpos hplace (.inr hfs) (by
        rw [hfs, ← hu, List.length_nil, zero_add, pow_one]
        calc (2 : ℚ) ^ (F.emin + F.prec - 1) ≤ 2 ^ (-7 : Int) :=
              zpow_le_zpow_right₀ (by norm_num) hmin'
          _ ≤ (1 - u) / ((1 + u) * f.radix) := by
            rw [le_div_iff₀ (by positivity)]
            norm_num
            nlinarith) (by
        rw [hfs, ← hu, List.length_nil, zero_add, pow_one, Spec.denoteReal, if_neg (by simp),
          Spec.fraction_nil, add_zero]
        have hp : (Spec.positional f.radix ds : ℚ) ≤ 2 ^ 63 := by
          rw [hmx] at hpos
          have : (Spec.positional f.radix ds : Int) ≤ 2 ^ 63 := by omega
          exact_mod_cast this
        have hq : (1 + u) / (1 - u) ≤ 3 / 2 := by
          rw [div_le_iff₀ (by linarith)]
          linarith
        have hq0 : 0 ≤ (1 + u) / (1 - u) := div_nonneg (by linarith) (by linarith)
        calc ((Spec.positional f.radix ds : ℚ) + f.radix) * ((1 + u) / (1 - u) * f.radix)
            ≤ (2 ^ 63 + 36) * (3 / 2 * 36) := by gcongr
          _ ≤ 2 ^ 70 := by norm_num
          _ ≤ _ := pow_le_pow_right₀ (by norm_num) hmax')
    have hy : y = x := by rw [e2 hfs, hden, hn.exact hx1]
    refine ⟨y, e1, fun _ => hy, ?_⟩
    rw [hy, sub_self, abs_zero]
    positivity
  · obtain ⟨hxp, hsm, c1, c2, c3⟩ := hfrac hz
    have hneg := hnon hz
    subst hneg
    obtain ⟨-, -, r1, r2⟩ := trip_room hF hf.1 hl hfit c3
    obtain ⟨y, e1, -, e3⟩ := C28_partial e rnd (1 / 2 ^ F.prec) _ _ f s t
      false ds fs (by positivity) hprec (hr' _ _ le_rfl le_rfl) hf hs hnum hsep
      (fun _ => .inl hlim) hpos hplace (.inl rfl) r1 r2
    refine ⟨y, e1, fun h => absurd h hz, ?_⟩
    obtain ⟨d1, d2⟩ := e3 rfl
    rw [← hu] at d1 d2
    obtain ⟨t1, t2⟩ := trip_error hl hu0 hku
    rw [abs_of_pos hxp, show ((k : ℚ) + 1) / 2 ^ F.prec = (k + 1) * u by rw [hu]; ring]
    have hA : (0 : ℚ) ≤ (1 + u) ^ (fs.length + 1) / (1 - u) ^ fs.length :=
      div_nonneg (by positivity) (pow_nonneg (by linarith) _)
    have hB : (0 : ℚ) ≤ (1 - u) ^ (fs.length + 1) / (1 + u) ^ fs.length :=
      div_nonneg (pow_nonneg (by linarith) _) (by positivity)
    have m1 := mul_le_mul_of_nonneg_right c1 hA
    have m2 := mul_le_mul_of_nonneg_right c2 hB
    have m3 := mul_le_mul_of_nonneg_left t1 hxp.le
    have m4 := mul_le_mul_of_nonneg_left t2 hxp.le
    rw [abs_le]
    constructor
    · linarith
    · linarith

theorem stored_parsed {e : Enc} {F : Spec.BinFmt} {rnd : ℚ → ℚ} {f : FloatFormat} {x : ℚ} {k : Nat}
    (hF : F.Std) (hn : F.Nearest rnd) (hf : f.Valid) (hlim : f.placeLimit = .none)
    (hsep : f.separator = .none) (hfit : PlacesFit F f.radix k) (hx : Storable F k x)
    {s : Str e} {t : List Nat} {neg : Bool} {ds fs : List Nat} (hs : TextOf e s t)
    (hnum : Spec.RealNumeral f.radix f.separator.char (f.sign = .alwaysShow) f.radixCharacter.char
      f.separator.char t neg ds fs) (hd : ds.head? = some 0 → ds = [0])
    (hv : |Spec.denoteReal f.radix neg ds fs - x| ≤ |x| * ((1 + 1 / 2 ^ F.prec) ^ k - 1))
    (hl : fs.length ≤ k)
    (hint : (∃ z : Int, x = z) → fs = [] ∧ Spec.denoteReal f.radix neg ds fs = x)
    (hnon : (¬ ∃ z : Int, x = z) → neg = false) :
    ∃ y, parseFloat e rnd s f = .ok y ∧ NearlyBack F k x y :=
  stored_parsed_plain hF hn hf hlim (by rw [hsep]; exact fun h => nomatch h) hfit hx hs
    (by rw [hsep] at hnum ⊢; exact hnum) hd hv hl hint hnon

/-- C107 for numbers that satisfy `Storable`, in even radices, without separators and without a
place limit.  Missing: negative numbers with a fraction part, large numbers, more binary places than
fit, odd radices, and separators. -/
theorem C107_partial (e : Enc) (F : Spec.BinFmt) (rnd : ℚ → ℚ) (f : FloatFormat) (x : ℚ) (k : Nat)
    (hF : F.Std) (hn : F.Nearest rnd) (hf : f.Valid) (hlim : f.placeLimit = .none)
    (heven : f.radix % 2 = 0) (hsep : f.separator = .none) (hfit : PlacesFit F f.radix k)
    (hx : Storable F k x) :
    ∃ N s y, (∀ fuel ≥ N, formatFloat e rnd fuel x f = .ok s) ∧ parseFloat e rnd s f = .ok y
      ∧ NearlyBack F k x y := by
  obtain ⟨cs, neg, ds, fs, ⟨N, s, hs, hrun⟩, hnum, hd, hv, hl, hint, hnon⟩ :=
    stored_numeral e hF hn hf hlim heven hfit hx
  obtain ⟨y, e1, e2⟩ := stored_parsed hF hn hf hlim hsep hfit hx hs hnum hd hv hl hint hnon
  exact ⟨N, s, y, hrun, e1, e2⟩

/-- The double nearest to 0.1 and radix 10. -/
example : Storable Spec.binary64 55 (3602879701896397 / 2 ^ 55) ∧ PlacesFit Spec.binary64 10 55
    ∧ PlacesFit Spec.binary64 10 289 ∧ PlacesFit Spec.binary32 10 29 := by
  have h0 : ⌊(3602879701896397 / 2 ^ 55 : ℚ)⌋ = 0 := by norm_num
  refine ⟨⟨⟨3602879701896397, -55, by norm_num [Spec.binary64], by norm_num [Spec.binary64],
    by norm_num⟩, by rw [h0]; decide, by rw [h0]; decide, .inl (by norm_num),
    ⟨3602879701896397, by norm_num⟩⟩, ?_, ?_, ?_⟩ <;> unfold PlacesFit <;> decide +kernel

/-- The binary format of the counterexample. -/
abbrev binaryDigits : FloatFormat := { FloatFormat.default with radix := 2 }

/-- The number -1.25 is written as `-10.01` in radix 2. -/
theorem format_quarter {rnd : ℚ → ℚ} (hr : ∀ q, Spec.binary64.Has q → rnd q = q) (n : Nat) :
    formatFloat .char8 rnd (n + 3) (-5 / 4) binaryDigits
      = .ok [45#8, 49#8, 48#8, 46#8, 48#8, 49#8] := by
  have hfl : ⌊(-5 / 4 : ℚ)⌋ = -2 := by norm_num
  have hfl2 : ⌊(5 / 4 : ℚ)⌋ = 1 := by norm_num
  have habs : (if (-5 / 4 : ℚ) < 0 then -(-5 / 4 : ℚ) else -5 / 4) = 5 / 4 := by norm_num
  have hq : rnd (1 / 4) = 1 / 4 :=
    hr _ ⟨1, -2, by norm_num [Spec.binary64], by norm_num [Spec.binary64], by norm_num⟩
  have hh : rnd (1 / 2) = 1 / 2 :=
    hr _ ⟨1, -1, by norm_num [Spec.binary64], by norm_num [Spec.binary64], by norm_num⟩
  have h1 : rnd 1 = 1 :=
    hr _ ⟨1, 0, by norm_num [Spec.binary64], by norm_num [Spec.binary64], by norm_num⟩
  have h0 : rnd 0 = 0 :=
    hr _ ⟨0, 0, by norm_num [Spec.binary64], by norm_num [Spec.binary64], by norm_num⟩
  have hloop : formatFractionLoop .char8 rnd binaryDigits (n + 3) (1 / 4) 0 0 [] =
      .ok ([48#8, 49#8], 0) := by
    have er : ((binaryDigits.radix : Nat) : ℚ) = 2 := by norm_num [binaryDigits]
    have e0 : ¬ (binaryDigits.placeLimit ≠ .none ∧ 0 = binaryDigits.placeCount) := by
      decide
    have e1 : (1 / 4 * 2 : ℚ) = 1 / 2 := by norm_num
    have e2 : (1 / 2 * 2 : ℚ) = 1 := by norm_num
    have e3 : ⌊(1 / 2 : ℚ)⌋ = 0 := by norm_num
    have e4 : ⌊(1 : ℚ)⌋ = 1 := by norm_num
    have e5 : (1 / 2 - ((0 : Int) : ℚ) : ℚ) = 1 / 2 := by norm_num
    have e6 : (1 - ((1 : Int) : ℚ) : ℚ) = 0 := by norm_num
    rw [formatFractionLoop, if_neg (by norm_num)]
    simp only [er, e1, hh, e3, e5]
    rw [if_neg (by decide), if_neg e0]
    rw [show appendCP .char8 [] (formatDigit 0) = .ok [48#8] by decide, Outcome.ok_bind]
    rw [if_neg (by decide), formatFractionLoop, if_neg (by norm_num)]
    simp only [er, e2, h1, e4, e6, h0]
    rw [if_neg (by decide)]
    rw [show appendCP .char8 [48#8] (formatDigit 1) = .ok [48#8, 49#8] by decide]
    simp only [Outcome.ok_bind]
    simp [FloatFormat.default, formatFractionLoop]
  exact formatFloat_run (e := .char8) (rnd := rnd) (fuel := n + 3) (x := -5 / 4) (fr := 1 / 4)
    (f := binaryDigits) (eq := ⟨2, .onlyWhenNegative, .none⟩) (v := -2) (o := [45#8, 49#8, 48#8])
    (fs := [48#8, 49#8]) (o' := [45#8, 49#8, 48#8, 46#8]) (pl := 0) (by decide)
    (by rw [floorToLongLong, hfl, if_pos (by decide)]) (by decide)
    (by
      rw [habs, hfl2, show (5 / 4 - ((1 : Int) : ℚ) : ℚ) = 1 / 4 by norm_num, hq]) (by norm_num) hloop
    (by decide) (by decide)

/-- `-10.01` is read as -1.75. -/
theorem parse_quarter {rnd : ℚ → ℚ} (hr : ∀ q, Spec.binary64.Has q → rnd q = q) :
    parseFloat .char8 rnd [45#8, 49#8, 48#8, 46#8, 48#8, 49#8] binaryDigits = .ok (-7 / 4) := by
  have hn : Spec.RealNumeral binaryDigits.radix binaryDigits.separator.char
      (binaryDigits.sign = .alwaysShow) binaryDigits.radixCharacter.char none
      [45, 49, 48, 46, 48, 49] true [1, 0] [0, 1] :=
    ⟨[45, 49, 48], ⟨[45], [49, 48], rfl, ⟨by simp, by decide, [49, 48], by decide, by decide⟩, by simp⟩,
      by decide, .inr ⟨[48, 49], rfl, by decide⟩⟩
  have ht := textOf_ascii .char8 [45, 49, 48, 46, 48, 49] (by decide)
  have hv : binaryDigits.Valid := by unfold FloatFormat.Valid; decide
  have h1 := parseFloat_text .char8 rnd binaryDigits _ _ true [1, 0] [0, 1] hv ht hn (by decide)
    (by simp) (by decide) (by decide)
  have he : encs .char8 [45, 49, 48, 46, 48, 49] = [45#8, 49#8, 48#8, 46#8, 48#8, 49#8] := by decide
  rw [he] at h1
  rw [h1]
  have r1 : rnd 2 = 2 :=
    hr _ ⟨2, 0, by norm_num [Spec.binary64], by norm_num [Spec.binary64], by norm_num⟩
  have r2 : rnd 4 = 4 :=
    hr _ ⟨4, 0, by norm_num [Spec.binary64], by norm_num [Spec.binary64], by norm_num⟩
  have r3 : rnd 0 = 0 :=
    hr _ ⟨0, 0, by norm_num [Spec.binary64], by norm_num [Spec.binary64], by norm_num⟩
  have r4 : rnd (1 / 4) = 1 / 4 :=
    hr _ ⟨1, -2, by norm_num [Spec.binary64], by norm_num [Spec.binary64], by norm_num⟩
  have r5 : rnd (-2) = -2 :=
    hr _ ⟨-2, 0, by norm_num [Spec.binary64], by norm_num [Spec.binary64], by norm_num⟩
  have r6 : rnd (-7 / 4) = -7 / 4 :=
    hr _ ⟨-7, -2, by norm_num [Spec.binary64], by norm_num [Spec.binary64], by norm_num⟩
  have hden : ((Spec.denote 2 true [1, 0] : Int) : ℚ) = -2 := by
    norm_num [Spec.denote, Spec.positional]
  have s1 : appendDigit rnd 2 (1, -2) ((0 : Nat) : Int) = .ok (2, -2) := by
    simp only [appendDigit]
    rw [show ((1 : ℚ) * ((2 : Nat) : ℚ)) = 2 by norm_num, r1, if_neg (by norm_num),
      show ((((0 : Nat) : Int) : ℚ) / 2) = 0 by norm_num, r3,
      show (-2 + 0 : ℚ) = -2 by norm_num, r5]
  have s2 : appendDigit rnd 2 (2, -2) ((1 : Nat) : Int) = .ok (4, -7 / 4) := by
    simp only [appendDigit]
    rw [show ((2 : ℚ) * ((2 : Nat) : ℚ)) = 4 by norm_num, r2, if_neg (by norm_num),
      show ((((1 : Nat) : Int) : ℚ) / 4) = 1 / 4 by norm_num, r4,
      show (-2 + 1 / 4 : ℚ) = -7 / 4 by norm_num, r6]
  have hrad : binaryDigits.radix = 2 := rfl
  rw [hrad, hden, r5, List.foldlM_cons, s1, Outcome.ok_bind, List.foldlM_cons, s2, Outcome.ok_bind,
    List.foldlM_nil]
  rfl

/-- The number -1.25 comes back as -1.75. -/
theorem C107_violated :
    ¬ ∀ (e : Enc) (F : Spec.BinFmt) (rnd : ℚ → ℚ) (f : FloatFormat) (x : ℚ) (k : Nat),
      F.Std → F.Nearest rnd → f.Valid → f.placeLimit = .none → f.separator = .none →
      f.radix % 2 = 0 → PlacesFit F f.radix k → F.Has x → Spec.BinaryPlaces k x →
      llong.Has ⌊x⌋ → ⌊x⌋ ≠ llong.min →
      ∃ N s y, (∀ fuel ≥ N, formatFloat e rnd fuel x f = .ok s) ∧ parseFloat e rnd s f = .ok y
        ∧ NearlyBack F k x y := by
  intro h
  obtain ⟨rnd, hn⟩ := exists_nearest (F := Spec.binary64) (.inr rfl)
  have hfl : ⌊(-5 / 4 : ℚ)⌋ = -2 := by norm_num
  obtain ⟨N, s, y, h1, h2, -, h3⟩ := h .char8 Spec.binary64 rnd binaryDigits (-5 / 4) 2 (.inr rfl) hn
    (by unfold FloatFormat.Valid; decide) rfl rfl (by decide) (by unfold PlacesFit; decide +kernel)
    ⟨-5, -2, by norm_num [Spec.binary64], by norm_num [Spec.binary64], by norm_num⟩
    ⟨-5, by norm_num⟩ (by rw [hfl]; decide) (by rw [hfl]; decide)
  have h4 := h1 (N + 3) (by omega)
  rw [format_quarter (fun _ => hn.exact)] at h4
  cases h4
  rw [parse_quarter (fun _ => hn.exact)] at h2
  cases h2
  norm_num [Spec.binary64, abs_of_neg, abs_of_pos] at h3

/-! ### C78 -/

section Real

variable {ρ : Type} {W : Writer ρ} {fits : List Byte → Prop} {got out : List Byte → ρ → Prop}
  {ρ' : Type} {R : Reader ρ'}

open InStream OutStream

/-- The text of a floating-point number. -/
theorem stored_text (C : W.Collects fits got out) (native : Endian) (form : EncodingForm)
    {F : Spec.BinFmt} {rnd : ℚ → ℚ} {x : ℚ} {k : Nat} (hF : F.Std) (hn : F.Nearest rnd)
    (hfit : PlacesFit F 10 k) (hx : Storable F k x) :
    ∃ N, ∀ places ≥ N, ∃ t, HasForm fits got R native form (writeFloat native W rnd places x)
      (fun fuel => readFloat native R rnd fuel) (NearlyBack F k x) t := by
  obtain ⟨t, neg, ds, fs, ⟨N, s, hs, hf⟩, hnum, hd, hv, hl, hint, hnon⟩ :=
    stored_numeral (formatEnc form) (f := .default) hF hn ⟨by decide, by decide⟩ rfl (by decide) hfit hx
  obtain ⟨hne, hvis⟩ := realNumeral_visible hnum
  have hasc : ∀ c ∈ t, c < 128 := fun c hc => by have := hvis c hc; omega
  obtain ⟨y, e1, hy⟩ := stored_parsed (e := .char8) (f := .default) hF hn ⟨by decide, by decide⟩ rfl
    rfl hfit hx (textOf_ascii _ _ hasc) hnum hd hv hl hint hnon
  refine ⟨N, fun places hp => ⟨t, hne, hvis, ?_, ?_⟩⟩
  · intro st w hform hfit hw
    obtain ⟨r', e4, q⟩ := writeString_eq C native (formatEnc form) st t
      (fun c hc => stringOk_ascii native _ st c (hasc c hc)) w (by rw [hform]; exact hfit) hw
    rw [hform] at q
    refine ⟨r', ?_, q⟩
    rw [writeFloat, M.bind_ok (M.get_apply st), hform]
    rw [M.bind_ok (by rw [hf places hp, hs.eq]; rfl), e4, hform]
  · intro fuel st s' h
    refine ⟨y, hy, ?_⟩
    show readFloat native R rnd fuel st = _
    rw [readFloat, M.bind_ok h, e1]
    rfl

end Real

open InStream OutStream in
/-- C78 for sequences of numbers with more binary places than `C78_partial` allows, up to 289 for
`double` and 29 for `float`, on machines that round to nearest; the greater the number of binary
places, the greater the error.  Missing: negative numbers with a fraction part, large numbers, yet
more binary places, and a carriage return as the
separator. -/
theorem C78_nearest_partial (native o : Endian) (form : EncodingForm) (cap cap' : Nat)
    (F : Spec.BinFmt) (rnd : ℚ → ℚ) (k : Nat) (items : List (ℚ × List Nat)) (hF : F.Std)
    (hn : F.Nearest rnd) (hfit : PlacesFit F 10 k) (hcap : RoomFor form cap')
    (hx : ∀ i ∈ items, Storable F k i.1) (hs : Separated items)
    (hcr : ∀ i ∈ items.dropLast, i.2 ≠ [13]) :
    ∃ N, ∀ places ≥ N,
      ∃ wire, written cap o form (writeReals native Ctr.writer rnd places items) = .ok wire ∧
        ∀ fuel > wire.length, ∃ ys,
          received cap' wire o form (readReals native Ctr.reader rnd fuel items) = .ok ys
            ∧ List.Forall₂ (fun i y => NearlyBack F k i.1 y) items ys := by
  have hN : ∃ N, ∀ i ∈ items, ∀ places ≥ N, ∃ t, HasForm (fun _ => True)
      (fun w r => Res.Writing cap (fun _ => True) (Res.Overwrote (Ctr.Idle 1) [] 0) r w) Ctr.reader
      native form (writeFloat native Ctr.writer rnd places i.1)
      (fun fuel => readFloat native Ctr.reader rnd fuel) (NearlyBack F k i.1) t := by
    clear hs hcr
    induction items with
    | nil => exact ⟨0, by simp⟩
    | cons i items ih =>
      obtain ⟨N, hN⟩ := ih (fun j hj => hx j (by simp [hj]))
      obtain ⟨N', hN'⟩ := stored_text (R := Ctr.reader) (Ctr.collects cap []) native form hF hn hfit
        (hx i (by simp))
      refine ⟨max N N', fun j hj places hp => ?_⟩
      rcases List.mem_cons.mp hj with rfl | hj
      · exact hN' places (by omega)
      · exact hN j hj places (by omega)
  obtain ⟨N, hN⟩ := hN
  refine ⟨N, fun places hp => ?_⟩
  obtain ⟨text, ht, hw, hrd⟩ := sequence_text (R := Ctr.reader) (Ctr.collects cap []) native form
    (fun x => writeFloat native Ctr.writer rnd places x)
    (fun _ fuel => readFloat native Ctr.reader rnd fuel) (fun x y => NearlyBack F k x y) items
    (fun i hi => hN i hi places hp) hs hcr
  obtain ⟨us, r', e1, q1⟩ := hw ⟨freshCtr cap 1 [], o, form⟩ [] rfl trivial (Ctr.got_fresh cap)
  refine ⟨_, written_eq cap o form _ us _ r' e1 q1, ?_⟩
  intro fuel hfuel
  have hlen := textBytes_length form o text
  have h := fresh_hasText o form cap' hcap text ht
  obtain ⟨ys, r2, -, e2, -, hys⟩ := hrd _ _ (ctr_delivers cap' (textBytes form o text)) fuel _
    (by simp only [List.nil_append] at hfuel; omega) h
  exact ⟨ys, congrArg Prod.fst e2, hys⟩

example : Separated [((3602879701896397 / 2 ^ 55 : ℚ), [32]), (-3, [])] := by decide

end Cmp
