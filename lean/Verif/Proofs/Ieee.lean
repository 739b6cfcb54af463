import Mathlib.RingTheory.Coprime.Lemmas
import Verif.Proofs.TiesToEven

/-
Sums of an integer and decimal digits, rounded to nearest, ties to even.
-/

namespace Spec.BinFmt

variable {F : BinFmt}

theorem Std.wide (hF : F.Std) {q : ℚ} (h0 : 0 ≤ q) (h1 : q ≤ 2 ^ 64) : F.Within q := by
  have h2 := hF.emax_ge
  refine ⟨2 ^ 64, has_two_pow hF (by rcases hF with rfl | rfl <;> decide), ?_⟩
  rwa [abs_of_nonneg h0]

/-- Values at or above a power of two are multiples of the last place there. -/
theorem Has.onGrid {q : ℚ} (h : F.Has q) {E : Nat} (hE : (2 : ℚ) ^ E ≤ q) :
    ∃ z : Int, q * 2 ^ F.prec = z * 2 ^ (E + 1) := by
  obtain ⟨m, e, hm, -, rfl⟩ := h
  have h1 : (m : ℚ) < 2 ^ F.prec := by
    have : m < 2 ^ F.prec := by
      have : (m.natAbs : Int) < 2 ^ F.prec := by exact_mod_cast hm
      omega
    exact_mod_cast this
  have h2 : (0 : ℚ) < 2 ^ e := zpow_pos (by norm_num) e
  have h3 : (2 : ℚ) ^ (E : Int) < 2 ^ ((F.prec : Int) + e) := by
    rw [zpow_add₀ (by norm_num), zpow_natCast, zpow_natCast]
    exact hE.trans_lt (mul_lt_mul_of_pos_right h1 h2)
  have h4 := (zpow_lt_zpow_iff_right₀ (by norm_num : (1 : ℚ) < 2)).mp h3
  obtain ⟨j, hj⟩ : ∃ j : Nat, e + F.prec = E + 1 + j := ⟨(e + F.prec - (E + 1)).toNat, by omega⟩
  refine ⟨m * 2 ^ j, ?_⟩
  have h5 : (2 : ℚ) ^ e * 2 ^ F.prec = 2 ^ (E + 1 + j) := by
    rw [← zpow_natCast, ← zpow_natCast, ← zpow_add₀ (by norm_num), hj]
    norm_cast
  rw [mul_assoc, h5, pow_add]
  push_cast
  ring

/-- What is at or above a value of the format is not rounded below it. -/
theorem Nearest.above {rnd : ℚ → ℚ} (hn : F.Nearest rnd) {p q : ℚ} (hp : F.Has p) (hq : F.Within q)
    (h : p ≤ q) : p ≤ rnd q := by
  have := (hn q hq).2 p hp
  rw [abs_of_nonpos (by linarith : p - q ≤ 0)] at this
  have := (abs_le.mp this).1
  linarith

theorem tenth (hF : F.Std) {q : ℚ} (h0 : 1 / 100 ≤ q) (h1 : q ≤ 1) :
    |F.tiesToEven q - q| ≤ q / 2 ^ F.prec := by
  obtain ⟨a, b⟩ := ((tiesToEven_nearest hF).rounding hF).2 q
    (le_trans (le_trans (zpow_le_zpow_right₀ (n := -7) (by norm_num) (by
      rcases hF with rfl | rfl <;> decide)) (by norm_num)) h0)
    (h1.trans (one_le_pow₀ (by norm_num)))
  rw [abs_le]
  constructor <;> [have := a; have := b] <;> ring_nf at this ⊢ <;> linarith

theorem few32 : ∀ n < 16, ∀ d < 10,
    binary32.tiesToEven ((n : Nat) + binary32.tiesToEven ((d : Nat) / 10))
      = binary32.tiesToEven ((n : Nat) + (d : Nat) / 10) := by
  decide +kernel

theorem few64 : ∀ n < 16, ∀ d < 10,
    binary64.tiesToEven ((n : Nat) + binary64.tiesToEven ((d : Nat) / 10))
      = binary64.tiesToEven ((n : Nat) + (d : Nat) / 10) := by
  decide +kernel

theorem has_zeroHalf (hF : F.Std) : F.Has (5 / 10) :=
  ⟨1, -1, by rcases hF with rfl | rfl <;> decide, by rcases hF with rfl | rfl <;> decide, by norm_num⟩

/-- Rounding the tenths before adding them does not change the rounded sum. -/
theorem onePlace (hF : F.Std) {n d : Nat} (hn : n ≤ 2 ^ 63) (hd : d < 10) :
    F.tiesToEven (n + F.tiesToEven (d / 10)) = F.tiesToEven (n + d / 10) := by
  have hr := tiesToEven_nearest hF
  by_cases h5 : d = 0 ∨ d = 5
  · have : F.tiesToEven (d / 10) = d / 10 := by
      rcases h5 with rfl | rfl
      · exact hr.exact (by simpa using has_zero hF)
      · exact hr.exact (by exact_mod_cast has_zeroHalf hF)
    rw [this]
  by_cases h16 : n < 16
  · rcases hF with rfl | rfl
    · exact few32 n h16 d hd
    · exact few64 n h16 d hd
  have hprec := hF.prec_ge
  obtain ⟨E, hE4, hE, hEn⟩ : ∃ E, 4 ≤ E ∧ 2 ^ E ≤ n ∧ E < 64 := by
    refine ⟨Nat.log2 n, ?_, Nat.log2_self_le (by omega), ?_⟩
    · exact (Nat.le_log2 (by omega)).mpr (by omega)
    · exact (Nat.log2_lt (by omega)).mpr (by omega)
  have hEq : (2 : ℚ) ^ E ≤ n := by exact_mod_cast hE
  have hp : F.Has (2 ^ E) :=
    has_two_pow hF (by rcases hF with rfl | rfl <;> simp [binary32, binary64] <;> omega)
  have hd1 : (1 : ℚ) ≤ d := by exact_mod_cast (by omega : 1 ≤ d)
  have hd9 : (d : ℚ) ≤ 9 := by exact_mod_cast (by omega : d ≤ 9)
  have hn' : (n : ℚ) ≤ 2 ^ 63 := by exact_mod_cast hn
  have herr := tenth hF (q := d / 10) (by linarith) (by linarith)
  have hpw : (1024 : ℚ) ≤ 2 ^ F.prec := by
    calc (1024 : ℚ) = 2 ^ 10 := by norm_num
      _ ≤ _ := pow_le_pow_right₀ (by norm_num) (by omega)
  have herr2 : |F.tiesToEven (d / 10) - d / 10| * 2 ^ F.prec ≤ d / 10 := by
    rwa [le_div_iff₀ (by positivity)] at herr
  have ha0 := hr.nonneg hF (q := d / 10) (hF.wide (by linarith) (by linarith)) (by linarith)
  have ha1 : F.tiesToEven ((d : ℚ) / 10) ≤ 2 := by
    have := (abs_le.mp herr).2
    have : (d : ℚ) / 10 / 2 ^ F.prec ≤ 1 := by
      rw [div_le_one (by positivity)]
      linarith
    linarith
  set a := F.tiesToEven ((d : ℚ) / 10) with ha
  have hw : F.Within (n + a) := hF.wide (by linarith) (by linarith)
  have hv : F.Within (n + d / 10) := hF.wide (by linarith) (by linarith)
  have hy2 := hr.above hp hw (by linarith)
  have hq2 := hr.above hp hv (by linarith)
  obtain ⟨hy, hy1⟩ := hr _ hw
  obtain ⟨hq, hq1⟩ := hr _ hv
  obtain ⟨Y, hY⟩ := hy.onGrid hy2
  obtain ⟨Q, hQ⟩ := hq.onGrid hq2
  have k1 := hy1 _ hq
  have k2 := hq1 _ hy
  set y := F.tiesToEven (n + a)
  set q := F.tiesToEven (n + d / 10)
  by_contra hne
  -- the midpoint lies between the two sums
  have hmid : |(y + q) / 2 - (n + d / 10)| ≤ |a - d / 10| := by
    rcases lt_or_gt_of_ne hne with h | h
    · have e1 : n + a ≤ (y + q) / 2 := by
        by_contra hc
        rcases abs_cases (y - (n + a)) with ⟨e, _⟩ | ⟨e, _⟩ <;>
          rcases abs_cases (q - (n + a)) with ⟨e', _⟩ | ⟨e', _⟩ <;> linarith
      have e2 : (y + q) / 2 ≤ n + d / 10 := by
        by_contra hc
        rcases abs_cases (q - (n + d / 10)) with ⟨e, _⟩ | ⟨e, _⟩ <;>
          rcases abs_cases (y - (n + d / 10)) with ⟨e', _⟩ | ⟨e', _⟩ <;> linarith
      rw [abs_of_nonpos (by linarith), abs_of_nonpos (by linarith)]
      linarith
    · have e1 : (y + q) / 2 ≤ n + a := by
        by_contra hc
        rcases abs_cases (y - (n + a)) with ⟨e, _⟩ | ⟨e, _⟩ <;>
          rcases abs_cases (q - (n + a)) with ⟨e', _⟩ | ⟨e', _⟩ <;> linarith
      have e2 : n + d / 10 ≤ (y + q) / 2 := by
        by_contra hc
        rcases abs_cases (q - (n + d / 10)) with ⟨e, _⟩ | ⟨e, _⟩ <;>
          rcases abs_cases (y - (n + d / 10)) with ⟨e', _⟩ | ⟨e', _⟩ <;> linarith
      rw [abs_of_nonneg (by linarith), abs_of_nonneg (by linarith)]
      linarith
  -- but the midpoint is too coarse for that
  obtain ⟨i, hi⟩ : ∃ i, E = 4 + i := ⟨E - 4, by omega⟩
  obtain ⟨j, hj⟩ : ∃ j, F.prec = 4 + j := ⟨F.prec - 4, by omega⟩
  have hnum : ((y + q) / 2 - (n + d / 10)) * 2 ^ F.prec * 10
      = 16 * (((Y + Q) * 2 ^ i * 10 - (10 * n + d) * 2 ^ j : Int) : ℚ) := by
    have : ((y + q) / 2 - (n + d / 10)) * 2 ^ F.prec * 10
        = (y * 2 ^ F.prec + q * 2 ^ F.prec) * 5 - (10 * n + d) * 2 ^ F.prec := by ring
    rw [this, hY, hQ, hi, hj]
    push_cast
    ring
  have hnz : ((Y + Q) * 2 ^ i * 10 - (10 * n + d) * 2 ^ j : Int) ≠ 0 := by
    intro h0
    have hdvd : (5 : Int) ∣ (10 * n + d) * 2 ^ j := ⟨(Y + Q) * 2 ^ i * 2, by linarith⟩
    have hcop : IsCoprime (5 : Int) (2 ^ j) := IsCoprime.pow_right ⟨1, -2, by norm_num⟩
    have := hcop.dvd_of_dvd_mul_right hdvd
    omega
  have hone : (1 : ℚ) ≤ |(((Y + Q) * 2 ^ i * 10 - (10 * n + d) * 2 ^ j : Int) : ℚ)| := by
    rw [← Int.cast_abs]
    exact_mod_cast Int.one_le_abs hnz
  have hbig : 16 ≤ |(y + q) / 2 - (n + d / 10)| * 2 ^ F.prec * 10 := by
    have := congrArg abs hnum
    rw [abs_mul, abs_mul, abs_mul, abs_of_pos (by positivity : (0 : ℚ) < 2 ^ F.prec),
      abs_of_pos (by norm_num : (0 : ℚ) < 10), abs_of_pos (by norm_num : (0 : ℚ) < 16)] at this
    linarith
  have := mul_le_mul_of_nonneg_right hmid (by positivity : (0 : ℚ) ≤ 2 ^ F.prec)
  linarith

theorem fewQuarters32 : ∀ n < 16, ∀ c < 2,
    binary32.tiesToEven (binary32.tiesToEven ((n : Nat) + ((2 + 5 * c : Nat) : ℚ) / 10)
      + binary32.tiesToEven (5 / 100)) = (n : Nat) + (1 + 2 * (c : Nat)) / 4 := by
  decide +kernel

theorem fewQuarters64 : ∀ n < 16, ∀ c < 2,
    binary64.tiesToEven (binary64.tiesToEven ((n : Nat) + ((2 + 5 * c : Nat) : ℚ) / 10)
      + binary64.tiesToEven (5 / 100)) = (n : Nat) + (1 + 2 * (c : Nat)) / 4 := by
  decide +kernel

/-- A quarter or three quarters added digit by digit. -/
theorem quarter (hF : F.Std) {n c : Nat} (hn : n ≤ 2 ^ 63) (hc : c < 2)
    (hx : F.Has (n + (1 + 2 * c) / 4)) :
    F.tiesToEven (F.tiesToEven (n + ((2 + 5 * c : Nat) : ℚ) / 10) + F.tiesToEven (5 / 100))
      = n + (1 + 2 * c) / 4 := by
  have hr := tiesToEven_nearest hF
  by_cases h16 : n < 16
  · rcases hF with rfl | rfl
    · exact fewQuarters32 n h16 c hc
    · exact fewQuarters64 n h16 c hc
  have hprec := hF.prec_ge
  obtain ⟨E, hE4, hE, hEl, hEn⟩ : ∃ E, 4 ≤ E ∧ 2 ^ E ≤ n ∧ n < 2 ^ (E + 1) ∧ E < 64 := by
    refine ⟨Nat.log2 n, ?_, Nat.log2_self_le (by omega), Nat.lt_log2_self, ?_⟩
    · exact (Nat.le_log2 (by omega)).mpr (by omega)
    · exact (Nat.log2_lt (by omega)).mpr (by omega)
  have hEq : (2 : ℚ) ^ E ≤ n := by exact_mod_cast hE
  have hp : F.Has (2 ^ E) :=
    has_two_pow hF (by rcases hF with rfl | rfl <;> simp [binary32, binary64] <;> omega)
  have hc0 : (0 : ℚ) ≤ c := by positivity
  have hc1 : (c : ℚ) ≤ 1 := by exact_mod_cast (by omega : c ≤ 1)
  have hn' : (n : ℚ) ≤ 2 ^ 63 := by exact_mod_cast hn
  obtain ⟨X, hX⟩ := hx.onGrid (E := E) (by linarith)
  -- the last place is at most a quarter
  obtain ⟨t, ht, hpt⟩ : ∃ t, 2 ≤ t ∧ F.prec = E + 1 + t := by
    by_contra hcon
    obtain ⟨j, hj⟩ : ∃ j, E + 1 + 1 = F.prec + j := ⟨E + 2 - F.prec, by
      by_contra h
      exact hcon ⟨F.prec - (E + 1), by omega, by omega⟩⟩
    have h1 : (4 * n + 1 + 2 * c : ℚ) * 2 ^ F.prec = (2 * X * 2 ^ j) * 2 ^ F.prec := by
      have : (2 : ℚ) ^ (E + 1) * 2 = 2 ^ F.prec * 2 ^ j := by rw [← pow_succ, hj, pow_add]
      calc (4 * n + 1 + 2 * c : ℚ) * 2 ^ F.prec
          = 4 * ((n + (1 + 2 * c) / 4) * 2 ^ F.prec) := by ring
        _ = 2 * X * (2 ^ (E + 1) * 2) := by rw [hX]; ring
        _ = _ := by rw [this]; ring
    have h2 := mul_right_cancel₀ (by positivity) h1
    have h3 : (4 * n + 1 + 2 * c : Int) = 2 * (X * 2 ^ j) := by
      rw [← mul_assoc]
      exact_mod_cast h2
    omega
  have hT : (0 : ℚ) < 2 ^ t := by positivity
  have hT4 : (4 : ℚ) ≤ 2 ^ t := by
    calc (4 : ℚ) = 2 ^ 2 := by norm_num
      _ ≤ _ := pow_le_pow_right₀ (by norm_num) ht
  have hP : (2 : ℚ) ^ F.prec = 2 ^ (E + 1) * 2 ^ t := by rw [hpt, pow_add]
  have grid : ∀ q, F.Has q → (2 : ℚ) ^ E ≤ q → ∃ z : Int, q * 2 ^ t = z := by
    intro q hq hEq
    obtain ⟨z, hz⟩ := hq.onGrid hEq
    refine ⟨z, ?_⟩
    have : (q * 2 ^ t) * 2 ^ (E + 1) = z * 2 ^ (E + 1) := by rw [← hz, hP]; ring
    exact mul_right_cancel₀ (by positivity) this
  -- a value near the sum of the integer and the tenths
  obtain ⟨b, hb⟩ : ∃ b, b = 2 + 5 * c := ⟨_, rfl⟩
  have hb7 : b = 2 ∨ b = 7 := by omega
  obtain ⟨i, hi⟩ : ∃ i, t = i + 1 := ⟨t - 1, by omega⟩
  obtain ⟨z, hz1, hz2⟩ : ∃ z : Nat, 5 * z ≤ b * 2 ^ i + 2 ∧ b * 2 ^ i ≤ 5 * z + 2 :=
    ⟨(b * 2 ^ i + 2) / 5, by omega, by omega⟩
  have hz3 : z < 2 ^ t := by
    have : 2 ≤ 2 ^ i := by
      calc 2 = 2 ^ 1 := rfl
        _ ≤ _ := Nat.pow_le_pow_right (by norm_num) (by omega)
    rw [hi, pow_succ]
    rcases hb7 with rfl | rfl <;> omega
  have hzp : F.Has (n + z / 2 ^ t) := by
    refine ⟨n * 2 ^ t + z, -t, ?_, ⟨?_, ?_⟩, ?_⟩
    · have : n * 2 ^ t + z < 2 ^ F.prec := by
        rw [hpt, pow_add]
        nlinarith
      have e : ((n : Int) * 2 ^ t + z).natAbs = n * 2 ^ t + z := by
        have : ((n : Int) * 2 ^ t + z) = ((n * 2 ^ t + z : Nat) : Int) := by push_cast; rfl
        rw [this, Int.natAbs_natCast]
      rw [e]
      exact this
    · have := hF.emin_le
      have : t ≤ F.prec := by omega
      rcases hF with rfl | rfl <;> simp [binary32, binary64] at this ⊢ <;> omega
    · have := hF.emax_ge
      rcases hF with rfl | rfl <;> simp [binary32, binary64] at this ⊢ <;> omega
    · rw [zpow_neg, zpow_natCast]
      push_cast
      field_simp
  have hbq : (b : ℚ) / 10 * 2 ^ t = (b * 2 ^ i) / 5 := by rw [hi, pow_succ]; ring
  have hbb : (2 : ℚ) ≤ b ∧ (b : ℚ) ≤ 7 := by rcases hb7 with h | h <;> rw [h] <;> norm_num
  rw [← hb]
  have hv : F.Within (n + b / 10) := hF.wide (by linarith [hbb.1]) (by linarith [hbb.2])
  obtain ⟨hy, hy1⟩ := hr _ hv
  have k1 : |F.tiesToEven (n + b / 10) - (n + b / 10)| * 2 ^ t ≤ 2 / 5 := by
    have h1 := mul_le_mul_of_nonneg_right (hy1 _ hzp) hT.le
    have h2 : |(n : ℚ) + z / 2 ^ t - (n + b / 10)| * 2 ^ t = |z - (b * 2 ^ i : ℚ) / 5| := by
      rw [← abs_of_pos hT, ← abs_mul, abs_of_pos hT, ← hbq]
      congr 1
      field_simp
      ring
    rw [h2] at h1
    refine h1.trans ?_
    have q1 : (5 * z : ℚ) ≤ b * 2 ^ i + 2 := by exact_mod_cast hz1
    have q2 : (b * 2 ^ i : ℚ) ≤ 5 * z + 2 := by exact_mod_cast hz2
    rw [abs_le]
    constructor <;> linarith
  have k2 := tenth hF (q := 5 / 100) (by norm_num) (by norm_num)
  have k3 : |F.tiesToEven (5 / 100) - 5 / 100| * 2 ^ t < 1 / 20 := by
    rw [le_div_iff₀ (by positivity), hP] at k2
    have h32 : (32 : ℚ) ≤ 2 ^ (E + 1) := by
      calc (32 : ℚ) = 2 ^ 5 := by norm_num
        _ ≤ _ := pow_le_pow_right₀ (by norm_num) (by omega)
    have := mul_le_mul_of_nonneg_left h32
      (mul_nonneg (abs_nonneg (F.tiesToEven (5 / 100) - 5 / 100)) hT.le)
    linarith
  set y := F.tiesToEven (n + b / 10)
  set s := F.tiesToEven (5 / 100)
  have hbc : (b : ℚ) = 2 + 5 * c := by rw [hb]; push_cast; ring
  have hd : |y + s - (n + (1 + 2 * c) / 4)| * 2 ^ t < 1 / 2 := by
    have h1 : y + s - (n + (1 + 2 * c) / 4 : ℚ) = (y - (n + b / 10)) + (s - 5 / 100) := by
      rw [hbc]
      ring
    rw [h1]
    have := mul_le_mul_of_nonneg_right (abs_add_le (y - (n + b / 10)) (s - 5 / 100)) hT.le
    linarith
  have hclose : |y + s - (n + (1 + 2 * c) / 4)| < 1 / 4 := by
    by_contra hcon
    have := mul_le_mul (not_lt.mp hcon) hT4 (by norm_num) (abs_nonneg _)
    linarith
  obtain ⟨l1, l2⟩ := abs_lt.mp hclose
  have hw : F.Within (y + s) := hF.wide (by linarith) (by linarith)
  obtain ⟨hq, hq1⟩ := hr _ hw
  have hq2 := hr.above hp hw (by linarith)
  have k4 := hq1 _ hx
  obtain ⟨Q, hQ⟩ := grid _ hq hq2
  obtain ⟨X, hX⟩ := grid _ hx (by linarith)
  set q := F.tiesToEven (y + s)
  have hfin : |q * 2 ^ t - (n + (1 + 2 * c) / 4) * 2 ^ t| < 1 := by
    have h1 : |q - (n + (1 + 2 * c) / 4 : ℚ)| ≤ |q - (y + s)| + |y + s - (n + (1 + 2 * c) / 4)| := by
      have := abs_add_le (q - (y + s)) (y + s - (n + (1 + 2 * c) / 4 : ℚ))
      rwa [sub_add_sub_cancel] at this
    have h2 : |(n + (1 + 2 * c) / 4 : ℚ) - (y + s)| = |y + s - (n + (1 + 2 * c) / 4)| := abs_sub_comm _ _
    rw [h2] at k4
    rw [← sub_mul, abs_mul, abs_of_pos hT]
    have := mul_le_mul_of_nonneg_right h1 hT.le
    have := mul_le_mul_of_nonneg_right k4 hT.le
    linarith
  rw [hQ, hX] at hfin
  have hQX : Q = X := by
    have : |Q - X| < 1 := by exact_mod_cast hfin
    have := abs_lt.mp this
    omega
  rw [hQX, ← hX] at hQ
  exact mul_right_cancel₀ hT.ne' hQ

end Spec.BinFmt
