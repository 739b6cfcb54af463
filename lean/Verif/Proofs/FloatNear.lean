import Mathlib.Tactic.ByContra
import Mathlib.Algebra.Order.Round
import Mathlib.Algebra.Order.Archimedean.Basic
import Verif.Spec.Nearest
import Verif.Proofs.FloatFormat

/-
Rounding to nearest, and the digit loop of `format_floating_point` when its products round.
-/

namespace Spec.BinFmt

variable {F : BinFmt} {rnd : ℚ → ℚ}

theorem Std.small (h : F.Std) {q : ℚ} (h0 : 0 ≤ q) (h1 : q ≤ 64) : F.Within q := by
  have h2 := h.emax_ge
  have h3 := h.prec_ge
  refine ⟨2 ^ 6, has_two_pow h (by omega), ?_⟩
  rw [abs_of_nonneg h0]
  linarith

theorem Has.abs {q : ℚ} (h : F.Has q) : F.Has |q| := by
  rcases abs_choice q with h' | h' <;> rw [h']
  · exact h
  · exact h.neg

theorem Nearest.exact (hn : F.Nearest rnd) {q : ℚ} (hq : F.Has q) : rnd q = q := by
  have := (hn q ⟨_, hq.abs, le_rfl⟩).2 q hq
  rw [sub_self, abs_zero] at this
  have := abs_nonpos_iff.mp this
  linarith

theorem Nearest.nonneg (hF : F.Std) (hn : F.Nearest rnd) {q : ℚ} (hb : F.Within q)
    (h0 : 0 ≤ q) : 0 ≤ rnd q := by
  have := (hn q hb).2 0 (has_zero hF)
  rw [zero_sub, abs_neg, abs_of_nonneg h0] at this
  have := (abs_le.mp this).1
  linarith

/-- A number below `2 ^ (g + prec)` is half of `2 ^ g` away from a value of the format. -/
theorem exists_near (hF : F.Std) {q : ℚ} (h0 : 0 ≤ q) {g : Int} (hg : F.emin ≤ g)
    (hg2 : g + F.prec < F.emax) (hq : q ≤ 2 ^ (g + F.prec)) :
    ∃ p, F.Has p ∧ |p - q| ≤ 2 ^ g / 2 := by
  have hg0 : (0 : ℚ) < 2 ^ g := zpow_pos (by norm_num) _
  have hprec := hF.prec_ge
  refine ⟨round (q / 2 ^ g) * 2 ^ g, ?_, ?_⟩
  · have h1 : q / 2 ^ g ≤ 2 ^ F.prec := by
      rw [div_le_iff₀ hg0, ← zpow_natCast, ← zpow_add₀ (by norm_num), add_comm]
      exact hq
    have h2 : 0 ≤ q / 2 ^ g := by positivity
    have h3 : 0 ≤ round (q / 2 ^ g) := by
      rw [round_eq]
      exact Int.floor_nonneg.mpr (by positivity)
    have h4 : round (q / 2 ^ g) ≤ 2 ^ F.prec := by
      rw [round_eq]
      have : ⌊q / 2 ^ g + 1 / 2⌋ < 2 ^ F.prec + 1 := by
        rw [Int.floor_lt]
        push_cast
        linarith
      omega
    by_cases h5 : round (q / 2 ^ g) = 2 ^ F.prec
    · refine ⟨2 ^ (F.prec - 1), g + 1, ?_, by omega, ?_⟩
      · rw [Int.natAbs_pow]
        exact Nat.pow_lt_pow_right (by norm_num) (by omega)
      · rw [h5]
        push_cast
        rw [zpow_add₀ (by norm_num), zpow_one]
        obtain ⟨k, hk⟩ : ∃ k, F.prec = k + 1 := ⟨F.prec - 1, by omega⟩
        rw [hk, Nat.add_sub_cancel, pow_succ]
        ring
    · refine ⟨_, g, ?_, by omega, rfl⟩
      zify
      rw [abs_of_nonneg h3]
      omega
  · have h6 := abs_sub_round (q / 2 ^ g)
    have h7 : (round (q / 2 ^ g) : ℚ) * 2 ^ g - q = -((q / 2 ^ g - round (q / 2 ^ g)) * 2 ^ g) := by
      field_simp
      ring
    rw [h7, abs_neg, abs_mul, abs_of_pos hg0]
    calc _ ≤ 1 / 2 * (2 : ℚ) ^ g := by gcongr
      _ = _ := by ring

theorem Nearest.error (hF : F.Std) (hn : F.Nearest rnd) {q : ℚ} (h0 : 0 ≤ q) {g : Int}
    (hb : F.Within q)
    (hg : F.emin ≤ g) (hg2 : g + F.prec < F.emax) (hq : q ≤ 2 ^ (g + F.prec)) :
    |rnd q - q| ≤ 2 ^ g / 2 := by
  obtain ⟨p, hp, hpq⟩ := exists_near hF h0 hg hg2 hq
  exact ((hn q hb).2 p hp).trans hpq

/-- Rounding to nearest has the relative error IEEE arithmetic promises. -/
theorem Nearest.rounding (hF : F.Std) (hn : F.Nearest rnd) : F.Rounding rnd := by
  refine ⟨fun q h => hn.exact h, fun q h1 h2 => ?_⟩
  have hq : 0 < q := lt_of_lt_of_le (zpow_pos (by norm_num) _) h1
  have hprec := hF.prec_ge
  have hmax := hF.emax_ge
  obtain ⟨n, hn1, hn2⟩ := exists_mem_Ico_zpow hq (y := (2 : ℚ)) (by norm_num)
  have hlo : F.emin + F.prec - 1 ≤ n := by
    have h3 : (2 : ℚ) ^ (F.emin + F.prec - 1) < 2 ^ (n + 1) := lt_of_le_of_lt h1 hn2
    have := (zpow_lt_zpow_iff_right₀ (by norm_num)).mp h3
    omega
  have hw : F.Within q := ⟨2 ^ (F.emax - 1), has_two_pow hF (by omega), by rwa [abs_of_pos hq]⟩
  have key : |rnd q - q| ≤ 1 / 2 ^ F.prec * q := by
    by_cases htop : n + 1 < F.emax
    · have := hn.error hF hq.le (g := n + 1 - F.prec) hw (by omega) (by omega)
        (by rw [sub_add_cancel]; exact hn2.le)
      refine this.trans ?_
      have h4 : (2 : ℚ) ^ (n + 1 - (F.prec : Int)) / 2 = 1 / 2 ^ F.prec * 2 ^ n := by
        rw [zpow_sub₀ (by norm_num), zpow_add₀ (by norm_num), zpow_natCast, zpow_one]
        ring
      rw [h4]
      exact mul_le_mul_of_nonneg_left hn1 (by positivity)
    · have h3 : (2 : ℚ) ^ (F.emax - 1) ≤ 2 ^ n := by
        rw [← zpow_natCast]
        exact zpow_le_zpow_right₀ (by norm_num) (by omega)
      have h4 : q = 2 ^ (F.emax - 1) := le_antisymm h2 (h3.trans hn1)
      rw [hn.exact (h4 ▸ has_two_pow hF (by omega)), sub_self, abs_zero]
      positivity
  obtain ⟨k1, k2⟩ := abs_le.mp key
  constructor <;> linarith

/-- The greatest value of the format below 1. -/
theorem Has.lt_one (hF : F.Std) {q : ℚ} (h : F.Has q) (h1 : q < 1) : q ≤ 1 - 1 / 2 ^ F.prec := by
  obtain ⟨m, e, hm, he, rfl⟩ := h
  have hprec := hF.prec_ge
  have hp : (0 : ℚ) < 2 ^ F.prec := by positivity
  have hu : (1 : ℚ) / 2 ^ F.prec ≤ 1 / 2 := by
    apply one_div_le_one_div_of_le (by norm_num)
    calc (2 : ℚ) = 2 ^ 1 := by norm_num
      _ ≤ _ := pow_le_pow_right₀ (by norm_num) (by omega)
  have h2 : (0 : ℚ) < 2 ^ e := zpow_pos (by norm_num) _
  by_cases hm0 : m ≤ 0
  · have : (m : ℚ) ≤ 0 := by exact_mod_cast hm0
    have := mul_nonpos_of_nonpos_of_nonneg this h2.le
    linarith
  have hm1 : (m : ℚ) ≤ 2 ^ F.prec - 1 := by
    have : m ≤ 2 ^ F.prec - 1 := by
      have : (m.natAbs : Int) < 2 ^ F.prec := by exact_mod_cast hm
      omega
    exact_mod_cast this
  by_cases he1 : -(F.prec : Int) ≤ e
  · obtain ⟨s, hs⟩ : ∃ s : Nat, (s : Int) = e + F.prec := ⟨(e + F.prec).toNat, by omega⟩
    have hpe : (2 : ℚ) ^ e * 2 ^ F.prec = 2 ^ s := by
      rw [← zpow_natCast, ← zpow_natCast, ← zpow_add₀ (by norm_num), hs]
    have h3 : (m : ℚ) * 2 ^ s < 2 ^ F.prec := by
      rw [← hpe, ← mul_assoc]
      calc _ < 1 * (2 : ℚ) ^ F.prec := by gcongr
        _ = _ := one_mul _
    have h4 : m * 2 ^ s < 2 ^ F.prec := by exact_mod_cast h3
    have h5 : m * 2 ^ s ≤ 2 ^ F.prec - 1 := by omega
    have h6 : (m : ℚ) * 2 ^ s ≤ 2 ^ F.prec - 1 := by exact_mod_cast h5
    have h7 : (m : ℚ) * 2 ^ e = (m * 2 ^ s) / 2 ^ F.prec := by
      rw [← hpe]
      field_simp
    rw [h7, div_le_iff₀ hp]
    calc _ ≤ _ := h6
      _ = _ := by field_simp
  · have h3 : (2 : ℚ) ^ e ≤ 1 / 2 ^ F.prec / 2 := by
      calc (2 : ℚ) ^ e ≤ 2 ^ (-(F.prec : Int) - 1) := zpow_le_zpow_right₀ (by norm_num) (by omega)
        _ = _ := by
          rw [zpow_sub₀ (by norm_num), zpow_neg, zpow_natCast, zpow_one, one_div]
    have h4 : (m : ℚ) * 2 ^ e ≤ 2 ^ F.prec * (1 / 2 ^ F.prec / 2) := by
      apply mul_le_mul (by linarith) h3 h2.le hp.le
    have h5 : (2 : ℚ) ^ F.prec * (1 / 2 ^ F.prec / 2) = 1 / 2 := by field_simp
    linarith

/-- All values of the format have a bounded number of binary places. -/
theorem Has.places (hF : F.Std) {q : ℚ} (h : F.Has q) : BinaryPlaces (-F.emin).toNat q := by
  obtain ⟨m, e, hm, he, rfl⟩ := h
  have h0 := hF.emin_nonpos
  obtain ⟨s, hs⟩ : ∃ s : Nat, (s : Int) = e - F.emin := ⟨(e - F.emin).toNat, by omega⟩
  refine ⟨m * 2 ^ s, ?_⟩
  have : (2 : ℚ) ^ e = 2 ^ s / 2 ^ (-F.emin).toNat := by
    rw [eq_div_iff (by positivity), ← zpow_natCast, ← zpow_natCast, ← zpow_add₀ (by norm_num)]
    congr 1
    omega
  rw [this]
  push_cast
  ring

/-- Rounding does not add binary places. -/
theorem Nearest.places (hF : F.Std) (hn : F.Nearest rnd) {q : ℚ} (h0 : 0 ≤ q) (h1 : q ≤ 64)
    {k : Nat} (hk : (k : Int) ≤ -F.emin) (hq : BinaryPlaces k q) : BinaryPlaces k (rnd q) := by
  obtain ⟨hv, hbest⟩ := hn q (hF.small h0 h1)
  have hv0 := hn.nonneg hF (hF.small h0 h1) h0
  by_cases hh : F.Has q
  · rwa [hn.exact hh]
  obtain ⟨z, hz⟩ := hq
  obtain ⟨m, e, hm, he, hve⟩ := hv
  have hmax := hF.emax_ge
  have hprec := hF.prec_ge
  have hk2 : (0 : ℚ) < 2 ^ k := by positivity
  by_cases hek : -(k : Int) ≤ e
  · obtain ⟨s, hs⟩ : ∃ s : Nat, (s : Int) = e + k := ⟨(e + k).toNat, by omega⟩
    refine ⟨m * 2 ^ s, ?_⟩
    have : (2 : ℚ) ^ e = 2 ^ s / 2 ^ k := by
      rw [eq_div_iff (by positivity), ← zpow_natCast, ← zpow_natCast, ← zpow_add₀ (by norm_num), hs]
    rw [hve, this]
    push_cast
    ring
  · exfalso
    have hz0 : 0 ≤ z := by
      have : (0 : ℚ) ≤ z := by
        rw [hz] at h0
        by_contra h
        have := div_neg_of_neg_of_pos (not_le.mp h) hk2
        linarith
      exact_mod_cast this
    have hzbig : (2 : Int) ^ F.prec ≤ z := by
      by_contra hlt
      apply hh
      refine ⟨z, -(k : Int), ?_, by omega, ?_⟩
      · zify
        rw [abs_of_nonneg hz0]
        omega
      · rw [hz, zpow_neg, zpow_natCast, div_eq_mul_inv]
    have hqbig : (2 : ℚ) ^ F.prec / 2 ^ k ≤ q := by
      rw [hz]
      gcongr
      exact_mod_cast hzbig
    -- the power of two below `q` is nearer than what was chosen
    have hpow : F.Has ((2 : ℚ) ^ F.prec / 2 ^ k) := by
      refine ⟨2 ^ (F.prec - 1), 1 - (k : Int), ?_, ⟨by omega, ?_⟩, ?_⟩
      · rw [Int.natAbs_pow]
        exact Nat.pow_lt_pow_right (by norm_num) (by omega)
      · omega
      · push_cast
        rw [zpow_sub₀ (by norm_num), zpow_natCast, zpow_one, ← mul_div_assoc, ← pow_succ]
        congr 2
        omega
    have hvsmall : rnd q < 2 ^ F.prec / 2 ^ k := by
      rw [hve]
      have hm1 : (m : ℚ) < 2 ^ F.prec := by
        have : m < 2 ^ F.prec := by
          have : (m.natAbs : Int) < 2 ^ F.prec := by exact_mod_cast hm
          omega
        exact_mod_cast this
      have he1 : (2 : ℚ) ^ e ≤ 1 / 2 ^ k := by
        calc (2 : ℚ) ^ e ≤ 2 ^ (-(k : Int)) := zpow_le_zpow_right₀ (by norm_num) (by omega)
          _ = _ := by rw [zpow_neg, zpow_natCast, one_div]
      have he0 : (0 : ℚ) < 2 ^ e := zpow_pos (by norm_num) _
      calc (m : ℚ) * 2 ^ e < 2 ^ F.prec * 2 ^ e := by gcongr
        _ ≤ 2 ^ F.prec * (1 / 2 ^ k) := by gcongr
        _ = _ := by ring
    have := hbest _ hpow
    rw [abs_of_nonpos (by linarith), abs_of_nonpos (by linarith)] at this
    linarith

/-- Numbers with few binary places are zero or in the range of normal numbers. -/
theorem Nearest.relative (hF : F.Std) (hn : F.Nearest rnd) {q : ℚ} (h0 : 0 ≤ q) (h1 : q ≤ 64)
    {k : Nat} (hk : (k : Int) + F.prec ≤ 1 - F.emin) (hq : BinaryPlaces k q) :
    |rnd q - q| ≤ 1 / 2 ^ F.prec * q := by
  rcases h0.eq_or_lt with rfl | h0
  · rw [hn.exact (has_zero hF)]
    simp
  obtain ⟨z, hz⟩ := hq
  have hz1 : (1 : ℚ) ≤ z := by
    have : (0 : ℚ) < z := by
      rw [hz] at h0
      by_contra h
      have := div_nonpos_of_nonpos_of_nonneg (not_lt.mp h) (b := (2 : ℚ) ^ k) (by positivity)
      linarith
    have : 0 < z := by exact_mod_cast this
    exact_mod_cast this
  have h2 := hF.emax_ge
  have h3 := hF.prec_ge
  obtain ⟨g1, g2⟩ := (hn.rounding hF).2 q (by
    rw [hz]
    calc (2 : ℚ) ^ (F.emin + F.prec - 1) ≤ 2 ^ (-(k : Int)) :=
          zpow_le_zpow_right₀ (by norm_num) (by omega)
      _ = 1 / 2 ^ k := by rw [zpow_neg, zpow_natCast, one_div]
      _ ≤ z / 2 ^ k := by gcongr) (by
    calc q ≤ 2 ^ 6 := by linarith
      _ ≤ _ := pow_le_pow_right₀ (by norm_num) (by omega))
  rw [abs_le]
  constructor <;> linarith

theorem BinaryPlaces.fract {k : Nat} {q : ℚ} (h : BinaryPlaces k q) :
    BinaryPlaces k (Int.fract q) := by
  obtain ⟨z, hz⟩ := h
  refine ⟨z - ⌊q⌋ * 2 ^ k, ?_⟩
  rw [Int.fract]
  nth_rw 1 [hz]
  push_cast
  field_simp

end Spec.BinFmt

namespace Cmp

open IntTy

/-- A product of the loop: not negative, below the radix, and nearly exact. -/
theorem product_near {F : Spec.BinFmt} (hF : F.Std) {rnd : ℚ → ℚ} (hn : F.Nearest rnd) {r : Nat}
    (hr2 : 2 ≤ r) (hr : r ≤ 36) {q : ℚ} (hq : F.Has q) (h0 : 0 ≤ q) (h1 : q < 1) :
    0 ≤ rnd (q * r) ∧ rnd (q * r) < r ∧ |rnd (q * r) - q * r| ≤ r * (1 / 2 ^ F.prec)
      ∧ F.Has (Int.fract (rnd (q * r)))
      ∧ rnd (rnd (q * r) - ⌊rnd (q * r)⌋) = Int.fract (rnd (q * r)) := by
  have hr0 : (0 : ℚ) < r := by exact_mod_cast (by omega : 0 < r)
  have hr36 : (r : ℚ) ≤ 36 := by exact_mod_cast hr
  have hp0 : 0 ≤ q * r := by positivity
  have hp64 : q * r ≤ 64 := by nlinarith
  have hb := hF.small hp0 hp64
  have hv0 := hn.nonneg hF hb hp0
  have hprec := hF.prec_ge
  have hmin := hF.emin_le
  have hmax := hF.emax_ge
  -- the power of two around the radix
  obtain ⟨s, hs, hs1, hs2⟩ : ∃ s : Nat, s ≤ 5 ∧ 2 ^ s < r ∧ r ≤ 2 ^ (s + 1) := by
    rcases (by omega : r = 2 ∨ r ≤ 4 ∧ 2 < r ∨ r ≤ 8 ∧ 4 < r ∨ r ≤ 16 ∧ 8 < r ∨ r ≤ 32 ∧ 16 < r
      ∨ 32 < r) with h | h | h | h | h | h
    · exact ⟨0, by omega, by omega, by omega⟩
    · exact ⟨1, by omega, by omega, by omega⟩
    · exact ⟨2, by omega, by omega, by omega⟩
    · exact ⟨3, by omega, by omega, by omega⟩
    · exact ⟨4, by omega, by omega, by omega⟩
    · exact ⟨5, by omega, by omega, by omega⟩
  have hs1' : (2 : ℚ) ^ s < r := by exact_mod_cast hs1
  have hs2' : (r : ℚ) ≤ 2 ^ (s + 1) := by exact_mod_cast hs2
  have herr := hn.error hF hp0 hb (g := (s : Int) + 1 - F.prec) (by omega) (by omega) (by
    rw [sub_add_cancel]
    calc q * r ≤ 1 * r := by gcongr
      _ ≤ 2 ^ (s + 1) := by linarith
      _ = _ := by rw [← zpow_natCast]; push_cast; rfl)
  have hg : (2 : ℚ) ^ ((s : Int) + 1 - F.prec) / 2 = 2 ^ s * (1 / 2 ^ F.prec) := by
    rw [zpow_sub₀ (by norm_num), zpow_add₀ (by norm_num), zpow_natCast, zpow_natCast, zpow_one]
    ring
  rw [hg] at herr
  have hu : (0 : ℚ) < 1 / 2 ^ F.prec := by positivity
  have hlt : (2 : ℚ) ^ s * (1 / 2 ^ F.prec) < r * (1 / 2 ^ F.prec) := by gcongr
  have hfr : F.Has (Int.fract (rnd (q * r))) := (hn _ hb).1.fract hF hv0
  refine ⟨hv0, ?_, herr.trans hlt.le, hfr, ?_⟩
  · have h4 := hq.lt_one hF h1
    have h5 : q * r ≤ (1 - 1 / 2 ^ F.prec) * r := mul_le_mul_of_nonneg_right h4 hr0.le
    have h6 := (abs_le.mp herr).2
    linarith
  · exact hn.exact hfr

/-- One round of the loop that appends a digit. -/
theorem formatFractionLoop_near (e : Enc) {F : Spec.BinFmt} (hF : F.Std) {rnd : ℚ → ℚ}
    (hn : F.Nearest rnd) {f : FloatFormat} (hf2 : 2 ≤ f.radix) (hf : f.radix ≤ 36) {q : ℚ}
    (hq : F.Has q) (h0 : 0 ≤ q) (h1 : q < 1) (hq0 : q ≠ 0) (fuel counted places : Nat) (out : Str e)
    (hlim : ¬ (f.placeLimit ≠ .none ∧ places = f.placeCount)) :
    ∃ d : Nat, (d : Int) = ⌊rnd (q * f.radix)⌋ ∧ d < f.radix ∧
      formatFractionLoop e rnd f (fuel + 1) q counted places out
      = formatFractionLoop e rnd f fuel (Int.fract (rnd (q * f.radix)))
          (if counted + 1 = 3 then 0 else counted + 1)
          (if f.placeLimit ≠ .none then places + 1 else places)
          (out ++ encs e (fracText f.separator.char counted [Spec.upperDigit d])) := by
  obtain ⟨hv0, hv1, -, -, hrest⟩ := product_near hF hn hf2 hf hq h0 h1
  generalize hv : rnd (q * f.radix) = v at *
  have hd0 : 0 ≤ ⌊v⌋ := Int.floor_nonneg.mpr hv0
  have hd1 : ⌊v⌋ < f.radix := by
    rw [Int.floor_lt]
    exact_mod_cast hv1
  obtain ⟨d, hd⟩ : ∃ d : Nat, (d : Int) = ⌊v⌋ := ⟨_, Int.toNat_of_nonneg hd0⟩
  have hdlt : d < f.radix := by omega
  refine ⟨d, hd, hdlt, ?_⟩
  have hchar : int8.Has ⌊v⌋ := by
    rw [← hd]
    refine ⟨?_, ?_⟩
    · simp [IntTy.min, int8]
      try omega
    · simp [IntTy.max, int8]; omega
  rw [formatFractionLoop, if_neg hq0]
  simp only [hv]
  rw [if_neg (not_not.mpr hchar), hrest, if_neg hlim, ← hd,
    formatDigit_eq (by omega), appendCP_enc e _ (insOk_ascii e (upperDigit_lt (by omega))),
    Outcome.ok_bind]
  by_cases h3 : counted + 1 = 3
  · rw [if_pos h3, if_pos h3, fracText, if_pos h3]
    cases hs : f.separator with
    | none =>
      simp only [Separator.char, fracText, Option.toList, List.append_nil]
      rw [show encs e [Spec.upperDigit d] = encU e (Spec.upperDigit d) by
        simp [encs]]
    | comma =>
      simp only [Separator.char, fracText, Option.toList, List.append_nil]
      rw [show (44#32) = BitVec.ofNat 32 44 from rfl,
        appendCP_enc e 44 (insOk_ascii e (by omega)), Outcome.ok_bind, List.append_assoc,
        show encs e [Spec.upperDigit d, 44] = encU e (Spec.upperDigit d) ++ encU e 44 by
          simp [encs]]
    | period =>
      simp only [Separator.char, fracText, Option.toList, List.append_nil]
      rw [show (46#32) = BitVec.ofNat 32 46 from rfl,
        appendCP_enc e 46 (insOk_ascii e (by omega)), Outcome.ok_bind, List.append_assoc,
        show encs e [Spec.upperDigit d, 46] = encU e (Spec.upperDigit d) ++ encU e 46 by
          simp [encs]]
  · rw [if_neg h3, if_neg h3, fracText, if_neg h3]
    simp only [fracText]
    rw [show encs e [Spec.upperDigit d] = encU e (Spec.upperDigit d) by simp [encs]]

/-- The error of a digit and the digits that follow it. -/
theorem fraction_near {r : Nat} (hr2 : 2 ≤ r) {u a b q v : ℚ} (hu : 0 ≤ u) {d : Nat} {ds : List Nat}
    (hd : (d : Int) = ⌊v⌋) (hv : |v - q * r| ≤ r * u)
    (h1 : -(a + 2 * u) ≤ Spec.fraction r ds - Int.fract v)
    (h2 : Spec.fraction r ds - Int.fract v ≤ b + 2 * u) :
    -(a / r + 2 * u) ≤ Spec.fraction r (d :: ds) - q
      ∧ Spec.fraction r (d :: ds) - q ≤ b / r + 2 * u := by
  have hr0 : (0 : ℚ) < r := by exact_mod_cast (by omega : 0 < r)
  have hrq : (2 : ℚ) ≤ r := by exact_mod_cast hr2
  have hdv : (d : ℚ) + Int.fract v = v := by
    rw [show ((d : Nat) : ℚ) = ((⌊v⌋ : Int) : ℚ) by rw [← hd]; simp, Int.floor_add_fract]
  obtain ⟨hv1, hv2⟩ := abs_le.mp hv
  rw [Spec.fraction_cons (by omega)]
  have key : (d + Spec.fraction r ds) / r - q
      = ((Spec.fraction r ds - Int.fract v) + (v - q * r)) / r := by
    field_simp
    linarith
  have hur : 2 * u + r * u ≤ 2 * u * r := by nlinarith
  rw [key]
  constructor
  · rw [le_div_iff₀ hr0]
    have : -(a / r + 2 * u) * r = -(a + 2 * u * r) := by field_simp
    rw [this]
    linarith
  · rw [div_le_iff₀ hr0]
    have : (b / r + 2 * u) * r = b + 2 * u * r := by field_simp
    rw [this]
    linarith

/-- The relative error of a digit and the digits that follow it. -/
theorem fraction_near_rel {r : Nat} (hr2 : 2 ≤ r) {u q v : ℚ} (hu : 0 ≤ u) {n d : Nat}
    {ds : List Nat} (hd : (d : Int) = ⌊v⌋) (hv : |v - q * r| ≤ u * (q * r))
    (h1 : |Spec.fraction r ds - Int.fract v| ≤ Int.fract v * ((1 + u) ^ n - 1)) :
    |Spec.fraction r (d :: ds) - q| ≤ q * ((1 + u) ^ (n + 1) - 1) := by
  have hr0 : (0 : ℚ) < r := by exact_mod_cast (by omega : 0 < r)
  have hdv : (d : ℚ) + Int.fract v = v := by
    rw [show ((d : Nat) : ℚ) = ((⌊v⌋ : Int) : ℚ) by rw [← hd]; simp, Int.floor_add_fract]
  have hp : (1 : ℚ) ≤ (1 + u) ^ n := one_le_pow₀ (by linarith)
  have hd0 : (0 : ℚ) ≤ d := by positivity
  have hvu : v ≤ (1 + u) * (q * r) := by
    have := (abs_le.mp hv).2
    linarith
  have h2 : Int.fract v * ((1 + u) ^ n - 1) ≤ (1 + u) * (q * r) * ((1 + u) ^ n - 1) :=
    mul_le_mul_of_nonneg_right (by linarith) (by linarith)
  rw [Spec.fraction_cons (by omega)]
  have key : (d + Spec.fraction r ds) / r - q
      = ((Spec.fraction r ds - Int.fract v) + (v - q * r)) / r := by
    field_simp
    linarith
  rw [key, abs_div, abs_of_pos hr0, div_le_iff₀ hr0]
  refine (abs_add_le _ _).trans ?_
  have : q * ((1 + u) ^ (n + 1) - 1) * r
      = (1 + u) * (q * r) * ((1 + u) ^ n - 1) + u * (q * r) := by
    rw [pow_succ]
    ring
  rw [this]
  linarith

/-- In an even radix the loop comes to an end, having written at most as many digits as there are
binary places. -/
theorem formatFractionLoop_even (e : Enc) {F : Spec.BinFmt} (hF : F.Std) {rnd : ℚ → ℚ}
    (hn : F.Nearest rnd) {f : FloatFormat} (hf2 : 2 ≤ f.radix) (hf : f.radix ≤ 36)
    (heven : f.radix % 2 = 0) (hlim : f.placeLimit = .none) (n : Nat) (hnb : (n : Int) ≤ -F.emin) :
    ∀ (q : ℚ), F.Has q → 0 ≤ q → q < 1 → Spec.BinaryPlaces n q → ∀ counted,
      ∃ ds, (∀ d ∈ ds, d < f.radix) ∧ |Spec.fraction f.radix ds - q| ≤ 2 * (1 / 2 ^ F.prec)
        ∧ ((n : Int) + F.prec ≤ 1 - F.emin →
          |Spec.fraction f.radix ds - q| ≤ q * ((1 + 1 / 2 ^ F.prec) ^ n - 1))
        ∧ ds.length ≤ n
        ∧ ∀ fuel ≥ n + 1, ∀ places out,
        formatFractionLoop e rnd f fuel q counted places out
          = .ok (out ++ encs e (fracText f.separator.char counted (ds.map Spec.upperDigit)),
              places) := by
  have stop : ∀ (n : Nat) (q : ℚ), q = 0 → ∀ counted,
      ∃ ds, (∀ d ∈ ds, d < f.radix) ∧ |Spec.fraction f.radix ds - q| ≤ 2 * (1 / 2 ^ F.prec)
        ∧ ((n : Int) + F.prec ≤ 1 - F.emin →
          |Spec.fraction f.radix ds - q| ≤ q * ((1 + 1 / 2 ^ F.prec) ^ n - 1))
        ∧ ds.length ≤ n
        ∧ ∀ fuel ≥ n + 1, ∀ places out,
        formatFractionLoop e rnd f fuel q counted places out
          = .ok (out ++ encs e (fracText f.separator.char counted (ds.map Spec.upperDigit)),
              places) := by
    intro n q hq counted
    refine ⟨[], by simp, ?_, fun _ => ?_, by simp, ?_⟩
    · rw [Spec.fraction_nil, hq, sub_zero, abs_zero]
      positivity
    · rw [Spec.fraction_nil, hq, sub_zero, abs_zero, zero_mul]
    intro fuel hfuel places out
    obtain ⟨fuel, rfl⟩ : ∃ m, fuel = m + 1 := ⟨fuel - 1, by omega⟩
    rw [formatFractionLoop, if_pos hq]
    simp [fracText, encs]
  induction n with
  | zero =>
    intro q _ h0 h1 ⟨z, hz⟩ counted
    refine stop 0 q ?_ counted
    rw [pow_zero, div_one] at hz
    rw [hz] at h0 h1
    have h0 : 0 ≤ z := by exact_mod_cast h0
    have h1 : z < 1 := by exact_mod_cast h1
    rw [hz, show z = 0 by omega]
    simp
  | succ n ih =>
    intro q hq h0 h1 hz counted
    by_cases hq0 : q = 0
    · exact stop _ q hq0 counted
    obtain ⟨hv0, hv1, herr, hhas, -⟩ := product_near hF hn hf2 hf hq h0 h1
    have hprod : Spec.BinaryPlaces n (q * f.radix) := by
      obtain ⟨z, rfl⟩ := hz
      obtain ⟨t, ht⟩ : ∃ t, f.radix = 2 * t := ⟨f.radix / 2, by omega⟩
      refine ⟨z * t, ?_⟩
      rw [ht, pow_succ]
      push_cast
      field_simp
    have hr36 : (f.radix : ℚ) ≤ 36 := by exact_mod_cast hf
    have hr0 : (0 : ℚ) ≤ f.radix := by positivity
    have hp64 : q * f.radix ≤ 64 := by nlinarith
    have hnext := Spec.BinFmt.BinaryPlaces.fract
      (hn.places hF (by positivity) hp64 (by omega) hprod)
    obtain ⟨d, hd, hdlt, _⟩ := formatFractionLoop_near e hF hn hf2 hf hq h0 h1 hq0 0 counted 0 []
      (fun h => h.1 hlim)
    obtain ⟨ds, hds, hfrac, hrel, hlen, hrun⟩ := ih (by omega) _ hhas (Int.fract_nonneg _)
      (Int.fract_lt_one _) hnext (if counted + 1 = 3 then 0 else counted + 1)
    refine ⟨d :: ds, by simpa using ⟨hdlt, hds⟩, ?_, fun hsmall => ?_, by simpa using hlen, ?_⟩
    · obtain ⟨g1, g2⟩ := abs_le.mp hfrac
      have := fraction_near hf2 (a := 0) (b := 0) (u := 1 / 2 ^ F.prec) (by positivity) hd herr
        (by rwa [zero_add]) (by rwa [zero_add])
      rw [zero_div, zero_add] at this
      exact abs_le.mpr this
    · have hp0 : 0 ≤ q * f.radix := by positivity
      exact fraction_near_rel hf2 (by positivity) hd
        (hn.relative hF hp0 hp64 (by push_cast at hsmall; omega) hprod)
        (hrel (by push_cast at hsmall; omega))
    · intro fuel hfuel places out
      obtain ⟨fuel, rfl⟩ : ∃ m, fuel = m + 1 := ⟨fuel - 1, by omega⟩
      obtain ⟨d', hd', _, hstep⟩ := formatFractionLoop_near e hF hn hf2 hf hq h0 h1 hq0 fuel counted
        places out (fun h => h.1 hlim)
      have : d' = d := by omega
      subst this
      rw [hstep, hrun fuel (by omega), if_neg (not_not.mpr hlim), List.append_assoc,
        ← encs_append, List.map_cons, fracText_cons _ _ _ (ds.map Spec.upperDigit)]

/-- With a place limit the loop writes at most that many digits, in any radix. -/
theorem formatFractionLoop_cut (e : Enc) {F : Spec.BinFmt} (hF : F.Std) {rnd : ℚ → ℚ}
    (hn : F.Nearest rnd) {f : FloatFormat} (hf2 : 2 ≤ f.radix) (hf : f.radix ≤ 36)
    (hlim : f.placeLimit ≠ .none) (n : Nat) :
    ∀ (q : ℚ), F.Has q → 0 ≤ q → q < 1 → ∀ counted places, places + n = f.placeCount →
      ∃ ds k, (∀ d ∈ ds, d < f.radix)
        ∧ (-(1 / (f.radix : ℚ) ^ n + 2 * (1 / 2 ^ F.prec)) ≤ Spec.fraction f.radix ds - q
          ∧ Spec.fraction f.radix ds - q ≤ 2 * (1 / 2 ^ F.prec))
        ∧ ds.length ≤ n ∧ (k = places + ds.length ∨ ds.length = n ∧ f.placeCount < k)
        ∧ ∀ fuel ≥ n + 1, ∀ out,
        formatFractionLoop e rnd f fuel q counted places out
          = .ok (out ++ encs e (fracText f.separator.char counted (ds.map Spec.upperDigit)),
              k) := by
  have hu : (0 : ℚ) ≤ 1 / 2 ^ F.prec := by positivity
  have stop : ∀ (n : Nat) (q : ℚ), q = 0 → ∀ counted places,
      ∃ ds k, (∀ d ∈ ds, d < f.radix)
        ∧ (-(1 / (f.radix : ℚ) ^ n + 2 * (1 / 2 ^ F.prec)) ≤ Spec.fraction f.radix ds - q
          ∧ Spec.fraction f.radix ds - q ≤ 2 * (1 / 2 ^ F.prec))
        ∧ ds.length ≤ n ∧ (k = places + ds.length ∨ ds.length = n ∧ f.placeCount < k)
        ∧ ∀ fuel ≥ n + 1, ∀ out,
        formatFractionLoop e rnd f fuel q counted places out
          = .ok (out ++ encs e (fracText f.separator.char counted (ds.map Spec.upperDigit)),
              k) := by
    intro n q hq counted places
    refine ⟨[], places, by simp, ?_, by simp, .inl (by simp), ?_⟩
    · rw [Spec.fraction_nil, hq, sub_zero]
      have : (0 : ℚ) ≤ 1 / (f.radix : ℚ) ^ n := by positivity
      constructor <;> linarith
    intro fuel hfuel out
    obtain ⟨fuel, rfl⟩ : ∃ m, fuel = m + 1 := ⟨fuel - 1, by omega⟩
    rw [formatFractionLoop, if_pos hq]
    simp [fracText, encs]
  induction n with
  | zero =>
    intro q hq h0 h1 counted places hp
    by_cases hq0 : q = 0
    · exact stop 0 q hq0 counted places
    · refine ⟨[], places + 1, by simp, ?_, by simp, .inr ⟨by simp, by omega⟩, ?_⟩
      · rw [Spec.fraction_nil, pow_zero]
        constructor <;> linarith
      · intro fuel hfuel out
        obtain ⟨fuel, rfl⟩ : ∃ m, fuel = m + 1 := ⟨fuel - 1, by omega⟩
        obtain ⟨hv0, hv1, -, -, -⟩ := product_near hF hn hf2 hf hq h0 h1
        have hd0 : 0 ≤ ⌊rnd (q * f.radix)⌋ := Int.floor_nonneg.mpr hv0
        have hd1 : ⌊rnd (q * f.radix)⌋ < f.radix := by
          rw [Int.floor_lt]
          exact_mod_cast hv1
        have hchar : int8.Has ⌊rnd (q * f.radix)⌋ := by
          refine ⟨?_, ?_⟩
          · simp [IntTy.min, int8]; omega
          · simp [IntTy.max, int8]; omega
        rw [formatFractionLoop, if_neg hq0]
        simp only
        rw [if_neg (not_not.mpr hchar), if_pos ⟨hlim, by omega⟩]
        simp [fracText, encs]
  | succ n ih =>
    intro q hq h0 h1 counted places hp
    by_cases hq0 : q = 0
    · exact stop _ q hq0 counted places
    · have hnl : ¬ (f.placeLimit ≠ .none ∧ places = f.placeCount) := fun h => by omega
      obtain ⟨hv0, hv1, herr, hhas, -⟩ := product_near hF hn hf2 hf hq h0 h1
      obtain ⟨d, hd, hdlt, _⟩ := formatFractionLoop_near e hF hn hf2 hf hq h0 h1 hq0 0 counted
        places [] hnl
      obtain ⟨ds, k, hds, ⟨g1, g2⟩, hlen, hk, hrun⟩ := ih _ hhas (Int.fract_nonneg _)
        (Int.fract_lt_one _) (if counted + 1 = 3 then 0 else counted + 1) (places + 1) (by omega)
      refine ⟨d :: ds, k, by simpa using ⟨hdlt, hds⟩, ?_, by simp; omega, ?_, ?_⟩
      · have := fraction_near hf2 (b := 0) hu hd herr g1 (by rwa [zero_add])
        rwa [zero_div, zero_add, div_div, ← pow_succ] at this
      · simp only [List.length_cons]
        omega
      · intro fuel hfuel out
        obtain ⟨fuel, rfl⟩ : ∃ m, fuel = m + 1 := ⟨fuel - 1, by omega⟩
        obtain ⟨d', hd', _, hstep⟩ := formatFractionLoop_near e hF hn hf2 hf hq h0 h1 hq0 fuel
          counted places out hnl
        have : d' = d := by omega
        subst this
        rw [hstep, if_pos hlim, hrun fuel (by omega), List.append_assoc,
          ← encs_append, List.map_cons, fracText_cons _ _ _ (ds.map Spec.upperDigit)]

end Cmp
