import Verif.Spec.TiesToEven
import Verif.Proofs.FloatNear

/-
Rounding to nearest, ties to even, is one of the roundings the theorems on floating-point numbers
are about.
-/

namespace Spec

theorem exponent_spec {q : ℚ} (hq : q ≠ 0) :
    (2 : ℚ) ^ exponent q ≤ |q| ∧ |q| < 2 ^ (exponent q + 1) := by
  have hn : q.num.natAbs ≠ 0 := by simpa using hq
  have hd : q.den ≠ 0 := q.den_nz
  have e : |q| = (q.num.natAbs : ℚ) / q.den := by
    conv_lhs => rw [← Rat.num_div_den q]
    rw [abs_div, Nat.cast_natAbs, Int.cast_abs, Nat.abs_cast]
  have n1 : ((2 : ℚ) ^ (Nat.log2 q.num.natAbs)) ≤ q.num.natAbs := by
    exact_mod_cast Nat.log2_self_le hn
  have n2 : (q.num.natAbs : ℚ) < 2 ^ (Nat.log2 q.num.natAbs + 1) := by
    exact_mod_cast Nat.lt_log2_self
  have d1 : ((2 : ℚ) ^ (Nat.log2 q.den)) ≤ q.den := by exact_mod_cast Nat.log2_self_le hd
  have d2 : (q.den : ℚ) < 2 ^ (Nat.log2 q.den + 1) := by exact_mod_cast Nat.lt_log2_self
  have hd0 : (0 : ℚ) < q.den := by exact_mod_cast Nat.pos_of_ne_zero hd
  have up : |q| < 2 ^ ((Nat.log2 q.num.natAbs : Int) - Nat.log2 q.den + 1) := by
    rw [e, div_lt_iff₀ hd0, show ((Nat.log2 q.num.natAbs : Int) - Nat.log2 q.den + 1)
      = ((Nat.log2 q.num.natAbs + 1 : Nat) : Int) - Nat.log2 q.den by push_cast; ring,
      zpow_sub₀ (by norm_num), zpow_natCast, zpow_natCast, div_mul_eq_mul_div,
      lt_div_iff₀ (by positivity)]
    exact mul_lt_mul n2 d1 (by positivity) (by positivity)
  have low : (2 : ℚ) ^ ((Nat.log2 q.num.natAbs : Int) - Nat.log2 q.den - 1) ≤ |q| := by
    rw [e, le_div_iff₀ hd0, show ((Nat.log2 q.num.natAbs : Int) - Nat.log2 q.den - 1)
      = (Nat.log2 q.num.natAbs : Int) - ((Nat.log2 q.den + 1 : Nat) : Int) by push_cast; ring,
      zpow_sub₀ (by norm_num), zpow_natCast, zpow_natCast, div_mul_eq_mul_div,
      div_le_iff₀ (by positivity)]
    exact mul_le_mul n1 d2.le (by positivity) (by positivity)
  simp only [exponent]
  split_ifs with h
  · exact ⟨h, up⟩
  · rw [sub_add_cancel]
    exact ⟨low, not_le.mp h⟩

/-- No integer is nearer. -/
theorem evenInteger_nearest (x : ℚ) (z : Int) : |(evenInteger x : ℚ) - x| ≤ |(z : ℚ) - x| := by
  have h0 := Int.floor_le x
  have h1 := Int.lt_floor_add_one x
  have hz : |(z : ℚ) - x| ≥ x - ⌊x⌋ ∨ |(z : ℚ) - x| ≥ ⌊x⌋ + 1 - x := by
    rcases le_or_gt z ⌊x⌋ with h | h
    · left
      have h' : (z : ℚ) ≤ ⌊x⌋ := by exact_mod_cast h
      rw [abs_of_nonpos (by linarith)]
      linarith
    · right
      have h' : (⌊x⌋ : ℚ) + 1 ≤ z := by exact_mod_cast h
      rw [abs_of_nonneg (by linarith)]
      linarith
  have hf : |(⌊x⌋ : ℚ) - x| = x - ⌊x⌋ := by
    rw [abs_of_nonpos (by linarith)]
    ring
  have hc : |((⌊x⌋ + 1 : Int) : ℚ) - x| = ⌊x⌋ + 1 - x := by
    push_cast
    rw [abs_of_nonneg (by linarith)]
  rw [evenInteger]
  split_ifs with c1 c2 c3
  · rw [hf]
    rcases hz with h | h <;> linarith
  · rw [hc]
    rcases hz with h | h <;> linarith
  · rw [hf]
    rcases hz with h | h <;> linarith
  · rw [hc]
    rcases hz with h | h <;> linarith

theorem evenInteger_le {x : ℚ} {n : Int} (h : x ≤ n) : evenInteger x ≤ n := by
  have h0 : ⌊x⌋ ≤ n := by exact_mod_cast (Int.floor_le x).trans h
  rcases h0.lt_or_eq with h1 | h1
  · rw [evenInteger]
    split_ifs <;> omega
  · have h2 : x - ⌊x⌋ < 1 / 2 := by
      rw [h1]
      linarith
    rw [evenInteger, if_pos h2]
    exact h0

theorem le_evenInteger {x : ℚ} {n : Int} (h : n ≤ x) : n ≤ evenInteger x := by
  have h0 : n ≤ ⌊x⌋ := Int.le_floor.mpr h
  rw [evenInteger]
  split_ifs <;> omega

namespace BinFmt

variable {F : BinFmt}

theorem lastPlace_le {q : ℚ} (hq : q ≠ 0) : |q| < (2 : ℚ) ^ (F.lastPlace q + F.prec) := by
  refine (exponent_spec hq).2.trans_le (zpow_le_zpow_right₀ (by norm_num) ?_)
  have := le_max_left (exponent q - (F.prec - 1)) F.emin
  rw [lastPlace]
  omega

theorem greatest {p : ℚ} (h : F.Has p) :
    |p| ≤ (2 ^ F.prec - 1) * (2 : ℚ) ^ ((F.emax : Int) - F.prec) := by
  obtain ⟨m, e, hm, he, rfl⟩ := h
  have h1 : (|m| : Int) ≤ 2 ^ F.prec - 1 := by
    have : ((m.natAbs : Nat) : Int) < 2 ^ F.prec := by exact_mod_cast hm
    rw [Int.natCast_natAbs] at this
    omega
  have h2 : |(m : ℚ)| ≤ 2 ^ F.prec - 1 := by
    rw [← Int.cast_abs]
    exact_mod_cast h1
  rw [abs_mul, abs_of_pos (zpow_pos (by norm_num : (0 : ℚ) < 2) e)]
  refine mul_le_mul h2 (zpow_le_zpow_right₀ (by norm_num) (by omega))
    (zpow_pos (by norm_num) _).le ?_
  exact (abs_nonneg _).trans h2

/-- Rounding to nearest, ties to even, yields a value of the format, and no other is nearer. -/
theorem tiesToEven_nearest (hF : F.Std) : F.Nearest F.tiesToEven := by
  intro q hw
  have hprec := hF.prec_ge
  have hmax := hF.emax_ge
  have hmin := hF.emin_le
  by_cases hq : q = 0
  · subst hq
    simp only [tiesToEven, if_true]
    exact ⟨has_zero hF, fun p _ => by simp⟩
  simp only [tiesToEven, if_neg hq]
  set g := F.lastPlace q with hg
  have hgmin : F.emin ≤ g := le_max_right _ _
  have hg0 : (0 : ℚ) < 2 ^ g := zpow_pos (by norm_num) _
  have near : ∀ z : Int,
      |(evenInteger (q / 2 ^ g) : ℚ) * 2 ^ g - q| ≤ |(z : ℚ) * 2 ^ g - q| := by
    intro z
    have h := mul_le_mul_of_nonneg_right (evenInteger_nearest (q / 2 ^ g) z) hg0.le
    have e : ∀ w : Int, |(w : ℚ) - q / 2 ^ g| * 2 ^ g = |(w : ℚ) * 2 ^ g - q| := by
      intro w
      conv_lhs => rw [← abs_of_pos hg0, ← abs_mul]
      rw [abs_of_pos hg0]
      congr 1
      field_simp
    rwa [e, e] at h
  obtain ⟨P, hP, hPq⟩ := hw
  have hup := lastPlace_le (F := F) hq
  rw [← hg] at hup
  have hlow := (exponent_spec hq).1
  -- the exponent is in range
  have hPpos : 0 < |q| := abs_pos.mpr hq
  have hP' := (hPq.trans (le_abs_self P)).trans (greatest hP)
  have htop : g + F.prec ≤ F.emax := by
    have h1 : (2 : ℚ) ^ exponent q < 2 ^ (F.emax : Int) := by
      refine lt_of_le_of_lt (hlow.trans hP') ?_
      have e : (2 : ℚ) ^ (F.emax : Int) = 2 ^ F.prec * 2 ^ ((F.emax : Int) - F.prec) := by
        rw [← zpow_natCast (2 : ℚ) F.prec, ← zpow_add₀ (by norm_num)]
        congr 1
        omega
      rw [e]
      exact mul_lt_mul_of_pos_right (sub_one_lt _) (zpow_pos (by norm_num : (0 : ℚ) < 2) _)
    have h2 := (zpow_lt_zpow_iff_right₀ (by norm_num)).mp h1
    have h3 : g = max (exponent q - (F.prec - 1)) F.emin := hg
    rcases max_choice (exponent q - ((F.prec : Int) - 1)) F.emin with h | h <;>
      rw [h] at h3 <;> omega
  have hbound : |q / 2 ^ g| ≤ 2 ^ F.prec := by
    rw [abs_div, abs_of_pos hg0, div_le_iff₀ hg0, ← zpow_natCast, ← zpow_add₀ (by norm_num),
      add_comm]
    exact hup.le
  have bound : ∀ n : Int, |q / 2 ^ g| ≤ n → |evenInteger (q / 2 ^ g)| ≤ n := by
    intro n hn
    obtain ⟨k1, k2⟩ := abs_le.mp hn
    exact abs_le.mpr ⟨le_evenInteger (by push_cast; linarith), evenInteger_le k2⟩
  refine ⟨?_, ?_⟩
  · have hm : |evenInteger (q / 2 ^ g)| ≤ 2 ^ F.prec := bound _ (by push_cast; exact hbound)
    by_cases hlt : |evenInteger (q / 2 ^ g)| < 2 ^ F.prec
    · refine ⟨_, g, ?_, ⟨hgmin, htop⟩, rfl⟩
      zify
      exact hlt
    · have heq : |evenInteger (q / 2 ^ g)| = 2 ^ F.prec := le_antisymm hm (not_lt.mp hlt)
      have hg1 : g + 1 + F.prec ≤ F.emax := by
        by_contra hno
        have hge : (F.emax : Int) - F.prec = g := by omega
        have := bound (2 ^ F.prec - 1) (by
          rw [abs_div, abs_of_pos hg0, div_le_iff₀ hg0]
          push_cast
          rw [← hge]
          exact hP')
        omega
      obtain ⟨k, hk⟩ : ∃ k, F.prec = k + 1 := ⟨F.prec - 1, by omega⟩
      have hpow : (2 : ℚ) ^ F.prec * 2 ^ g = 2 ^ k * 2 ^ (g + 1) := by
        rw [hk, pow_succ, zpow_add₀ (by norm_num), zpow_one]
        ring
      have hk2 : ((2 ^ k : Int)).natAbs < 2 ^ F.prec := by
        rw [Int.natAbs_pow]
        exact Nat.pow_lt_pow_right (by norm_num) (by omega)
      have hpos : F.Has ((2 : ℚ) ^ F.prec * 2 ^ g) :=
        ⟨2 ^ k, g + 1, hk2, by omega, by rw [hpow]; push_cast; rfl⟩
      rcases abs_choice (evenInteger (q / 2 ^ g)) with h | h
      · rw [← h, heq]
        push_cast
        exact hpos
      · have h' : evenInteger (q / 2 ^ g) = -2 ^ F.prec := by omega
        rw [h']
        push_cast
        rw [neg_mul]
        exact hpos.neg
  · rintro p ⟨m, e, hm', he, rfl⟩
    by_cases heg : g ≤ e
    · obtain ⟨k, hk⟩ : ∃ k : Nat, e = g + k := ⟨(e - g).toNat, by omega⟩
      have := near (m * 2 ^ k)
      rw [hk, zpow_add₀ (by norm_num), zpow_natCast]
      push_cast at this
      rwa [mul_assoc, mul_comm ((2 : ℚ) ^ k)] at this
    · have h3 : g = max (exponent q - (F.prec - 1)) F.emin := hg
      have h4 : g = exponent q - (F.prec - 1) := by
        rcases max_choice (exponent q - ((F.prec : Int) - 1)) F.emin with h | h <;>
          rw [h] at h3 <;> omega
      have hz : ((2 ^ (F.prec - 1) : Int) : ℚ) * 2 ^ g = 2 ^ exponent q := by
        push_cast
        rw [← zpow_natCast, ← zpow_add₀ (by norm_num)]
        congr 1
        omega
      have hm2 : |(m : ℚ)| ≤ 2 ^ F.prec := by
        rw [← Int.cast_abs]
        have : ((m.natAbs : Nat) : Int) < 2 ^ F.prec := by exact_mod_cast hm'
        rw [Int.natCast_natAbs] at this
        exact_mod_cast this.le
      have hp : |(m : ℚ) * 2 ^ e| ≤ 2 ^ exponent q := by
        rw [abs_mul, abs_of_pos (zpow_pos (by norm_num : (0 : ℚ) < 2) e)]
        calc _ ≤ (2 : ℚ) ^ F.prec * 2 ^ e :=
              mul_le_mul_of_nonneg_right hm2 (zpow_pos (by norm_num) _).le
          _ = 2 ^ ((F.prec : Int) + e) := by rw [zpow_add₀ (by norm_num), zpow_natCast]
          _ ≤ _ := zpow_le_zpow_right₀ (by norm_num) (by omega)
      obtain ⟨p1, p2⟩ := abs_le.mp hp
      rcases lt_or_gt_of_ne hq with hneg | hpos
      · rw [abs_of_neg hneg] at hlow
        refine (near (-2 ^ (F.prec - 1))).trans ?_
        push_cast at hz ⊢
        rw [neg_mul, hz, abs_of_nonneg (by linarith), abs_of_nonneg (by linarith)]
        linarith
      · rw [abs_of_pos hpos] at hlow
        refine (near (2 ^ (F.prec - 1))).trans ?_
        rw [hz, abs_of_nonpos (by linarith), abs_of_nonpos (by linarith)]
        linarith

end BinFmt

end Spec
