import Verif.Model.Overflow
import Verif.Spec.Overflow
import Verif.Proofs.FloatNear
import Verif.Proofs.FloatParse
import Mathlib.Tactic.Linarith
import Mathlib.Tactic.Positivity
import Mathlib.Tactic.NormNum

/-
Rounding with overflow, and the digits behind the radix character when their place values overflow.
-/

namespace Cmp

open _root_.Spec (BinFmt fraction)
open _root_.Cmp.Spec (Rounds overflowsAt)
open FloatValue

variable {F : BinFmt} {rnd : ℚ → FloatValue}

/-! ### The error of rounding -/

/-- The unit of relative errors, twice the unit round-off. -/
def unit (F : BinFmt) : ℚ := 2 / 2 ^ F.prec

/-- The unit of absolute errors, for quotients that are nearly zero. -/
def grain (F : BinFmt) : ℚ := 2 ^ F.emin

theorem unit_pos (F : BinFmt) : 0 < unit F := by unfold unit; positivity

theorem grain_pos (F : BinFmt) : 0 < grain F := zpow_pos (by norm_num) _

theorem unit_small (hF : F.Std) : (8 * (F.emax + 4)) * unit F ≤ 1 := by
  rcases hF with rfl | rfl <;> norm_num [unit, _root_.Spec.binary32, _root_.Spec.binary64]

theorem overflowsAt_ge (hF : F.Std) : (2 : ℚ) ^ (F.emax - 1) ≤ overflowsAt F := by
  obtain ⟨k, hk⟩ : ∃ k, F.emax = k + 1 := ⟨F.emax - 1, by have := hF.emax_ge; omega⟩
  have h1 : (2 : ℚ) ^ (F.emax - F.prec - 1) ≤ 2 ^ k :=
    pow_le_pow_right₀ (by norm_num) (by omega)
  unfold overflowsAt
  rw [hk] at h1 ⊢
  rw [Nat.add_sub_cancel, pow_succ]
  linarith

theorem overflowsAt_lt (F : BinFmt) : overflowsAt F < 2 ^ F.emax := by
  unfold overflowsAt
  have : (0 : ℚ) < 2 ^ (F.emax - F.prec - 1) := by positivity
  linarith

/-- Every number that does not overflow is near a value of the format. -/
theorem near_value (hF : F.Std) {q : ℚ} (h0 : 0 ≤ q) (hq : q < overflowsAt F) :
    ∃ p, F.Has p ∧ |p - q| ≤ 1 / 2 ^ F.prec * q + grain F / 2 := by
  have hprec := hF.prec_ge
  have hmax := hF.emax_ge
  have hmin := hF.emin_le
  have hg0 := grain_pos F
  rcases h0.eq_or_lt with rfl | hpos
  · exact ⟨0, BinFmt.has_zero hF, by simp; linarith⟩
  obtain ⟨n, hn1, hn2⟩ := exists_mem_Ico_zpow hpos (y := (2 : ℚ)) (by norm_num)
  have hup : n + 1 ≤ F.emax := by
    have h3 : (2 : ℚ) ^ n < 2 ^ (F.emax : Int) := by
      rw [zpow_natCast]
      exact lt_of_le_of_lt hn1 (hq.trans (overflowsAt_lt F))
    have := (zpow_lt_zpow_iff_right₀ (by norm_num)).mp h3
    omega
  have hulp : (2 : ℚ) ^ (n + 1 - (F.prec : Int)) / 2 ≤ 1 / 2 ^ F.prec * q := by
    have h4 : (2 : ℚ) ^ (n + 1 - (F.prec : Int)) / 2 = 1 / 2 ^ F.prec * 2 ^ n := by
      rw [zpow_sub₀ (by norm_num), zpow_add₀ (by norm_num), zpow_natCast, zpow_one]
      ring
    rw [h4]
    exact mul_le_mul_of_nonneg_left hn1 (by positivity)
  by_cases hlow : n + 1 - F.prec < F.emin
  · obtain ⟨p, hp, hpq⟩ := BinFmt.exists_near hF h0 (g := F.emin) (by omega) (by omega)
      (hn2.le.trans (zpow_le_zpow_right₀ (by norm_num) (by omega)))
    refine ⟨p, hp, hpq.trans ?_⟩
    have : 0 ≤ 1 / 2 ^ F.prec * q := by positivity
    unfold grain
    linarith
  · by_cases htop : n + 1 < F.emax
    · obtain ⟨p, hp, hpq⟩ := BinFmt.exists_near hF h0 (g := n + 1 - F.prec) (by omega) (by omega)
        (by rw [sub_add_cancel]; exact hn2.le)
      exact ⟨p, hp, hpq.trans (hulp.trans (by linarith))⟩
    · obtain ⟨g, hg⟩ : ∃ g : Nat, F.emax = g + 1 + F.prec := ⟨F.emax - F.prec - 1, by omega⟩
      have hgq : (n + 1 - F.prec : Int) = ((g + 1 : Nat) : Int) := by omega
      rw [hgq, zpow_natCast] at hulp
      have hp0 : (0 : ℚ) < 2 ^ (g + 1) := by positivity
      refine ⟨round (q / 2 ^ (g + 1)) * 2 ^ ((g + 1 : Nat) : Int), ⟨_, _, ?_, ⟨by omega, by omega⟩, rfl⟩, ?_⟩
      · have h1 : q / 2 ^ (g + 1) + 1 / 2 < 2 ^ F.prec := by
          have : overflowsAt F = (2 ^ F.prec - 1 / 2) * 2 ^ (g + 1) := by
            unfold overflowsAt
            rw [show F.emax - F.prec - 1 = g by omega, hg, pow_add, pow_succ]
            ring
          rw [this, ← div_lt_iff₀ hp0] at hq
          linarith
        have h3 : 0 ≤ round (q / 2 ^ (g + 1)) := by
          rw [round_eq]
          exact Int.floor_nonneg.mpr (by positivity)
        have h4 : round (q / 2 ^ (g + 1)) < 2 ^ F.prec := by
          rw [round_eq, Int.floor_lt]
          push_cast
          exact h1
        zify
        rw [abs_of_nonneg h3]
        exact h4
      · have h6 := abs_sub_round (q / 2 ^ (g + 1))
        have h7 : (round (q / 2 ^ (g + 1)) : ℚ) * 2 ^ (g + 1) - q
            = -((q / 2 ^ (g + 1) - round (q / 2 ^ (g + 1))) * 2 ^ (g + 1)) := by
          field_simp
          ring
        rw [zpow_natCast, h7, abs_neg, abs_mul, abs_of_pos hp0]
        calc _ ≤ 1 / 2 * (2 : ℚ) ^ (g + 1) := by gcongr
          _ ≤ _ := by linarith

/-- The result of an operation that does not overflow. -/
theorem Rounds.finite (hF : F.Std) (hr : Rounds F rnd) {q : ℚ} (hq : |q| < overflowsAt F) :
    ∃ r, rnd q = .fin r ∧ F.Has r ∧ |r - q| ≤ unit F * |q| + grain F
      ∧ (1 ≤ |q| → |r - q| ≤ unit F * |q|) := by
  obtain ⟨r, h1, h2, h3⟩ := hr.near q hq
  have hn : |r - q| ≤ 1 / 2 ^ F.prec * |q| + grain F / 2 := by
    obtain ⟨p, hp, hpq⟩ := near_value hF (abs_nonneg q) hq
    rcases abs_choice q with h | h
    · rw [h] at hpq ⊢
      exact (h3 p hp).trans hpq
    · rw [h] at hpq ⊢
      refine (h3 (-p) hp.neg).trans ?_
      rw [show -p - q = -(p - -q) by ring, abs_neg]
      exact hpq
  have hu : unit F = 2 * (1 / 2 ^ F.prec) := by unfold unit; ring
  have hu0 : (0 : ℚ) < 1 / 2 ^ F.prec := by positivity
  have hg0 := grain_pos F
  refine ⟨r, h1, h2, hn.trans ?_, fun hq1 => hn.trans ?_⟩
  · rw [hu]
    have := mul_nonneg hu0.le (abs_nonneg q)
    linarith
  · have hge : grain F ≤ 1 / 2 ^ F.prec := by
      have h5 : (1 : ℚ) / 2 ^ F.prec = 2 ^ (-(F.prec : Int)) := by
        rw [zpow_neg, zpow_natCast, one_div]
      rw [h5]
      exact zpow_le_zpow_right₀ (by norm_num) hF.emin_le
    rw [hu]
    have := mul_le_mul_of_nonneg_left hq1 hu0.le
    linarith

theorem Rounds.exact (hr : Rounds F rnd) {q : ℚ} (hq : F.Has q) (hlt : |q| < overflowsAt F) :
    rnd q = .fin q := by
  obtain ⟨r, h1, h2, h3⟩ := hr.near q hlt
  have := h3 q hq
  rw [sub_self, abs_zero] at this
  have := abs_nonpos_iff.mp this
  rw [h1, show r = q by linarith]

/-- The finite numbers of the format do not overflow. -/
theorem has_lt_overflow (hF : F.Std) {q : ℚ} (hq : F.Has q) : |q| < overflowsAt F := by
  obtain ⟨m, e, hm, ⟨he1, he2⟩, rfl⟩ := hq
  have hprec := hF.prec_ge
  have hmax := hF.emax_ge
  obtain ⟨g, hg⟩ : ∃ g : Nat, F.emax = g + 1 + F.prec := ⟨F.emax - F.prec - 1, by omega⟩
  have h1 : overflowsAt F = (2 ^ F.prec - 1 / 2) * 2 ^ (g + 1) := by
    unfold overflowsAt
    rw [show F.emax - F.prec - 1 = g by omega, hg, pow_add, pow_succ]
    ring
  have hm1 : |(m : ℚ)| ≤ 2 ^ F.prec - 1 := by
    have : (m.natAbs : Int) + 1 ≤ 2 ^ F.prec := by exact_mod_cast hm
    have h2 : ((m.natAbs : Int) : ℚ) + 1 ≤ 2 ^ F.prec := by exact_mod_cast this
    rw [Int.natCast_natAbs, Int.cast_abs] at h2
    linarith
  have he : (2 : ℚ) ^ e ≤ 2 ^ (g + 1) := by
    rw [← zpow_natCast]
    exact zpow_le_zpow_right₀ (by norm_num) (by omega)
  have he0 : (0 : ℚ) < 2 ^ e := zpow_pos (by norm_num) _
  rw [abs_mul, abs_of_pos he0, h1]
  have hp0 : (0 : ℚ) < 2 ^ (g + 1) := by positivity
  calc _ ≤ (2 ^ F.prec - 1) * (2 : ℚ) ^ (g + 1) := by
        refine mul_le_mul hm1 he he0.le ?_
        have : (1 : ℚ) ≤ 2 ^ F.prec := one_le_pow₀ (by norm_num)
        linarith
    _ < _ := mul_lt_mul_of_pos_right (by linarith) hp0

/-! ### The digits behind the radix character -/

/-- The digits added one after the other. -/
def placesValue (rnd : ℚ → FloatValue) (r : Nat) (st : FloatValue × FloatValue) (ds : List Nat) :
    FloatValue × FloatValue :=
  ds.foldl (fun st (d : Nat) => appendDigitValue rnd r st d) st

theorem placesValue_cons (rnd : ℚ → FloatValue) (r : Nat) (st : FloatValue × FloatValue) (d : Nat)
    (ds : List Nat) : placesValue rnd r st (d :: ds)
      = placesValue rnd r (appendDigitValue rnd r st d) ds := rfl

theorem placesValue_append (rnd : ℚ → FloatValue) (r : Nat) (st : FloatValue × FloatValue)
    (as bs : List Nat) : placesValue rnd r st (as ++ bs)
      = placesValue rnd r (placesValue rnd r st as) bs := by
  simp [placesValue]

/-- Once the place value is infinite, digits add nothing. -/
theorem placesValue_inf (hF : F.Std) (hr : Rounds F rnd) {r : Nat} (hr2 : 2 ≤ r) {out : ℚ}
    (ho : F.Has out) (ds : List Nat) :
    placesValue rnd r (inf false, fin out) ds = (inf false, fin out) := by
  induction ds with
  | nil => rfl
  | cons d ds ih =>
    have h0 : (r : ℚ) ≠ 0 := by positivity
    have h1 : ¬ (r : ℚ) < 0 := by push Not; positivity
    have : appendDigitValue rnd r (inf false, fin out) d = (inf false, fin out) := by
      simp only [appendDigitValue, mul, h0, if_false, h1, decide_false, Bool.xor_false, div, add,
        add_zero]
      rw [Rounds.exact hr ho (has_lt_overflow hF ho)]
    rw [placesValue_cons, this, ih]

/-- One digit whose place value overflows. -/
theorem appendDigitValue_over (hF : F.Std) (hr : Rounds F rnd) {r : Nat} {R out : ℚ} (h0 : 0 ≤ R)
    (ho : F.Has out) (hq : overflowsAt F ≤ R * r) (d : Nat) :
    appendDigitValue rnd r (fin R, fin out) d = (inf false, fin out) := by
  have hq0 : 0 ≤ R * r := by positivity
  have h1 : rnd (R * r) = inf false := by
    rw [hr.over _ (by rwa [abs_of_nonneg hq0]), decide_eq_false (not_lt.mpr hq0)]
  simp only [appendDigitValue, mul, h1, div, add, add_zero]
  rw [Rounds.exact hr ho (has_lt_overflow hF ho)]

/-- The place value after `k` digits is nearly the power of the radix. -/
def NearPower (F : BinFmt) (r k : Nat) (R : ℚ) : Prop := |R - (r : ℚ) ^ k| ≤ 2 * k * unit F * r ^ k

theorem NearPower.bounds (hF : F.Std) {r k : Nat} {R : ℚ} (h : NearPower F r k R)
    (hk : k ≤ F.emax) : (r : ℚ) ^ k / 2 ≤ R ∧ R ≤ 2 * r ^ k := by
  have hu := unit_small hF
  have hu0 := unit_pos F
  have hkq : (k : ℚ) ≤ F.emax := by exact_mod_cast hk
  have hp : (0 : ℚ) ≤ r ^ k := by positivity
  have h1 : 2 * k * unit F ≤ 1 / 2 := by nlinarith
  obtain ⟨h2, h3⟩ := abs_le.mp h
  have := mul_le_mul_of_nonneg_right h1 hp
  constructor <;> linarith

theorem NearPower.step (hF : F.Std) (hr : Rounds F rnd) {r k : Nat} (hr2 : 2 ≤ r) {R : ℚ}
    (h : NearPower F r k R) (hk : k ≤ F.emax) (hq : R * r < overflowsAt F) :
    k + 1 ≤ F.emax ∧ ∃ R', rnd (R * r) = fin R' ∧ R' < overflowsAt F ∧ NearPower F r (k + 1) R' := by
  obtain ⟨h1, h2⟩ := h.bounds hF hk
  have hrq : (2 : ℚ) ≤ r := by exact_mod_cast hr2
  have hk1 : (1 : ℚ) ≤ r ^ k := one_le_pow₀ (by linarith)
  have hRr : (r : ℚ) ^ (k + 1) / 2 ≤ R * r := by
    rw [pow_succ]
    have := mul_le_mul_of_nonneg_right h1 (by linarith : (0 : ℚ) ≤ r)
    linarith
  constructor
  · have h3 : (2 : ℚ) ^ (k + 1) < 2 ^ (F.emax + 1) := by
      calc (2 : ℚ) ^ (k + 1) ≤ r ^ (k + 1) := pow_le_pow_left₀ (by norm_num) hrq _
        _ < 2 * 2 ^ F.emax := by linarith [overflowsAt_lt F]
        _ = _ := by rw [pow_succ]; ring
    have := (pow_lt_pow_iff_right₀ (by norm_num : (1 : ℚ) < 2)).mp h3
    omega
  · have hpos : 1 ≤ R * r := by
      have : (2 : ℚ) ≤ r ^ (k + 1) := by rw [pow_succ]; nlinarith
      linarith
    have habs : |R * r| = R * r := abs_of_nonneg (by linarith)
    obtain ⟨R', e1, e0, -, e2⟩ := Rounds.finite hF hr (q := R * r) (by rwa [habs])
    refine ⟨R', e1, lt_of_le_of_lt (le_abs_self _) (has_lt_overflow hF e0), ?_⟩
    have e3 := e2 (by rwa [habs])
    rw [habs] at e3
    unfold NearPower at h ⊢
    have hu0 := unit_pos F
    have h4 : |R * r - (r : ℚ) ^ (k + 1)| ≤ 2 * k * unit F * r ^ (k + 1) := by
      rw [pow_succ, ← sub_mul, abs_mul, abs_of_nonneg (by linarith : (0 : ℚ) ≤ r)]
      calc _ ≤ 2 * k * unit F * r ^ k * r := mul_le_mul_of_nonneg_right h (by linarith)
        _ = _ := by ring
    have h5 : R * r ≤ 2 * r ^ (k + 1) := by
      rw [pow_succ]
      have := mul_le_mul_of_nonneg_right h2 (by linarith : (0 : ℚ) ≤ r)
      linarith
    calc |R' - (r : ℚ) ^ (k + 1)| ≤ |R' - R * r| + |R * r - (r : ℚ) ^ (k + 1)| := abs_sub_le _ _ _
      _ ≤ unit F * (2 * r ^ (k + 1)) + 2 * k * unit F * r ^ (k + 1) := by
        have := mul_le_mul_of_nonneg_left h5 hu0.le
        linarith
      _ = _ := by push_cast; ring

/-- A quotient by the place value. -/
theorem quotient_near (hF : F.Std) (hr : Rounds F rnd) {r k d : Nat} (hr2 : 2 ≤ r) (h36 : r ≤ 36)
    (hd : d < r) {R : ℚ} (h : NearPower F r k R) (hk : k ≤ F.emax) :
    ∃ v, rnd (d / R) = fin v
      ∧ |v - d / (r : ℚ) ^ k| ≤ (4 * k + 2) * unit F * (d / (r : ℚ) ^ k) + grain F := by
  obtain ⟨h1, h2⟩ := h.bounds hF hk
  have hrq : (2 : ℚ) ≤ r := by exact_mod_cast hr2
  have hk1 : (1 : ℚ) ≤ r ^ k := one_le_pow₀ (by linarith)
  have hR : 0 < R := by linarith
  have hd0 : (0 : ℚ) ≤ d := by positivity
  have hd36 : (d : ℚ) ≤ 36 := by exact_mod_cast (by omega : d ≤ 36)
  have hu0 := unit_pos F
  have ht0 : 0 ≤ (d : ℚ) / r ^ k := by positivity
  have hexact : |(d : ℚ) / R - d / r ^ k| ≤ 4 * k * unit F * (d / r ^ k) := by
    have e1 : (d : ℚ) / R - d / r ^ k = d / r ^ k * ((r ^ k - R) / R) := by
      field_simp
    rw [e1, abs_mul, abs_of_nonneg ht0, mul_comm]
    refine mul_le_mul_of_nonneg_right ?_ ht0
    rw [abs_div, abs_of_pos hR, div_le_iff₀ hR, abs_sub_comm]
    refine h.trans ?_
    have : 0 ≤ 4 * k * unit F := by positivity
    have := mul_le_mul_of_nonneg_left h1 this
    linarith
  have hq2 : (d : ℚ) / R ≤ 2 * (d / r ^ k) := by
    rw [div_le_iff₀ hR]
    have := mul_le_mul_of_nonneg_left h1 (by positivity : (0 : ℚ) ≤ 2 * (d / r ^ k))
    have e2 : 2 * ((d : ℚ) / r ^ k) * (r ^ k / 2) = d := by field_simp
    linarith
  have hq0 : 0 ≤ (d : ℚ) / R := by positivity
  have hsm : (d : ℚ) / R ≤ 72 := by
    have : (d : ℚ) / r ^ k ≤ d := div_le_self hd0 hk1
    linarith
  have hT : (72 : ℚ) < overflowsAt F := by
    refine lt_of_lt_of_le ?_ (overflowsAt_ge hF)
    calc (72 : ℚ) < 2 ^ 7 := by norm_num
      _ ≤ _ := pow_le_pow_right₀ (by norm_num) (by have := hF.emax_ge; have := hF.prec_ge; omega)
  obtain ⟨v, e1, -, e2, -⟩ := Rounds.finite hF hr (q := d / R) (by
    rw [abs_of_nonneg hq0]; linarith)
  refine ⟨v, e1, ?_⟩
  rw [abs_of_nonneg hq0] at e2
  calc |v - d / (r : ℚ) ^ k| ≤ |v - d / R| + |(d : ℚ) / R - d / r ^ k| := abs_sub_le _ _ _
    _ ≤ unit F * (2 * (d / r ^ k)) + grain F + 4 * k * unit F * (d / r ^ k) := by
      have := mul_le_mul_of_nonneg_left hq2 hu0.le
      linarith
    _ = _ := by ring

/-- What has been read after `k` digits is near the number `V`, whose size is at most `W`. -/
def NearSum (F : BinFmt) (k : Nat) (V W out : ℚ) : Prop :=
  |out - V| ≤ (4 * k + 4) * unit F * W + 4 * (k + 1) * grain F

theorem grain_le (hF : F.Std) : grain F ≤ 1 :=
  zpow_le_one_of_nonpos₀ (by norm_num) hF.emin_nonpos

theorem overflow_room (hF : F.Std) : (2 : ℚ) ^ 66 < overflowsAt F := by
  refine lt_of_lt_of_le ?_ (overflowsAt_ge hF)
  refine pow_lt_pow_right₀ (by norm_num) ?_
  rcases hF with rfl | rfl <;> decide

theorem NearSum.step (hF : F.Std) (hr : Rounds F rnd) {k : Nat} {V W t out v : ℚ}
    (h : NearSum F k V W out) (hV : |V| ≤ W) (ht : 0 ≤ t) (hW : W + t ≤ 2 ^ 64)
    (hk : k + 1 ≤ F.emax)
    (hv : |v - t| ≤ (4 * (k + 1 : Nat) + 2) * unit F * t + grain F) :
    ∃ out', rnd (out + v) = fin out' ∧ F.Has out' ∧ NearSum F (k + 1) (V + t) (W + t) out' := by
  have hu := unit_small hF
  have hu0 := unit_pos F
  have hg0 := grain_pos F
  have hg1 := grain_le hF
  have hkq : (k : ℚ) + 1 ≤ F.emax := by exact_mod_cast hk
  have hk0 : (0 : ℚ) ≤ k := by positivity
  have hW0 : 0 ≤ W := (abs_nonneg V).trans hV
  have hsmall : (4 * k + 6) * unit F ≤ 1 := by nlinarith
  unfold NearSum at h ⊢
  push_cast at hv ⊢
  have hS : |out + v - (V + t)| ≤ (4 * k + 6) * unit F * (W + t) + (4 * k + 5) * grain F := by
    have e1 : out + v - (V + t) = (out - V) + (v - t) := by ring
    have e2 : (4 * (k : ℚ) + 4) * unit F * W ≤ (4 * k + 6) * unit F * W := by
      have := mul_nonneg hu0.le hW0
      nlinarith
    rw [e1]
    calc _ ≤ |out - V| + |v - t| := abs_add_le _ _
      _ ≤ _ := by linarith
  have hVt : |V + t| ≤ W + t := (abs_add_le _ _).trans (by rw [abs_of_nonneg ht]; linarith)
  have hWt : 0 ≤ W + t := by linarith
  have hS2 : |out + v| ≤ 2 * (W + t) + (4 * k + 5) * grain F := by
    have e1 : |out + v| ≤ |out + v - (V + t)| + |V + t| := by
      have := abs_add_le (out + v - (V + t)) (V + t)
      rwa [sub_add_cancel] at this
    have := mul_le_mul_of_nonneg_right hsmall hWt
    linarith
  have hkg : (4 * (k : ℚ) + 5) * grain F ≤ 2 ^ 64 := by
    have he : (F.emax : ℚ) ≤ 2 ^ 20 := by rcases hF with rfl | rfl <;> norm_num [_root_.Spec.binary32, _root_.Spec.binary64]
    have : (4 * (k : ℚ) + 5) * grain F ≤ (4 * k + 5) * 1 := by
      apply mul_le_mul_of_nonneg_left hg1; positivity
    have h64 : (4 : ℚ) * 2 ^ 20 + 5 ≤ 2 ^ 64 := by norm_num
    linarith
  obtain ⟨out', e1, e2, e3, -⟩ := Rounds.finite hF hr (q := out + v) (by
    have := overflow_room hF
    have h66 : (2 : ℚ) ^ 66 = 4 * 2 ^ 64 := by norm_num
    linarith)
  refine ⟨out', e1, e2, ?_⟩
  have hd : unit F * |out + v| ≤ 2 * unit F * (W + t) + grain F := by
    have h1 := mul_le_mul_of_nonneg_left hS2 hu0.le
    have h2 : (4 * (k : ℚ) + 5) * unit F ≤ 1 := by nlinarith
    have := mul_le_mul_of_nonneg_right h2 hg0.le
    linarith
  calc |out' - (V + t)| ≤ |out' - (out + v)| + |out + v - (V + t)| := abs_sub_le _ _ _
    _ ≤ _ := by linarith

/-- What the digits behind the last finite place value are worth. -/
theorem tail_small (hF : F.Std) {r k : Nat} (h36 : r ≤ 36) {R : ℚ} (h0 : 0 < r)
    (h : NearPower F r k R) (hk : k ≤ F.emax) (hq : overflowsAt F ≤ R * r) :
    1 / (r : ℚ) ^ k ≤ 2 ^ 8 / 2 ^ F.emax := by
  obtain ⟨-, h2⟩ := h.bounds hF hk
  have hge := overflowsAt_ge hF
  have h36q : (r : ℚ) ≤ 36 := by exact_mod_cast h36
  have hr0 : (0 : ℚ) < r := by exact_mod_cast h0
  have hp : (0 : ℚ) < r ^ k := by positivity
  obtain ⟨m, hm⟩ : ∃ m, F.emax = m + 1 := ⟨F.emax - 1, by have := hF.emax_ge; omega⟩
  rw [hm, Nat.add_sub_cancel] at hge
  rw [div_le_div_iff₀ hp (by positivity), one_mul, hm, pow_succ]
  have h3 : R * r ≤ 2 * r ^ k * 36 := mul_le_mul h2 h36q hr0.le (by positivity)
  nlinarith

/-- All the digits behind the radix character: the result is finite and near the number they denote,
however many there are. -/
theorem placesValue_near (hF : F.Std) (hr : Rounds F rnd) {r : Nat} (hr2 : 2 ≤ r) (h36 : r ≤ 36) :
    ∀ (ds : List Nat) (k : Nat) (R out V W : ℚ), (∀ d ∈ ds, d < r) → k ≤ F.emax →
      NearPower F r k R → R < overflowsAt F → F.Has out → NearSum F k V W out → |V| ≤ W →
      W + fraction r ds / r ^ k ≤ 2 ^ 64 →
      ∃ R' v n, placesValue rnd r (fin R, fin out) ds = (R', fin v) ∧ F.Has v
        ∧ n ≤ F.emax ∧ n ≤ k + ds.length
        ∧ |v - (V + fraction r ds / r ^ k)|
          ≤ (4 * n + 4) * unit F * (W + fraction r ds / r ^ k) + 4 * (n + 1) * grain F
            + 2 ^ 8 / 2 ^ F.emax
        ∧ (∀ q, R' = fin q → NearPower F r (k + ds.length) q ∧ k + ds.length ≤ F.emax ∧ q < overflowsAt F)
        ∧ R' ≠ nan ∧ R' ≠ inf true
  | [], k, R, out, V, W, _, hk, hR, hRT, ho, hS, hV, _ => by
    refine ⟨fin R, out, k, rfl, ho, hk, by simp, ?_, ?_, by simp, by simp⟩
    · rw [Spec.fraction_nil, zero_div, add_zero, add_zero]
      have : (0 : ℚ) ≤ 2 ^ 8 / 2 ^ F.emax := by positivity
      unfold NearSum at hS
      linarith
    · intro q hq
      simp only [fin.injEq] at hq
      subst hq
      exact ⟨hR, hk, hRT⟩
  | d :: ds, k, R, out, V, W, hds, hk, hR, hRT, ho, hS, hV, hW => by
    have hr0 : 0 < r := by omega
    have hrq : (0 : ℚ) < r := by exact_mod_cast hr0
    obtain ⟨hb1, hb2⟩ := hR.bounds hF hk
    have hR0 : 0 ≤ R := le_trans (by positivity) hb1
    obtain ⟨c0, c1⟩ := fraction_bounds hr0 (d :: ds) hds
    obtain ⟨c2, c3⟩ := fraction_bounds hr0 ds (fun x hx => hds x (by simp [hx]))
    have hW0 : 0 ≤ W := (abs_nonneg V).trans hV
    have hu0 := unit_pos F
    have hg0 := grain_pos F
    by_cases hq : overflowsAt F ≤ R * r
    · refine ⟨inf false, out, k, ?_, ho, hk, by simp, ?_, by simp, by simp, by simp⟩
      · rw [placesValue_cons, appendDigitValue_over hF hr hR0 ho hq, placesValue_inf hF hr hr2 ho]
      · have ht := tail_small hF h36 hr0 hR hk hq
        have hp : (0 : ℚ) < r ^ k := by positivity
        have h1 : fraction r (d :: ds) / (r : ℚ) ^ k ≤ 1 / r ^ k :=
          div_le_div_of_nonneg_right c1.le hp.le
        have h0 : 0 ≤ fraction r (d :: ds) / (r : ℚ) ^ k := by positivity
        have e1 : out - (V + fraction r (d :: ds) / (r : ℚ) ^ k)
            = (out - V) + -(fraction r (d :: ds) / (r : ℚ) ^ k) := by ring
        have e2 : (4 * (k : ℚ) + 4) * unit F * W
            ≤ (4 * k + 4) * unit F * (W + fraction r (d :: ds) / r ^ k) :=
          mul_le_mul_of_nonneg_left (by linarith) (by positivity)
        unfold NearSum at hS
        rw [e1]
        refine (abs_add_le _ _).trans ?_
        rw [abs_neg, abs_of_nonneg h0]
        linarith
    · obtain ⟨hk1, R', e1, hRT', hR'⟩ := hR.step hF hr hr2 hk (not_le.mp hq)
      have hdr := hds d (by simp)
      obtain ⟨v, e2, hv⟩ := quotient_near hF hr hr2 h36 hdr hR' hk1
      have hsplit : fraction r (d :: ds) / (r : ℚ) ^ k
          = d / (r : ℚ) ^ (k + 1) + fraction r ds / r ^ (k + 1) := by
        rw [Spec.fraction_cons hr0, pow_succ]
        field_simp
      have ht : 0 ≤ (d : ℚ) / r ^ (k + 1) := by positivity
      have ht2 : 0 ≤ fraction r ds / (r : ℚ) ^ (k + 1) := by positivity
      rw [hsplit] at hW ⊢
      obtain ⟨out', e3, ho', hS'⟩ := hS.step hF hr hV ht (by linarith) hk1 hv
      have hR'0 : R' ≠ 0 := by
        have := (hR'.bounds hF hk1).1
        have hp : (0 : ℚ) < r ^ (k + 1) := by positivity
        intro h
        rw [h] at this
        linarith
      have hstep : appendDigitValue rnd r (fin R, fin out) d = (fin R', fin out') := by
        simp only [appendDigitValue, mul, e1, div, if_neg hR'0, Int.cast_natCast, e2, add, e3]
      obtain ⟨R'', w, n, f1, f2, f3, f4, f5, f6, f7⟩ := placesValue_near hF hr hr2 h36 ds (k + 1) R' out'
        (V + d / (r : ℚ) ^ (k + 1)) (W + d / (r : ℚ) ^ (k + 1)) (fun x hx => hds x (by simp [hx]))
        hk1 hR' hRT' ho' hS' ((abs_add_le _ _).trans (by rw [abs_of_nonneg ht]; linarith)) (by linarith)
      refine ⟨R'', w, n, ?_, f2, f3, by simp; omega, ?_, ?_, f7⟩
      · rw [placesValue_cons, hstep, f1]
      · rw [add_assoc V, add_assoc W] at f5
        exact f5
      · intro q hq'
        have := f6 q hq'
        rw [List.length_cons, show k + (ds.length + 1) = k + 1 + ds.length by omega]
        exact this

end Cmp
