import Verif.Model.Float
import Verif.Proofs.FloatArith
import Verif.Proofs.NumberParse

/-
The digit loop of `parse_floating_point`: exact results and rounding errors.
-/

namespace Cmp

theorem parseFraction_fold (rnd : ℚ → ℚ) {r : Nat} (h36 : r ≤ 36) :
    ∀ (cs fs : List Nat) (st : ℚ × ℚ), cs.map Spec.digitValue = fs.map some →
      (∀ d ∈ fs, d < r) →
      (cs.map (BitVec.ofNat 32)).foldlM (parseFractionStep rnd r) st
        = fs.foldlM (fun st (d : Nat) => appendDigit rnd r st d) st := by
  intro cs
  induction cs with
  | nil =>
    intro fs st h _
    cases fs with
    | nil => rfl
    | cons d fs => simp at h
  | cons c cs ih =>
    intro fs st h hd
    cases fs with
    | nil => simp at h
    | cons d fs =>
      simp only [List.map_cons, List.cons.injEq] at h
      have e1 : parseFractionStep rnd r st (BitVec.ofNat 32 c) = appendDigit rnd r st d := by
        rw [parseFractionStep, digitCharacterToInteger_digit h36 h.1 (hd d (by simp)),
          Outcome.ok_bind, if_neg (by omega)]
      rw [List.map_cons, List.foldlM_cons, List.foldlM_cons, e1]
      congr 1
      funext st'
      exact ih fs st' h.2 (fun x hx => hd x (by simp [hx]))

theorem fraction_bounds {r : Nat} (hr : 0 < r) (fs : List Nat) (h : ∀ d ∈ fs, d < r) :
    0 ≤ Spec.fraction r fs ∧ Spec.fraction r fs < 1 := by
  have hr' : (0 : ℚ) < r := by exact_mod_cast hr
  induction fs with
  | nil => rw [Spec.fraction_nil]; norm_num
  | cons d fs ih =>
    obtain ⟨h0, h1⟩ := ih (fun x hx => h x (by simp [hx]))
    have hd : (d : ℚ) + 1 ≤ r := by
      have := h d (by simp)
      exact_mod_cast this
    rw [Spec.fraction_cons hr, div_lt_one hr']
    constructor
    · have : (0 : ℚ) ≤ d := by positivity
      exact div_nonneg (by linarith) hr'.le
    · linarith

theorem trunc_of_rest {c V v q : ℚ} (hc : 0 < c) (hV : V = v + q / c) (hq0 : 0 ≤ q) (hq1 : q < 1)
    (hv : ∃ z : Int, v * c = z) : (⌊V * c⌋ : ℚ) / c = v := by
  obtain ⟨z, hz⟩ := hv
  have : V * c = z + q := by
    rw [hV, ← hz]
    field_simp
  have hfl : ⌊V * c⌋ = z := by
    rw [this, Int.floor_intCast_add, Int.floor_eq_zero_iff.mpr ⟨hq0, hq1⟩, add_zero]
  rw [hfl, ← hz]
  field_simp

theorem has_multiple {F : Spec.BinFmt} {q : ℚ} (h : F.Has q) :
    ∃ M : Int, q = M * (2 : ℚ) ^ F.emin := by
  obtain ⟨m, e, _, ⟨he, _⟩, rfl⟩ := h
  refine ⟨m * 2 ^ (e - F.emin).toNat, ?_⟩
  push_cast
  rw [mul_assoc, ← zpow_natCast, ← zpow_add₀ (by norm_num)]
  congr 2
  omega

/-- The loop is exact if the radix is a power of two and the number is a value of the format. -/
theorem appendDigits_exact {F : Spec.BinFmt} (hF : F.Std) {rnd : ℚ → ℚ}
    (hr : ∀ q, F.Has q → rnd q = q) {r j : Nat} (hrj : r = 2 ^ j) (h36 : r ≤ 36) {V : ℚ}
    (hV : F.Has V) (hV0 : 0 ≤ V) {n : Nat} (hn : r ^ n < 2 ^ F.emax) :
    ∀ (fs : List Nat), (∀ d ∈ fs, d < r) → ∀ (k : Nat) (v : ℚ), k + fs.length = n →
      (∃ z : Int, v * (r : ℚ) ^ k = z) → V = v + Spec.fraction r fs / (r : ℚ) ^ k →
      ∃ root, fs.foldlM (fun st (d : Nat) => appendDigit rnd r st d) ((r : ℚ) ^ k, v)
        = .ok (root, V) := by
  have hr0 : 0 < r := by rw [hrj]; positivity
  have hr' : (0 : ℚ) < r := by exact_mod_cast hr0
  have hpow : ∀ k : Nat, (r : ℚ) ^ k = 2 ^ (j * k) := by
    intro k
    rw [hrj, pow_mul]
    push_cast
    rfl
  intro fs
  induction fs with
  | nil =>
    intro _ k v _ _ hVv
    rw [Spec.fraction_nil, zero_div, add_zero] at hVv
    exact ⟨_, by rw [hVv]; rfl⟩
  | cons d fs ih =>
    intro hd k v hkn hz hVv
    rw [List.length_cons] at hkn
    have hd' := hd d (by simp)
    have hrest : ∀ x ∈ fs, x < r := fun x hx => hd x (by simp [hx])
    obtain ⟨b0, b1⟩ := fraction_bounds hr0 (d :: fs) hd
    obtain ⟨c0, c1⟩ := fraction_bounds hr0 fs hrest
    have hk : (0 : ℚ) < (r : ℚ) ^ k := by positivity
    have hk1 : (0 : ℚ) < (r : ℚ) ^ (k + 1) := by positivity
    have hV' : V = (v + d / (r : ℚ) ^ (k + 1)) + Spec.fraction r fs / (r : ℚ) ^ (k + 1) := by
      rw [hVv, Spec.fraction_cons hr0, pow_succ]
      field_simp
      ring
    have hz' : ∃ z : Int, (v + d / (r : ℚ) ^ (k + 1)) * (r : ℚ) ^ (k + 1) = z := by
      obtain ⟨z, hz⟩ := hz
      refine ⟨z * r + d, ?_⟩
      push_cast
      rw [← hz, pow_succ]
      field_simp
    have t0 := trunc_of_rest hk hVv b0 b1 hz
    have t1 := trunc_of_rest hk1 hV' c0 c1 hz'
    have g0 : F.Has v := by
      rw [← t0, hpow]
      exact hV.trunc hF hV0 _
    have g1 : F.Has (v + d / (r : ℚ) ^ (k + 1)) := by
      rw [← t1, hpow]
      exact hV.trunc hF hV0 _
    have groot : F.Has ((r : ℚ) ^ (k + 1)) := by
      rw [hpow]
      refine Spec.BinFmt.has_two_pow hF ?_
      have h1 : r ^ (k + 1) ≤ r ^ n := Nat.pow_le_pow_right hr0 (by omega)
      rw [hrj, ← pow_mul, ← hrj] at h1
      exact (Nat.pow_lt_pow_iff_right (by norm_num)).mp (lt_of_le_of_lt h1 hn)
    have gd : F.Has ((d : ℚ) / (r : ℚ) ^ (k + 1)) := by
      have hp : (64 : Nat) ≤ 2 ^ F.prec := by
        have := hF.prec_ge
        calc (64 : Nat) = 2 ^ 6 := by norm_num
          _ ≤ 2 ^ F.prec := Nat.pow_le_pow_right (by omega) (by omega)
      by_cases hn : F.emin ≤ -((j * (k + 1) : Nat) : Int)
      · refine ⟨d, -((j * (k + 1) : Nat) : Int), ?_, ⟨hn, by have := hF.emax_ge; omega⟩, ?_⟩
        · simp only [Int.natAbs_natCast]
          omega
        · rw [hpow, zpow_neg, zpow_natCast, div_eq_mul_inv]
          push_cast
          rfl
      · obtain ⟨M0, hM0⟩ := has_multiple g0
        obtain ⟨M1, hM1⟩ := has_multiple g1
        have hM : (d : ℚ) / (r : ℚ) ^ (k + 1) = ((M1 - M0 : Int) : ℚ) * (2 : ℚ) ^ F.emin := by
          push_cast
          rw [sub_mul, ← hM1, ← hM0]
          ring
        refine ⟨M1 - M0, F.emin, ?_, ⟨le_refl _, by have := hF.emax_ge; have := hF.emin_nonpos; omega⟩, hM⟩
        have h2 : (0 : ℚ) < 2 ^ F.emin := zpow_pos (by norm_num) _
        have hge : (1 : ℚ) ≤ (r : ℚ) ^ (k + 1) * 2 ^ F.emin := by
          rw [hpow, ← zpow_natCast, ← zpow_add₀ (by norm_num)]
          exact one_le_zpow₀ (by norm_num) (by omega)
        have hval : ((M1 - M0 : Int) : ℚ) * ((r : ℚ) ^ (k + 1) * 2 ^ F.emin) = d := by
          rw [mul_comm ((r : ℚ) ^ (k + 1)), ← mul_assoc, ← hM]
          field_simp
        have hd0 : (0 : ℚ) ≤ d := by positivity
        have hpos : (0 : ℚ) ≤ ((M1 - M0 : Int) : ℚ) := by
          by_contra hneg
          have : ((M1 - M0 : Int) : ℚ) < 0 := lt_of_not_ge hneg
          nlinarith
        have hle : ((M1 - M0 : Int) : ℚ) ≤ d := by
          nlinarith
        have hpos' : 0 ≤ M1 - M0 := by exact_mod_cast hpos
        have hle' : M1 - M0 ≤ d := by exact_mod_cast hle
        omega
    have estep : appendDigit rnd r ((r : ℚ) ^ k, v) (d : Nat)
        = .ok ((r : ℚ) ^ (k + 1), v + d / (r : ℚ) ^ (k + 1)) := by
      simp only [appendDigit]
      rw [← pow_succ, hr _ groot, if_neg hk1.ne']
      simp only [Int.cast_natCast]
      rw [hr _ gd, hr _ g1]
    rw [List.foldlM_cons, estep, Outcome.ok_bind]
    exact ih hrest (k + 1) _ (by omega) hz' hV'

set_option maxHeartbeats 1000000 in
/-- The rounding error of the loop, for a machine whose operations have results within the factors `b`
and `a` on zero and on results between `lo` and `hi`. -/
theorem appendDigits_error {rnd : ℚ → ℚ} {a b lo hi : ℚ} (ha1 : 1 ≤ a) (hb0 : 1 / 2 ≤ b) (hb1 : b ≤ 1)
    (hr : ∀ q, q = 0 ∨ (lo ≤ q ∧ q ≤ hi) → b * q ≤ rnd q ∧ rnd q ≤ a * q)
    {r : Nat} (h2 : 2 ≤ r) {V : ℚ} {n : Nat}
    (hlo : lo ≤ (b / (a * r)) ^ (n + 1))
    (hhi : (V + r) * (a / b * r) ^ (n + 1) ≤ hi) :
    ∀ (fs : List Nat), (∀ d ∈ fs, d < r) → ∀ (k : Nat) (v root out : ℚ), k + fs.length = n →
      (∃ z : Nat, v * (r : ℚ) ^ k = z) → V = v + Spec.fraction r fs / (r : ℚ) ^ k →
      r ^ k * b ^ k ≤ root → root ≤ r ^ k * a ^ k →
      v * (b ^ (k + 1) / a ^ k) ≤ out →
      out ≤ v * (a ^ (k + 1) / b ^ k) →
      ∃ st, fs.foldlM (fun st (d : Nat) => appendDigit rnd r st d) (root, out) = .ok st
        ∧ V * (b ^ (n + 1) / a ^ n) ≤ st.2
        ∧ st.2 ≤ V * (a ^ (n + 1) / b ^ n) := by
  have hr0 : 0 < r := by omega
  have hrq : (2 : ℚ) ≤ r := by exact_mod_cast h2
  have hbpos : 0 < b := by linarith
  have hapos : 0 < a := by linarith
  have hrpos : (0 : ℚ) < r := by linarith
  have hrb : 1 ≤ r * b := by nlinarith
  have hab : 1 ≤ a / b := by rw [le_div_iff₀ hbpos]; linarith
  intro fs
  induction fs with
  | nil =>
    intro _ k v root out hkn _ hV _ _ h3 h4
    rw [Spec.fraction_nil, zero_div, add_zero] at hV
    simp only [List.length_nil, add_zero] at hkn
    subst hkn
    rw [hV]
    exact ⟨_, rfl, h3, h4⟩
  | cons d fs ih =>
    intro hd k v root out hkn hz hV h1 h2' h3 h4
    have hd' := hd d (by simp)
    have hrest : ∀ x ∈ fs, x < r := fun x hx => hd x (by simp [hx])
    rw [List.length_cons] at hkn
    obtain ⟨c0, c1⟩ := fraction_bounds hr0 fs hrest
    have hk : (0 : ℚ) < (r : ℚ) ^ k := by positivity
    have hk1 : (0 : ℚ) < (r : ℚ) ^ (k + 1) := by positivity
    have hV' : V = (v + d / (r : ℚ) ^ (k + 1)) + Spec.fraction r fs / (r : ℚ) ^ (k + 1) := by
      rw [hV, Spec.fraction_cons hr0, pow_succ]
      field_simp
      ring
    have hz' : ∃ z : Nat, (v + d / (r : ℚ) ^ (k + 1)) * (r : ℚ) ^ (k + 1) = z := by
      obtain ⟨z, hz⟩ := hz
      refine ⟨z * r + d, ?_⟩
      push_cast
      rw [← hz, pow_succ]
      field_simp
    obtain ⟨w, hw⟩ : ∃ w : ℚ, w = d / (r : ℚ) ^ (k + 1) := ⟨_, rfl⟩
    rw [← hw] at hV' hz'
    have hw0 : 0 ≤ w := by rw [hw]; positivity
    have hv0 : 0 ≤ v := by
      obtain ⟨z, hz⟩ := hz
      by_contra hneg
      have : v * (r : ℚ) ^ k < 0 := mul_neg_of_neg_of_pos (lt_of_not_ge hneg) hk
      have hz0 : (0 : ℚ) ≤ z := by positivity
      linarith
    have hvw : v + w ≤ V := by
      rw [hV']
      have : 0 ≤ Spec.fraction r fs / (r : ℚ) ^ (k + 1) := div_nonneg c0 hk1.le
      linarith
    have hV0 : 0 ≤ V := by linarith
    -- bounds on `hi` and `lo`
    have hX : 1 ≤ a / b * r := by nlinarith
    have hXk : (a / b * r) ^ (k + 1) ≤ (a / b * r) ^ (n + 1) :=
      pow_le_pow_right₀ hX (by omega)
    have hXpos : 0 < (a / b * r) ^ (k + 1) := by positivity
    have hhi' : (V + r) * (a / b * r) ^ (k + 1) ≤ hi := by
      refine le_trans ?_ hhi
      exact mul_le_mul_of_nonneg_left hXk (by linarith)
    have hY : b / (a * r) ≤ 1 := by
      rw [div_le_one (by positivity)]
      nlinarith
    have hlo' : lo ≤ (b / (a * r)) ^ (k + 1) :=
      le_trans hlo (pow_le_pow_of_le_one (by positivity) hY (by omega))
    have hbk : ∀ m, b ^ m ≤ 1 := fun m => pow_le_one₀ hbpos.le hb1
    have hak : ∀ m, 1 ≤ a ^ m := fun m => one_le_pow₀ ha1
    have hYle : (b / (a * r)) ^ (k + 1) ≤ 1 := pow_le_one₀ (by positivity) hY
    -- the new root
    have hroot0 : 0 < root := lt_of_lt_of_le (by positivity) h1
    have hprod_lo : 1 ≤ root * r := by
      have e1 : (1 : ℚ) ≤ (r * b) ^ k := one_le_pow₀ hrb
      rw [mul_pow] at e1
      exact one_le_mul_of_one_le_of_one_le (le_trans e1 h1) (by linarith)
    have hprod_hi : root * r ≤ hi := by
      have e1 : root * r ≤ r ^ k * a ^ k * r := mul_le_mul_of_nonneg_right h2' hrpos.le
      have e2 : (r : ℚ) ^ k * a ^ k ≤ (a / b * r) ^ k := by
        rw [mul_comm, ← mul_pow]
        apply pow_le_pow_left₀ (by positivity)
        apply mul_le_mul_of_nonneg_right _ hrpos.le
        rw [le_div_iff₀ hbpos]
        nlinarith
      have e3 : (a / b * r) ^ k ≤ (a / b * r) ^ (k + 1) := pow_le_pow_right₀ hX (by omega)
      calc root * r ≤ r ^ k * a ^ k * r := e1
        _ ≤ (a / b * r) ^ (k + 1) * r := mul_le_mul_of_nonneg_right (le_trans e2 e3) hrpos.le
        _ ≤ (V + r) * (a / b * r) ^ (k + 1) := by
            rw [mul_comm]
            exact mul_le_mul_of_nonneg_right (by linarith) hXpos.le
        _ ≤ hi := hhi'
    obtain ⟨r1, r2⟩ := hr (root * r) (.inr ⟨by linarith, hprod_hi⟩)
    obtain ⟨root', hroot'⟩ : ∃ x, x = rnd (root * r) := ⟨_, rfl⟩
    rw [← hroot'] at r1 r2
    have R1 : (r : ℚ) ^ (k + 1) * b ^ (k + 1) ≤ root' := by
      refine le_trans ?_ r1
      have : (r : ℚ) ^ k * b ^ k * (b * r) ≤ root * (b * r) :=
        mul_le_mul_of_nonneg_right h1 (by positivity)
      calc (r : ℚ) ^ (k + 1) * b ^ (k + 1) = r ^ k * b ^ k * (b * r) := by ring
        _ ≤ root * (b * r) := this
        _ = b * (root * r) := by ring
    have R2 : root' ≤ (r : ℚ) ^ (k + 1) * a ^ (k + 1) := by
      refine le_trans r2 ?_
      have : root * (a * r) ≤ (r : ℚ) ^ k * a ^ k * (a * r) :=
        mul_le_mul_of_nonneg_right h2' (by positivity)
      calc a * (root * r) = root * (a * r) := by ring
        _ ≤ r ^ k * a ^ k * (a * r) := this
        _ = (r : ℚ) ^ (k + 1) * a ^ (k + 1) := by ring
    have hroot'0 : 0 < root' := lt_of_lt_of_le (by positivity) R1
    -- the quotient
    have hdr : (d : ℚ) = w * (r : ℚ) ^ (k + 1) := by
      rw [hw]; field_simp
    have Q1 : w / a ^ (k + 1) ≤ d / root' := by
      rw [div_le_div_iff₀ (by positivity) hroot'0, hdr]
      calc w * root' ≤ w * ((r : ℚ) ^ (k + 1) * a ^ (k + 1)) := mul_le_mul_of_nonneg_left R2 hw0
        _ = w * (r : ℚ) ^ (k + 1) * a ^ (k + 1) := by ring
    have Q2 : d / root' ≤ w / b ^ (k + 1) := by
      rw [div_le_div_iff₀ hroot'0 (by positivity), hdr]
      calc w * (r : ℚ) ^ (k + 1) * b ^ (k + 1) = w * ((r : ℚ) ^ (k + 1) * b ^ (k + 1)) := by ring
        _ ≤ w * root' := mul_le_mul_of_nonneg_left R1 hw0
    have hquot : d / root' = 0 ∨ (lo ≤ d / root' ∧ d / root' ≤ hi) := by
      by_cases hd0 : d = 0
      · left; rw [hd0]; simp
      · right
        have hd1 : (1 : ℚ) ≤ d := by exact_mod_cast (by omega : 1 ≤ d)
        constructor
        · refine le_trans hlo' (le_trans ?_ Q1)
          rw [hw, div_div]
          rw [div_pow, div_le_div_iff₀ (by positivity) (by positivity), mul_pow]
          have := hbk (k + 1)
          have hpos : 0 < (r : ℚ) ^ (k + 1) * a ^ (k + 1) := by positivity
          calc b ^ (k + 1) * ((r : ℚ) ^ (k + 1) * a ^ (k + 1))
              ≤ 1 * ((r : ℚ) ^ (k + 1) * a ^ (k + 1)) := mul_le_mul_of_nonneg_right this hpos.le
            _ ≤ d * ((r : ℚ) ^ (k + 1) * a ^ (k + 1)) := mul_le_mul_of_nonneg_right hd1 hpos.le
            _ = d * (a ^ (k + 1) * (r : ℚ) ^ (k + 1)) := by ring
        · have hdr' : (d : ℚ) ≤ r := by exact_mod_cast hd'.le
          have hroot1 : 1 ≤ root' := by
            have e1 : (1 : ℚ) ≤ (r * b) ^ (k + 1) := one_le_pow₀ hrb
            rw [mul_pow] at e1
            linarith
          have e2 : d / root' ≤ d := div_le_self (by linarith) hroot1
          have e3 : 1 ≤ (a / b * r) ^ (k + 1) := one_le_pow₀ hX
          have e4 : V + r ≤ (V + r) * (a / b * r) ^ (k + 1) :=
            le_mul_of_one_le_right (by linarith) e3
          linarith
    obtain ⟨t1, t2⟩ := hr (d / root') hquot
    obtain ⟨t, ht⟩ : ∃ x, x = rnd (d / root') := ⟨_, rfl⟩
    rw [← ht] at t1 t2
    -- the sum
    have hA : (1 : ℚ) ≤ a ^ k := hak k
    have hB : b ^ k ≤ 1 := hbk k
    have S1 : (v + w) * (b ^ (k + 1) / a ^ (k + 1)) ≤ out + t := by
      have e1 : v * (b ^ (k + 1) / a ^ (k + 1)) ≤ out := by
        refine le_trans (mul_le_mul_of_nonneg_left ?_ hv0) h3
        apply div_le_div_of_nonneg_left (by positivity) (by positivity)
        exact pow_le_pow_right₀ ha1 (by omega)
      have e2 : w * (b ^ (k + 1) / a ^ (k + 1)) ≤ t := by
        refine le_trans ?_ t1
        calc w * (b ^ (k + 1) / a ^ (k + 1)) = b ^ k * (b * (w / a ^ (k + 1))) := by
              rw [pow_succ]; ring
          _ ≤ 1 * (b * (w / a ^ (k + 1))) := mul_le_mul_of_nonneg_right hB (by positivity)
          _ ≤ b * (d / root') := by rw [one_mul]; exact mul_le_mul_of_nonneg_left Q1 hbpos.le
      linarith
    have S2 : out + t ≤ (v + w) * (a ^ (k + 1) / b ^ (k + 1)) := by
      have e1 : out ≤ v * (a ^ (k + 1) / b ^ (k + 1)) := by
        refine le_trans h4 (mul_le_mul_of_nonneg_left ?_ hv0)
        apply div_le_div_of_nonneg_left (by positivity) (by positivity)
        exact pow_le_pow_of_le_one hbpos.le hb1 (by omega)
      have e2 : t ≤ w * (a ^ (k + 1) / b ^ (k + 1)) := by
        refine le_trans t2 ?_
        calc a * (d / root') ≤ 1 * (a * (w / b ^ (k + 1))) := by
              rw [one_mul]; exact mul_le_mul_of_nonneg_left Q2 hapos.le
          _ ≤ a ^ k * (a * (w / b ^ (k + 1))) := mul_le_mul_of_nonneg_right hA (by positivity)
          _ = w * (a ^ (k + 1) / b ^ (k + 1)) := by rw [pow_succ]; ring
      linarith
    have hsum : out + t = 0 ∨ (lo ≤ out + t ∧ out + t ≤ hi) := by
      by_cases h0 : v + w = 0
      · left
        rw [h0, zero_mul] at S1 S2
        linarith
      · right
        constructor
        · refine le_trans hlo' (le_trans ?_ S1)
          obtain ⟨z, hz'⟩ := hz'
          have hz1 : (1 : ℚ) ≤ z := by
            have : z ≠ 0 := by
              rintro rfl
              simp at hz'
              rcases hz' with h | h
              · exact h0 h
              · omega
            exact_mod_cast (by omega : 1 ≤ z)
          rw [div_pow, mul_pow]
          have : b ^ (k + 1) / (a ^ (k + 1) * (r : ℚ) ^ (k + 1))
              = 1 / (r : ℚ) ^ (k + 1) * (b ^ (k + 1) / a ^ (k + 1)) := by field_simp
          rw [this]
          apply mul_le_mul_of_nonneg_right _ (by positivity)
          rw [div_le_iff₀ hk1, hz']
          exact hz1
        · refine le_trans S2 (le_trans ?_ hhi')
          have e1 : (a / b * r) ^ (k + 1) = a ^ (k + 1) / b ^ (k + 1) * (r : ℚ) ^ (k + 1) := by
            rw [mul_pow, div_pow]
          have e2 : (1 : ℚ) ≤ (r : ℚ) ^ (k + 1) := one_le_pow₀ (by linarith)
          have e3 : a ^ (k + 1) / b ^ (k + 1) ≤ (a / b * r) ^ (k + 1) := by
            rw [e1]
            exact le_mul_of_one_le_right (by positivity) e2
          calc (v + w) * (a ^ (k + 1) / b ^ (k + 1))
              ≤ (V + r) * (a ^ (k + 1) / b ^ (k + 1)) :=
                mul_le_mul_of_nonneg_right (by linarith) (by positivity)
            _ ≤ (V + r) * (a / b * r) ^ (k + 1) :=
                mul_le_mul_of_nonneg_left e3 (by linarith)
    obtain ⟨o1, o2⟩ := hr (out + t) hsum
    have estep : appendDigit rnd r (root, out) (d : Nat) = .ok (root', rnd (out + t)) := by
      simp only [appendDigit]
      rw [← hroot', if_neg hroot'0.ne']
      simp only [Int.cast_natCast]
      rw [← ht]
    rw [List.foldlM_cons, estep, Outcome.ok_bind]
    refine ih hrest (k + 1) (v + w) root' _ (by omega) hz' hV' R1 R2 ?_ ?_
    · refine le_trans ?_ o1
      calc (v + w) * (b ^ (k + 1 + 1) / a ^ (k + 1))
          = b * ((v + w) * (b ^ (k + 1) / a ^ (k + 1))) := by rw [pow_succ b (k + 1)]; ring
        _ ≤ b * (out + t) := mul_le_mul_of_nonneg_left S1 hbpos.le
    · refine le_trans o2 ?_
      calc a * (out + t) ≤ a * ((v + w) * (a ^ (k + 1) / b ^ (k + 1))) :=
            mul_le_mul_of_nonneg_left S2 hapos.le
        _ = (v + w) * (a ^ (k + 1 + 1) / b ^ (k + 1)) := by rw [pow_succ a (k + 1)]; ring

end Cmp
