import Verif.Props.FloatNear
import Verif.Props.NumberExact

/-
Properties C27, C28 and C70 in full: what becomes of every floating-point number for which the
machine does not round, in particular of negative numbers with a fraction part.
-/

namespace Cmp

open IntTy

theorem shown_eq (x : ℚ) :
    shown x = if 0 ≤ x ∨ ((⌊x⌋ : Int) : ℚ) = x then x else x - 1 := by
  split
  case isTrue h =>
    rcases h with h | h
    · exact shown_nonneg h
    · rw [← h, shown_int]
  case isFalse h =>
    simp only [not_or, not_le] at h
    refine shown_negative h.1 ?_
    rintro ⟨z, rfl⟩
    exact h.2 (by rw [Int.floor_intCast])

/-- C27 for every number for which the machine does not round: the text denotes the number, or
one less if the number is negative and has a fraction part.  Numbers whose integral part does not
fit `long long`, or is its least value, have no text: the behaviour is undefined. -/
theorem C27_exact (e : Enc) (F : Spec.BinFmt) (rnd : ℚ → ℚ) (f : FloatFormat) (x y : ℚ)
    (hF : F.Std) (hr : ∀ q, F.Has q → rnd q = q) (hf : f.Valid) (hx : F.Has x)
    (hy : y = if 0 ≤ x ∨ ((⌊x⌋ : Int) : ℚ) = x then x else x - 1) :
    (¬ (llong.min < ⌊x⌋ ∧ ⌊x⌋ ≤ llong.max) →
      ∀ fuel, formatFloat e rnd fuel x f = .ub)
    ∧ (llong.min < ⌊x⌋ ∧ ⌊x⌋ ≤ llong.max → NoRounding F f.radix x →
      (f.placeLimit = .none → ∀ n : Nat, (∃ z : Int, x * (f.radix : ℚ) ^ n = z) →
        ∃ cs, FormatsTo e rnd x f cs ∧ DenotesReal f y n cs)
      ∧ (f.placeLimit ≠ .none →
        ∃ cs, FormatsTo e rnd x f cs
          ∧ DenotesReal f (Spec.truncatedToZero f.radix f.placeCount y) f.placeCount cs
          ∧ (f.placeLimit = .exactlyEqual → (∃ z : Int, x = z) ∨
            ∃ head fs, cs = head ++ f.radixCharacter.char :: fs
              ∧ (Spec.ungroup f.separator.char fs).length = f.placeCount))) := by
  have hmake : IntegerFormat.make f.radix f.sign f.separator
      = .ok ⟨f.radix, f.sign, f.separator⟩ := by
    rw [IntegerFormat.make, if_neg (by have := hf.1; have := hf.2; simp; omega)]
  constructor
  · intro hbad fuel
    simp only [formatFloat, hmake, Outcome.ok_bind]
    by_cases hll : llong.Has ⌊x⌋
    · have hmin : ⌊x⌋ = llong.min := by
        have h1 := hll.1
        have h2 := hll.2
        by_contra hne
        exact hbad ⟨by omega, h2⟩
      have hub : formatInteger e .llong ⌊x⌋ ⟨f.radix, f.sign, f.separator⟩ = .ub := by
        have := (formatInteger_returns e .llong ⟨f.radix, f.sign, f.separator⟩ ⌊x⌋ (by decide) hf
          hll).2 (by
            rw [hmin]
            rintro (h | ⟨h, -⟩ | ⟨h, -⟩)
            · exact h ⟨rfl, rfl⟩
            · revert h; decide
            · revert h; decide)
        rw [this, if_pos (by decide)]
      rw [floorToLongLong, if_pos hll, Outcome.ok_bind, hub]
      rfl
    · rw [floorToLongLong, if_neg hll]
      rfl
  rintro ⟨hlo, hhi⟩ hexact
  have hll : llong.Has ⌊x⌋ := ⟨by omega, hhi⟩
  have hmin : ⌊x⌋ ≠ llong.min := by omega
  rw [← shown_eq] at hy
  by_cases hxint : ∃ z : Int, x = z
  · have hyx : y = x := by
      obtain ⟨z, rfl⟩ := hxint
      rw [hy, shown_int]
    rw [hyx]
    exact C27_partial e F rnd f x hF hr hf hx hll hmin (.inr hxint) hexact
  obtain ⟨hf2, h36⟩ := hf
  have hr0 : 0 < f.radix := by omega
  obtain ⟨ds, e1, hp, hd, hne, hz⟩ := formatInteger_eq e (T := .llong)
    (f := ⟨f.radix, f.sign, f.separator⟩) (by decide) hf2 h36 hll (fun _ => hmin)
  have hfl : floorToLongLong x = .ok ⌊x⌋ := by rw [floorToLongLong, if_pos hll]
  have hxa : F.Has |x| := by
    rcases abs_cases x with ⟨h, _⟩ | ⟨h, _⟩ <;> rw [h]
    · exact hx
    · exact hx.neg
  have hx0 : 0 ≤ |x| := abs_nonneg x
  have hinput : (if x < 0 then -x else x) = |x| := by
    split
    · rw [abs_of_neg (by assumption)]
    · rw [abs_of_nonneg (by linarith)]
  have hmul : ∀ c : ℚ, (∃ z : Int, x * c = z) → ∃ z : Int, |x| * c = z := by
    rintro c ⟨z, hz⟩
    rcases abs_cases x with ⟨h, _⟩ | ⟨h, _⟩ <;> rw [h]
    · exact ⟨z, hz⟩
    · exact ⟨-z, by push_cast; rw [← hz]; ring⟩
  have hfr0 : Int.fract |x| ≠ 0 := by
    intro h
    have h1 := Int.floor_add_fract |x|
    rw [h, add_zero] at h1
    rcases abs_cases x with ⟨h, _⟩ | ⟨h, _⟩
    · exact hxint ⟨⌊|x|⌋, by rw [h1, h]⟩
    · exact hxint ⟨-⌊|x|⌋, by push_cast; rw [h1, h]; ring⟩
  have hfract : rnd (|x| - ((⌊|x|⌋ : Int) : ℚ)) = Int.fract |x| := hr _ (hxa.fract hF hx0)
  have hvalue : ∀ q : ℚ, (if decide (⌊x⌋ < 0) = true then -((Spec.positional f.radix ds : ℚ) + q)
      else (Spec.positional f.radix ds : ℚ) + q)
      = if ⌊x⌋ < 0 then -((⌊x⌋.natAbs : ℚ) + q) else (⌊x⌋.natAbs : ℚ) + q := by
    intro q
    rw [hp]
    simp
  obtain ⟨Inv, hI, hInv⟩ : ∃ Inv, ExactRem rnd f.radix Inv ∧ Inv (Int.fract |x|) := by
    rcases hexact with ⟨j, hj⟩ | ⟨k, m, hk, hxm⟩
    · rw [hj]
      exact ⟨_, exactRem_pow hF hr (hj ▸ h36), hxa.fract hF hx0, Int.fract_nonneg _,
        Int.fract_lt_one _⟩
    · obtain ⟨m', hm'⟩ := hmul (2 ^ k) ⟨m, by rw [hxm]; field_simp⟩
      refine ⟨_, exactRem_dyadic hF hr hk h36, ⟨m' - ⌊|x|⌋ * 2 ^ k, ?_⟩, Int.fract_nonneg _,
        Int.fract_lt_one _⟩
      rw [Int.fract]
      push_cast
      rw [← hm']
      field_simp
  have hrcIns := appendCP_enc e f.radixCharacter.char
    (insOk_ascii e (by cases f.radixCharacter <;> decide))
  constructor
  · intro hlim n hnz
    obtain ⟨z, hnz⟩ := hmul _ hnz
    obtain ⟨fs, hfs, hfrac, hlen, _, hrun⟩ := formatFractionLoop_all e hf2 h36 hI hlim n
      (Int.fract |x|) hInv (by
        refine ⟨z - ⌊|x|⌋ * (f.radix : Int) ^ n, ?_⟩
        rw [Int.fract]
        push_cast
        rw [← hnz]
        ring) 0
    refine ⟨_, ⟨n + 1, _, textOf_ascii e _ (realText_ascii f h36 ⌊x⌋ ds fs hd hfs 0), ?_⟩,
      _, ds, _, realNumeral_of_format f h36 ⌊x⌋ ds fs hne hd hfs 0, hz, ?_, by simpa using hlen⟩
    · intro fuel hfuel
      simp only [formatFloat, hmake, hfl, e1, Outcome.ok_bind, hinput, hfract]
      rw [if_neg hfr0, hrun fuel hfuel]
      simp only [Outcome.ok_bind]
      rw [if_neg (by rw [hlim]; simp)]
      simp only [Outcome.ok_bind, hrcIns]
      simp
    · rw [Spec.denoteReal, Spec.fraction_zeros hr0, hfrac, hvalue, hy, shown]
  · intro hlim
    obtain ⟨fs, k, hfs, hfrac, hlen, hk, hrun⟩ := formatFractionLoop_limit e hf2 h36 hI hlim
      f.placeCount (Int.fract |x|) hInv 0 0 (by omega)
    have hval : ∀ n, Spec.denoteReal f.radix (decide (⌊x⌋ < 0)) ds (fs ++ List.replicate n 0)
        = Spec.truncatedToZero f.radix f.placeCount y := by
      intro n
      have hfr := Int.fract_nonneg |x|
      rw [Spec.denoteReal, Spec.fraction_zeros hr0, hfrac, hvalue, hy, shown,
        Spec.truncatedToZero]
      have hcast : ((⌊x⌋.natAbs : Nat) : ℚ) = ((⌊x⌋.natAbs : Int) : ℚ) := (Int.cast_natCast _).symm
      by_cases h0 : ⌊x⌋ < 0
      · have h1 : (1 : ℚ) ≤ (⌊x⌋.natAbs : ℚ) := by
          have : 1 ≤ ⌊x⌋.natAbs := by omega
          exact_mod_cast this
        simp only [if_pos h0]
        rw [if_pos (by linarith), neg_neg, hcast, Spec.truncated_add_int hr0]
      · simp only [if_neg h0]
        rw [if_neg (by
          have : (0 : ℚ) ≤ (⌊x⌋.natAbs : ℚ) := by positivity
          linarith), hcast, Spec.truncated_add_int hr0]
    have hun : ∀ n, (Spec.ungroup f.separator.char
        (fracText f.separator.char 0 (fs.map Spec.upperDigit) ++ List.replicate n 48)).length
        = fs.length + n := by
      intro n
      rw [ungroup_text f h36 fs hfs n]
      simp
    by_cases hex : f.placeLimit = .exactlyEqual
    · refine ⟨_, ⟨f.placeCount + 1, _, textOf_ascii e _
        (realText_ascii f h36 ⌊x⌋ ds fs hd hfs (f.placeCount - k)), ?_⟩,
        ⟨_, ds, _, realNumeral_of_format f h36 ⌊x⌋ ds fs hne hd hfs (f.placeCount - k), hz,
          hval _, by simp; omega⟩, fun _ => .inr ⟨_, _, rfl, ?_⟩⟩
      · intro fuel hfuel
        simp only [formatFloat, hmake, hfl, e1, Outcome.ok_bind, hinput, hfract]
        rw [if_neg hfr0, hrun fuel hfuel]
        simp only [Outcome.ok_bind]
        rw [if_pos hex, padZeros_eq]
        simp only [Outcome.ok_bind, hrcIns]
        simp
      · rw [hun]; omega
    · refine ⟨_, ⟨f.placeCount + 1, _, textOf_ascii e _
        (realText_ascii f h36 ⌊x⌋ ds fs hd hfs 0), ?_⟩,
        ⟨_, ds, _, realNumeral_of_format f h36 ⌊x⌋ ds fs hne hd hfs 0, hz,
          hval _, by simpa using hlen⟩, fun h => absurd h hex⟩
      · intro fuel hfuel
        simp only [formatFloat, hmake, hfl, e1, Outcome.ok_bind, hinput, hfract]
        rw [if_neg hfr0, hrun fuel hfuel]
        simp only [Outcome.ok_bind]
        rw [if_neg hex]
        simp only [Outcome.ok_bind, hrcIns]
        simp

/-- The number -1.25 and the default format. -/
example : Spec.binary64.Has (-5 / 4) ∧ (llong.min < ⌊(-5 / 4 : ℚ)⌋ ∧ ⌊(-5 / 4 : ℚ)⌋ ≤ llong.max)
    ∧ NoRounding Spec.binary64 10 (-5 / 4)
    ∧ (if (0 : ℚ) ≤ -5 / 4 ∨ ((⌊(-5 / 4 : ℚ)⌋ : Int) : ℚ) = -5 / 4 then (-5 / 4 : ℚ) else -5 / 4 - 1)
      = -9 / 4 := by
  have h0 : ⌊(-5 / 4 : ℚ)⌋ = -2 := by norm_num
  refine ⟨⟨-5, -2, by norm_num [Spec.binary64], by norm_num [Spec.binary64], by norm_num⟩,
    by rw [h0]; decide, .inr ⟨2, -5, by norm_num [Spec.binary64], by norm_num⟩, ?_⟩
  rw [h0]
  norm_num

/-! ### Reading -/

/-- The multiples of `2 ^ E` up to `2 ^ (prec + E)` are values of the format. -/
theorem has_grid {F : Spec.BinFmt} {E : Int} (hE : F.emin ≤ E) (hE' : E + F.prec < F.emax) {q : ℚ}
    (hq : ∃ M : Int, q = M * (2 : ℚ) ^ E) (hlo : -(2 : ℚ) ^ (F.prec + E) ≤ q)
    (hhi : q ≤ (2 : ℚ) ^ (F.prec + E)) (hp : 0 < F.prec) : F.Has q := by
  obtain ⟨M, rfl⟩ := hq
  have h2 : (0 : ℚ) < 2 ^ E := zpow_pos (by norm_num) _
  rw [zpow_add₀ (by norm_num), zpow_natCast] at hlo hhi
  have h3 : (M : ℚ) ≤ 2 ^ F.prec := by
    by_contra h
    nlinarith
  have h4 : -2 ^ F.prec ≤ (M : ℚ) := by
    by_contra h
    nlinarith
  have h3 : M ≤ 2 ^ F.prec := by exact_mod_cast h3
  have h4 : -2 ^ F.prec ≤ M := by exact_mod_cast h4
  by_cases hm : M.natAbs < 2 ^ F.prec
  · exact ⟨M, E, hm, ⟨hE, by omega⟩, rfl⟩
  · obtain ⟨p, hp'⟩ : ∃ p, F.prec = p + 1 := ⟨F.prec - 1, by omega⟩
    have hpc : ((2 ^ F.prec : Nat) : Int) = 2 ^ F.prec := by push_cast; rfl
    have hp2 : (2 : Int) ^ F.prec = 2 * 2 ^ p := by rw [hp', pow_succ]; ring
    have hpp : (2 : Nat) ^ F.prec = 2 * 2 ^ p := by rw [hp', pow_succ]; ring
    have hpos : 0 < 2 ^ p := Nat.pos_of_ne_zero (by positivity)
    obtain ⟨M', hM'⟩ : ∃ M' : Int, M = M' * 2 := by
      rcases (by omega : M = 2 ^ F.prec ∨ M = -2 ^ F.prec) with h | h
      · exact ⟨2 ^ p, by rw [h, hp2]; ring⟩
      · exact ⟨-2 ^ p, by rw [h, hp2]; ring⟩
    refine ⟨M', E + 1, ?_, by omega, ?_⟩
    · omega
    · rw [hM', zpow_add_one₀ (by norm_num)]
      push_cast
      ring

/-- Rounding a multiple of `2 ^ E` down to `k` binary places leaves a multiple of `2 ^ E`. -/
theorem grid_trunc {E : Int} {q : ℚ} (hq : ∃ M : Int, q = M * (2 : ℚ) ^ E) (k : Nat) :
    ∃ M : Int, (⌊q * 2 ^ k⌋ : ℚ) / 2 ^ k = M * (2 : ℚ) ^ E := by
  obtain ⟨M, rfl⟩ := hq
  by_cases hke : -(k : Int) ≤ E
  · refine ⟨M, ?_⟩
    have : (M : ℚ) * 2 ^ E * 2 ^ k = ((M * 2 ^ (E + k).toNat : Int) : ℚ) := by
      push_cast
      rw [mul_assoc]
      congr 1
      rw [← zpow_natCast, ← zpow_natCast, ← zpow_add₀ (by norm_num)]
      congr 1
      omega
    rw [this, Int.floor_intCast, ← this]
    field_simp
  · refine ⟨⌊(M : ℚ) * 2 ^ E * 2 ^ k⌋ * 2 ^ (-(k : Int) - E).toNat, ?_⟩
    push_cast
    have h1 : (2 : ℚ) ^ (-(k : Int) - E).toNat * 2 ^ E = (2 ^ k)⁻¹ := by
      rw [← zpow_natCast (2 : ℚ) (-(k : Int) - E).toNat, ← zpow_add₀ (by norm_num),
        show (((-(k : Int) - E).toNat : Nat) : Int) + E = -(k : Int) by omega, zpow_neg, zpow_natCast]
    rw [mul_assoc (_ : ℚ) _ (2 ^ E), h1, div_eq_mul_inv]

/-- The loop over the digits is exact if the radix is a power of two and all that is added up lies
on a grid of values of the format. -/
theorem appendDigits_grid {F : Spec.BinFmt} (hF : F.Std) {rnd : ℚ → ℚ}
    (hr : ∀ q, F.Has q → rnd q = q) {r j : Nat} (hrj : r = 2 ^ j) (h36 : r ≤ 36) {V : ℚ} {E : Int}
    (hE : F.emin ≤ E) (hE' : E + F.prec < F.emax) (hV : ∃ M : Int, V = M * (2 : ℚ) ^ E)
    (hVhi : V ≤ (2 : ℚ) ^ (F.prec + E)) {n : Nat} (hn : r ^ n < 2 ^ F.emax) :
    ∀ (fs : List Nat), (∀ d ∈ fs, d < r) → ∀ (k : Nat) (v : ℚ), k + fs.length = n →
      (∃ z : Int, v * (r : ℚ) ^ k = z) → V = v + Spec.fraction r fs / (r : ℚ) ^ k →
      -(2 : ℚ) ^ (F.prec + E) ≤ v →
      F.Has v ∧ ∃ root, fs.foldlM (fun st (d : Nat) => appendDigit rnd r st d) ((r : ℚ) ^ k, v)
        = .ok (root, V) := by
  have hr0 : 0 < r := by rw [hrj]; positivity
  have hr' : (0 : ℚ) < r := by exact_mod_cast hr0
  have hprec : 0 < F.prec := by have := hF.prec_ge; omega
  have hpow : ∀ k : Nat, (r : ℚ) ^ k = 2 ^ (j * k) := by
    intro k
    rw [hrj, pow_mul]
    push_cast
    rfl
  intro fs
  induction fs with
  | nil =>
    intro _ k v _ _ hVv hlo
    rw [Spec.fraction_nil, zero_div, add_zero] at hVv
    subst hVv
    exact ⟨has_grid hE hE' hV hlo hVhi hprec, _, rfl⟩
  | cons d fs ih =>
    intro hd k v hkn hz hVv hlo
    rw [List.length_cons] at hkn
    have hd' := hd d (by simp)
    have hrest : ∀ x ∈ fs, x < r := fun x hx => hd x (by simp [hx])
    obtain ⟨b0, b1⟩ := fraction_bounds hr0 (d :: fs) hd
    have hk : (0 : ℚ) < (r : ℚ) ^ k := by positivity
    have hk1 : (0 : ℚ) < (r : ℚ) ^ (k + 1) := by positivity
    have hV' : V = (v + d / (r : ℚ) ^ (k + 1)) + Spec.fraction r fs / (r : ℚ) ^ (k + 1) := by
      rw [hVv, Spec.fraction_cons hr0, pow_succ]
      field_simp
      ring
    have hz' : ∃ z : Int, (v + d / (r : ℚ) ^ (k + 1)) * (r : ℚ) ^ (k + 1) = z := by
      obtain ⟨z, hz⟩ := hz
      refine ⟨z * r + d, ?_⟩
      push_cast
      rw [← hz, pow_succ]
      field_simp
    have t0 := trunc_of_rest hk hVv b0 b1 hz
    have g0 : F.Has v := by
      refine has_grid hE hE' ?_ hlo ?_ hprec
      · rw [← t0, hpow]
        exact grid_trunc hV _
      · have : 0 ≤ Spec.fraction r (d :: fs) / (r : ℚ) ^ k := div_nonneg b0 hk.le
        linarith
    have hdq : 0 ≤ (d : ℚ) / (r : ℚ) ^ (k + 1) := by positivity
    obtain ⟨g1, hgo⟩ := ih hrest (k + 1) _ (by omega) hz' hV' (by linarith)
    refine ⟨g0, ?_⟩
    have groot : F.Has ((r : ℚ) ^ (k + 1)) := by
      rw [hpow]
      refine Spec.BinFmt.has_two_pow hF ?_
      have h1 : r ^ (k + 1) ≤ r ^ n := Nat.pow_le_pow_right hr0 (by omega)
      rw [hrj, ← pow_mul, ← hrj] at h1
      exact (Nat.pow_lt_pow_iff_right (by norm_num)).mp (lt_of_le_of_lt h1 hn)
    have gd : F.Has ((d : ℚ) / (r : ℚ) ^ (k + 1)) := by
      have hp : (64 : Nat) ≤ 2 ^ F.prec := by
        have := hF.prec_ge
        calc (64 : Nat) = 2 ^ 6 := by norm_num
          _ ≤ 2 ^ F.prec := Nat.pow_le_pow_right (by omega) (by omega)
      by_cases hn : F.emin ≤ -((j * (k + 1) : Nat) : Int)
      · refine ⟨d, -((j * (k + 1) : Nat) : Int), ?_, ⟨hn, by have := hF.emax_ge; omega⟩, ?_⟩
        · simp only [Int.natAbs_natCast]
          omega
        · rw [hpow, zpow_neg, zpow_natCast, div_eq_mul_inv]
          push_cast
          rfl
      · obtain ⟨M0, hM0⟩ := has_multiple g0
        obtain ⟨M1, hM1⟩ := has_multiple g1
        have hM : (d : ℚ) / (r : ℚ) ^ (k + 1) = ((M1 - M0 : Int) : ℚ) * (2 : ℚ) ^ F.emin := by
          push_cast
          rw [sub_mul, ← hM1, ← hM0]
          ring
        refine ⟨M1 - M0, F.emin, ?_, ⟨le_refl _, by have := hF.emax_ge; have := hF.emin_nonpos; omega⟩, hM⟩
        have h2 : (0 : ℚ) < 2 ^ F.emin := zpow_pos (by norm_num) _
        have hge : (1 : ℚ) ≤ (r : ℚ) ^ (k + 1) * 2 ^ F.emin := by
          rw [hpow, ← zpow_natCast, ← zpow_add₀ (by norm_num)]
          exact one_le_zpow₀ (by norm_num) (by omega)
        have hval : ((M1 - M0 : Int) : ℚ) * ((r : ℚ) ^ (k + 1) * 2 ^ F.emin) = d := by
          rw [mul_comm ((r : ℚ) ^ (k + 1)), ← mul_assoc, ← hM]
          field_simp
        have hd0 : (0 : ℚ) ≤ d := by positivity
        have hpos : (0 : ℚ) ≤ ((M1 - M0 : Int) : ℚ) := by
          by_contra hneg
          have : ((M1 - M0 : Int) : ℚ) < 0 := lt_of_not_ge hneg
          nlinarith
        have hle : ((M1 - M0 : Int) : ℚ) ≤ d := by
          nlinarith
        have hpos' : 0 ≤ M1 - M0 := by exact_mod_cast hpos
        have hle' : M1 - M0 ≤ d := by exact_mod_cast hle
        omega
    have estep : appendDigit rnd r ((r : ℚ) ^ k, v) (d : Nat)
        = .ok ((r : ℚ) ^ (k + 1), v + d / (r : ℚ) ^ (k + 1)) := by
      simp only [appendDigit]
      rw [← pow_succ, hr _ groot, if_neg hk1.ne']
      simp only [Int.cast_natCast]
      rw [hr _ gd, hr _ g1]
    rw [List.foldlM_cons, estep, Outcome.ok_bind]
    exact hgo

/-- The parser on numerals whose digits add up on a grid of values of the format. -/
theorem parseFloat_grid (e : Enc) {F : Spec.BinFmt} {rnd : ℚ → ℚ} {f : FloatFormat} {s : Str e}
    {cs : List Nat} {neg : Bool} {ds fs : List Nat} {j : Nat} (hF : F.Std)
    (hr : ∀ q, F.Has q → rnd q = q) (hf : f.Valid) (hj : f.radix = 2 ^ j) (ht : TextOf e s cs)
    (hn : Spec.RealNumeral f.radix f.separator.char (f.sign = .alwaysShow)
      f.radixCharacter.char none cs neg ds fs)
    (hsep : f.separator.char ≠ some f.radixCharacter.char)
    (hlim : fs = [] → f.placeLimit = .none ∨ f.placeCount = 0 ∨ f.radixCharacter.char ∉ cs)
    (hfit : (Spec.positional f.radix ds : Int) ≤ llong.max)
    (hplace : (f.radix ^ (ds.length - 1) : Nat) ≤ llong.max)
    (hroot : f.radix ^ fs.length < 2 ^ F.emax) {E : Int} (hE : F.emin ≤ E)
    (hE' : E + F.prec < F.emax)
    (hV : ∃ M : Int, (Spec.denote f.radix neg ds : ℚ) + Spec.fraction f.radix fs = M * (2 : ℚ) ^ E)
    (hhi : (Spec.denote f.radix neg ds : ℚ) + Spec.fraction f.radix fs ≤ (2 : ℚ) ^ (F.prec + E))
    (hlo : -(2 : ℚ) ^ (F.prec + E) ≤ (Spec.denote f.radix neg ds : ℚ)) :
    parseFloat e rnd s f = .ok ((Spec.denote f.radix neg ds : ℚ) + Spec.fraction f.radix fs) := by
  rw [parseFloat_text e rnd f s cs neg ds fs hf ht hn hsep hlim hfit hplace]
  have hfsd : ∀ d ∈ fs, d < f.radix := by
    obtain ⟨_, _, h, _⟩ := hn
    exact h
  obtain ⟨g, root, h1⟩ := appendDigits_grid hF hr hj hf.2 hE hE' hV hhi hroot fs hfsd 0
    (Spec.denote f.radix neg ds) (by omega) ⟨_, by rw [pow_zero, mul_one]⟩
    (by rw [pow_zero, div_one]) hlo
  rw [hr _ g, ← pow_zero (f.radix : ℚ), h1]
  rfl

/-- C28 in radices that are powers of two, for every numeral that denotes a value of the format and
whose integral part fits `long long`: the fraction part is added to the integral part whatever
the sign.  So `-1.5` is read as -0.5 and `-0.5` as 0.5. -/
theorem C28_exact (e : Enc) (F : Spec.BinFmt) (rnd : ℚ → ℚ) (f : FloatFormat)
    (s : Str e) (cs : List Nat) (neg : Bool) (ds fs : List Nat) (j : Nat) (hF : F.Std)
    (hr : ∀ q, F.Has q → rnd q = q) (hf : f.Valid) (hj : f.radix = 2 ^ j) (ht : TextOf e s cs)
    (hn : Spec.RealNumeral f.radix f.separator.char (f.sign = .alwaysShow)
      f.radixCharacter.char none cs neg ds fs)
    (hsep : f.separator.char ≠ some f.radixCharacter.char)
    (hlim : fs = [] → f.placeLimit = .none ∨ f.placeCount = 0 ∨ f.radixCharacter.char ∉ cs)
    (hfit : (Spec.positional f.radix ds : Int) ≤ llong.max)
    (hplace : (f.radix ^ (ds.length - 1) : Nat) ≤ llong.max)
    (hroot : f.radix ^ fs.length < 2 ^ F.emax)
    (hval : F.Has (Spec.denoteReal f.radix neg ds fs)) :
    parseFloat e rnd s f = .ok (Spec.denoteReal f.radix neg ds [] + Spec.fraction f.radix fs)
    ∧ (Spec.denoteReal f.radix neg ds [] + Spec.fraction f.radix fs
        = Spec.denoteReal f.radix neg ds fs ↔ neg = false ∨ ∀ d ∈ fs, d = 0) := by
  have hr0 : 0 < f.radix := by have := hf.1; omega
  have hfsd : ∀ d ∈ fs, d < f.radix := by
    obtain ⟨_, _, h, _⟩ := hn
    exact h
  have hden0 : Spec.denoteReal f.radix neg ds [] = ((Spec.denote f.radix neg ds : Int) : ℚ) := by
    rw [Spec.denoteReal, Spec.denote, Spec.fraction_nil]
    split <;> push_cast <;> ring
  obtain ⟨c0, c1⟩ := fraction_bounds hr0 fs hfsd
  have hI0 : (0 : ℚ) ≤ (Spec.positional f.radix ds : ℚ) := by positivity
  have hmx : llong.max = 9223372036854775807 := by decide
  rw [hden0]
  constructor
  · -- the value that is denoted, without its sign
    have habs : F.Has ((Spec.positional f.radix ds : ℚ) + Spec.fraction f.radix fs) := by
      cases neg with
      | false => simpa [Spec.denoteReal] using hval
      | true => simpa [Spec.denoteReal] using hval.neg
    obtain ⟨m, E, hm, ⟨hE1, hE2⟩, hmE⟩ := habs
    have hmax := hF.emax_ge
    have hmin := hF.emin_nonpos
    -- the exponent may be taken to be small
    obtain ⟨m, E, hm, hE1, hE2, hmE⟩ : ∃ m E : Int, m.natAbs < 2 ^ F.prec ∧ F.emin ≤ E
        ∧ E + F.prec < F.emax
        ∧ (Spec.positional f.radix ds : ℚ) + Spec.fraction f.radix fs = m * (2 : ℚ) ^ E := by
      by_cases h0 : m = 0
      · refine ⟨0, 0, by simp, by omega, ?_, by rw [hmE, h0]; simp⟩
        rcases hF with h | h <;> rw [h] <;> decide
      · refine ⟨m, E, hm, hE1, ?_, hmE⟩
        by_contra hbig
        have h64 : 64 ≤ E := by
          rcases hF with h | h <;> rw [h] at hbig <;> simp [Spec.binary32, Spec.binary64] at hbig <;>
            omega
        have hpos : (0 : ℚ) < 2 ^ E := zpow_pos (by norm_num) _
        have hm1 : (1 : ℚ) ≤ m := by
          have : (0 : ℚ) < m := by
            by_contra hneg
            have h1 : (m : ℚ) ≤ -1 := by
              have : m ≤ 0 := by
                have : (m : ℚ) ≤ 0 := not_lt.mp hneg
                exact_mod_cast this
              exact_mod_cast (by omega : m ≤ -1)
            nlinarith
          have : 0 < m := by exact_mod_cast this
          exact_mod_cast (by omega : 1 ≤ m)
        have hbigE : (2 : ℚ) ^ (64 : Nat) ≤ 2 ^ E := by
          rw [← zpow_natCast]
          exact zpow_le_zpow_right₀ (by norm_num) (by simpa using h64)
        have hI : ((Spec.positional f.radix ds : Nat) : ℚ) ≤ 9223372036854775807 := by
          have h1 : ((Spec.positional f.radix ds : Nat) : Int) ≤ 9223372036854775807 := by omega
          exact_mod_cast h1
        have : (2 : ℚ) ^ (64 : Nat) = 18446744073709551616 := by norm_num
        nlinarith
    have hpos : (0 : ℚ) < 2 ^ E := zpow_pos (by norm_num) _
    have hB : (Spec.positional f.radix ds : ℚ) + Spec.fraction f.radix fs
        ≤ (2 : ℚ) ^ (F.prec + E) := by
      rw [hmE, zpow_add₀ (by norm_num), zpow_natCast]
      have : m ≤ 2 ^ F.prec := by
        have : ((2 ^ F.prec : Nat) : Int) = 2 ^ F.prec := by push_cast; rfl
        omega
      have : (m : ℚ) ≤ 2 ^ F.prec := by exact_mod_cast this
      nlinarith
    refine parseFloat_grid e hF hr hf hj ht hn hsep hlim hfit hplace hroot hE1 hE2 ?_ ?_ ?_
    · rw [Spec.denote]
      cases neg with
      | false => exact ⟨m, by simpa using hmE⟩
      | true =>
        simp only [if_true]
        push_cast
        by_cases hE0 : E ≤ 0
        · refine ⟨m - 2 * (Spec.positional f.radix ds : Int) * 2 ^ (-E).toNat, ?_⟩
          have h1 : (2 : ℚ) ^ (-E).toNat * 2 ^ E = 1 := by
            rw [← zpow_natCast, ← zpow_add₀ (by norm_num), show (((-E).toNat : Nat) : Int) + E = 0
              by omega, zpow_zero]
          push_cast
          rw [sub_mul, ← hmE, mul_assoc (2 * (Spec.positional f.radix ds : ℚ)), h1]
          ring
        · have hint : Spec.fraction f.radix fs = 0 := by
            obtain ⟨k, hk⟩ : ∃ k : Nat, (k : Int) = E := ⟨E.toNat, by omega⟩
            have h1 : Spec.fraction f.radix fs
                = ((m * 2 ^ k - (Spec.positional f.radix ds : Int) : Int) : ℚ) := by
              push_cast
              rw [← zpow_natCast, hk, ← hmE]
              ring
            rw [h1] at c0 c1 ⊢
            have c0 : 0 ≤ m * 2 ^ k - (Spec.positional f.radix ds : Int) := by exact_mod_cast c0
            have c1 : m * 2 ^ k - (Spec.positional f.radix ds : Int) < 1 := by exact_mod_cast c1
            have : m * 2 ^ k - (Spec.positional f.radix ds : Int) = 0 := by omega
            rw [this]
            simp
          refine ⟨-m, ?_⟩
          rw [hint] at hmE ⊢
          push_cast
          rw [neg_mul, ← hmE]
          ring
    · rw [Spec.denote]
      split <;> push_cast <;> linarith
    · have : (0 : ℚ) ≤ (2 : ℚ) ^ (F.prec + E) := (zpow_pos (by norm_num) _).le
      rw [Spec.denote]
      split <;> push_cast <;> linarith
  · rw [Spec.denoteReal, Spec.denote]
    cases neg with
    | false => simp
    | true =>
      simp only [if_true]
      push_cast
      have hz : Spec.fraction f.radix fs = 0 ↔ ∀ d ∈ fs, d = 0 := by
        clear hn hlim hroot hval c0 c1 hfsd
        induction fs with
        | nil => simp [Spec.fraction_nil]
        | cons d fs ih =>
          rw [Spec.fraction_cons hr0]
          have hr' : (0 : ℚ) < f.radix := by exact_mod_cast hr0
          have hnn : 0 ≤ Spec.fraction f.radix fs := by rw [Spec.fraction]; positivity
          have hd0 : (0 : ℚ) ≤ d := by positivity
          rw [div_eq_zero_iff, or_iff_left hr'.ne']
          constructor
          · intro h
            have h1 : (d : ℚ) = 0 := by linarith
            have h2 : Spec.fraction f.radix fs = 0 := by linarith
            intro x hx
            rcases List.mem_cons.mp hx with rfl | hx
            · exact_mod_cast h1
            · exact ih.mp h2 x hx
          · intro h
            rw [h d (by simp), ih.mpr (fun x hx => h x (by simp [hx]))]
            simp
      rw [← hz]
      constructor
      · intro h
        right
        linarith
      · rintro (h | h)
        · cases h
        · rw [h]
          ring

/-- `-1.8` in radix 16, which denotes -1.5 and is read as -0.5. -/
example : Spec.RealNumeral 16 none false 46 none [45, 49, 46, 56] true [1] [8]
    ∧ Spec.binary64.Has (Spec.denoteReal 16 true [1] [8])
    ∧ Spec.denoteReal 16 true [1] [] + Spec.fraction 16 [8] = -1 / 2 := by
  refine ⟨⟨[45, 49], ⟨[45], [49], rfl, ⟨by simp, by decide, [49], by decide, by decide⟩, by simp⟩,
    by decide, .inr ⟨[56], rfl, by decide⟩⟩, ⟨-3, -1, by norm_num [Spec.binary64],
    by norm_num [Spec.binary64], ?_⟩, ?_⟩ <;>
  norm_num [Spec.denoteReal, Spec.fraction, Spec.positional]

/-! ### Back again -/

/-- C70 for every number, in radices that are powers of two: a number that is not negative or is an
integer comes back.  A negative number with a fraction part and at most `prec` binary places comes
back as the sum of its floor and the fraction part of its magnitude, which is the number itself
just if its fraction part is a half.  Numbers with an integral part that does not fit
`long long`, or is its least value, have undefined behaviour. -/
theorem C70_exact (e : Enc) (F : Spec.BinFmt) (rnd : ℚ → ℚ) (f : FloatFormat) (x : ℚ)
    (j n : Nat) (hF : F.Std) (hr : ∀ q, F.Has q → rnd q = q) (hf : f.Valid) (hj : f.radix = 2 ^ j)
    (hsep : f.separator = .none) (hlim : f.placeLimit = .none) (hx : F.Has x)
    (hfin : ∃ z : Int, x * (f.radix : ℚ) ^ n = z) (hover : f.radix ^ n < 2 ^ F.emax) :
    (¬ (llong.min < ⌊x⌋ ∧ ⌊x⌋ ≤ llong.max) → ∀ fuel, formatFloat e rnd fuel x f = .ub)
    ∧ (llong.min < ⌊x⌋ ∧ ⌊x⌋ ≤ llong.max →
      (0 ≤ x ∨ (∃ z : Int, x = z) →
        ∃ N s, (∀ fuel ≥ N, formatFloat e rnd fuel x f = .ok s) ∧ parseFloat e rnd s f = .ok x)
      ∧ (x < 0 → (¬ ∃ z : Int, x = z) → Spec.BinaryPlaces F.prec x →
        ∃ N s, (∀ fuel ≥ N, formatFloat e rnd fuel x f = .ok s)
          ∧ parseFloat e rnd s f = .ok (⌊x⌋ + Int.fract |x|)
          ∧ (⌊x⌋ + Int.fract |x| = x ↔ ∃ z : Int, 2 * x = z))) := by
  have hr2 := hf.1
  have hex := C27_exact e F rnd f x _ hF hr hf hx rfl
  refine ⟨hex.1, fun hrange => ⟨fun h => C70_partial e F rnd f x j n hF hr hf hj hsep hlim hx
    ⟨by omega, hrange.2⟩ (by omega) h hfin hover, fun hneg hxi hplaces => ?_⟩⟩
  obtain ⟨cs, ⟨N, s, ht, hs⟩, neg, ds, fs, hn, hz, hden, hlen⟩ :=
    (hex.2 hrange (.inl ⟨j, hj⟩)).1 hlim n hfin
  rw [← shown_eq, shown_negative hneg hxi] at hden
  have hsc : f.separator.char = none := by rw [hsep]; rfl
  have hfsd : ∀ d ∈ fs, d < f.radix := by
    obtain ⟨_, _, h, _⟩ := hn
    exact h
  obtain ⟨c0, c1⟩ := fraction_bounds (by omega) fs hfsd
  have hne : ds ≠ [] := by
    obtain ⟨_, ⟨_, _, _, hsp, _⟩, _⟩ := hn
    exact hsp.1
  have hI0 : (0 : ℚ) ≤ (Spec.positional f.radix ds : ℚ) := by positivity
  have hmx : llong.max = 9223372036854775807 := by decide
  have hmn : llong.min = -9223372036854775808 := by decide
  have hnt : neg = true := by
    cases neg with
    | true => rfl
    | false =>
      rw [Spec.denoteReal, if_neg (by simp)] at hden
      linarith
  subst hnt
  rw [Spec.denoteReal, if_pos rfl] at hden
  -- the parts of the number
  have hfrx : Int.fract x ≠ 0 := by
    intro h
    refine hxi ⟨⌊x⌋, ?_⟩
    have := Int.floor_add_fract x
    rw [h, add_zero] at this
    exact this.symm
  have hfa : Int.fract |x| = 1 - Int.fract x := by rw [abs_of_neg hneg, Int.fract_neg hfrx]
  have hsum := Int.floor_add_fract x
  have hfpos : 0 < Int.fract x := lt_of_le_of_ne (Int.fract_nonneg x) (Ne.symm hfrx)
  have hflt := Int.fract_lt_one x
  have hI : (Spec.positional f.radix ds : Int) = -⌊x⌋ := by
    have h1 : (Spec.positional f.radix ds : ℚ) + ⌊x⌋ = 1 - Int.fract x - Spec.fraction f.radix fs := by
      linarith
    have h2 : (((Spec.positional f.radix ds : Int) + ⌊x⌋ : Int) : ℚ) < 1 := by
      push_cast
      linarith
    have h3 : (-1 : ℚ) < (((Spec.positional f.radix ds : Int) + ⌊x⌋ : Int) : ℚ) := by
      push_cast
      linarith
    have h2 : (Spec.positional f.radix ds : Int) + ⌊x⌋ < 1 := by exact_mod_cast h2
    have h3 : -1 < (Spec.positional f.radix ds : Int) + ⌊x⌋ := by exact_mod_cast h3
    omega
  have hIq : (Spec.positional f.radix ds : ℚ) = -(⌊x⌋ : ℚ) := by
    have : ((Spec.positional f.radix ds : Int) : ℚ) = ((-⌊x⌋ : Int) : ℚ) := by rw [hI]
    push_cast at this
    exact this
  have hfrac : Spec.fraction f.radix fs = Int.fract |x| := by
    rw [hfa]
    linarith
  have hdenote : ((Spec.denote f.radix true ds : Int) : ℚ) = (⌊x⌋ : ℚ) := by
    rw [Spec.denote, if_pos rfl, hI, neg_neg]
  have hplace : (f.radix ^ (ds.length - 1) : Nat) ≤ llong.max := by
    by_cases h0 : ds.head? = some 0
    · rw [hz h0, hmx]
      simp
    · have := place_le (r := f.radix) ds hne h0
      omega
  have hn' : Spec.RealNumeral f.radix f.separator.char (f.sign = .alwaysShow)
      f.radixCharacter.char none cs true ds fs := by
    have := hn
    rw [hsc] at this
    rw [hsc]
    exact this
  -- a grid for the number
  have hmax := hF.emax_ge
  have hmin := hF.emin_nonpos
  have hmp : F.emin ≤ -(F.prec : Int) := by
    rcases hF with h | h <;> rw [h] <;> decide
  obtain ⟨m, E, hm, hE1, hE2, hE3, hxE⟩ : ∃ m E : Int, m.natAbs ≤ 2 ^ F.prec ∧ F.emin ≤ E
      ∧ E ≤ 0 ∧ -(F.prec : Int) ≤ E ∧ x = m * (2 : ℚ) ^ E := by
    obtain ⟨m, E, hm, ⟨hE1, hE2⟩, hxE⟩ := hx
    by_cases hE0 : 0 ≤ E
    · refine absurd ⟨m * 2 ^ E.toNat, ?_⟩ hxi
      rw [hxE]
      push_cast
      rw [← zpow_natCast]
      congr 2
      omega
    by_cases hEp : -(F.prec : Int) ≤ E
    · exact ⟨m, E, by omega, hE1, by omega, hEp, hxE⟩
    · obtain ⟨M, hM⟩ := hplaces
      refine ⟨M, -(F.prec : Int), ?_, hmp, by omega, le_refl _, ?_⟩
      · have h2 : (0 : ℚ) < 2 ^ F.prec := by positivity
        have h3 : (2 : ℚ) ^ (F.prec + E) ≤ 1 := zpow_le_one_of_nonpos₀ (by norm_num) (by omega)
        have h4 : (0 : ℚ) < (2 : ℚ) ^ (F.prec + E) := zpow_pos (by norm_num) _
        have h5 : (M : ℚ) = m * (2 : ℚ) ^ (F.prec + E) := by
          rw [zpow_add₀ (by norm_num), zpow_natCast]
          have : x * 2 ^ F.prec = M := by
            rw [hM]
            field_simp
          rw [← this, hxE]
          ring
        have h6 : |(M : ℚ)| ≤ |(m : ℚ)| := by
          rw [h5, abs_mul, abs_of_pos h4]
          have := abs_nonneg (m : ℚ)
          nlinarith
        have h6 : |M| ≤ |m| := by exact_mod_cast h6
        rw [Int.abs_eq_natAbs, Int.abs_eq_natAbs] at h6
        omega
      · rw [zpow_neg, zpow_natCast]
        have : x * 2 ^ F.prec = M := by
          rw [hM]
          field_simp
        rw [← this]
        field_simp
  have hpos : (0 : ℚ) < 2 ^ E := zpow_pos (by norm_num) _
  obtain ⟨k, hk⟩ : ∃ k : Nat, (k : Int) = -E := ⟨(-E).toNat, by omega⟩
  have hkE : (2 : ℚ) ^ k * 2 ^ E = 1 := by
    rw [← zpow_natCast, ← zpow_add₀ (by norm_num), show (k : Int) + E = 0 by omega, zpow_zero]
  obtain ⟨p, hp⟩ : ∃ p : Nat, (p : Int) = F.prec + E := ⟨(F.prec + E).toNat, by omega⟩
  have hone : (1 : ℚ) ≤ (2 : ℚ) ^ (F.prec + E) := one_le_zpow₀ (by norm_num) (by omega)
  have hback : (⌊x⌋ : ℚ) + Int.fract |x| = 2 * ⌊x⌋ + 1 - x := by
    rw [hfa]
    linarith
  have hparse := parseFloat_grid e (E := E) hF hr hf hj ht hn' (by rw [hsc]; simp)
    (fun _ => .inl hlim) (by have h1 := hrange.1; rw [hmx, hI]; rw [hmn] at h1; omega) hplace
    (lt_of_le_of_lt (Nat.pow_le_pow_right (by omega) hlen) hover) hE1 (by omega)
    (by
      rw [hdenote, hfrac, hback]
      refine ⟨(2 * ⌊x⌋ + 1) * 2 ^ k - m, ?_⟩
      push_cast
      rw [sub_mul, ← hxE, mul_assoc, hkE]
      ring)
    (by
      rw [hdenote, hfrac, hfa]
      have : (⌊x⌋ : ℚ) ≤ x := Int.floor_le x
      linarith)
    (by
      rw [hdenote]
      have h1 : (-(2 ^ p : Int) : Int) ≤ ⌊x⌋ := by
        apply Int.le_floor.mpr
        push_cast
        rw [← zpow_natCast, hp, zpow_add₀ (by norm_num), zpow_natCast, hxE]
        have : -2 ^ F.prec ≤ m := by
          have : ((2 ^ F.prec : Nat) : Int) = 2 ^ F.prec := by push_cast; rfl
          omega
        have : -(2 : ℚ) ^ F.prec ≤ m := by exact_mod_cast this
        nlinarith
      have h2 : ((-(2 ^ p : Int) : Int) : ℚ) ≤ (⌊x⌋ : ℚ) := by exact_mod_cast h1
      push_cast at h2
      rwa [← zpow_natCast, hp] at h2)
  refine ⟨N, s, hs, ?_, ?_⟩
  · rw [hparse, hdenote, hfrac]
  · rw [hback]
    constructor
    · intro h
      exact ⟨2 * ⌊x⌋ + 1, by push_cast; linarith⟩
    · rintro ⟨z, hz⟩
      have h1 : (2 * ⌊x⌋ : ℚ) < z := by linarith
      have h2 : (z : ℚ) < 2 * ⌊x⌋ + 2 := by linarith
      have h1 : 2 * ⌊x⌋ < z := by exact_mod_cast h1
      have h2 : z < 2 * ⌊x⌋ + 2 := by exact_mod_cast h2
      have h3 : z = 2 * ⌊x⌋ + 1 := by omega
      rw [h3] at hz
      push_cast at hz
      linarith

/-- The number -1.25 comes back as -1.75. -/
example : Spec.binary64.Has (-5 / 4) ∧ Spec.BinaryPlaces Spec.binary64.prec (-5 / 4)
    ∧ (¬ ∃ z : Int, (-5 / 4 : ℚ) = z) ∧ ((⌊(-5 / 4 : ℚ)⌋ : Int) : ℚ) + Int.fract |(-5 / 4 : ℚ)| = -7 / 4 := by
  have h0 : ⌊(-5 / 4 : ℚ)⌋ = -2 := by norm_num
  have h1 : ⌊(5 / 4 : ℚ)⌋ = 1 := by norm_num
  refine ⟨⟨-5, -2, by norm_num [Spec.binary64], by norm_num [Spec.binary64], by norm_num⟩,
    ⟨-5 * 2 ^ 51, by norm_num [Spec.binary64]⟩, ?_, ?_⟩
  · rintro ⟨z, hz⟩
    rw [hz, Int.floor_intCast] at h0
    rw [h0] at hz
    norm_num at hz
  · rw [abs_of_neg (by norm_num), show -(-5 / 4 : ℚ) = 5 / 4 by norm_num, Int.fract, h0, h1]
    norm_num

end Cmp
