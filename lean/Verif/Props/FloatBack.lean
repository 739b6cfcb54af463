import Verif.Props.FloatTrip
import Verif.Spec.Point

/-
C107 for negative numbers with a fraction part, which come back wrong: what comes back instead.
-/

namespace Cmp

open IntTy
open _root_.Spec (addPlaces)

/-- The error of rounding a number of either sign. -/
theorem Spec.BinFmt.Nearest.plain {F : Spec.BinFmt} {rnd : ℚ → ℚ} (hF : F.Std) (hn : F.Nearest rnd)
    {q B : ℚ} (hq : |q| ≤ B) (hB : 1 ≤ B) (hB2 : B ≤ 2 ^ (F.emax - 2)) :
    |rnd q - q| ≤ 1 / 2 ^ F.prec * B := by
  have hprec := hF.prec_ge
  have hmax := hF.emax_ge
  have hmin := hF.emin_le
  obtain ⟨n, hn1, hn2⟩ := exists_mem_Ico_zpow (lt_of_lt_of_le zero_lt_one hB) (y := (2 : ℚ))
    (by norm_num)
  have hlo : 0 ≤ n := by
    have h3 : (2 : ℚ) ^ (0 : Int) < 2 ^ (n + 1) := by rw [zpow_zero]; exact lt_of_le_of_lt hB hn2
    have := (zpow_lt_zpow_iff_right₀ (by norm_num)).mp h3
    omega
  have hup : n ≤ ((F.emax - 2 : Nat) : Int) := by
    have h3 : (2 : ℚ) ^ n ≤ 2 ^ ((F.emax - 2 : Nat) : Int) := by
      rw [zpow_natCast]
      exact hn1.trans hB2
    exact (zpow_le_zpow_iff_right₀ (by norm_num)).mp h3
  have hw : F.Within q := ⟨2 ^ (F.emax - 1), Spec.BinFmt.has_two_pow hF (by omega), hq.trans (hB2.trans
    (pow_le_pow_right₀ (by norm_num) (by omega)))⟩
  obtain ⟨p, hp, hpq⟩ := Spec.BinFmt.exists_near hF (abs_nonneg q) (g := n + 1 - F.prec) (by omega) (by omega)
    (by rw [sub_add_cancel]; exact hq.trans hn2.le)
  have h4 : (2 : ℚ) ^ (n + 1 - (F.prec : Int)) / 2 = 1 / 2 ^ F.prec * 2 ^ n := by
    rw [zpow_sub₀ (by norm_num), zpow_add₀ (by norm_num), zpow_natCast, zpow_one]
    ring
  rw [h4] at hpq
  have h5 : 1 / 2 ^ F.prec * (2 : ℚ) ^ n ≤ 1 / 2 ^ F.prec * B :=
    mul_le_mul_of_nonneg_left hn1 (by positivity)
  refine le_trans ?_ (hpq.trans h5)
  rcases abs_choice q with h | h
  · rw [h]
    exact (hn q hw).2 p hp
  · have := (hn q hw).2 (-p) hp.neg
    rwa [h, show p - -q = -(-p - q) by ring, abs_neg]

/-- The value of a digit, its place value being rounded several times. -/
theorem digit_near {u m p d t : ℚ} {n j : Nat} (hu : 0 ≤ u) (hu1 : u ≤ 1 / 1024) (hm0 : 0 ≤ m)
    (hm1 : m ≤ 1 / 1024) (hb1 : 1 - m ≤ (1 - u) ^ j) (a1 : (1 + u) ^ j ≤ (1 + u) ^ n)
    (a2 : 1 - m ≤ (1 - u) ^ n) (a3 : (1 + u) ^ n * (1 - u) ^ n ≤ 1) {r : ℚ} (hr : 0 < r)
    (hplo : ((1 - u) * r) ^ j ≤ p) (hpup : p ≤ ((1 + u) * r) ^ j) (hk : 0 < r ^ j) (hd : 0 ≤ d)
    (t1 : (1 - u) * (d / p) ≤ t) (t2 : t ≤ (1 + u) * (d / p)) (hb0 : 0 < (1 - u) ^ j) :
    d / r ^ j - 4 * (m + u) * (d / r ^ j) ≤ t ∧ t ≤ d / r ^ j + 4 * (m + u) * (d / r ^ j) := by
  obtain ⟨w, hw⟩ : ∃ w : ℚ, w = d / r ^ j := ⟨_, rfl⟩
  have hw0 : 0 ≤ w := by rw [hw]; positivity
  have ha0 : (0 : ℚ) < (1 + u) ^ j := by positivity
  have hp0 : 0 < p := lt_of_lt_of_le (by rw [mul_pow]; exact mul_pos hb0 hk) hplo
  have hup : d / p ≤ w / (1 - m) := by
    rw [hw, div_div]
    apply div_le_div_of_nonneg_left hd
    · exact mul_pos hk (by linarith)
    · refine le_trans ?_ hplo
      rw [mul_pow, mul_comm ((1 - u) ^ j)]
      exact mul_le_mul_of_nonneg_left hb1 hk.le
  have hdn : w * (1 - m) ≤ d / p := by
    have h1 : w / (1 + u) ^ j ≤ d / p := by
      rw [hw, div_div]
      apply div_le_div_of_nonneg_left hd hp0
      refine hpup.trans ?_
      rw [mul_pow, mul_comm (r ^ j)]
    refine le_trans ?_ h1
    rw [le_div_iff₀ ha0, mul_assoc]
    have h2 : (1 - m) * (1 + u) ^ j ≤ 1 := by
      calc (1 - m) * (1 + u) ^ j ≤ (1 - u) ^ n * (1 + u) ^ n :=
            mul_le_mul a2 a1 ha0.le (pow_nonneg (by linarith) _)
        _ ≤ 1 := by rw [mul_comm]; exact a3
    exact mul_le_of_le_one_right hw0 h2
  rw [← hw]
  clear hw hplo hpup hk a1 a2 a3 hb1 hb0 ha0
  have hmu := mul_nonneg hm0 hu
  have hmm := mul_nonneg hm0 hm0
  have hmu2 : m * u ≤ m * (1 / 1024) := mul_le_mul_of_nonneg_left hu1 hm0
  have hmm2 : m * m ≤ m * (1 / 1024) := mul_le_mul_of_nonneg_left hm1 hm0
  constructor
  · have h5 : (1 - u) * (w * (1 - m)) ≤ (1 - u) * (d / p) :=
      mul_le_mul_of_nonneg_left hdn (by linarith)
    have h6 : 1 - 4 * (m + u) ≤ (1 - u) * (1 - m) := by nlinarith
    have h7 := mul_le_mul_of_nonneg_left h6 hw0
    linarith
  · have h5 : (1 + u) * (d / p) ≤ (1 + u) * (w / (1 - m)) :=
      mul_le_mul_of_nonneg_left hup (by linarith)
    have h6 : (1 + u) * (w / (1 - m)) ≤ w + 4 * (m + u) * w := by
      rw [← mul_div_assoc, div_le_iff₀ (by linarith)]
      have h7 : 1 + u ≤ (1 + 4 * (m + u)) * (1 - m) := by nlinarith
      have h8 := mul_le_mul_of_nonneg_left h7 hw0
      linarith
    linarith

/-- The digits after the radix character added to a number of either sign. -/
theorem appendDigits_signed {rnd : ℚ → ℚ} {u lo hi c B : ℚ} {r n : Nat} (hu : 0 ≤ u)
    (hnu : (n + 1) * u ≤ 1 / 1024) (h2 : 2 ≤ r)
    (hr : ∀ q, q = 0 ∨ (lo ≤ q ∧ q ≤ hi) → (1 - u) * q ≤ rnd q ∧ rnd q ≤ (1 + u) * q)
    (hlo : lo * ((1 + u) * r) ^ n ≤ 1) (hlo0 : 0 ≤ lo) (hhi : r * ((1 + u) * r) ^ n ≤ hi)
    (hc : ∀ q, |q| ≤ B → |rnd q - q| ≤ c) (hc0 : 0 ≤ c) :
    ∀ (fs : List Nat), (∀ d ∈ fs, d < r) → ∀ (j : Nat) (root out A : ℚ), j + fs.length ≤ n →
      ((1 - u) * r) ^ j ≤ root → root ≤ ((1 + u) * r) ^ j → |out| ≤ A →
      A + (1 + 4 * ((n + 1) * u)) * (Spec.fraction r fs / (r : ℚ) ^ j) + fs.length * c ≤ B →
      ∃ st, fs.foldlM (fun st (d : Nat) => appendDigit rnd r st d) (root, out) = .ok st
        ∧ |st.2 - (out + Spec.fraction r fs / (r : ℚ) ^ j)|
          ≤ fs.length * c + 4 * ((n + 1) * u) * (Spec.fraction r fs / (r : ℚ) ^ j) := by
  have hr0 : 0 < r := by omega
  have hrq : (2 : ℚ) ≤ r := by exact_mod_cast h2
  have hn0 : (0 : ℚ) ≤ n := by positivity
  have hn1 : 0 ≤ n * u := by positivity
  have hu1 : u ≤ 1 / 1024 := by nlinarith
  obtain ⟨a1, a2, a3⟩ := near_one hu hnu
  intro fs
  induction fs with
  | nil =>
    intro _ j root out A _ _ _ _ _
    refine ⟨_, rfl, ?_⟩
    simp [Spec.fraction_nil]
  | cons d fs ih =>
    intro hd j root out A hj h3 h4 hA hB
    have hd' := hd d (by simp)
    have hrest : ∀ x ∈ fs, x < r := fun x hx => hd x (by simp [hx])
    rw [List.length_cons] at hj hB
    obtain ⟨c0, c1⟩ := fraction_bounds hr0 fs hrest
    have hk : (0 : ℚ) < (r : ℚ) ^ j := by positivity
    have hk1 : (0 : ℚ) < (r : ℚ) ^ (j + 1) := by positivity
    have hsplit : Spec.fraction r (d :: fs) / (r : ℚ) ^ j
        = d / (r : ℚ) ^ (j + 1) + Spec.fraction r fs / (r : ℚ) ^ (j + 1) := by
      rw [Spec.fraction_cons hr0, pow_succ]
      field_simp
    rw [hsplit] at hB ⊢
    have hone : (1 : ℚ) ≤ (1 - u) * r := by nlinarith
    have hroot1 : 1 ≤ root := (one_le_pow₀ hone).trans h3
    have hX : (1 : ℚ) ≤ (1 + u) * r := by nlinarith
    have hXn : (1 : ℚ) ≤ ((1 + u) * r) ^ n := one_le_pow₀ hX
    have hlo1 : lo ≤ 1 := (le_mul_of_one_le_right hlo0 hXn).trans hlo
    -- the place value
    obtain ⟨p, hp⟩ : ∃ p, p = rnd (root * r) := ⟨_, rfl⟩
    have hrr : lo ≤ root * r ∧ root * r ≤ hi := by
      constructor
      · exact hlo1.trans (one_le_mul_of_one_le_of_one_le hroot1 (by linarith))
      · calc root * r ≤ ((1 + u) * r) ^ j * r := mul_le_mul_of_nonneg_right h4 (by linarith)
          _ ≤ ((1 + u) * r) ^ n * r :=
            mul_le_mul_of_nonneg_right (pow_le_pow_right₀ hX (by omega)) (by linarith)
          _ ≤ hi := by rw [mul_comm]; exact hhi
    obtain ⟨p1, p2⟩ := hr _ (.inr hrr)
    rw [← hp] at p1 p2
    have hplo : ((1 - u) * r) ^ (j + 1) ≤ p := by
      rw [pow_succ]
      calc ((1 - u) * r) ^ j * ((1 - u) * r) ≤ root * ((1 - u) * r) :=
            mul_le_mul_of_nonneg_right h3 (by linarith)
        _ = (1 - u) * (root * r) := by ring
        _ ≤ p := p1
    have hpup : p ≤ ((1 + u) * r) ^ (j + 1) := by
      rw [pow_succ]
      calc p ≤ (1 + u) * (root * r) := p2
        _ = root * ((1 + u) * r) := by ring
        _ ≤ ((1 + u) * r) ^ j * ((1 + u) * r) := mul_le_mul_of_nonneg_right h4 (by linarith)
    have hp0 : 1 ≤ p := (one_le_pow₀ hone).trans hplo
    -- the digit
    obtain ⟨t, ht⟩ : ∃ t, t = rnd ((d : ℚ) / p) := ⟨_, rfl⟩
    have hdr : (d : ℚ) ≤ r := by exact_mod_cast hd'.le
    have hdp : (d : ℚ) / p = 0 ∨ (lo ≤ (d : ℚ) / p ∧ (d : ℚ) / p ≤ hi) := by
      rcases Nat.eq_zero_or_pos d with rfl | hpos
      · left; simp
      · right
        have hd1 : (1 : ℚ) ≤ d := by exact_mod_cast hpos
        constructor
        · rw [le_div_iff₀ (by linarith)]
          have : lo * p ≤ lo * ((1 + u) * r) ^ n := mul_le_mul_of_nonneg_left
            (hpup.trans (pow_le_pow_right₀ hX (by omega))) hlo0
          linarith
        · rw [div_le_iff₀ (by linarith)]
          have h5 : (r : ℚ) ≤ hi := (le_mul_of_one_le_right (by linarith) hXn).trans hhi
          exact (hdr.trans h5).trans (le_mul_of_one_le_right (by linarith) hp0)
    obtain ⟨t1, t2⟩ := hr _ hdp
    rw [← ht] at t1 t2
    obtain ⟨w, hw⟩ : ∃ w : ℚ, w = d / (r : ℚ) ^ (j + 1) := ⟨_, rfl⟩
    have hw0 : 0 ≤ w := by rw [hw]; positivity
    obtain ⟨E, hE⟩ : ∃ E : ℚ, E = 4 * ((n + 1) * u) := ⟨_, rfl⟩
    rw [← hE] at hB ih ⊢
    rw [← hw] at hB ⊢
    have hb0 : (0 : ℚ) < (1 - u) ^ (j + 1) := pow_pos (by linarith) _
    have hb1 : 1 - n * u ≤ (1 - u) ^ (j + 1) :=
      a1.trans (pow_le_pow_of_le_one (by linarith) (by linarith) (by omega))
    have ha0 : (0 : ℚ) < (1 + u) ^ (j + 1) := by positivity
    have ha1 : (1 + u) ^ (j + 1) ≤ (1 + u) ^ n := pow_le_pow_right₀ (by linarith) (by omega)
    obtain ⟨m, hm⟩ : ∃ m : ℚ, m = n * u := ⟨_, rfl⟩
    have hE' : E = 4 * (m + u) := by rw [hE, hm]; ring
    rw [← hm] at hb1 hn1 a1
    have hm1 : m ≤ 1 / 1024 := by rw [hm]; linarith
    obtain ⟨htdn, htup⟩ := digit_near hu hu1 hn1 hm1 hb1 (a1 := ha1) a1 a3 (by linarith) hplo hpup
      hk1 (Nat.cast_nonneg d) t1 t2 hb0
    rw [← hw, ← hE'] at htdn htup
    have hE0 : 0 ≤ E := by rw [hE']; linarith
    have hE1 : E ≤ 1 := by linarith
    have hEw : E * w ≤ 1 * w := mul_le_mul_of_nonneg_right hE1 hw0
    have ht0 : 0 ≤ t := by linarith
    -- the sum
    have hfs0 : 0 ≤ Spec.fraction r fs / (r : ℚ) ^ (j + 1) := div_nonneg c0 hk1.le
    push_cast at hB ⊢
    have hlc : 0 ≤ (fs.length : ℚ) * c := by positivity
    obtain ⟨A1, A2⟩ := abs_le.mp hA
    have hsum : |out + t| ≤ A + (w + E * w) := abs_le.mpr ⟨by linarith, by linarith⟩
    have hef : 0 ≤ E * (Spec.fraction r fs / (r : ℚ) ^ (j + 1)) := mul_nonneg hE0 hfs0
    rw [show (1 + E) * (w + Spec.fraction r fs / (r : ℚ) ^ (j + 1)) = w + E * w
      + Spec.fraction r fs / (r : ℚ) ^ (j + 1) + E * (Spec.fraction r fs / (r : ℚ) ^ (j + 1)) by ring,
      show ((fs.length : ℚ) + 1) * c = fs.length * c + c by ring] at hB
    have hs := hc (out + t) (by linarith)
    obtain ⟨s1, s2⟩ := abs_le.mp hs
    obtain ⟨o', ho⟩ : ∃ o', o' = rnd (out + t) := ⟨_, rfl⟩
    rw [← ho] at s1 s2
    obtain ⟨S1, S2⟩ := abs_le.mp hsum
    obtain ⟨st, e1, e2⟩ := ih hrest (j + 1) p o' (A + (w + E * w) + c) (by omega) hplo hpup
      (abs_le.mpr ⟨by linarith, by linarith⟩) (by
        rw [add_mul, one_mul]
        linarith)
    refine ⟨st, ?_, ?_⟩
    · have hstep : appendDigit rnd r (root, out) (d : Int) = .ok (p, o') := by
        simp only [appendDigit, ← hp]
        rw [if_neg (by intro h; rw [h] at hp0; norm_num at hp0), Int.cast_natCast, ← ht, ← ho]
      rw [List.foldlM_cons, hstep, Outcome.ok_bind, e1]
    · obtain ⟨g1, g2⟩ := abs_le.mp e2
      rw [List.length_cons, Nat.cast_add, Nat.cast_one,
        show ((fs.length : ℚ) + 1) * c = fs.length * c + c by ring, mul_add E]
      exact abs_le.mpr ⟨by linarith, by linarith⟩

/-- The numeral of a negative number with a fraction part: the integral part is that of the next
integer below, the places are those of the absolute value. -/
theorem negative_numeral (e : Enc) {F : Spec.BinFmt} {rnd : ℚ → ℚ} {f : FloatFormat} {x : ℚ} {k : Nat}
    (hF : F.Std) (hn : F.Nearest rnd) (hf : f.Valid) (hlim : f.placeLimit = .none)
    (heven : f.radix % 2 = 0) (hx : F.Has x) (hk : (k : Int) + F.prec ≤ 1 - F.emin)
    (hxk : Spec.BinaryPlaces k x) (hll : llong.Has ⌊x⌋) (hmin : ⌊x⌋ ≠ llong.min) (hneg : x < 0)
    (hxi : ¬ ∃ z : Int, x = z) :
    ∃ cs ds fs, FormatsTo e rnd x f cs
      ∧ Spec.RealNumeral f.radix f.separator.char (f.sign = .alwaysShow) f.radixCharacter.char
        f.separator.char cs true ds fs
      ∧ (ds.head? = some 0 → ds = [0]) ∧ Spec.positional f.radix ds = ⌊x⌋.natAbs
      ∧ |Spec.fraction f.radix fs - Int.fract (|x|)|
        ≤ Int.fract (|x|) * ((1 + 1 / 2 ^ F.prec) ^ k - 1)
      ∧ fs.length ≤ k := by
  obtain ⟨hf2, h36⟩ := hf
  have hprec := hF.prec_ge
  have hxa : Spec.BinaryPlaces k |x| := by
    obtain ⟨z, hz⟩ := hxk
    rcases abs_choice x with h | h <;> rw [h]
    · exact ⟨z, hz⟩
    · exact ⟨-z, by rw [hz]; push_cast; ring⟩
  obtain ⟨ds, e1, hp, hd, hne, hz⟩ := formatInteger_eq e (T := .llong)
    (f := ⟨f.radix, f.sign, f.separator⟩) (by decide) hf2 h36 hll (fun _ => hmin)
  have hmake : IntegerFormat.make f.radix f.sign f.separator
      = .ok ⟨f.radix, f.sign, f.separator⟩ := by
    rw [IntegerFormat.make, if_neg (by simp; omega)]
  have hfl : floorToLongLong x = .ok ⌊x⌋ := by rw [floorToLongLong, if_pos hll]
  have habs : (if x < 0 then -x else x) = |x| := by rw [if_pos hneg, abs_of_neg hneg]
  have hfh : F.Has (Int.fract |x|) := hx.abs.fract hF (abs_nonneg x)
  have hfract : rnd (|x| - ((⌊|x|⌋ : Int) : ℚ)) = Int.fract |x| := hn.exact hfh
  have hzero : ¬ Int.fract |x| = 0 := by
    intro h
    have h1 := Int.floor_add_fract |x|
    rw [h, add_zero, abs_of_neg hneg] at h1
    exact hxi ⟨-⌊-x⌋, by push_cast; linarith⟩
  have hfl0 : ⌊x⌋ < 0 := by
    rw [Int.floor_lt]
    exact_mod_cast hneg
  obtain ⟨fs, hfs, -, herr, hlen, hrun⟩ := formatFractionLoop_even e hF hn hf2 h36
    heven hlim k (by omega) _ hfh (Int.fract_nonneg _)
    (Int.fract_lt_one _) (Spec.BinFmt.BinaryPlaces.fract hxa) 0
  have hrcIns := appendCP_enc e f.radixCharacter.char
    (insOk_ascii e (by cases f.radixCharacter <;> decide))
  have hnum := realNumeral_of_format f h36 ⌊x⌋ ds fs hne hd hfs 0
  rw [show fs ++ List.replicate 0 0 = fs by simp, decide_eq_true hfl0] at hnum
  refine ⟨_, ds, fs, ⟨k + 1, _, textOf_ascii e _ (realText_ascii f h36 ⌊x⌋ ds fs hd hfs 0), ?_⟩,
    hnum, hz, hp, herr hk, hlen⟩
  intro fuel hfuel
  simp only [formatFloat, hmake, hfl, e1, Outcome.ok_bind, habs, hfract]
  rw [if_neg hzero, hrun fuel hfuel]
  simp only [Outcome.ok_bind]
  rw [if_neg (by rw [hlim]; simp)]
  simp only [Outcome.ok_bind, hrcIns]
  simp

/-- What becomes of a negative number `x` with a fraction part: the number `y` that comes back is the
next integer below plus the fraction part of the absolute value, up to rounding.  It is off by twice
that fraction part less one, so nearly right only if the fraction part is nearly one half. -/
def TurnedBack (F : Spec.BinFmt) (k : Nat) (x y : ℚ) : Prop :=
  |(y - x) - (2 * Int.fract (|x|) - 1)| ≤ 16 * (|x| + 1) * ((k + 1) / 2 ^ F.prec)

/-- A negative number that is not an integer, with at most `k` binary places. -/
def Negative (F : Spec.BinFmt) (k : Nat) (x : ℚ) : Prop :=
  F.Has x ∧ x < 0 ∧ (¬ ∃ z : Int, x = z) ∧ Spec.BinaryPlaces k x

theorem negative_floor {F : Spec.BinFmt} {k : Nat} {x : ℚ} (hF : F.Std) (hx : Negative F k x) :
    llong.Has ⌊x⌋ ∧ ⌊x⌋ ≠ llong.min ∧ ((⌊x⌋.natAbs : Nat) : ℚ) ≤ |x| + 1
      ∧ ((⌊x⌋.natAbs : Nat) : ℚ) ≤ 2 ^ F.prec + 1 ∧ ((⌊x⌋.natAbs : Nat) : ℚ) = -(⌊x⌋ : ℚ)
      ∧ (⌊x⌋ : ℚ) = x + Int.fract (|x|) - 1 := by
  obtain ⟨h1, h2, h3, h4⟩ := hx
  have hsm := Spec.BinFmt.Has.small_of_not_int h1 h3
  have hprec53 : F.prec ≤ 53 := by rcases hF with rfl | rfl <;> decide
  have hmx : llong.max = 9223372036854775807 := by decide
  have hmn : llong.min = -9223372036854775808 := by decide
  have hp : (2 : ℚ) ^ F.prec ≤ 2 ^ 53 := pow_le_pow_right₀ (by norm_num) hprec53
  have hab : |x| = -x := abs_of_neg h2
  have f1 := Int.floor_le x
  have f2 := Int.lt_floor_add_one x
  have hneg : ⌊x⌋ < 0 := by rw [Int.floor_lt]; exact_mod_cast h2
  have hna : ((⌊x⌋.natAbs : Nat) : ℚ) = -(⌊x⌋ : ℚ) := by
    have : ((⌊x⌋.natAbs : Nat) : Int) = -⌊x⌋ := by omega
    have h5 : (((⌊x⌋.natAbs : Nat) : Int) : ℚ) = ((-⌊x⌋ : Int) : ℚ) := by rw [this]
    rw [Int.cast_natCast] at h5
    rw [h5]
    push_cast
    ring
  have hlow : -9223372036854775808 < ⌊x⌋ := by
    have h6 : ((-9223372036854775808 : Int) : ℚ) < (⌊x⌋ : ℚ) := by
      push_cast
      have : (2 : ℚ) ^ 53 + 1 < 9223372036854775808 := by norm_num
      linarith
    exact_mod_cast h6
  refine ⟨⟨by rw [hmn]; omega, by rw [hmx]; omega⟩, by rw [hmn]; omega, by rw [hna]; linarith,
    by rw [hna]; linarith, hna, ?_⟩
  have hfr : Int.fract x ≠ 0 := by
    intro h
    rw [Int.fract_eq_iff] at h
    obtain ⟨_, _, z, hz⟩ := h
    exact h3 ⟨z, by linarith⟩
  rw [hab, Int.fract_neg hfr]
  have := Int.floor_add_fract x
  linarith

theorem turned_bound {u k l c M a fx fr P y s z x : ℚ} (hu : 0 ≤ u) (hk : 0 ≤ k) (hl : l ≤ k)
    (hc : c = u * (2 * M + 5)) (hM : M ≤ a + 1) (hc0 : 0 ≤ c) (h1 : fx ≤ 1)
    (h3 : fr ≤ 1) (hP : 1 ≤ P) (hP2 : P ≤ 1 + 9 / 8 * (k * u))
    (he : |fr - fx| ≤ fx * (P - 1)) (hs : |s - z| ≤ c)
    (hy : |y - (s + fr)| ≤ l * c + 4 * ((k + 1) * u) * fr) (hz : z = x + fx - 1) (ha : 0 ≤ a) :
    |(y - x) - (2 * fx - 1)| ≤ 16 * (a + 1) * ((k + 1) * u) := by
  obtain ⟨E, hE⟩ : ∃ E : ℚ, E = (k + 1) * u := ⟨_, rfl⟩
  have hE0 : 0 ≤ E := by rw [hE]; positivity
  have g1 : fx * (P - 1) ≤ 1 * (9 / 8 * (k * u)) :=
    mul_le_mul h1 (by linarith) (by linarith) (by norm_num)
  have g2 : 4 * E * fr ≤ 4 * E * 1 := mul_le_mul_of_nonneg_left h3 (by linarith)
  have g3 : (k + 1) * c ≤ E * (2 * a + 7) := by
    rw [hc, hE, ← mul_assoc]
    exact mul_le_mul_of_nonneg_left (by linarith) (by positivity)
  have g4 : l * c ≤ k * c := mul_le_mul_of_nonneg_right hl hc0
  have hEx := mul_nonneg hE0 ha
  have hkE : k * u ≤ E := by rw [hE]; linarith
  rw [← hE] at hy ⊢
  clear hE hc hP hP2 hM h1 h3 hk hl
  obtain ⟨d1, d2⟩ := abs_le.mp hy
  obtain ⟨d3, d4⟩ := abs_le.mp he
  obtain ⟨d5, d6⟩ := abs_le.mp hs
  have e1 : (k + 1) * c = k * c + c := by ring
  have e2 : E * (2 * a + 7) = 2 * (E * a) + 7 * E := by ring
  have e3 : 16 * (a + 1) * E = 16 * (E * a) + 16 * E := by ring
  rw [e1, e2] at g3
  rw [e3]
  exact abs_le.mpr ⟨by linarith, by linarith⟩

theorem signed_room {u lo hi : ℚ} {r k : Nat} (hu0 : 0 ≤ u) (hu1 : u ≤ 1 / 1024) (hr2 : (2 : ℚ) ≤ r)
    (r1 : lo ≤ ((1 - u) / ((1 + u) * r)) ^ (k + 1))
    (r2 : (0 + r : ℚ) * ((1 + u) / (1 - u) * r) ^ (k + 1) ≤ hi) :
    lo * ((1 + u) * r) ^ k ≤ 1 ∧ r * ((1 + u) * (r : ℚ)) ^ k ≤ hi := by
  have hrad : (0 : ℚ) < (1 + u) * r := mul_pos (by linarith) (by linarith)
  constructor
  · rw [← le_div_iff₀ (pow_pos hrad k)]
    refine r1.trans ?_
    rw [pow_succ, div_pow]
    have h1 : (1 - u) ^ k / ((1 + u) * r) ^ k ≤ 1 / ((1 + u) * r) ^ k :=
      div_le_div_of_nonneg_right (pow_le_one₀ (by linarith) (by linarith)) (pow_pos hrad k).le
    have h2 : (1 - u) / ((1 + u) * r) ≤ 1 := by
      rw [div_le_one hrad]
      nlinarith
    have h3 : 0 ≤ (1 - u) / ((1 + u) * r) := div_nonneg (by linarith) hrad.le
    have h4 : 0 ≤ (1 : ℚ) / ((1 + u) * r) ^ k := by positivity
    calc _ ≤ 1 / ((1 + u) * (r : ℚ)) ^ k * 1 := mul_le_mul h1 h2 h3 h4
      _ = _ := mul_one _
  · refine le_trans ?_ r2
    rw [zero_add, pow_succ]
    have h0 : 1 + u ≤ (1 + u) / (1 - u) := by
      rw [le_div_iff₀ (by linarith)]
      nlinarith
    have h1 : ((1 + u) * (r : ℚ)) ≤ (1 + u) / (1 - u) * r :=
      mul_le_mul_of_nonneg_right h0 (by linarith)
    have h2 : ((1 + u) * (r : ℚ)) ^ k ≤ ((1 + u) / (1 - u) * r) ^ k :=
      pow_le_pow_left₀ hrad.le h1 k
    have h3 : 1 ≤ (1 + u) / (1 - u) * r := le_trans (by nlinarith) h1
    exact mul_le_mul_of_nonneg_left (h2.trans (le_mul_of_one_le_right
      ((pow_pos hrad k).le.trans h2) h3)) (by linarith)

/-- The numeral of a negative number is read as its integral part plus its fraction part, up to rounding. -/
theorem negative_read {e : Enc} {F : Spec.BinFmt} {rnd : ℚ → ℚ} {f : FloatFormat} {x : ℚ} {k k' : Nat}
    (hF : F.Std) (hn : F.Nearest rnd) (hf : f.Valid)
    (hsep : f.separator = .none) (hfit : PlacesFit F f.radix k) (hx : Negative F k' x)
    {s : Str e} {t : List Nat} {ds fs : List Nat} (hs : TextOf e s t)
    (hnum : Spec.RealNumeral f.radix f.separator.char (f.sign = .alwaysShow) f.radixCharacter.char
      f.separator.char t true ds fs) (hd : ds.head? = some 0 → ds = [0])
    (hp : Spec.positional f.radix ds = ⌊x⌋.natAbs)
    (hl : fs.length ≤ k)
    (hlim : fs = [] → f.placeLimit = .none ∨ f.placeCount = 0 ∨ f.radixCharacter.char ∉ t) :
    ∃ y c M s' : ℚ, parseFloat e rnd s f = .ok y ∧ c = 1 / 2 ^ F.prec * (2 * M + 5) ∧ M ≤ |x| + 1 ∧ 0 ≤ c
      ∧ |s' - ⌊x⌋| ≤ c
      ∧ |y - (s' + Spec.fraction f.radix fs)|
        ≤ fs.length * c + 4 * ((k + 1) * (1 / 2 ^ F.prec)) * Spec.fraction f.radix fs := by
  obtain ⟨g1, g2, g3, g4, g5, g6⟩ := negative_floor hF hx
  obtain ⟨u, hu⟩ : ∃ u : ℚ, u = 1 / 2 ^ F.prec := ⟨_, rfl⟩
  have hu0 : 0 ≤ u := by rw [hu]; positivity
  obtain ⟨hke, hku, r1, r2⟩ := trip_room hF hf.1 (le_refl k) hfit (V := 0) (by positivity)
  rw [← hu] at hku r1 r2
  have hk0 : (0 : ℚ) ≤ k := by positivity
  have hu1 : u ≤ 1 / 1024 := by nlinarith
  have hku1 : k * u ≤ 1 / 1024 := by linarith
  have hku0 : 0 ≤ k * u := by positivity
  obtain ⟨b1, b2, b3⟩ := near_one hu0 hku
  have hfd : ∀ d ∈ fs, d < f.radix := by obtain ⟨_, _, hfd, _⟩ := hnum; exact hfd
  have hr2 : (2 : ℚ) ≤ f.radix := by exact_mod_cast hf.1
  have hfr := fraction_bounds (by have := hf.1; omega) fs hfd
  have hmx : llong.max = 9223372036854775807 := by decide
  have hne : ds ≠ [] := by
    obtain ⟨_, ⟨_, _, _, ⟨h, _⟩, _⟩, _⟩ := hnum
    exact h
  have hpos : ((Spec.positional f.radix ds : Nat) : Int) ≤ llong.max := by
    have h1 := g1.1
    have hmn : llong.min = -9223372036854775808 := by decide
    rw [hmn] at h1 g2
    have : ⌊x⌋ < 0 := by rw [Int.floor_lt]; exact_mod_cast hx.2.1
    rw [hp, hmx]
    omega
  have hplace : ((f.radix ^ (ds.length - 1) : Nat) : Int) ≤ llong.max := by
    by_cases h0 : ds.head? = some 0
    · rw [hd h0, hmx]
      simp
    · have := place_le (r := f.radix) ds hne h0
      omega
  have hsepc : f.separator.char = none := by rw [hsep]; rfl
  have hnum' : Spec.RealNumeral f.radix f.separator.char (f.sign = .alwaysShow)
      f.radixCharacter.char none t true ds fs := by rwa [hsepc] at hnum ⊢
  rw [parseFloat_text e rnd f s t true ds fs hf hs hnum' (by rw [hsepc]; simp) hlim
    hpos hplace]
  have hden : ((Spec.denote f.radix true ds : Int) : ℚ) = (⌊x⌋ : ℚ) := by
    rw [Spec.denote, if_pos rfl, Int.cast_neg, Int.cast_natCast, hp, g5]
    ring
  rw [hden]
  obtain ⟨M, hM⟩ : ∃ M : ℚ, M = ((⌊x⌋.natAbs : Nat) : ℚ) := ⟨_, rfl⟩
  have hM0 : 0 ≤ M := by rw [hM]; positivity
  rw [← hM] at g3 g4 g5
  have hroom : 2 * M + 5 ≤ 2 ^ (F.emax - 2) := by
    have h1 : F.prec + 2 ≤ F.emax - 2 := by rcases hF with rfl | rfl <;> decide
    have h2 : (2 : ℚ) ^ (F.prec + 2) ≤ 2 ^ (F.emax - 2) := pow_le_pow_right₀ (by norm_num) h1
    have h3 : (2 : ℚ) ^ 4 ≤ 2 ^ F.prec :=
      pow_le_pow_right₀ (by norm_num) (by have := hF.prec_ge; omega)
    rw [pow_add] at h2
    linarith
  have hc : ∀ q, |q| ≤ 2 * M + 5 → |rnd q - q| ≤ u * (2 * M + 5) := by
    intro q hq
    rw [hu]
    exact Spec.BinFmt.Nearest.plain hF hn hq (by linarith) hroom
  obtain ⟨c, hc'⟩ : ∃ c, c = u * (2 * M + 5) := ⟨_, rfl⟩
  rw [← hc'] at hc
  have hc0 : 0 ≤ c := by rw [hc']; positivity
  have hkc : (k + 1) * c ≤ 1 / 1024 * (2 * M + 5) := by
    rw [hc', ← mul_assoc]
    exact mul_le_mul_of_nonneg_right hku (by linarith)
  have hstart := hc ⌊x⌋ (by rw [abs_of_nonpos (by linarith)]; linarith)
  obtain ⟨s1, s2⟩ := abs_le.mp hstart
  have hlq : (fs.length : ℚ) ≤ k := by exact_mod_cast hl
  have hlc : fs.length * c ≤ k * c := mul_le_mul_of_nonneg_right hlq hc0
  have hr := hn.rounding hF
  obtain ⟨q1, q2⟩ := signed_room hu0 hu1 hr2 r1 r2
  obtain ⟨st, e1, e2⟩ := appendDigits_signed (c := c) (B := 2 * M + 5) hu0 hku hf.1
    (lo := 2 ^ (F.emin + F.prec - 1)) (hi := 2 ^ (F.emax - 1)) (rnd := rnd) (by
      rintro q (rfl | ⟨h1, h2⟩)
      · rw [hn.exact (Spec.BinFmt.has_zero hF)]
        simp
      · rw [hu]
        exact hr.2 q h1 h2) q1 (zpow_pos (by norm_num) _).le q2
    hc hc0 fs hfd 0 1 (rnd ⌊x⌋) (M + c) (by omega) (by simp) (by simp)
    (abs_le.mpr ⟨by linarith, by linarith⟩) (by
      rw [pow_zero, div_one]
      have : (1 + 4 * ((k + 1) * u)) * Spec.fraction f.radix fs ≤ 2 * 1 :=
        mul_le_mul (by linarith) hfr.2.le hfr.1 (by norm_num)
      linarith)
  rw [pow_zero, div_one] at e2
  rw [← hu]
  exact ⟨st.2, c, M, rnd ⌊x⌋, by rw [e1]; rfl, hc', g3, hc0, hstart, e2⟩

theorem negative_parsed {e : Enc} {F : Spec.BinFmt} {rnd : ℚ → ℚ} {f : FloatFormat} {x : ℚ} {k : Nat}
    (hF : F.Std) (hn : F.Nearest rnd) (hf : f.Valid) (hlim : f.placeLimit = .none)
    (hsep : f.separator = .none) (hfit : PlacesFit F f.radix k) (hx : Negative F k x)
    {s : Str e} {t : List Nat} {ds fs : List Nat} (hs : TextOf e s t)
    (hnum : Spec.RealNumeral f.radix f.separator.char (f.sign = .alwaysShow) f.radixCharacter.char
      f.separator.char t true ds fs) (hd : ds.head? = some 0 → ds = [0])
    (hp : Spec.positional f.radix ds = ⌊x⌋.natAbs)
    (herr : |Spec.fraction f.radix fs - Int.fract (|x|)|
        ≤ Int.fract (|x|) * ((1 + 1 / 2 ^ F.prec) ^ k - 1))
    (hl : fs.length ≤ k) :
    ∃ y, parseFloat e rnd s f = .ok y ∧ TurnedBack F k x y := by
  obtain ⟨g1, g2, g3, g4, g5, g6⟩ := negative_floor hF hx
  obtain ⟨y, c, M, s', e1, hc, hM, hc0, hstart, e2⟩ :=
    negative_read hF hn hf hsep hfit hx hs hnum hd hp hl (fun _ => .inl hlim)
  obtain ⟨-, hku, -, -⟩ := trip_room hF hf.1 (le_refl k) hfit (V := 0) (by positivity)
  obtain ⟨b1, b2, b3⟩ := near_one (by positivity) hku
  have hfd : ∀ d ∈ fs, d < f.radix := by obtain ⟨_, _, hfd, _⟩ := hnum; exact hfd
  have hfr := fraction_bounds (by have := hf.1; omega) fs hfd
  refine ⟨y, e1, ?_⟩
  unfold TurnedBack
  rw [show (k + 1 : ℚ) / 2 ^ F.prec = (k + 1) * (1 / 2 ^ F.prec) by ring]
  refine turned_bound (by positivity) (by positivity) (by exact_mod_cast hl) hc hM hc0 (Int.fract_lt_one _).le
    hfr.2.le (one_le_pow₀ (by simp)) b2 herr hstart e2 ?_ (abs_nonneg x)
  linarith

/-- C107 for negative numbers with a fraction part, in the formats of `C107_partial`: what comes back
is off by twice the fraction part of the absolute value less one. -/
theorem C107_negative (e : Enc) (F : Spec.BinFmt) (rnd : ℚ → ℚ) (f : FloatFormat) (x : ℚ) (k : Nat)
    (hF : F.Std) (hn : F.Nearest rnd) (hf : f.Valid) (hlim : f.placeLimit = .none)
    (heven : f.radix % 2 = 0) (hsep : f.separator = .none) (hfit : PlacesFit F f.radix k)
    (hx : Negative F k x) :
    ∃ N s y, (∀ fuel ≥ N, formatFloat e rnd fuel x f = .ok s) ∧ parseFloat e rnd s f = .ok y
      ∧ TurnedBack F k x y := by
  obtain ⟨hke, -⟩ := trip_room hF hf.1 (le_refl k) hfit (V := 0) (by positivity)
  obtain ⟨g1, g2, -⟩ := negative_floor hF hx
  obtain ⟨cs, ds, fs, ⟨N, s, hs, hrun⟩, hnum, hd, hp, herr, hl⟩ :=
    negative_numeral e hF hn hf hlim heven hx.1 hke hx.2.2.2 g1 g2 hx.2.1 hx.2.2.1
  obtain ⟨y, e1, e2⟩ := negative_parsed hF hn hf hlim hsep hfit hx hs hnum hd hp herr hl
  exact ⟨N, s, y, hrun, e1, e2⟩

/-- The number -1.25 meets the hypotheses and comes back one half smaller. -/
example : Negative Spec.binary64 2 (-5 / 4) ∧ PlacesFit Spec.binary64 10 2
    ∧ 2 * Int.fract (|(-5 / 4 : ℚ)|) - 1 = -1 / 2 := by
  have h1 : Int.fract (|(-5 / 4 : ℚ)|) = 1 / 4 := by
    rw [show |(-5 / 4 : ℚ)| = 5 / 4 by norm_num [abs_of_neg], Int.fract_eq_iff]
    exact ⟨by norm_num, by norm_num, 1, by norm_num⟩
  refine ⟨⟨⟨-5, -2, by norm_num [Spec.binary64], by norm_num [Spec.binary64], by norm_num⟩,
    by norm_num, ?_, ⟨-5, by norm_num⟩⟩, by unfold PlacesFit; decide +kernel, by rw [h1]; norm_num⟩
  rintro ⟨z, hz⟩
  have : (-5 : ℚ) = ((4 * z : Int) : ℚ) := by push_cast; linarith
  have : (-5 : Int) = 4 * z := by exact_mod_cast this
  omega

/-! ### C78 -/

/-- What comes back of a number, for both kinds of number. -/
def CameBack (F : Spec.BinFmt) (k : Nat) (x y : ℚ) : Prop :=
  (Storable F k x → NearlyBack F k x y) ∧ (Negative F k x → TurnedBack F k x y)

section Real

variable {ρ : Type} {W : Writer ρ} {fits : List Byte → Prop} {got out : List Byte → ρ → Prop}
  {ρ' : Type} {R : Reader ρ'}

open InStream OutStream

/-- The text of a number of either kind. -/
theorem number_text (C : W.Collects fits got out) (native : Endian) (form : EncodingForm)
    {F : Spec.BinFmt} {rnd : ℚ → ℚ} {x : ℚ} {k : Nat} (hF : F.Std) (hn : F.Nearest rnd)
    (hfit : PlacesFit F 10 k) (hx : Storable F k x ∨ Negative F k x) :
    ∃ N, ∀ places ≥ N, ∃ t, HasForm fits got R native form (writeFloat native W rnd places x)
      (fun fuel => readFloat native R rnd fuel) (CameBack F k x) t := by
  have hex : Storable F k x → Negative F k x → False := fun h1 h2 => by
    rcases h1.2.2.2.1 with h | h
    · exact absurd h2.2.1 (not_lt.mpr h)
    · exact h2.2.2.1 h
  have hv : FloatFormat.default.Valid := ⟨by decide, by decide⟩
  have key : ∃ t N neg ds fs,
      (∃ s, TextOf (formatEnc form) s t ∧ ∀ fuel ≥ N, formatFloat (formatEnc form) rnd fuel x .default
        = .ok s)
      ∧ Spec.RealNumeral 10 FloatFormat.default.separator.char
        (FloatFormat.default.sign = .alwaysShow) FloatFormat.default.radixCharacter.char
        FloatFormat.default.separator.char t neg ds fs
      ∧ ∀ s, TextOf .char8 s t → ∃ y, parseFloat .char8 rnd s .default = .ok y ∧ CameBack F k x y := by
    rcases hx with hx | hx
    · obtain ⟨t, neg, ds, fs, ⟨N, s, hs, hf⟩, hnum, hd, hv', hl, hint, hnon⟩ :=
        stored_numeral (formatEnc form) (f := .default) hF hn hv rfl (by decide) hfit hx
      refine ⟨t, N, neg, ds, fs, ⟨s, hs, hf⟩, hnum, fun s' hs' => ?_⟩
      obtain ⟨y, e1, hy⟩ := stored_parsed (e := .char8) (f := .default) hF hn hv rfl
        rfl hfit hx hs' hnum hd hv' hl hint hnon
      exact ⟨y, e1, fun _ => hy, fun h => (hex hx h).elim⟩
    · obtain ⟨hke, -⟩ := trip_room hF (r := 10) (by decide) (le_refl k) hfit (V := 0) (by positivity)
      obtain ⟨g1, g2, -⟩ := negative_floor hF hx
      obtain ⟨t, ds, fs, ⟨N, s, hs, hf⟩, hnum, hd, hp, herr, hl⟩ :=
        negative_numeral (formatEnc form) (f := .default) hF hn hv rfl (by decide) hx.1 hke hx.2.2.2
          g1 g2 hx.2.1 hx.2.2.1
      refine ⟨t, N, true, ds, fs, ⟨s, hs, hf⟩, hnum, fun s' hs' => ?_⟩
      obtain ⟨y, e1, e2⟩ := negative_parsed (e := .char8) (f := .default) hF hn hv rfl rfl hfit hx hs'
        hnum hd hp herr hl
      exact ⟨y, e1, fun h => (hex h hx).elim, fun _ => e2⟩
  obtain ⟨t, N, neg, ds, fs, ⟨s, hs, hf⟩, hnum, hparse⟩ := key
  obtain ⟨hne, hvis⟩ := realNumeral_visible hnum
  have hasc : ∀ c ∈ t, c < 128 := fun c hc => by have := hvis c hc; omega
  obtain ⟨y, e1, hy⟩ := hparse _ (textOf_ascii _ _ hasc)
  refine ⟨N, fun places hp => ⟨t, hne, hvis, ?_, ?_⟩⟩
  · intro st w hform hfit hw
    obtain ⟨r', e4, q⟩ := writeString_eq C native (formatEnc form) st t
      (fun c hc => stringOk_ascii native _ st c (hasc c hc)) w (by rw [hform]; exact hfit) hw
    rw [hform] at q
    refine ⟨r', ?_, q⟩
    rw [writeFloat, M.bind_ok (M.get_apply st), hform]
    rw [M.bind_ok (by rw [hf places hp, hs.eq]; rfl), e4, hform]
  · intro fuel st s' h
    refine ⟨y, hy, ?_⟩
    show readFloat native R rnd fuel st = _
    rw [readFloat, M.bind_ok h, e1]
    rfl

end Real

open InStream OutStream in
/-- C78 for sequences in which negative numbers with a fraction part may occur: those come back as in
`C107_negative`, the others nearly unchanged, and neither disturbs its neighbours. -/
theorem C78_negative (native o : Endian) (form : EncodingForm) (cap cap' : Nat)
    (F : Spec.BinFmt) (rnd : ℚ → ℚ) (k : Nat) (items : List (ℚ × List Nat)) (hF : F.Std)
    (hn : F.Nearest rnd) (hfit : PlacesFit F 10 k) (hcap : RoomFor form cap')
    (hx : ∀ i ∈ items, Storable F k i.1 ∨ Negative F k i.1) (hs : Separated items)
    (hcr : ∀ i ∈ items.dropLast, i.2 ≠ [13]) :
    ∃ N, ∀ places ≥ N,
      ∃ wire, written cap o form (writeReals native Ctr.writer rnd places items) = .ok wire ∧
        ∀ fuel > wire.length, ∃ ys,
          received cap' wire o form (readReals native Ctr.reader rnd fuel items) = .ok ys
            ∧ List.Forall₂ (fun i y => CameBack F k i.1 y) items ys := by
  have hN : ∃ N, ∀ i ∈ items, ∀ places ≥ N, ∃ t, HasForm (fun _ => True)
      (fun w r => Res.Writing cap (fun _ => True) (Res.Overwrote (Ctr.Idle 1) [] 0) r w) Ctr.reader
      native form (writeFloat native Ctr.writer rnd places i.1)
      (fun fuel => readFloat native Ctr.reader rnd fuel) (CameBack F k i.1) t := by
    clear hs hcr
    induction items with
    | nil => exact ⟨0, by simp⟩
    | cons i items ih =>
      obtain ⟨N, hN⟩ := ih (fun j hj => hx j (by simp [hj]))
      obtain ⟨N', hN'⟩ := number_text (R := Ctr.reader) (Ctr.collects cap []) native form hF hn hfit
        (hx i (by simp))
      refine ⟨max N N', fun j hj places hp => ?_⟩
      rcases List.mem_cons.mp hj with rfl | hj
      · exact hN' places (by omega)
      · exact hN j hj places (by omega)
  obtain ⟨N, hN⟩ := hN
  refine ⟨N, fun places hp => ?_⟩
  obtain ⟨text, ht, hw, hrd⟩ := sequence_text (R := Ctr.reader) (Ctr.collects cap []) native form
    (fun x => writeFloat native Ctr.writer rnd places x)
    (fun _ fuel => readFloat native Ctr.reader rnd fuel) (fun x y => CameBack F k x y) items
    (fun i hi => hN i hi places hp) hs hcr
  obtain ⟨us, r', e1, q1⟩ := hw ⟨freshCtr cap 1 [], o, form⟩ [] rfl trivial (Ctr.got_fresh cap)
  refine ⟨_, written_eq cap o form _ us _ r' e1 q1, ?_⟩
  intro fuel hfuel
  have hlen := textBytes_length form o text
  have h := fresh_hasText o form cap' hcap text ht
  obtain ⟨ys, r2, -, e2, -, hys⟩ := hrd _ _ (ctr_delivers cap' (textBytes form o text)) fuel _
    (by simp only [List.nil_append] at hfuel; omega) h
  exact ⟨ys, congrArg Prod.fst e2, hys⟩

example : Separated [((-5 / 4 : ℚ), [32]), (-3, [])] := by decide

end Cmp
