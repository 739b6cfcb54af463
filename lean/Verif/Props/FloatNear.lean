import Mathlib.Data.Set.Finite.Lattice
import Mathlib.Data.Set.Finite.Lemmas
import Mathlib.Order.Interval.Finset.Defs
import Mathlib.Order.Interval.Set.Infinite
import Mathlib.Data.Int.Interval
import Mathlib.Data.Finite.Prod
import Mathlib.RingTheory.Coprime.Lemmas
import Verif.Proofs.FloatNear
import Verif.Props.Float

/-
Properties C105 and C106: formatting floating-point numbers on machines that round to nearest.
-/

namespace Cmp

open IntTy

/-- Every number has a closest value of the format: a format has finitely many values. -/
theorem exists_closest {F : Spec.BinFmt} (hF : F.Std) (q : ℚ) :
    ∃ v, F.Has v ∧ ∀ p, F.Has p → |v - q| ≤ |p - q| := by
  have hfin : {q : ℚ | F.Has q}.Finite := by
    have h : {q : ℚ | F.Has q} ⊆ (fun p : Int × Int => (p.1 : ℚ) * (2 : ℚ) ^ p.2) ''
        (Set.Icc (-(2 ^ F.prec : Int)) (2 ^ F.prec) ×ˢ Set.Icc F.emin F.emax) := by
      rintro q ⟨m, e, hm, he, rfl⟩
      refine ⟨(m, e), ⟨⟨?_, ?_⟩, ⟨he.1, by have := he.2; simp only; omega⟩⟩, rfl⟩
      · have : (m.natAbs : Int) < 2 ^ F.prec := by exact_mod_cast hm
        simp only
        omega
      · have : (m.natAbs : Int) < 2 ^ F.prec := by exact_mod_cast hm
        simp only
        omega
    exact ((Set.finite_Icc _ _).prod (Set.finite_Icc _ _)).image _ |>.subset h
  obtain ⟨v, hv, hmin⟩ := Set.exists_min_image {q : ℚ | F.Has q} (fun p => |p - q|) hfin
    ⟨0, Spec.BinFmt.has_zero hF⟩
  exact ⟨v, hv, hmin⟩

/-- Machines that round to nearest exist. -/
theorem exists_nearest {F : Spec.BinFmt} (hF : F.Std) : ∃ rnd, F.Nearest rnd := by
  choose rnd hrnd using exists_closest hF
  exact ⟨rnd, fun q _ => hrnd q⟩

/-- The number the formatter shows: its text has the digits of the fraction part of `|x|` but the
integral part `⌊x⌋`. -/
def shown (x : ℚ) : ℚ :=
  if ⌊x⌋ < 0 then -((⌊x⌋.natAbs : ℚ) + Int.fract |x|) else (⌊x⌋.natAbs : ℚ) + Int.fract |x|

theorem shown_nonneg {x : ℚ} (h : 0 ≤ x) : shown x = x := by
  have h0 : 0 ≤ ⌊x⌋ := Int.floor_nonneg.mpr h
  have h1 : ((⌊x⌋.natAbs : Nat) : Int) = ⌊x⌋ := Int.natAbs_of_nonneg h0
  rw [shown, if_neg (by omega), abs_of_nonneg h, ← Int.cast_natCast, h1, Int.floor_add_fract]

theorem shown_int (z : Int) : shown z = z := by
  rw [shown, Int.floor_intCast, ← Int.cast_abs, Int.fract_intCast, add_zero]
  by_cases h : z < 0
  · rw [if_pos h, ← Int.cast_natCast, show ((z.natAbs : Nat) : Int) = -z by omega]
    push_cast
    ring
  · rw [if_neg h, ← Int.cast_natCast, show ((z.natAbs : Nat) : Int) = z by omega]

theorem shown_negative {x : ℚ} (h : x < 0) (hx : ¬ ∃ z : Int, x = z) : shown x = x - 1 := by
  have h0 : ⌊x⌋ < 0 := Int.floor_lt.mpr (by simpa using h)
  have hfr : Int.fract x ≠ 0 := by
    intro h
    refine hx ⟨⌊x⌋, ?_⟩
    have := Int.floor_add_fract x
    rw [h, add_zero] at this
    exact this.symm
  rw [shown, if_pos h0, abs_of_neg h, Int.fract_neg hfr, ← Int.cast_natCast,
    show ((⌊x⌋.natAbs : Nat) : Int) = -⌊x⌋ by omega]
  have := Int.floor_add_fract x
  push_cast
  linarith

/-- What formatting comes down to. -/
theorem formatFloat_shown (e : Enc) {F : Spec.BinFmt} {rnd : ℚ → ℚ} {f : FloatFormat} {x : ℚ}
    (hF : F.Std) (hn : F.Nearest rnd) (hf : f.Valid) (hx : F.Has x)
    (hll : llong.Has ⌊x⌋) (hmin : ⌊x⌋ ≠ llong.min) {ε : ℚ} {places need : Nat}
    (hloop : F.Has (Int.fract |x|) → ∃ fs k, (∀ d ∈ fs, d < f.radix)
      ∧ |Spec.fraction f.radix fs - Int.fract (|x|)| ≤ ε ∧ fs.length ≤ places
      ∧ (f.placeLimit = .exactlyEqual → places = f.placeCount
          ∧ (k = fs.length ∨ fs.length = places ∧ f.placeCount < k))
      ∧ ∀ fuel ≥ need, formatFractionLoop e rnd f fuel (Int.fract |x|) 0 0 []
        = .ok (encs e (fracText f.separator.char 0 (fs.map Spec.upperDigit)), k)) :
    ∃ y cs, FormatsTo e rnd x f cs ∧ DenotesReal f y places cs ∧ |y - shown x| ≤ ε
      ∧ ((∃ z : Int, x = z) → y = x)
      ∧ (f.placeLimit = .exactlyEqual → (∃ z : Int, x = z) ∨
          ∃ head fs, cs = head ++ f.radixCharacter.char :: fs
            ∧ (Spec.ungroup f.separator.char fs).length = f.placeCount) := by
  obtain ⟨hf2, h36⟩ := hf
  have hr0 : 0 < f.radix := by omega
  obtain ⟨ds, e1, hp, hd, hne, hz⟩ := formatInteger_eq e (T := .llong)
    (f := ⟨f.radix, f.sign, f.separator⟩) (by decide) hf2 h36 hll (fun _ => hmin)
  have hmake : IntegerFormat.make f.radix f.sign f.separator
      = .ok ⟨f.radix, f.sign, f.separator⟩ := by
    rw [IntegerFormat.make, if_neg (by simp; omega)]
  have hfl : floorToLongLong x = .ok ⌊x⌋ := by rw [floorToLongLong, if_pos hll]
  have habs : (if x < 0 then -x else x) = |x| := by
    split
    · rw [abs_of_neg ‹_›]
    · rw [abs_of_nonneg (not_lt.mp ‹_›)]
  have hxa : F.Has |x| := hx.abs
  have hfh : F.Has (Int.fract |x|) := hxa.fract hF (abs_nonneg x)
  have hfract : rnd (|x| - ((⌊|x|⌋ : Int) : ℚ)) = Int.fract |x| :=
    hn.exact hfh
  have hval : ∀ fs n, |Spec.denoteReal f.radix (decide (⌊x⌋ < 0)) ds (fs ++ List.replicate n 0)
      - shown x| = |Spec.fraction f.radix fs - Int.fract (|x|)| := by
    intro fs n
    rw [Spec.denoteReal, shown, Spec.fraction_zeros hr0, hp]
    by_cases h : ⌊x⌋ < 0
    · rw [if_pos (by simpa using h), if_pos h, ← abs_neg]
      congr 1
      ring
    · rw [if_neg (by simpa using h), if_neg h]
      congr 1
      ring
  obtain ⟨fs, k, hfs, herr, hlen, hex, hrun⟩ := hloop hfh
  by_cases hzero : Int.fract |x| = 0
  · have hasc := formatted_ascii ⟨f.radix, f.sign, f.separator⟩ h36 ⌊x⌋ ds hd
    have hint : ∃ z : Int, x = z := by
      have := Int.floor_add_fract |x|
      rw [hzero, add_zero] at this
      rcases abs_choice x with h | h
      · exact ⟨⌊|x|⌋, by rw [this, h]⟩
      · exact ⟨-⌊|x|⌋, by push_cast; rw [this, h]; ring⟩
    have hy : Spec.denoteReal f.radix (decide (⌊x⌋ < 0)) ds [] = shown x := by
      have := hval [] 0
      rw [hzero, Spec.fraction_nil, sub_zero, abs_zero, abs_eq_zero] at this
      rw [List.replicate_zero, List.append_nil] at this
      linarith
    refine ⟨_, _, ⟨0, _, textOf_ascii e _ hasc, fun fuel _ => ?_⟩,
      ⟨_, ds, [], ⟨_, numeral_of_format f h36 ⌊x⌋ ds hne hd, by simp, .inl ⟨rfl, rfl⟩⟩,
        hz, rfl, by simp⟩, ?_, ?_, fun _ => .inl hint⟩
    · simp only [formatFloat, hmake, hfl, e1, Outcome.ok_bind, habs, hfract]
      rw [if_pos hzero]
    · rw [hy, sub_self, abs_zero]
      exact (abs_nonneg _).trans herr
    · rintro ⟨z, rfl⟩
      rw [hy, shown_int]
  · have hrcIns := appendCP_enc e f.radixCharacter.char
      (insOk_ascii e (by cases f.radixCharacter <;> decide))
    have hnint : ¬ ∃ z : Int, x = z := by
      rintro ⟨z, rfl⟩
      rw [← Int.cast_abs, Int.fract_intCast] at hzero
      exact hzero rfl
    have hun : ∀ n, (Spec.ungroup f.separator.char
        (fracText f.separator.char 0 (fs.map Spec.upperDigit) ++ List.replicate n 48)).length
        = fs.length + n := by
      intro n
      rw [ungroup_text f h36 fs hfs n]
      simp
    by_cases hexa : f.placeLimit = .exactlyEqual
    · obtain ⟨hpl, hk⟩ := hex hexa
      refine ⟨_, _, ⟨need, _, textOf_ascii e _
          (realText_ascii f h36 ⌊x⌋ ds fs hd hfs (f.placeCount - k)), ?_⟩,
          ⟨_, ds, _, realNumeral_of_format f h36 ⌊x⌋ ds fs hne hd hfs (f.placeCount - k), hz,
            rfl, by simp; omega⟩, (hval _ _).trans_le herr, fun h => absurd h hnint,
          fun _ => .inr ⟨_, _, rfl, ?_⟩⟩
      · intro fuel hfuel
        simp only [formatFloat, hmake, hfl, e1, Outcome.ok_bind, habs, hfract]
        rw [if_neg hzero, hrun fuel hfuel]
        simp only [Outcome.ok_bind]
        rw [if_pos hexa, padZeros_eq]
        simp only [Outcome.ok_bind, hrcIns]
        simp
      · rw [hun]; omega
    · refine ⟨_, _, ⟨need, _, textOf_ascii e _
          (realText_ascii f h36 ⌊x⌋ ds fs hd hfs 0), ?_⟩,
          ⟨_, ds, _, realNumeral_of_format f h36 ⌊x⌋ ds fs hne hd hfs 0, hz,
            rfl, by simpa using hlen⟩, (hval _ _).trans_le herr, fun h => absurd h hnint,
          fun h => absurd h hexa⟩
      · intro fuel hfuel
        simp only [formatFloat, hmake, hfl, e1, Outcome.ok_bind, habs, hfract]
        rw [if_neg hzero, hrun fuel hfuel]
        simp only [Outcome.ok_bind]
        rw [if_neg hexa]
        simp only [Outcome.ok_bind, hrcIns]
        simp

/-- The accuracy a text must have: without a limit twice the relative rounding error of the machine,
with a limit of `n` places one unit of the last place more. -/
def FloatFormat.tolerance (F : Spec.BinFmt) (f : FloatFormat) : ℚ :=
  (if f.placeLimit = .none then 0 else 1 / (f.radix : ℚ) ^ f.placeCount) + 2 / 2 ^ F.prec

/-- How many places a text may have: the limit, or as many as there are binary places. -/
def FloatFormat.mostPlaces (f : FloatFormat) (k : Nat) : Nat :=
  if f.placeLimit = .none then k else f.placeCount

theorem formatFloat_near (e : Enc) {F : Spec.BinFmt} {rnd : ℚ → ℚ} {f : FloatFormat} {x : ℚ}
    {k : Nat} (hF : F.Std) (hn : F.Nearest rnd) (hf : f.Valid) (hx : F.Has x)
    (hk : (k : Int) ≤ -F.emin) (hxk : Spec.BinaryPlaces k x)
    (hll : llong.Has ⌊x⌋) (hmin : ⌊x⌋ ≠ llong.min)
    (hend : f.placeLimit ≠ .none ∨ f.radix % 2 = 0) :
    ∃ y cs, FormatsTo e rnd x f cs ∧ DenotesReal f y (f.mostPlaces k) cs
      ∧ |y - shown x| ≤ f.tolerance F ∧ ((∃ z : Int, x = z) → y = x)
      ∧ (f.placeLimit = .exactlyEqual → (∃ z : Int, x = z) ∨
          ∃ head fs, cs = head ++ f.radixCharacter.char :: fs
            ∧ (Spec.ungroup f.separator.char fs).length = f.placeCount) := by
  have hxa : Spec.BinaryPlaces k |x| := by
    obtain ⟨z, hz⟩ := hxk
    rcases abs_choice x with h | h <;> rw [h]
    · exact ⟨z, hz⟩
    · exact ⟨-z, by rw [hz]; push_cast; ring⟩
  by_cases hlim : f.placeLimit = .none
  · rw [FloatFormat.mostPlaces, FloatFormat.tolerance, if_pos hlim, if_pos hlim]
    refine formatFloat_shown e hF hn hf hx hll hmin (need := k + 1) ?_
    intro hh
    obtain ⟨fs, hfs, herr, -, hlen, hrun⟩ := formatFractionLoop_even e hF hn hf.1 hf.2
      (hend.resolve_left (not_not.mpr hlim)) hlim k hk _ hh (Int.fract_nonneg _)
      (Int.fract_lt_one _) (Spec.BinFmt.BinaryPlaces.fract hxa) 0
    refine ⟨fs, 0, hfs, ?_, hlen, fun h => ?_, fun fuel hfuel => ?_⟩
    · rw [zero_add]
      calc _ ≤ _ := herr
        _ = _ := by ring
    · rw [hlim] at h
      cases h
    · rw [hrun fuel hfuel, List.nil_append]
  · rw [FloatFormat.mostPlaces, FloatFormat.tolerance, if_neg hlim, if_neg hlim]
    refine formatFloat_shown e hF hn hf hx hll hmin (need := f.placeCount + 1) ?_
    intro hh
    obtain ⟨fs, c, hfs, ⟨g1, g2⟩, hlen, hc, hrun⟩ := formatFractionLoop_cut e hF hn hf.1 hf.2
      hlim f.placeCount _ hh (Int.fract_nonneg _) (Int.fract_lt_one _) 0 0 (by omega)
    refine ⟨fs, c, hfs, ?_, hlen, fun _ => ⟨rfl, by omega⟩, fun fuel hfuel => ?_⟩
    · have h0 : (0 : ℚ) ≤ 1 / (f.radix : ℚ) ^ f.placeCount := by positivity
      have h2 : (2 : ℚ) / 2 ^ F.prec = 2 * (1 / 2 ^ F.prec) := by ring
      rw [h2]
      exact abs_le.mpr ⟨g1, by linarith⟩
    · rw [hrun fuel hfuel, List.nil_append]

/-! ### C105 -/

/-- `format_floating_point` comes back, given time. -/
def Returns (e : Enc) (rnd : ℚ → ℚ) (x : ℚ) (f : FloatFormat) : Prop :=
  ∃ N s, ∀ fuel ≥ N, formatFloat e rnd fuel x f = .ok s

/-- Exact remainders that never vanish keep the loop going. -/
theorem formatFractionLoop_forever (e : Enc) {rnd : ℚ → ℚ} {f : FloatFormat} {Inv : ℚ → Prop}
    (hf2 : 2 ≤ f.radix) (hf : f.radix ≤ 36) (hI : ExactRem rnd f.radix Inv)
    (hpos : ∀ q, Inv q → q ≠ 0) (hlim : f.placeLimit = .none) :
    ∀ (fuel : Nat) (q : ℚ), Inv q → ∀ counted places out,
      formatFractionLoop e rnd f fuel q counted places out = .hang := by
  intro fuel
  induction fuel with
  | zero =>
    intro q hq counted places out
    rfl
  | succ fuel ih =>
    intro q hq counted places out
    obtain ⟨d, -, -, hstep⟩ := formatFractionLoop_step e hf2 hf hI hq (hpos q hq) fuel counted places
      out (fun h => h.1 hlim)
    rw [hstep]
    exact ih _ (hI.next q hq) _ _ _

/-- In an odd radix a number with few binary places that is not an integer has an infinite
expansion, which the formatter tries to write. -/
theorem formatFloat_forever (e : Enc) {F : Spec.BinFmt} {rnd : ℚ → ℚ} {f : FloatFormat} {x : ℚ}
    {k : Nat} (hF : F.Std) (hr : ∀ q, F.Has q → rnd q = q) (hf : f.Valid) (hx : F.Has x)
    (hk : k + 6 ≤ F.prec) (hxk : Spec.BinaryPlaces k x) (hll : llong.Has ⌊x⌋)
    (hmin : ⌊x⌋ ≠ llong.min) (hlim : f.placeLimit = .none) (hodd : f.radix % 2 = 1)
    (hxi : ¬ ∃ z : Int, x = z) (fuel : Nat) : formatFloat e rnd fuel x f = .hang := by
  obtain ⟨hf2, h36⟩ := hf
  obtain ⟨ds, e1, hp, hd, hne, hz⟩ := formatInteger_eq e (T := .llong)
    (f := ⟨f.radix, f.sign, f.separator⟩) (by decide) hf2 h36 hll (fun _ => hmin)
  have hmake : IntegerFormat.make f.radix f.sign f.separator
      = .ok ⟨f.radix, f.sign, f.separator⟩ := by
    rw [IntegerFormat.make, if_neg (by simp; omega)]
  have hfl : floorToLongLong x = .ok ⌊x⌋ := by rw [floorToLongLong, if_pos hll]
  have habs : (if x < 0 then -x else x) = |x| := by
    split
    · rw [abs_of_neg ‹_›]
    · rw [abs_of_nonneg (not_lt.mp ‹_›)]
  have hxa : F.Has |x| := hx.abs
  have hxka : Spec.BinaryPlaces k |x| := by
    obtain ⟨z, hz⟩ := hxk
    rcases abs_choice x with h | h <;> rw [h]
    · exact ⟨z, hz⟩
    · exact ⟨-z, by rw [hz]; push_cast; ring⟩
  have hfract : rnd (|x| - ((⌊|x|⌋ : Int) : ℚ)) = Int.fract |x| :=
    hr _ (hxa.fract hF (abs_nonneg x))
  have hnz : Int.fract |x| ≠ 0 := by
    intro h
    have := Int.floor_add_fract |x|
    rw [h, add_zero] at this
    rcases abs_choice x with h | h
    · exact hxi ⟨⌊|x|⌋, by rw [this, h]⟩
    · exact hxi ⟨-⌊|x|⌋, by push_cast; rw [this, h]; ring⟩
  -- the remainders stay away from the integers
  have hI0 := exactRem_dyadic hF hr hk h36 (r := f.radix)
  have hstay : ∀ q : ℚ, (∃ m : Int, q = m / 2 ^ k) → 0 ≤ q → Int.fract q ≠ 0 →
      Int.fract (Int.fract q * f.radix) ≠ 0 := by
    rintro q ⟨m, hm⟩ h0 hq h
    apply hq
    have hz : Int.fract q * f.radix = ((⌊Int.fract q * f.radix⌋ : Int) : ℚ) := by
      have := Int.floor_add_fract (Int.fract q * f.radix)
      rw [h, add_zero] at this
      exact this.symm
    generalize ⌊Int.fract q * f.radix⌋ = z at hz
    have hfq : Int.fract q = (m - ⌊q⌋ * 2 ^ k : Int) / 2 ^ k := by
      rw [Int.fract]
      nth_rw 1 [hm]
      push_cast
      field_simp
    generalize m - ⌊q⌋ * 2 ^ k = m' at hfq
    have hk0 : (2 : ℚ) ^ k ≠ 0 := by positivity
    have h1 : (m' : ℚ) * f.radix = z * 2 ^ k := by
      rw [hfq] at hz
      field_simp at hz
      linarith
    have h2 : m' * f.radix = z * 2 ^ k := by exact_mod_cast h1
    have hco : IsCoprime ((2 : Int) ^ k) (f.radix : Int) := by
      apply IsCoprime.pow_left
      refine ⟨-(f.radix / 2 : Nat), 1, ?_⟩
      push_cast
      omega
    obtain ⟨c, hc⟩ : (2 : Int) ^ k ∣ m' := hco.dvd_of_dvd_mul_right ⟨z, by rw [h2]; ring⟩
    have h3 : Int.fract q = c := by
      rw [hfq, hc]
      push_cast
      field_simp
    have h4 := Int.fract_nonneg q
    have h5 := Int.fract_lt_one q
    rw [h3] at h4 h5 ⊢
    have h4 : 0 ≤ c := by exact_mod_cast h4
    have h5 : c < 1 := by exact_mod_cast h5
    rw [show c = 0 by omega]
    simp
  have hI : ExactRem rnd f.radix
      (fun q => ((∃ m : Int, q = m / 2 ^ k) ∧ 0 ≤ q ∧ q < 1) ∧ q ≠ 0) := by
    refine ⟨fun q h => hI0.nonneg q h.1, fun q h => hI0.lt_one q h.1, fun q h => hI0.product q h.1,
      fun q h => hI0.rest q h.1, fun q h => ⟨hI0.next q h.1, ?_⟩⟩
    have hfr : Int.fract q = q := Int.fract_eq_self.mpr h.1.2
    have := hstay q h.1.1 h.1.2.1 (by rw [hfr]; exact h.2)
    rwa [hfr] at this
  have hloop := formatFractionLoop_forever e hf2 h36 hI (fun q h => h.2) hlim fuel (Int.fract |x|)
    ⟨⟨Spec.BinFmt.BinaryPlaces.fract hxka, Int.fract_nonneg _, Int.fract_lt_one _⟩, hnz⟩ 0 0 []
  simp only [formatFloat, hmake, hfl, e1, Outcome.ok_bind, habs, hfract]
  rw [if_neg hnz, hloop]
  rfl

/-- C105 for even radices and for formats with a place limit, in all of which formatting comes back,
and, for numbers with at most `prec - 6` binary places, exactly when it does. Missing: odd radices
without a limit and numbers with more binary places, where it depends on the rounding; large
numbers. -/
theorem C105_partial (e : Enc) (F : Spec.BinFmt) (rnd : ℚ → ℚ) (f : FloatFormat) (x : ℚ)
    (hF : F.Std) (hn : F.Nearest rnd) (hf : f.Valid) (hx : F.Has x) (hll : llong.Has ⌊x⌋)
    (hmin : ⌊x⌋ ≠ llong.min) :
    (f.placeLimit ≠ .none ∨ f.radix % 2 = 0 → Returns e rnd x f)
    ∧ ∀ k, k + 6 ≤ F.prec → Spec.BinaryPlaces k x →
      (Returns e rnd x f ↔ f.placeLimit ≠ .none ∨ f.radix % 2 = 0 ∨ ∃ z : Int, x = z) := by
  have hmin' := hF.emin_nonpos
  have hgo : f.placeLimit ≠ .none ∨ f.radix % 2 = 0 → Returns e rnd x f := by
    intro h
    obtain ⟨y, cs, ⟨N, s, -, hs⟩, -⟩ := formatFloat_near e hF hn hf hx
      (k := (-F.emin).toNat) (by omega) (hx.places hF) hll hmin h
    exact ⟨N, s, hs⟩
  refine ⟨hgo, fun k hk hxk => ⟨?_, ?_⟩⟩
  · rintro ⟨N, s, hs⟩
    by_contra hcon
    simp only [not_or, not_not] at hcon
    obtain ⟨hlim, hodd, hxi⟩ := hcon
    have h1 := formatFloat_forever e hF (fun q => hn.exact) hf hx hk hxk hll hmin hlim (by omega) hxi N
    rw [hs N le_rfl] at h1
    cases h1
  · rintro (h | h | ⟨z, rfl⟩)
    · exact hgo (.inl h)
    · exact hgo (.inr h)
    · obtain ⟨y, cs, ⟨N, s, -, hs⟩, -⟩ := formatFloat_shown e hF hn hf hx hll hmin (ε := 0)
        (places := f.mostPlaces 0) (need := 1) (by
          intro _
          rw [← Int.cast_abs, Int.fract_intCast]
          refine ⟨[], 0, by simp, ?_, by simp, fun h => ⟨?_, .inl rfl⟩, ?_⟩
          · rw [Spec.fraction_nil, sub_zero, abs_zero]
          · rw [FloatFormat.mostPlaces, if_neg (by rw [h]; simp)]
          · intro fuel hfuel
            obtain ⟨fuel, rfl⟩ : ∃ m, fuel = m + 1 := ⟨fuel - 1, by omega⟩
            rw [formatFractionLoop, if_pos rfl]
            rfl)
      exact ⟨N, s, hs⟩

/-- One half in radix 3 is never finished. -/
theorem C105_violated :
    ¬ ∀ (e : Enc) (F : Spec.BinFmt) (rnd : ℚ → ℚ) (f : FloatFormat) (x : ℚ), F.Std →
      F.Nearest rnd → f.Valid → F.Has x → llong.Has ⌊x⌋ → ⌊x⌋ ≠ llong.min → Returns e rnd x f := by
  intro h
  obtain ⟨rnd, hn⟩ := exists_nearest (F := Spec.binary64) (.inr rfl)
  have hx : Spec.binary64.Has (1 / 2) :=
    ⟨1, -1, by norm_num [Spec.binary64], by norm_num [Spec.binary64], by norm_num⟩
  have h0 : ⌊(1 / 2 : ℚ)⌋ = 0 := by norm_num
  have hll : llong.Has ⌊(1 / 2 : ℚ)⌋ := by rw [h0]; decide
  have hmin : ⌊(1 / 2 : ℚ)⌋ ≠ llong.min := by rw [h0]; decide
  have hf : FloatFormat.Valid { FloatFormat.default with radix := 3 } := by
    unfold FloatFormat.Valid; decide
  rcases ((C105_partial .char8 Spec.binary64 rnd { FloatFormat.default with radix := 3 } (1 / 2)
    (.inr rfl) hn hf hx hll hmin).2 1 (by norm_num [Spec.binary64]) ⟨1, by norm_num⟩).mp
      (h .char8 Spec.binary64 rnd { FloatFormat.default with radix := 3 } (1 / 2) (.inr rfl) hn hf hx
        hll hmin) with h | h | ⟨z, hz⟩
  · exact h rfl
  · exact absurd h (by decide)
  · rw [hz, Int.floor_intCast] at h0
    rw [h0] at hz
    norm_num at hz

/-! ### C106 -/

/-- C106 for numbers that are not negative or are integers, whose integral part fits `long long`
(the least value of which is excepted), in even radices or with a place limit. Integers are exact.
Missing: negative numbers with a fraction part (see `C106_negative`), large numbers, and odd
radices without a place limit. -/
theorem C106_partial (e : Enc) (F : Spec.BinFmt) (rnd : ℚ → ℚ) (f : FloatFormat) (x : ℚ)
    (k : Nat) (hF : F.Std) (hn : F.Nearest rnd) (hf : f.Valid) (hx : F.Has x)
    (hk : (k : Int) ≤ -F.emin) (hxk : Spec.BinaryPlaces k x) (hll : llong.Has ⌊x⌋)
    (hmin : ⌊x⌋ ≠ llong.min) (hneg : 0 ≤ x ∨ ∃ z : Int, x = z)
    (hend : f.placeLimit ≠ .none ∨ f.radix % 2 = 0) :
    ∃ y cs, FormatsTo e rnd x f cs ∧ DenotesReal f y (f.mostPlaces k) cs
      ∧ |y - x| ≤ f.tolerance F ∧ ((∃ z : Int, x = z) → y = x)
      ∧ (f.placeLimit = .exactlyEqual → (∃ z : Int, x = z) ∨
          ∃ head fs, cs = head ++ f.radixCharacter.char :: fs
            ∧ (Spec.ungroup f.separator.char fs).length = f.placeCount) := by
  have hs : shown x = x := by
    rcases hneg with h | ⟨z, rfl⟩
    · exact shown_nonneg h
    · exact shown_int z
  have := formatFloat_near e hF hn hf hx hk hxk hll hmin hend
  rwa [hs] at this

/-- Every negative number with a fraction part comes out one too low. -/
theorem C106_negative (e : Enc) (F : Spec.BinFmt) (rnd : ℚ → ℚ) (f : FloatFormat) (x : ℚ)
    (k : Nat) (hF : F.Std) (hn : F.Nearest rnd) (hf : f.Valid) (hx : F.Has x)
    (hk : (k : Int) ≤ -F.emin) (hxk : Spec.BinaryPlaces k x) (hll : llong.Has ⌊x⌋)
    (hmin : ⌊x⌋ ≠ llong.min) (hneg : x < 0) (hxi : ¬ ∃ z : Int, x = z)
    (hend : f.placeLimit ≠ .none ∨ f.radix % 2 = 0) :
    ∃ y cs, FormatsTo e rnd x f cs ∧ DenotesReal f y (f.mostPlaces k) cs
      ∧ |y - (x - 1)| ≤ f.tolerance F := by
  obtain ⟨y, cs, h1, h2, h3, -⟩ := formatFloat_near e hF hn hf hx hk hxk hll hmin hend
  rw [shown_negative hneg hxi] at h3
  exact ⟨y, cs, h1, h2, h3⟩

/-- `-1.5` is written as `-2.5`. -/
theorem C106_violated :
    ¬ ∀ (e : Enc) (F : Spec.BinFmt) (rnd : ℚ → ℚ) (f : FloatFormat) (x : ℚ), F.Std →
      F.Nearest rnd → f.Valid → F.Has x → llong.Has ⌊x⌋ → ⌊x⌋ ≠ llong.min → f.radix % 2 = 0 →
      ∃ y cs places, FormatsTo e rnd x f cs ∧ DenotesReal f y places cs
        ∧ |y - x| ≤ f.tolerance F := by
  intro h
  obtain ⟨rnd, hn⟩ := exists_nearest (F := Spec.binary64) (.inr rfl)
  obtain ⟨y, cs, _, ⟨N, s, ht, hs⟩, hden, herr⟩ := h .char32 Spec.binary64 rnd FloatFormat.default
    (-3 / 2) (.inr rfl) hn (by unfold FloatFormat.Valid; decide)
    has_half (by rw [floor_half]; decide) (by rw [floor_half]; decide) (by decide)
  have hs' := hs (N + 2) (by omega)
  rw [format_half (fun _ => hn.exact) N] at hs'
  have hy := denotes_half ht (by cases hs'; rfl) hden
  rw [hy] at herr
  norm_num [FloatFormat.tolerance, FloatFormat.default, Spec.binary64] at herr

/-- The double nearest to 0.1, which is no finite binary fraction. -/
example : Spec.binary64.Std ∧ Spec.binary64.Has (3602879701896397 / 2 ^ 55)
    ∧ (∃ rnd, Spec.binary64.Nearest rnd) ∧ FloatFormat.default.Valid
    ∧ Spec.BinaryPlaces 55 (3602879701896397 / 2 ^ 55) ∧ ((55 : Nat) : Int) ≤ -Spec.binary64.emin
    ∧ llong.Has ⌊(3602879701896397 / 2 ^ 55 : ℚ)⌋ ∧ ⌊(3602879701896397 / 2 ^ 55 : ℚ)⌋ ≠ llong.min
    ∧ ¬ (∃ z : Int, -(3602879701896397 / 2 ^ 55 : ℚ) = z)
    ∧ FloatFormat.default.radix % 2 = 0 := by
  have h0 : ⌊(3602879701896397 / 2 ^ 55 : ℚ)⌋ = 0 := by norm_num
  refine ⟨.inr rfl, ⟨3602879701896397, -55, by norm_num [Spec.binary64], by norm_num [Spec.binary64],
    by norm_num⟩, exists_nearest (.inr rfl), by unfold FloatFormat.Valid; decide,
    ⟨3602879701896397, by norm_num⟩, by decide, by rw [h0]; decide, by rw [h0]; decide, ?_, by decide⟩
  rintro ⟨z, hz⟩
  have h1 : (-1 : ℚ) < z := by rw [← hz]; norm_num
  have h2 : (z : ℚ) < 0 := by rw [← hz]; norm_num
  have h1 : -1 < z := by exact_mod_cast h1
  have h2 : z < 0 := by exact_mod_cast h2
  omega

end Cmp
