import Verif.Props.FloatBack
import Verif.Props.FloatSeparators
import Verif.Proofs.NumberLeast
import Verif.Props.Ieee

/-
Properties of floating-point numbers that are written with a limited number of places.
-/

namespace Cmp

open IntTy

/-- If a place may be written, one is. -/
theorem cut_nonempty (e : Enc) {F : Spec.BinFmt} (hF : F.Std) {rnd : ℚ → ℚ} (hn : F.Nearest rnd)
    {f : FloatFormat} (hf2 : 2 ≤ f.radix) (hf : f.radix ≤ 36) (hlim : f.placeLimit ≠ .none)
    (hpos : 0 < f.placeCount) {q : ℚ} (hq : F.Has q) (h0 : 0 ≤ q) (h1 : q < 1) (hq0 : q ≠ 0) {k : Nat}
    (hrun : ∀ fuel ≥ f.placeCount + 1, formatFractionLoop e rnd f fuel q 0 0 [] = .ok ([], k)) : False := by
  obtain ⟨n, hn1⟩ : ∃ n, f.placeCount = n + 1 := ⟨f.placeCount - 1, by omega⟩
  have h := hrun (n + 2) (by omega)
  obtain ⟨d, -, -, hstep⟩ := formatFractionLoop_near e hF hn hf2 hf hq h0 h1 hq0 (n + 1) 0 0 []
    (fun h => by have := h.2; omega)
  obtain ⟨-, -, -, hhas, -⟩ := product_near hF hn hf2 hf hq h0 h1
  obtain ⟨ds, c, -, -, -, -, hr⟩ := formatFractionLoop_cut e hF hn hf2 hf hlim n _ hhas
    (Int.fract_nonneg _) (Int.fract_lt_one _) 1 1 (by omega)
  rw [hstep, if_neg (by omega), if_pos hlim, hr (n + 1) (by omega)] at h
  have h := congrArg List.length (congrArg Prod.fst (Outcome.ok.inj h))
  simp only [List.nil_append, List.length_append, List.length_nil, Nat.add_eq_zero_iff] at h
  have h2 := h.1
  have h3 := encU_length_pos e (Spec.upperDigit d)
  simp only [fracText, encs_cons, List.length_append] at h2
  omega

theorem fracText_none (l : List Nat) : ∀ k, fracText none k l = l := by
  induction l with
  | nil => intro k; rfl
  | cons d l ih => intro k; simp [fracText, ih]

/-- No separators are written among the places: because there are none at all, or because there are not more
than two places; and separators are told from the radix character. -/
def FloatFormat.PlainPlaces (f : FloatFormat) : Prop :=
  f.separator.char ≠ some f.radixCharacter.char ∧ (f.separator = .none ∨ f.placeCount ≤ 2)

theorem FloatFormat.plainPlaces_none {f : FloatFormat} (h : f.separator = .none) : f.PlainPlaces :=
  ⟨by rw [h]; exact fun h => (nomatch h), .inl h⟩

/-- The text of a number that is no integer, for any separator: digits, and zeros that fill up the places and
are not grouped. -/
theorem limited_parts (e : Enc) {F : Spec.BinFmt} {rnd : ℚ → ℚ} {f : FloatFormat} {x : ℚ}
    (hF : F.Std) (hn : F.Nearest rnd) (hf : f.Valid) (hlim : f.placeLimit ≠ .none)
    (hx : F.Has x) (hll : llong.Has ⌊x⌋) (hmin : ⌊x⌋ ≠ llong.min) (hint : ¬ ∃ z : Int, x = z) :
    ∃ ds fs pad, FormatsTo e rnd x f
        ((signText f.sign ⌊x⌋ ++ Spec.group f.separator.char (ds.map Spec.upperDigit))
          ++ f.radixCharacter.char
            :: (fracText f.separator.char 0 (fs.map Spec.upperDigit) ++ List.replicate pad 48))
      ∧ ds ≠ [] ∧ (∀ d ∈ ds, d < f.radix) ∧ (∀ d ∈ fs, d < f.radix)
      ∧ Spec.positional f.radix ds = ⌊x⌋.natAbs ∧ (ds.head? = some 0 → ds = [0])
      ∧ fs.length + pad ≤ f.placeCount ∧ (0 < f.placeCount → fs ≠ [])
      ∧ (f.placeLimit = .exactlyEqual → fs.length + pad = f.placeCount)
      ∧ -(1 / (f.radix : ℚ) ^ f.placeCount + 2 * (1 / 2 ^ F.prec))
        ≤ Spec.fraction f.radix fs - Int.fract (|x|)
      ∧ Spec.fraction f.radix fs - Int.fract (|x|) ≤ 2 * (1 / 2 ^ F.prec) := by
  obtain ⟨hf2, h36⟩ := id hf
  obtain ⟨ds, e1, hp, hd, hne, hz⟩ := formatInteger_eq e (T := .llong)
    (f := ⟨f.radix, f.sign, f.separator⟩) (by decide) hf2 h36 hll (fun _ => hmin)
  have hmake : IntegerFormat.make f.radix f.sign f.separator
      = .ok ⟨f.radix, f.sign, f.separator⟩ := by
    rw [IntegerFormat.make, if_neg (by simp; omega)]
  have hfl : floorToLongLong x = .ok ⌊x⌋ := by rw [floorToLongLong, if_pos hll]
  have habs : (if x < 0 then -x else x) = |x| := by
    split
    · rw [abs_of_neg ‹_›]
    · rw [abs_of_nonneg (not_lt.mp ‹_›)]
  have hfh : F.Has (Int.fract |x|) := hx.abs.fract hF (abs_nonneg x)
  have hfr0 : Int.fract |x| ≠ 0 := by
    intro h
    have := Int.floor_add_fract |x|
    rw [h, add_zero] at this
    rcases abs_choice x with h | h
    · exact hint ⟨⌊|x|⌋, by rw [this, h]⟩
    · exact hint ⟨-⌊|x|⌋, by push_cast; rw [this, h]; ring⟩
  obtain ⟨fs, c, hfs, ⟨g1, g2⟩, hlen, hc, hrun⟩ := formatFractionLoop_cut e hF hn hf2 h36
    hlim f.placeCount _ hfh (Int.fract_nonneg _) (Int.fract_lt_one _) 0 0 (by omega)
  have hne0 : 0 < f.placeCount → fs ≠ [] := by
    rintro hpos rfl
    exact cut_nonempty e hF hn hf2 h36 hlim hpos hfh (Int.fract_nonneg _) (Int.fract_lt_one _) hfr0
      (k := c) fun fuel hfuel => by simpa [fracText] using hrun fuel hfuel []
  have hrcIns := appendCP_enc e f.radixCharacter.char
    (insOk_ascii e (by cases f.radixCharacter <;> decide))
  have hsub : rnd (|x| - ((⌊|x|⌋ : Int) : ℚ)) = Int.fract |x| := hn.exact hfh
  obtain ⟨pad, hpad⟩ : ∃ pad, pad = if f.placeLimit = .exactlyEqual then f.placeCount - c else 0 :=
    ⟨_, rfl⟩
  refine ⟨ds, fs, pad, ⟨f.placeCount + 1, _, textOf_ascii e _ (realText_ascii f h36 ⌊x⌋ ds fs hd hfs pad),
    fun fuel hfuel => ?_⟩, hne, hd, hfs, hp, hz, ?_, hne0, ?_, g1, g2⟩
  · simp only [formatFloat, hmake, hfl, e1, Outcome.ok_bind, habs, hsub]
    rw [if_neg hfr0, hrun fuel hfuel, List.nil_append]
    simp only [Outcome.ok_bind]
    by_cases hexa : f.placeLimit = .exactlyEqual
    · rw [if_pos hexa, padZeros_eq]
      simp only [Outcome.ok_bind, hrcIns]
      simp [hpad, hexa]
    · rw [if_neg hexa]
      simp only [Outcome.ok_bind, hrcIns]
      simp [hpad, hexa]
  · rw [hpad]
    split <;> omega
  · intro hexa
    rw [hpad, if_pos hexa]
    omega

/-- The text of a number, with at most `placeCount` places. -/
theorem limited_text (e : Enc) {F : Spec.BinFmt} {rnd : ℚ → ℚ} {f : FloatFormat} {x : ℚ}
    (hF : F.Std) (hn : F.Nearest rnd) (hf : f.Valid) (hlim : f.placeLimit ≠ .none)
    (hsep : f.PlainPlaces) (hx : F.Has x) (hll : llong.Has ⌊x⌋) (hmin : ⌊x⌋ ≠ llong.min) :
    ∃ t ds fs, FormatsTo e rnd x f t
      ∧ Spec.RealNumeral f.radix f.separator.char (f.sign = .alwaysShow) f.radixCharacter.char none t
        (decide (⌊x⌋ < 0)) ds fs
      ∧ ds ≠ [] ∧ (∀ d ∈ fs, d < f.radix) ∧ Spec.positional f.radix ds = ⌊x⌋.natAbs
      ∧ (ds.head? = some 0 → ds = [0]) ∧ fs.length ≤ f.placeCount
      ∧ ((∃ z : Int, x = z) → fs = [] ∧ Spec.denoteReal f.radix (decide (⌊x⌋ < 0)) ds fs = x
        ∧ f.radixCharacter.char ∉ t)
      ∧ ((¬ ∃ z : Int, x = z) → (0 < f.placeCount → fs ≠ [])
        ∧ (f.placeLimit = .exactlyEqual → fs.length = f.placeCount)
        ∧ -(1 / (f.radix : ℚ) ^ f.placeCount + 2 * (1 / 2 ^ F.prec))
          ≤ Spec.fraction f.radix fs - Int.fract (|x|)
        ∧ Spec.fraction f.radix fs - Int.fract (|x|) ≤ 2 * (1 / 2 ^ F.prec)) := by
  obtain ⟨hf2, h36⟩ := id hf
  have hr0 : 0 < f.radix := by omega
  obtain ⟨ds, e1, hp, hd, hne, hz⟩ := formatInteger_eq e (T := .llong)
    (f := ⟨f.radix, f.sign, f.separator⟩) (by decide) hf2 h36 hll (fun _ => hmin)
  have hmake : IntegerFormat.make f.radix f.sign f.separator
      = .ok ⟨f.radix, f.sign, f.separator⟩ := by
    rw [IntegerFormat.make, if_neg (by simp; omega)]
  have hfl : floorToLongLong x = .ok ⌊x⌋ := by rw [floorToLongLong, if_pos hll]
  have hnum0 := numeral_of_format f h36 ⌊x⌋ ds hne hd
  by_cases hint : ∃ z : Int, x = z
  · have hasc := formatted_ascii ⟨f.radix, f.sign, f.separator⟩ h36 ⌊x⌋ ds hd
    have hxf : ((⌊x⌋ : Int) : ℚ) = x := by
      obtain ⟨z, rfl⟩ := hint
      rw [Int.floor_intCast]
    have hden : Spec.denoteReal f.radix (decide (⌊x⌋ < 0)) ds [] = x := by
      have hna : ((⌊x⌋.natAbs : Nat) : ℚ) = |((⌊x⌋ : Int) : ℚ)| := by
        rw [← Int.cast_abs, Int.abs_eq_natAbs, Int.cast_natCast]
      rw [Spec.denoteReal, Spec.fraction_nil, add_zero, hp, hna, hxf]
      by_cases h : ⌊x⌋ < 0
      · have : x < 0 := by rw [← hxf]; exact_mod_cast h
        rw [if_pos (by simpa using h), abs_of_neg this, neg_neg]
      · have : 0 ≤ x := by rw [← hxf]; exact_mod_cast not_lt.mp h
        rw [if_neg (by simpa using h), abs_of_nonneg this]
    refine ⟨_, ds, [], ⟨0, _, textOf_ascii e _ hasc, fun fuel _ => ?_⟩,
      ⟨_, hnum0, by simp, .inl ⟨rfl, rfl⟩⟩, hne, by simp, hp,
      hz, by simp, fun _ => ⟨rfl, hden, ?_⟩, fun h => absurd hint h⟩
    · have habs : rnd ((if x < 0 then -x else x) - ((⌊if x < 0 then -x else x⌋ : Int) : ℚ)) = 0 := by
        have : (if x < 0 then -x else x) - ((⌊if x < 0 then -x else x⌋ : Int) : ℚ) = 0 := by
          obtain ⟨z, rfl⟩ := hint
          split
          · rw [← Int.cast_neg, Int.floor_intCast, sub_self]
          · rw [Int.floor_intCast, sub_self]
        rw [this, hn.exact (Spec.BinFmt.has_zero hF)]
      simp only [formatFloat, hmake, hfl, e1, Outcome.ok_bind, habs, if_true]
    · intro h
      have hrcc := f.radixCharacter.char_cases
      rcases (numeral_chars hnum0 _ h).2 with h1 | h1
      · omega
      · exact hsep.1 h1
  · obtain ⟨ds, fs, pad, hrun, hne, hd, hfs, hp, hz, hlen, hne0, hexa, g1, g2⟩ :=
      limited_parts e hF hn hf hlim hx hll hmin hint
    have hnum0 := numeral_of_format f h36 ⌊x⌋ ds hne hd
    have hft : fracText f.separator.char 0 (fs.map Spec.upperDigit) = fs.map Spec.upperDigit := by
      rcases hsep.2 with h | h
      · rw [h]
        exact fracText_none _ 0
      · exact fracText_short _ _ (by rw [List.length_map]; omega)
    have hnum : (Spec.ungroup none (fracText f.separator.char 0 (fs.map Spec.upperDigit)
        ++ List.replicate pad 48)).map Spec.digitValue = (fs ++ List.replicate pad 0).map some := by
      have h48 : Spec.digitValue 48 = some 0 := by decide
      rw [hft, show ∀ l, Spec.ungroup none l = l from fun _ => rfl, List.map_append, List.map_append,
        upper_digits h36 hfs, List.map_replicate, List.map_replicate, h48]
    have hall : ∀ d ∈ fs ++ List.replicate pad 0, d < f.radix := by
      intro d hd
      rw [List.mem_append] at hd
      rcases hd with hd | hd
      · exact hfs d hd
      · rw [List.eq_of_mem_replicate hd]
        exact hr0
    refine ⟨_, ds, fs ++ List.replicate pad 0, hrun, ⟨_, hnum0, hall, .inr ⟨_, rfl, hnum⟩⟩, hne, hall, hp,
      hz, by rw [List.length_append, List.length_replicate]; exact hlen, fun h => absurd h hint,
      fun _ => ⟨?_, ?_, ?_, ?_⟩⟩
    · intro hpos h
      exact hne0 hpos (List.append_eq_nil_iff.mp h).1
    · intro h
      rw [List.length_append, List.length_replicate, hexa h]
    · rw [Spec.fraction_zeros hr0]
      exact g1
    · rw [Spec.fraction_zeros hr0]
      exact g2

/-- Reading the text of a number that is no integer. -/
theorem limited_read {e : Enc} {F : Spec.BinFmt} {rnd : ℚ → ℚ} {f : FloatFormat} {x : ℚ}
    (hF : F.Std) (hn : F.Nearest rnd) (hf : f.Valid)
    (hrc : f.separator.char ≠ some f.radixCharacter.char) (hfit : PlacesFit F f.radix f.placeCount)
    (hx : F.Has x) (hll : llong.Has ⌊x⌋) (hmin : ⌊x⌋ ≠ llong.min) (h0 : 0 ≤ x) (hint : ¬ ∃ z : Int, x = z)
    {s : Str e} {t ds fs : List Nat} (ht : TextOf e s t)
    (hnum : Spec.RealNumeral f.radix f.separator.char (f.sign = .alwaysShow) f.radixCharacter.char none t
      (decide (⌊x⌋ < 0)) ds fs)
    (hne : ds ≠ []) (hp : Spec.positional f.radix ds = ⌊x⌋.natAbs) (hz : ds.head? = some 0 → ds = [0])
    (hlen : fs.length ≤ f.placeCount) (hfs1 : 0 < f.placeCount → fs ≠ [])
    (g1 : -(1 / (f.radix : ℚ) ^ f.placeCount + 2 * (1 / 2 ^ F.prec))
      ≤ Spec.fraction f.radix fs - Int.fract (|x|))
    (g2 : Spec.fraction f.radix fs - Int.fract (|x|) ≤ 2 * (1 / 2 ^ F.prec)) :
    ∃ y, parseFloat e rnd s f = .ok y
      ∧ |y - x| ≤ 1 / (f.radix : ℚ) ^ f.placeCount + (|x| + 2) * (4 * ((f.placeCount + 1) / 2 ^ F.prec)) := by
  have hmx : llong.max = 9223372036854775807 := by decide
  have hmn : llong.min = -9223372036854775808 := by decide
  have hpos : ((Spec.positional f.radix ds : Nat) : Int) ≤ llong.max := by
    have h1 := hll.1
    have h2 := hll.2
    rw [hp]
    rw [hmx] at h2 ⊢
    rw [hmn] at h1 hmin
    omega
  have hplace : ((f.radix ^ (ds.length - 1) : Nat) : Int) ≤ llong.max := by
    by_cases h0 : ds.head? = some 0
    · rw [hz h0, hmx]
      simp
    · have := place_le (r := f.radix) ds hne h0
      omega
  have hfl0 : 0 ≤ ⌊x⌋ := Int.floor_nonneg.mpr h0
  have hneg : decide (⌊x⌋ < 0) = false := by simpa using hfl0
  have hval : Spec.denoteReal f.radix false ds fs - x = Spec.fraction f.radix fs - Int.fract |x| := by
    rw [Spec.denoteReal, if_neg (by simp), hp, abs_of_nonneg h0]
    have hna : ((⌊x⌋.natAbs : Nat) : ℚ) = ((⌊x⌋ : Int) : ℚ) := by
      rw [← Int.cast_natCast, Int.natAbs_of_nonneg hfl0]
    have hx' := Int.floor_add_fract x
    rw [hna]
    linarith
  rw [← hval] at g1 g2
  have hsm := Spec.BinFmt.Has.small_of_not_int hx hint
  rw [abs_of_nonneg h0] at hsm ⊢
  obtain ⟨u, hu⟩ : ∃ u : ℚ, u = 1 / 2 ^ F.prec := ⟨_, rfl⟩
  have hu0 : 0 ≤ u := by rw [hu]; positivity
  rw [← hu] at g1 g2
  obtain ⟨hke, hku, -, -⟩ := trip_room hF hf.1 hlen hfit (V := 0) (by positivity)
  rw [← hu] at hku
  have hn0 : (0 : ℚ) ≤ f.placeCount := by positivity
  have hu1 : u ≤ 1 / 1024 := by nlinarith
  have hbig : (1 : ℚ) ≤ 2 ^ F.prec := one_le_pow₀ (by norm_num)
  obtain ⟨V, hV⟩ : ∃ V, V = Spec.denoteReal f.radix false ds fs := ⟨_, rfl⟩
  rw [← hV] at g1 g2
  have hV0 : 0 ≤ V := by
    have : (0 : ℚ) ≤ Spec.fraction f.radix fs := by unfold Spec.fraction; positivity
    rw [hV, Spec.denoteReal, if_neg (by simp)]
    positivity
  have hr := hn.rounding hF
  have hr' : ∀ q : ℚ, q = 0 ∨ ((2 : ℚ) ^ (F.emin + F.prec - 1) ≤ q ∧ q ≤ 2 ^ (F.emax - 1)) →
      (1 - 1 / 2 ^ F.prec) * q ≤ rnd q ∧ rnd q ≤ (1 + 1 / 2 ^ F.prec) * q := by
    rintro q (rfl | ⟨h1, h2⟩)
    · rw [hn.exact (Spec.BinFmt.has_zero hF)]
      simp
    · exact hr.2 q h1 h2
  obtain ⟨-, -, r1, r2⟩ := trip_room hF hf.1 hlen hfit (V := V) (by linarith)
  rw [hneg] at hnum
  obtain ⟨y, e1, -, e3⟩ := C28_partial e rnd (1 / 2 ^ F.prec) _ _ f s t
    false ds fs (by positivity) (by rw [← hu]; linarith) hr' hf ht hnum
    hrc (fun h => by
      by_cases hc : f.placeCount = 0
      · exact .inr (.inl hc)
      · exact absurd h (hfs1 (by omega))) hpos hplace (.inl rfl) r1 (by rw [← hV]; exact r2)
  refine ⟨y, e1, ?_⟩
  obtain ⟨d1, d2⟩ := e3 rfl
  rw [← hu, ← hV] at d1 d2
  obtain ⟨t1, t2⟩ := trip_error hlen hu0 hku
  obtain ⟨b1, b2, -⟩ := near_one hu0 hku
  have hA : (0 : ℚ) ≤ (1 + u) ^ (fs.length + 1) / (1 - u) ^ fs.length :=
    div_nonneg (by positivity) (pow_nonneg (by linarith) _)
  have hB : (0 : ℚ) ≤ (1 - u) ^ (fs.length + 1) / (1 + u) ^ fs.length :=
    div_nonneg (pow_nonneg (by linarith) _) (by positivity)
  have hone : (1 : ℚ) ≤ (1 + u) ^ f.placeCount := one_le_pow₀ (by linarith)
  rw [show ((f.placeCount : ℚ) + 1) / 2 ^ F.prec = (f.placeCount + 1) * u by rw [hu]; ring]
  obtain ⟨w, hw⟩ : ∃ w, w = 4 * (((f.placeCount : ℚ) + 1) * u) := ⟨_, rfl⟩
  rw [← hw] at t1 t2 ⊢
  have hw0 : 4 * u ≤ w := by rw [hw]; nlinarith
  have a1 : (1 + u) ^ (fs.length + 1) / (1 - u) ^ fs.length ≤ 1 + w := by nlinarith
  have a2 : 1 - w ≤ (1 - u) ^ (fs.length + 1) / (1 + u) ^ fs.length := by nlinarith
  have m1 := mul_le_mul_of_nonneg_left a1 hV0
  have m2 := mul_le_mul_of_nonneg_left a2 hV0
  have hVx : V * w ≤ (x + 1) * w := mul_le_mul_of_nonneg_right (by linarith) (by linarith)
  have hrp : (0 : ℚ) ≤ 1 / (f.radix : ℚ) ^ f.placeCount := by positivity
  rw [mul_add, mul_one] at m1
  rw [mul_sub, mul_one] at m2
  rw [abs_le]
  constructor
  · linarith
  · linarith

/-- C151 for numbers that are not negative or are integers, in every radix, without separators or with not
more than two places.  What is missing: negative numbers with a fraction part (`C151_negative`), separators
among the places (`C150_exact`) or like the radix character (`C150_exact_same`), and limits for which the
powers of the radix leave the range of the type. -/
theorem C151_partial (e : Enc) (F : Spec.BinFmt) (rnd : ℚ → ℚ) (f : FloatFormat) (x : ℚ)
    (hF : F.Std) (hn : F.Nearest rnd) (hf : f.Valid) (hlim : f.placeLimit ≠ .none)
    (hsep : f.PlainPlaces) (hfit : PlacesFit F f.radix f.placeCount) (hx : F.Has x)
    (hll : llong.Has ⌊x⌋) (hmin : ⌊x⌋ ≠ llong.min) (hx0 : 0 ≤ x ∨ ∃ z : Int, x = z) :
    ∃ N s y, (∀ fuel ≥ N, formatFloat e rnd fuel x f = .ok s) ∧ parseFloat e rnd s f = .ok y
      ∧ ((∃ z : Int, x = z) → y = x)
      ∧ |y - x| ≤ 1 / (f.radix : ℚ) ^ f.placeCount + (|x| + 2) * (4 * ((f.placeCount + 1) / 2 ^ F.prec)) := by
  obtain ⟨t, ds, fs, ⟨N, s, ht, hrun⟩, hnum, hne, hfs, hp, hz, hlen, hyes, hno⟩ :=
    limited_text e hF hn hf hlim hsep hx hll hmin
  have hmx : llong.max = 9223372036854775807 := by decide
  have hmn : llong.min = -9223372036854775808 := by decide
  have hpos : ((Spec.positional f.radix ds : Nat) : Int) ≤ llong.max := by
    have h1 := hll.1
    have h2 := hll.2
    rw [hp]
    rw [hmx] at h2 ⊢
    rw [hmn] at h1 hmin
    omega
  have hplace : ((f.radix ^ (ds.length - 1) : Nat) : Int) ≤ llong.max := by
    by_cases h0 : ds.head? = some 0
    · rw [hz h0, hmx]
      simp
    · have := place_le (r := f.radix) ds hne h0
      omega
  by_cases hint : ∃ z : Int, x = z
  · obtain ⟨hfs0, hden, hnot⟩ := hyes hint
    obtain ⟨hd, hnum', -, hcase⟩ := hnum
    have ht' : t = hd := by
      rcases hcase with h | ⟨tail, h, -⟩
      · exact h.1
      · rw [h] at hnot
        simp at hnot
    subst ht'
    have hch := numeral_chars (f := f) hnum'
    have hbmp : e.form = .utf16 → ∀ c ∈ t, Spec.IsBmp c := fun _ c hc => by
      have := (hch c hc).1
      unfold Spec.IsBmp
      omega
    have hi := C22_partial .char32 .llong ⟨f.radix, f.sign, f.separator⟩ _ _ _ ds (by decide) hf
      (textOf_ascii .char32 _ fun c hc => (hch c hc).1) hnum' (fun _ => rfl) hpos
      (fun _ => hplace)
    have hden' : ((Spec.denote f.radix (decide (⌊x⌋ < 0)) ds : Int) : ℚ) = x := by
      refine Eq.trans ?_ hden
      rw [hfs0, Spec.denoteReal, Spec.denote, Spec.fraction_nil]
      split <;> push_cast <;> ring
    refine ⟨N, s, x, hrun, ?_, fun _ => rfl, ?_⟩
    · rw [parseFloat_whole rnd hf ht hbmp hnot, hi, Outcome.ok_bind, hden', hn.exact hx]
    · rw [sub_self, abs_zero]
      positivity
  · obtain ⟨hfs1, -, g1, g2⟩ := hno hint
    obtain ⟨y, h1, h2⟩ := limited_read hF hn hf hsep.1 hfit hx hll hmin (hx0.resolve_right hint) hint ht hnum
      hne hp hz hlen hfs1 g1 g2
    exact ⟨N, s, y, hrun, h1, fun h => absurd h hint, h2⟩

/-- C151 with separators that are not the radix character, for numbers that are no integers: the digits that
are written, without the zeros that fill up the places, decide.  If they are fewer than three the number is
read back as in `C151_partial`; otherwise there is a separator among the places, and the text is refused. -/
theorem C151_exact_separators (e : Enc) (F : Spec.BinFmt) (rnd : ℚ → ℚ) (f : FloatFormat) (x : ℚ)
    (hF : F.Std) (hn : F.Nearest rnd) (hf : f.Valid) (hlim : f.placeLimit ≠ .none)
    (hsep : f.separator ≠ .none) (hrc : f.separator.char ≠ some f.radixCharacter.char)
    (hfit : PlacesFit F f.radix f.placeCount) (hx : F.Has x) (hll : llong.Has ⌊x⌋) (hx0 : 0 ≤ x)
    (hint : ¬ ∃ z : Int, x = z) :
    ∃ N s t ds fs pad, (∀ fuel ≥ N, formatFloat e rnd fuel x f = .ok s) ∧ TextOf e s t
      ∧ Spec.RealNumeral f.radix f.separator.char (f.sign = .alwaysShow) f.radixCharacter.char
        f.separator.char t false ds (fs ++ List.replicate pad 0)
      ∧ fs.length + pad ≤ f.placeCount
      ∧ (f.placeLimit = .exactlyEqual → fs.length + pad = f.placeCount)
      ∧ (fs.length < 3 → ∃ y, parseFloat e rnd s f = .ok y
        ∧ |y - x| ≤ 1 / (f.radix : ℚ) ^ f.placeCount + (|x| + 2) * (4 * ((f.placeCount + 1) / 2 ^ F.prec)))
      ∧ (3 ≤ fs.length → parseFloat e rnd s f = .throw (.parseFailed .wrongPlaceLimit)) := by
  have hfl0 : 0 ≤ ⌊x⌋ := Int.floor_nonneg.mpr hx0
  have hneg : decide (⌊x⌋ < 0) = false := by simpa using hfl0
  have hmn : llong.min = -9223372036854775808 := by decide
  have hmin : ⌊x⌋ ≠ llong.min := by rw [hmn]; omega
  obtain ⟨ds, fs, pad, ⟨N, s, ht, hrun⟩, hne, hd, hfs, hp, hz, hlen, hne0, hexa, g1, g2⟩ :=
    limited_parts e hF hn hf hlim hx hll hmin hint
  have hr0 : 0 < f.radix := by have := hf.1; omega
  have hnum := realNumeral_of_format f hf.2 ⌊x⌋ ds fs hne hd hfs pad
  have hasc := realText_ascii f hf.2 ⌊x⌋ ds fs hd hfs pad
  have hnum0 := numeral_of_format f hf.2 ⌊x⌋ ds hne hd
  refine ⟨N, s, _, ds, fs, pad, hrun, ht, by rw [← hneg]; exact hnum, hlen, hexa, fun h3 => ?_, fun h3 => ?_⟩
  · have hft := fracText_short f.separator.char (fs.map Spec.upperDigit) (by simpa using h3)
    rw [hft] at ht
    refine limited_read (fs := fs ++ List.replicate pad 0) hF hn hf hrc hfit hx hll hmin hx0 hint ht
      ⟨_, hnum0, ?_, .inr ⟨_, rfl, ?_⟩⟩ hne hp hz (by simpa using hlen)
      (fun hpos h => hne0 hpos (List.append_eq_nil_iff.mp h).1) ?_ ?_
    · intro d hd
      rw [List.mem_append] at hd
      rcases hd with hd | hd
      · exact hfs d hd
      · rw [List.eq_of_mem_replicate hd]
        exact hr0
    · have h48 : Spec.digitValue 48 = some 0 := by decide
      rw [show ∀ l, Spec.ungroup none l = l from fun _ => rfl, List.map_append, List.map_append,
        upper_digits hf.2 hfs, List.map_replicate, List.map_replicate, h48]
    · rw [Spec.fraction_zeros hr0]
      exact g1
    · rw [Spec.fraction_zeros hr0]
      exact g2
  · obtain ⟨a, b, d, l, rfl⟩ : ∃ a b d l, fs = a :: b :: d :: l := by
      rcases fs with - | ⟨a, - | ⟨b, - | ⟨d, l⟩⟩⟩
      · simp at h3
      · simp at h3
      · simp at h3
      · exact ⟨a, b, d, l, rfl⟩
    obtain ⟨c, hc, hcc⟩ : ∃ c, f.separator.char = some c ∧ (c = 44 ∨ c = 46) := by
      cases hs : f.separator
      · exact absurd hs hsep
      all_goals exact ⟨_, rfl, by simp⟩
    have hch := numeral_chars hnum0
    have hrcc := f.radixCharacter.char_cases
    have hnot : f.radixCharacter.char ∉
        signText f.sign ⌊x⌋ ++ Spec.group f.separator.char (ds.map Spec.upperDigit) := by
      intro h
      rcases (hch _ h).2 with h1 | h1
      · omega
      · exact hrc h1
    have hmx : llong.max = 9223372036854775807 := by decide
    have hpos : ((Spec.positional f.radix ds : Nat) : Int) ≤ llong.max := by
      have h2 := hll.2
      rw [hp]
      omega
    have hplace : ((f.radix ^ (ds.length - 1) : Nat) : Int) ≤ llong.max := by
      by_cases h0 : ds.head? = some 0
      · rw [hz h0, hmx]
        simp
      · have := place_le (r := f.radix) ds hne h0
        omega
    have hi := C22_partial .char32 .llong ⟨f.radix, f.sign, f.separator⟩ _ _ _ ds (by decide) hf
      (textOf_ascii .char32 _ fun c hc => (hch c hc).1) hnum0 (fun _ => rfl) hpos (fun _ => hplace)
    have htail : fracText f.separator.char 0 ((a :: b :: d :: l).map Spec.upperDigit)
        ++ List.replicate pad 48 = Spec.upperDigit a :: Spec.upperDigit b :: Spec.upperDigit d :: c ::
          (fracText f.separator.char 0 (l.map Spec.upperDigit) ++ List.replicate pad 48) := by
      simp [fracText, hc]
    rw [htail] at ht hasc
    exact parse_refused hF hn hf ht hasc hnot hi (hfs a (by simp)) (hfs b (by simp)) (hfs d (by simp)) hcc

/-- With exactly three places and commas, 1.5 is written as `1.500` and read back; 1.125 is written as
`1.125,` and refused. -/
example :
    let f : FloatFormat :=
      { FloatFormat.default with separator := .comma, placeLimit := .exactlyEqual, placeCount := 3 }
    formatFloat .char8 Spec.binary64.tiesToEven 5 (3 / 2) f = .ok [49#8, 46#8, 53#8, 48#8, 48#8]
    ∧ parseFloat .char8 Spec.binary64.tiesToEven [49#8, 46#8, 53#8, 48#8, 48#8] f = .ok (3 / 2)
    ∧ formatFloat .char8 Spec.binary64.tiesToEven 5 (9 / 8) f
      = .ok [49#8, 46#8, 49#8, 50#8, 53#8, 44#8]
    ∧ parseFloat .char8 Spec.binary64.tiesToEven [49#8, 46#8, 49#8, 50#8, 53#8, 44#8] f
      = .throw (.parseFailed .wrongPlaceLimit) := by
  refine ⟨?_, ?_, ?_, ?_⟩ <;> decide +kernel

/-- C151 for negative numbers with a fraction part: what comes back is off by twice the fraction part of the
absolute value less one, but for one unit of the last place. -/
theorem C151_negative (e : Enc) (F : Spec.BinFmt) (rnd : ℚ → ℚ) (f : FloatFormat) (x : ℚ)
    (hF : F.Std) (hn : F.Nearest rnd) (hf : f.Valid) (hlim : f.placeLimit ≠ .none)
    (hsep : f.separator = .none) (hfit : PlacesFit F f.radix f.placeCount) (hx : F.Has x)
    (hx0 : x < 0) (hint : ¬ ∃ z : Int, x = z) :
    ∃ N s y, (∀ fuel ≥ N, formatFloat e rnd fuel x f = .ok s) ∧ parseFloat e rnd s f = .ok y
      ∧ |(y - x) - (2 * Int.fract (|x|) - 1)|
        ≤ 1 / (f.radix : ℚ) ^ f.placeCount + 16 * (|x| + 1) * ((f.placeCount + 1) / 2 ^ F.prec) := by
  have hneg : Negative F (-F.emin).toNat x := ⟨hx, hx0, hint, hx.places hF⟩
  obtain ⟨hll, hmin, -, -, -, hfloor⟩ := negative_floor hF hneg
  obtain ⟨t, ds, fs, ⟨N, s, ht, hrun⟩, hnum, hne, hfs, hp, hz, hlen, -, hno⟩ :=
    limited_text e hF hn hf hlim (FloatFormat.plainPlaces_none hsep) hx hll hmin
  obtain ⟨hfs1, -, g1, g2⟩ := hno hint
  have hfl0 : decide (⌊x⌋ < 0) = true := by
    rw [decide_eq_true_eq, Int.floor_lt]
    exact_mod_cast hx0
  rw [hfl0] at hnum
  obtain ⟨y, c, M, s', e1, hc, hM, hc0, hstart, e2⟩ :=
    negative_read hF hn hf hsep hfit hneg ht (by
      rw [show f.separator.char = none by rw [hsep]; rfl] at hnum ⊢; exact hnum) hz hp hlen (fun h => by
      by_cases hc : f.placeCount = 0
      · exact .inr (.inl hc)
      · exact absurd h (hfs1 (by omega)))
  have hfr := fraction_bounds (by have := hf.1; omega) fs hfs
  refine ⟨N, s, y, hrun, e1, ?_⟩
  obtain ⟨u, hu⟩ : ∃ u : ℚ, u = 1 / 2 ^ F.prec := ⟨_, rfl⟩
  have hu0 : 0 ≤ u := by rw [hu]; positivity
  rw [← hu] at g1 g2 hc e2
  have hn0 : (0 : ℚ) ≤ f.placeCount := by positivity
  have hlq : (fs.length : ℚ) ≤ f.placeCount := by exact_mod_cast hlen
  rw [show ((f.placeCount : ℚ) + 1) / 2 ^ F.prec = (f.placeCount + 1) * u by rw [hu]; ring]
  obtain ⟨E, hE⟩ : ∃ E : ℚ, E = ((f.placeCount : ℚ) + 1) * u := ⟨_, rfl⟩
  rw [← hE] at e2 ⊢
  have hE0 : u ≤ E := by rw [hE]; nlinarith
  have k1 : fs.length * c ≤ f.placeCount * c := mul_le_mul_of_nonneg_right hlq hc0
  have k2 : ((f.placeCount : ℚ) + 1) * c ≤ E * (2 * |x| + 7) := by
    rw [hc, hE, ← mul_assoc]
    exact mul_le_mul_of_nonneg_left (by linarith) (by positivity)
  have k3 : 4 * E * Spec.fraction f.radix fs ≤ 4 * E * 1 :=
    mul_le_mul_of_nonneg_left hfr.2.le (by linarith)
  have k4 : 0 ≤ E * |x| := mul_nonneg (by linarith) (abs_nonneg x)
  have hrp : (0 : ℚ) ≤ 1 / (f.radix : ℚ) ^ f.placeCount := by positivity
  obtain ⟨s1, s2⟩ := abs_le.mp hstart
  obtain ⟨y1, y2⟩ := abs_le.mp e2
  have hkc : f.placeCount * c + c ≤ E * (2 * |x| + 7) := by linarith
  rw [abs_le]
  constructor
  · linarith
  · linarith

/-- Integers are written without a radix character, whatever the place limit is: a limit of exactly `n` places
does not give them places. -/
theorem C106_exact_integers (e : Enc) (F : Spec.BinFmt) (rnd : ℚ → ℚ) (f : FloatFormat) (z : Int)
    (hF : F.Std) (hn : F.Nearest rnd) (hf : f.Valid)
    (hrc : f.separator.char ≠ some f.radixCharacter.char) (hll : llong.Has z) (hmin : z ≠ llong.min) :
    ∃ cs ds, FormatsTo e rnd z f cs ∧ f.radixCharacter.char ∉ cs
      ∧ Spec.Numeral f.radix f.separator.char (f.sign = .alwaysShow) cs (decide (z < 0)) ds
      ∧ Spec.denote f.radix (decide (z < 0)) ds = z := by
  obtain ⟨hf2, h36⟩ := id hf
  obtain ⟨ds, e1, hp, hd, hne, hz⟩ := formatInteger_eq e (T := .llong)
    (f := ⟨f.radix, f.sign, f.separator⟩) (by decide) hf2 h36 hll (fun _ => hmin)
  have hmake : IntegerFormat.make f.radix f.sign f.separator
      = .ok ⟨f.radix, f.sign, f.separator⟩ := by
    rw [IntegerFormat.make, if_neg (by simp; omega)]
  have hfl : floorToLongLong ((z : Int) : ℚ) = .ok z := by
    rw [floorToLongLong, Int.floor_intCast, if_pos hll]
  have hnum0 := numeral_of_format f h36 z ds hne hd
  refine ⟨_, ds, ⟨0, _, textOf_ascii e _ (formatted_ascii ⟨f.radix, f.sign, f.separator⟩ h36 z ds hd),
    fun fuel _ => ?_⟩, ?_, hnum0, ?_⟩
  · have habs : rnd ((if ((z : Int) : ℚ) < 0 then -((z : Int) : ℚ) else z)
        - ((⌊if ((z : Int) : ℚ) < 0 then -((z : Int) : ℚ) else z⌋ : Int) : ℚ)) = 0 := by
      have : (if ((z : Int) : ℚ) < 0 then -((z : Int) : ℚ) else z)
          - ((⌊if ((z : Int) : ℚ) < 0 then -((z : Int) : ℚ) else z⌋ : Int) : ℚ) = 0 := by
        split
        · rw [← Int.cast_neg, Int.floor_intCast, sub_self]
        · rw [Int.floor_intCast, sub_self]
      rw [this, hn.exact (Spec.BinFmt.has_zero hF)]
    simp only [formatFloat, hmake, hfl, e1, Outcome.ok_bind, habs, if_true]
  · intro h
    have hrcc := f.radixCharacter.char_cases
    rcases (numeral_chars hnum0 _ h).2 with h1 | h1
    · omega
    · exact hrc h1
  · rw [Spec.denote, hp]
    by_cases h : z < 0
    · rw [if_pos (by simpa using h)]
      omega
    · rw [if_neg (by simpa using h)]
      omega

/-- The default format with up to one place. -/
abbrev onePlace : FloatFormat := { FloatFormat.default with placeLimit := .upTo, placeCount := 1 }

/-- C151 fails for negative numbers with a fraction part: -1.25 is written as `-2.2`, which is read as the
double next to -1.8, more than half away. -/
theorem C151_violated :
    formatFloat .char8 Spec.binary64.tiesToEven 5 (-5 / 4) onePlace = .ok [45#8, 50#8, 46#8, 50#8]
    ∧ ∃ y, parseFloat .char8 Spec.binary64.tiesToEven [45#8, 50#8, 46#8, 50#8] onePlace = .ok y
      ∧ 1 / 2 < |y - -5 / 4| := by
  refine ⟨by decide +kernel, -8106479329266893 / 4503599627370496, by decide +kernel, by norm_num [abs]⟩

/-- The hypotheses hold for 2.75 and one place, and in radix 3 as well. -/
example : Spec.binary64.Has (11 / 4) ∧ PlacesFit Spec.binary64 onePlace.radix onePlace.placeCount
    ∧ PlacesFit Spec.binary64 3 20 ∧ onePlace.Valid ∧ onePlace.placeLimit ≠ .none := by
  refine ⟨⟨11, -2, by norm_num [Spec.binary64], by norm_num [Spec.binary64], by norm_num⟩, ?_, ?_, ?_,
    by decide⟩
  · unfold PlacesFit
    decide +kernel
  · unfold PlacesFit
    decide +kernel
  · unfold FloatFormat.Valid
    decide

/-- Exactly two places, with commas: an amount of money. -/
abbrev money : FloatFormat :=
  { FloatFormat.default with separator := .comma, placeLimit := .exactlyEqual, placeCount := 2 }

/-- The hypotheses hold for 1234.5 as an amount of money. -/
example : Spec.binary64.Has (2469 / 2) ∧ PlacesFit Spec.binary64 money.radix money.placeCount
    ∧ money.PlainPlaces ∧ money.Valid ∧ money.placeLimit ≠ .none := by
  refine ⟨⟨2469, -1, by norm_num [Spec.binary64], by norm_num [Spec.binary64], by norm_num⟩, ?_, ?_, ?_,
    by decide⟩
  · unfold PlacesFit
    decide +kernel
  · unfold FloatFormat.PlainPlaces
    decide
  · unfold FloatFormat.Valid
    decide

/-- With a limit of exactly two places 5 is written as `5`. -/
theorem C106_violated_places :
    ¬ ∀ (e : Enc) (fuel : Nat) (f : FloatFormat) (x : ℚ) (s : Str e), f.Valid → Spec.binary64.Has x →
      f.placeLimit = .exactlyEqual → formatFloat e Spec.binary64.tiesToEven fuel x f = .ok s →
      ∃ cs head fs, TextOf e s cs ∧ cs = head ++ f.radixCharacter.char :: fs
        ∧ (Spec.ungroup f.separator.char fs).length = f.placeCount := by
  intro h
  obtain ⟨cs, head, fs, ht, hcs, hlen⟩ := h .char32 1 money 5 [53#32]
    (by unfold FloatFormat.Valid; decide)
    ⟨5, 0, by norm_num [Spec.binary64], by norm_num [Spec.binary64], by norm_num⟩ rfl (by decide +kernel)
  obtain rfl : cs = [53] := textOf_ascii_unique (textOf_ascii .char32 [53] (by simp)) ht (by simp)
  rcases head with - | ⟨a, - | ⟨b, head⟩⟩
  · simp at hcs
    exact absurd hcs.1 (by decide)
  · simp at hcs
  · simp at hcs

/-- It is written as `1,234.50`, and read as it was. -/
example : formatFloat .char8 Spec.binary64.tiesToEven 5 (2469 / 2) money
      = .ok [49#8, 44#8, 50#8, 51#8, 52#8, 46#8, 53#8, 48#8]
    ∧ parseFloat .char8 Spec.binary64.tiesToEven [49#8, 44#8, 50#8, 51#8, 52#8, 46#8, 53#8, 48#8] money
      = .ok (2469 / 2) := by
  constructor <;> decide +kernel

/-- It is written as `2.7`, and read as the double next to 2.7. -/
example : formatFloat .char8 Spec.binary64.tiesToEven 5 (11 / 4) onePlace = .ok [50#8, 46#8, 55#8]
    ∧ parseFloat .char8 Spec.binary64.tiesToEven [50#8, 46#8, 55#8] onePlace
      = .ok (3039929748475085 / 1125899906842624) := by
  constructor <;> decide +kernel

end Cmp
