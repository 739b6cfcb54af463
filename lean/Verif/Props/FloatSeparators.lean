import Verif.Props.FloatTrip
import Verif.Props.Ieee

/-
Properties of floating-point numbers that are written with thousands separators.
-/

namespace Cmp

open IntTy

/-- The text of a number that survives (`Storable`): its digits, grouped on either side of the radix
character. -/
theorem separated_text (e : Enc) {F : Spec.BinFmt} {rnd : ℚ → ℚ} {f : FloatFormat} {x : ℚ} {k : Nat}
    (hF : F.Std) (hn : F.Nearest rnd) (hf : f.Valid) (hlim : f.placeLimit = .none)
    (heven : f.radix % 2 = 0) (hfit : PlacesFit F f.radix k) (hx : Storable F k x) :
    ∃ t ds fs, FormatsTo e rnd x f t ∧ ds ≠ [] ∧ (∀ d ∈ ds, d < f.radix) ∧ (∀ d ∈ fs, d < f.radix)
      ∧ Spec.positional f.radix ds = ⌊x⌋.natAbs ∧ (ds.head? = some 0 → ds = [0])
      ∧ |Spec.denoteReal f.radix (decide (⌊x⌋ < 0)) ds fs - x| ≤ |x| * ((1 + 1 / 2 ^ F.prec) ^ k - 1)
      ∧ fs.length ≤ k
      ∧ ((∃ z : Int, x = z) ∧ fs = [] ∧ Spec.denoteReal f.radix (decide (⌊x⌋ < 0)) ds fs = x
          ∧ t = signText f.sign ⌊x⌋ ++ Spec.group f.separator.char (ds.map Spec.upperDigit)
        ∨ (¬ ∃ z : Int, x = z) ∧ decide (⌊x⌋ < 0) = false
          ∧ t = (signText f.sign ⌊x⌋ ++ Spec.group f.separator.char (ds.map Spec.upperDigit))
            ++ f.radixCharacter.char :: fracText f.separator.char 0 (fs.map Spec.upperDigit)) := by
  obtain ⟨hx1, hll, hmin, hx0, hxk⟩ := hx
  obtain ⟨hke, hku, -, -⟩ := trip_room hF hf.1 le_rfl hfit (V := 0) (by positivity)
  obtain ⟨hf2, h36⟩ := hf
  obtain ⟨ds, e1, hp, hd, hne, hz⟩ := formatInteger_eq e (T := .llong)
    (f := ⟨f.radix, f.sign, f.separator⟩) (by decide) hf2 h36 hll (fun _ => hmin)
  have hmake : IntegerFormat.make f.radix f.sign f.separator
      = .ok ⟨f.radix, f.sign, f.separator⟩ := by
    rw [IntegerFormat.make, if_neg (by simp; omega)]
  have hfl : floorToLongLong x = .ok ⌊x⌋ := by rw [floorToLongLong, if_pos hll]
  have hpow : (1 : ℚ) ≤ (1 + 1 / 2 ^ F.prec) ^ k := one_le_pow₀ (by
    have : (0 : ℚ) ≤ 1 / 2 ^ F.prec := by positivity
    linarith)
  by_cases hint : ∃ z : Int, x = z
  · have hasc := formatted_ascii ⟨f.radix, f.sign, f.separator⟩ h36 ⌊x⌋ ds hd
    have hxf : ((⌊x⌋ : Int) : ℚ) = x := by
      obtain ⟨z, rfl⟩ := hint
      rw [Int.floor_intCast]
    have hden : Spec.denoteReal f.radix (decide (⌊x⌋ < 0)) ds [] = x := by
      have hna : ((⌊x⌋.natAbs : Nat) : ℚ) = |((⌊x⌋ : Int) : ℚ)| := by
        rw [← Int.cast_abs, Int.abs_eq_natAbs, Int.cast_natCast]
      rw [Spec.denoteReal, Spec.fraction_nil, add_zero, hp, hna, hxf]
      by_cases h : ⌊x⌋ < 0
      · have : x < 0 := by rw [← hxf]; exact_mod_cast h
        rw [if_pos (by simpa using h), abs_of_neg this, neg_neg]
      · have : 0 ≤ x := by rw [← hxf]; exact_mod_cast not_lt.mp h
        rw [if_neg (by simpa using h), abs_of_nonneg this]
    refine ⟨_, ds, [], ⟨0, _, textOf_ascii e _ hasc, fun fuel _ => ?_⟩, hne, hd, by simp, hp, hz, ?_,
      by simp, .inl ⟨hint, rfl, hden, rfl⟩⟩
    · have habs : rnd ((if x < 0 then -x else x) - ((⌊if x < 0 then -x else x⌋ : Int) : ℚ)) = 0 := by
        have : (if x < 0 then -x else x) - ((⌊if x < 0 then -x else x⌋ : Int) : ℚ) = 0 := by
          obtain ⟨z, rfl⟩ := hint
          split
          · rw [← Int.cast_neg, Int.floor_intCast, sub_self]
          · rw [Int.floor_intCast, sub_self]
        rw [this, hn.exact (Spec.BinFmt.has_zero hF)]
      simp only [formatFloat, hmake, hfl, e1, Outcome.ok_bind, habs, if_true]
    · rw [hden, sub_self, abs_zero]
      exact mul_nonneg (abs_nonneg x) (by linarith)
  · have h0 : 0 ≤ x := hx0.resolve_right hint
    have hfl0 : 0 ≤ ⌊x⌋ := Int.floor_nonneg.mpr h0
    have hfh : F.Has (Int.fract x) := hx1.fract hF h0
    have hfr0 : Int.fract x ≠ 0 := by
      intro h
      have := Int.floor_add_fract x
      rw [h, add_zero] at this
      exact hint ⟨⌊x⌋, this.symm⟩
    have hkp : (k : Int) + F.prec ≤ 1 - F.emin := by exact_mod_cast hke
    obtain ⟨fs, hfs, -, herr, hlen, hrun⟩ := formatFractionLoop_even e hF hn hf2 h36 heven hlim k
      (by have := hF.prec_ge; omega) _ hfh (Int.fract_nonneg _) (Int.fract_lt_one _) (by
        have := Spec.BinFmt.BinaryPlaces.fract hxk
        exact this) 0
    have hrcIns := appendCP_enc e f.radixCharacter.char
      (insOk_ascii e (by cases f.radixCharacter <;> decide))
    have hneg : decide (⌊x⌋ < 0) = false := by simpa using hfl0
    refine ⟨_, ds, fs, ⟨k + 1, _, textOf_ascii e _ ?_, fun fuel hfuel => ?_⟩, hne, hd, hfs, hp, hz, ?_,
      hlen, .inr ⟨hint, hneg, rfl⟩⟩
    · have := realText_ascii f h36 ⌊x⌋ ds fs hd hfs 0
      simpa using this
    · have hsub : rnd (x - ((⌊x⌋ : Int) : ℚ)) = Int.fract x := hn.exact hfh
      have hif : (if x < 0 then -x else x) = x := if_neg (not_lt.mpr h0)
      rw [formatFloat_run hmake hfl e1 (by rw [hif]; exact hsub) hfr0 (by
        have := hrun fuel hfuel 0 []
        rw [List.nil_append] at this
        exact this) (by rw [hlim]; decide) (hrcIns _)]
      simp
    · rw [hneg, Spec.denoteReal, if_neg (by simp), hp]
      have hna : ((⌊x⌋.natAbs : Nat) : ℚ) = ((⌊x⌋ : Int) : ℚ) := by
        rw [← Int.cast_natCast, Int.natAbs_of_nonneg hfl0]
      have hx' := Int.floor_add_fract x
      have : ((⌊x⌋.natAbs : Nat) : ℚ) + Spec.fraction f.radix fs - x
          = Spec.fraction f.radix fs - Int.fract x := by
        rw [hna]
        linarith
      rw [this]
      refine (herr hkp).trans ?_
      rw [abs_of_nonneg h0]
      apply mul_le_mul_of_nonneg_right _ (by linarith)
      have : (0 : ℚ) ≤ ((⌊x⌋ : Int) : ℚ) := by exact_mod_cast hfl0
      linarith

/-- Fewer than three digits are not grouped. -/
theorem fracText_short (sep : Option Nat) (l : List Nat) (h : l.length < 3) : fracText sep 0 l = l := by
  rcases l with - | ⟨a, - | ⟨b, - | ⟨c, l⟩⟩⟩
  · rfl
  · rfl
  · rfl
  · simp only [List.length_cons] at h
    omega

/-- The machine has small integers. -/
theorem Spec.BinFmt.Nearest.small_nat {F : Spec.BinFmt} {rnd : ℚ → ℚ} (hF : F.Std) (hn : F.Nearest rnd) {m : Nat}
    (hm : m < 2 ^ 24) : rnd m = m :=
  hn.exact ⟨m, 0, by
    have h := Nat.pow_le_pow_right (n := 2) (by decide) hF.prec_ge
    simpa using lt_of_lt_of_le hm h, ⟨hF.emin_nonpos, by have := hF.emax_ge; omega⟩, by simp⟩

theorem upper_digits {r : Nat} (h36 : r ≤ 36) {fs : List Nat} (h : ∀ d ∈ fs, d < r) :
    (fs.map Spec.upperDigit).map Spec.digitValue = fs.map some := by
  rw [List.map_map]
  apply List.map_congr_left
  intro d hd
  exact upperDigit_value (by have := h d hd; omega)

/-- Three digits and something that is no digit are refused. -/
theorem refused_fourth {F : Spec.BinFmt} {rnd : ℚ → ℚ} (hF : F.Std) (hn : F.Nearest rnd) {r : Nat}
    (h2 : 2 ≤ r) (h36 : r ≤ 36) {a b c x : Nat} (ha : a < r) (hb : b < r) (hc : c < r)
    (hx : x = 44 ∨ x = 46) (bs : List Nat) (v : ℚ) :
    (((Spec.upperDigit a :: Spec.upperDigit b :: Spec.upperDigit c :: x :: bs)).map
      (BitVec.ofNat 32)).foldlM (parseFractionStep rnd r) (1, v) = .throw (.parseFailed .wrongPlaceLimit) := by
  have step : ∀ (m d : Nat) (v : ℚ), 0 < m * r → m * r < 2 ^ 24 → d < r →
      ∃ v', parseFractionStep rnd r ((m : ℚ), v) (BitVec.ofNat 32 (Spec.upperDigit d))
        = .ok (((m * r : Nat) : ℚ), v') := by
    intro m d v h0 h1 hd
    have h := parseFraction_fold rnd h36 [Spec.upperDigit d] [d] (m, v)
      (upper_digits (fs := [d]) h36 (by simpa)) (by simpa)
    simp only [List.map_cons, List.map_nil, List.foldlM_cons, List.foldlM_nil] at h
    have e : appendDigit rnd r ((m : ℚ), v) (d : Int) = .ok (((m * r : Nat) : ℚ),
        rnd (v + rnd ((d : Int) / ((m * r : Nat) : ℚ)))) := by
      simp only [appendDigit]
      rw [show (m : ℚ) * (r : ℚ) = ((m * r : Nat) : ℚ) by push_cast; rfl, Spec.BinFmt.Nearest.small_nat hF hn h1,
        if_neg (by exact_mod_cast h0.ne')]
    rw [e] at h
    refine ⟨rnd (v + rnd ((d : Int) / ((m * r : Nat) : ℚ))), ?_⟩
    cases hp : parseFractionStep rnd r ((m : ℚ), v) (BitVec.ofNat 32 (Spec.upperDigit d)) <;>
      rw [hp] at h <;> exact h
  have b1 : r * r ≤ 36 * 36 := Nat.mul_le_mul h36 h36
  have b2 : r * r * r ≤ 36 * 36 * 36 := Nat.mul_le_mul b1 h36
  have p1 : 0 < r * r := by positivity
  have p2 : 0 < r * r * r := by positivity
  obtain ⟨v1, s1⟩ := step 1 a v (by omega) (by omega) ha
  obtain ⟨v2, s2⟩ := step (1 * r) b v1 (by rw [one_mul]; omega) (by rw [one_mul]; omega) hb
  obtain ⟨v3, s3⟩ := step (1 * r * r) c v2 (by rw [one_mul]; omega) (by rw [one_mul]; omega) hc
  rw [Nat.cast_one] at s1
  have s4 : parseFractionStep rnd r (((1 * r * r * r : Nat) : ℚ), v3) (BitVec.ofNat 32 x)
      = .throw (.parseFailed .wrongPlaceLimit) :=
    parseFractionStep_nondigit _ h36 (by omega) (.inr (by omega)) (by
      rcases hx with rfl | rfl <;> simp [Spec.IsDigit, Spec.digitValue])
  simp only [List.map_cons, List.foldlM_cons]
  rw [s1, Outcome.ok_bind, s2, Outcome.ok_bind, s3, Outcome.ok_bind, s4]
  rfl

/-- C150 in general, with a separator that is not the radix character: the text has groups on either side of
the radix character, and is read back, nearly as the number (`C107_partial`), if and only if there are fewer
than three places; otherwise the separator among the places is refused. -/
theorem C150_exact (e : Enc) (F : Spec.BinFmt) (rnd : ℚ → ℚ) (f : FloatFormat) (x : ℚ) (k : Nat)
    (hF : F.Std) (hn : F.Nearest rnd) (hf : f.Valid) (hlim : f.placeLimit = .none)
    (heven : f.radix % 2 = 0) (hsep : f.separator ≠ .none)
    (hrc : f.separator.char ≠ some f.radixCharacter.char) (hfit : PlacesFit F f.radix k)
    (hx : Storable F k x) :
    ∃ N s t neg ds fs, (∀ fuel ≥ N, formatFloat e rnd fuel x f = .ok s) ∧ TextOf e s t
      ∧ Spec.RealNumeral f.radix f.separator.char (f.sign = .alwaysShow) f.radixCharacter.char
        f.separator.char t neg ds fs
      ∧ fs.length ≤ k
      ∧ (fs.length < 3 → ∃ y, parseFloat e rnd s f = .ok y ∧ NearlyBack F k x y)
      ∧ (3 ≤ fs.length → parseFloat e rnd s f = .throw (.parseFailed .wrongPlaceLimit)) := by
  obtain ⟨t, ds, fs, ⟨N, s, ht, hrun⟩, hne, hd, hfs, hp, hz, herr, hlen, hcase⟩ :=
    separated_text e hF hn hf hlim heven hfit hx
  obtain ⟨c, hc, hcc⟩ : ∃ c, f.separator.char = some c ∧ (c = 44 ∨ c = 46) := by
    cases hs : f.separator
    · exact absurd hs hsep
    all_goals exact ⟨_, rfl, by simp⟩
  have hnum0 := numeral_of_format f hf.2 ⌊x⌋ ds hne hd
  refine ⟨N, s, t, decide (⌊x⌋ < 0), ds, fs, hrun, ht, ?_, hlen, ?_, ?_⟩
  · rcases hcase with ⟨-, rfl, -, rfl⟩ | ⟨-, -, rfl⟩
    · exact ⟨_, hnum0, by simp, .inl ⟨rfl, rfl⟩⟩
    · have := realNumeral_of_format f hf.2 ⌊x⌋ ds fs hne hd hfs 0
      simpa using this
  · intro h3
    refine stored_parsed_plain hF hn hf hlim hrc hfit hx ht ?_ hz herr hlen ?_ ?_
    · rcases hcase with ⟨-, rfl, -, rfl⟩ | ⟨-, -, rfl⟩
      · exact ⟨_, hnum0, by simp, .inl ⟨rfl, rfl⟩⟩
      · refine ⟨_, hnum0, hfs, .inr ⟨_, rfl, ?_⟩⟩
        rw [fracText_short _ _ (by simpa using h3)]
        exact upper_digits hf.2 hfs
    · intro hi
      rcases hcase with ⟨-, h1, h2, -⟩ | ⟨h, -, -⟩
      · exact ⟨h1, h2⟩
      · exact absurd hi h
    · intro hi
      rcases hcase with ⟨h, -, -, -⟩ | ⟨-, h, -⟩
      · exact absurd h hi
      · exact h
  · intro h3
    rcases hcase with ⟨-, rfl, -, -⟩ | ⟨hni, hneg, rfl⟩
    · simp at h3
    obtain ⟨a, b, d, l, rfl⟩ : ∃ a b d l, fs = a :: b :: d :: l := by
      rcases fs with - | ⟨a, - | ⟨b, - | ⟨d, l⟩⟩⟩
      · simp at h3
      · simp at h3
      · simp at h3
      · exact ⟨a, b, d, l, rfl⟩
    have hch := numeral_chars hnum0
    have hrcc := f.radixCharacter.char_cases
    have hnot : f.radixCharacter.char ∉
        signText f.sign ⌊x⌋ ++ Spec.group f.separator.char (ds.map Spec.upperDigit) := by
      intro h
      rcases (hch _ h).2 with h1 | h1
      · omega
      · exact hrc h1
    have hasc : ∀ c ∈ (signText f.sign ⌊x⌋ ++ Spec.group f.separator.char (ds.map Spec.upperDigit))
        ++ f.radixCharacter.char ::
          fracText f.separator.char 0 ((a :: b :: d :: l).map Spec.upperDigit), c < 128 := by
      have := realText_ascii f hf.2 ⌊x⌋ ds (a :: b :: d :: l) hd hfs 0
      simpa using this
    have hmx : llong.max = 9223372036854775807 := by decide
    have hmn : llong.min = -9223372036854775808 := by decide
    have hpos : ((Spec.positional f.radix ds : Nat) : Int) ≤ llong.max := by
      have h1 := hx.2.1.1
      have h2 := hx.2.1.2
      have h3 := hx.2.2.1
      rw [hp]
      rw [hmx] at h2 ⊢
      rw [hmn] at h1 h3
      omega
    have hplace : ((f.radix ^ (ds.length - 1) : Nat) : Int) ≤ llong.max := by
      by_cases h0 : ds.head? = some 0
      · rw [hz h0, hmx]
        simp
      · have := place_le (r := f.radix) ds hne h0
        omega
    have hint : parseInteger .char32 .llong (encs .char32 (signText f.sign ⌊x⌋ ++
        Spec.group f.separator.char (ds.map Spec.upperDigit))) ⟨f.radix, f.sign, f.separator⟩
        = .ok (Spec.denote f.radix (decide (⌊x⌋ < 0)) ds) :=
      C22_partial .char32 .llong ⟨f.radix, f.sign, f.separator⟩ _ _ _ ds (by decide) hf
        (textOf_ascii .char32 _ fun c hc => (hch c hc).1) hnum0 (fun _ => rfl) hpos (fun _ => hplace)
    have htail : fracText f.separator.char 0 ((a :: b :: d :: l).map Spec.upperDigit) =
        Spec.upperDigit a :: Spec.upperDigit b :: Spec.upperDigit d :: c ::
          fracText f.separator.char 0 (l.map Spec.upperDigit) := by
      simp [fracText, hc]
    rw [parseFloat_parts rnd hf ht (fun _ c hc => by
      have := hasc c hc
      unfold Spec.IsBmp
      omega) hnot, hint, Outcome.ok_bind, htail, if_neg (by simp), if_neg (by simp),
      refused_fourth hF hn hf.1 hf.2 (hfs a (by simp)) (hfs b (by simp)) (hfs d (by simp)) hcc]
    rfl

/-- C150 for numbers with at most two binary places, and a separator that is not the radix character.
What is missing: numbers with more places, which are refused if three or more of them are written
(`C150_exact`), and a separator that is the radix character. -/
theorem C150_partial (e : Enc) (F : Spec.BinFmt) (rnd : ℚ → ℚ) (f : FloatFormat) (x : ℚ) (k : Nat)
    (hF : F.Std) (hn : F.Nearest rnd) (hf : f.Valid) (hlim : f.placeLimit = .none)
    (heven : f.radix % 2 = 0) (hsep : f.separator ≠ .none)
    (hrc : f.separator.char ≠ some f.radixCharacter.char) (hfit : PlacesFit F f.radix k)
    (hx : Storable F k x) (hk : k ≤ 2) :
    ∃ N s y, (∀ fuel ≥ N, formatFloat e rnd fuel x f = .ok s) ∧ parseFloat e rnd s f = .ok y
      ∧ NearlyBack F k x y := by
  obtain ⟨N, s, t, neg, ds, fs, h1, -, -, h4, h5, -⟩ :=
    C150_exact e F rnd f x k hF hn hf hlim heven hsep hrc hfit hx
  obtain ⟨y, h6, h7⟩ := h5 (by omega)
  exact ⟨N, s, y, h1, h6, h7⟩

/-- Up to three elements are one group. -/
theorem group_short (s : Nat) (l : List Nat) (h : l.length ≤ 3) : Spec.group (some s) l = l := by
  have : Spec.groupRev s l.reverse = l.reverse := by
    have hl : l.reverse.length ≤ 3 := by simpa using h
    generalize l.reverse = m at hl
    rcases m with - | ⟨a, - | ⟨b, - | ⟨c, - | ⟨d, m⟩⟩⟩⟩
    all_goals first
      | rfl
      | (simp only [List.length_cons] at hl; omega)
  rw [Spec.group, this, List.reverse_reverse]

/-- The last group. -/
theorem group_last (s : Nat) (l : List Nat) (a b c : Nat) (h : l ≠ []) :
    Spec.group (some s) (l ++ [a, b, c]) = Spec.group (some s) l ++ s :: [a, b, c] := by
  have hr : l.reverse ≠ [] := by simpa using h
  simp only [Spec.group, List.reverse_append]
  obtain ⟨d, m, hm⟩ := List.exists_cons_of_ne_nil hr
  simp [hm, Spec.groupRev]

/-- A list of at least three elements by its last three. -/
theorem last_three (l : List Nat) (h : 3 ≤ l.length) : ∃ m a b c, l = m ++ [a, b, c] := by
  have h3 : (l.drop (l.length - 3)).length = 3 := by rw [List.length_drop]; omega
  obtain ⟨a, b, c, e⟩ := List.length_eq_three.mp h3
  exact ⟨l.take (l.length - 3), a, b, c, by rw [← e, List.take_append_drop]⟩

/-- The first two groups. -/
theorem group_first (s : Nat) : ∀ (n : Nat) (l : List Nat), l.length ≤ n → 4 ≤ l.length →
    ∃ p a b c m rest, l = p ++ a :: b :: c :: m ∧ p ≠ [] ∧ p.length ≤ 3
      ∧ Spec.group (some s) l = p ++ s :: a :: b :: c :: rest
      ∧ (m = [] ∧ rest = [] ∧ l.length ≤ 6 ∨ 7 ≤ l.length ∧ ∃ r, rest = s :: r) := by
  intro n
  induction n with
  | zero => intro l h1 h2; omega
  | succ n ih =>
    intro l h1 h2
    obtain ⟨l', a, b, c, rfl⟩ := last_three l (by omega)
    simp only [List.length_append, List.length_cons, List.length_nil] at h1 h2
    have hne : l' ≠ [] := by
      rintro rfl
      simp at h2
    rw [group_last s l' a b c hne]
    by_cases h6 : l'.length ≤ 3
    · refine ⟨l', a, b, c, [], [], rfl, hne, h6, by rw [group_short s l' h6], .inl ⟨rfl, rfl, ?_⟩⟩
      simp
      omega
    · obtain ⟨p, x, y, z, m, rest, e, hp, hp3, hg, hcase⟩ := ih l' (by omega) (by omega)
      refine ⟨p, x, y, z, m ++ [a, b, c], rest ++ s :: [a, b, c], by rw [e]; simp, hp, hp3, ?_,
        .inr ⟨by simp; omega, ?_⟩⟩
      · rw [hg]
        simp
      · rcases hcase with ⟨-, rfl, -⟩ | ⟨-, r, rfl⟩
        · exact ⟨_, rfl⟩
        · exact ⟨_, rfl⟩

theorem positional_small {r : Nat} (h36 : r ≤ 36) (ds : List Nat) (hd : ∀ d ∈ ds, d < r)
    (h3 : ds.length ≤ 3) : Spec.positional r ds ≤ 46656 ∧ r ^ (ds.length - 1) ≤ 46656 := by
  rcases ds with - | ⟨a, - | ⟨b, - | ⟨c, - | ⟨d, m⟩⟩⟩⟩
  · simp [Spec.positional]
  · have := hd a (by simp)
    simp [Spec.positional]
    omega
  · have h1 := hd a (by simp)
    have h2 := hd b (by simp)
    simp only [Spec.positional, List.foldl_cons, List.foldl_nil, List.length_cons, List.length_nil]
    have : (0 * r + a) * r ≤ 36 * 36 := Nat.mul_le_mul (by omega) h36
    constructor
    · omega
    · simp
      omega
  · have h1 := hd a (by simp)
    have h2 := hd b (by simp)
    have h4 := hd c (by simp)
    simp only [Spec.positional, List.foldl_cons, List.foldl_nil, List.length_cons, List.length_nil]
    have g1 : (0 * r + a) * r ≤ 35 * 36 := Nat.mul_le_mul (by omega) h36
    have g2 : ((0 * r + a) * r + b) * r ≤ (35 * 36 + 35) * 36 := Nat.mul_le_mul (by omega) h36
    have g3 : r * r ≤ 36 * 36 := Nat.mul_le_mul h36 h36
    constructor
    · omega
    · simp [pow_two]
      omega
  · simp only [List.length_cons] at h3
    omega

/-- The format without separators. -/
abbrev FloatFormat.plain (f : FloatFormat) : FloatFormat := { f with separator := .none }

/-- The sign of a formatted number and a few digits are a numeral, with separators or without. -/
theorem short_numeral {f : FloatFormat} {c : Nat} (hc : f.separator.char = some c) (h36 : f.radix ≤ 36)
    (v : Int) (ds : List Nat) (hne : ds ≠ []) (hd : ∀ d ∈ ds, d < f.radix) (h3 : ds.length ≤ 3) :
    Spec.Numeral f.radix f.separator.char (f.sign = .alwaysShow)
        (signText f.sign v ++ ds.map Spec.upperDigit) (decide (v < 0)) ds
      ∧ Spec.Numeral f.radix none (f.sign = .alwaysShow)
        (signText f.sign v ++ ds.map Spec.upperDigit) (decide (v < 0)) ds := by
  have h1 := numeral_of_format f h36 v ds hne hd
  have h2 := numeral_of_format f.plain h36 v ds hne hd
  rw [hc, group_short _ _ (by simpa using h3), ← hc] at h1
  exact ⟨h1, h2⟩

/-- Text whose integral part has no separator is read as without separators. -/
theorem parse_plain {e : Enc} (rnd : ℚ → ℚ) {f : FloatFormat} {c : Nat} (hc : f.separator.char = some c)
    (hf : f.Valid) {s : Str e} {t : List Nat} (ht : TextOf e s t) (hasc : ∀ c ∈ t, c < 128) (v : Int)
    (ds : List Nat) (hne : ds ≠ []) (hd : ∀ d ∈ ds, d < f.radix) (h3 : ds.length ≤ 3) (tail : List Nat)
    (hcase : t = signText f.sign v ++ ds.map Spec.upperDigit
      ∨ t = (signText f.sign v ++ ds.map Spec.upperDigit) ++ f.radixCharacter.char :: tail) :
    parseFloat e rnd s f = parseFloat e rnd s f.plain
      ∧ f.radixCharacter.char ∉ signText f.sign v ++ ds.map Spec.upperDigit
      ∧ parseInteger .char32 .llong (encs .char32 (signText f.sign v ++ ds.map Spec.upperDigit))
          ⟨f.radix, f.sign, f.separator⟩ = .ok (Spec.denote f.radix (decide (v < 0)) ds) := by
  obtain ⟨n1, n2⟩ := short_numeral hc hf.2 v ds hne hd h3
  obtain ⟨b1, b2⟩ := positional_small hf.2 ds hd h3
  have hmx : llong.max = 9223372036854775807 := by decide
  have hch := numeral_chars (f := f.plain) n2
  have i1 := C22_partial .char32 .llong ⟨f.radix, f.sign, f.separator⟩ _ _ _ ds (by decide) hf
    (textOf_ascii .char32 _ fun c hc => (hch c hc).1) n1 (fun _ => rfl)
    (by rw [hmx]; exact_mod_cast b1.trans (by norm_num))
    (fun _ => by rw [hmx]; exact_mod_cast b2.trans (by norm_num))
  have i2 := C22_partial .char32 .llong ⟨f.radix, f.sign, .none⟩ _ _ _ ds (by decide) hf
    (textOf_ascii .char32 _ fun c hc => (hch c hc).1) n2 (fun _ => rfl)
    (by rw [hmx]; exact_mod_cast b1.trans (by norm_num))
    (fun _ => by rw [hmx]; exact_mod_cast b2.trans (by norm_num))
  have hrcc := f.radixCharacter.char_cases
  have hnot : f.radixCharacter.char ∉ signText f.sign v ++ ds.map Spec.upperDigit := by
    intro h
    rcases (hch _ h).2 with h1 | h1
    · omega
    · cases h1
  have hbmp : e.form = .utf16 → ∀ c ∈ t, Spec.IsBmp c := fun _ c hc => by
    have := hasc c hc
    unfold Spec.IsBmp
    omega
  refine ⟨?_, hnot, i1⟩
  rcases hcase with rfl | rfl
  · rw [parseFloat_whole rnd hf ht hbmp hnot, parseFloat_whole (f := f.plain) rnd hf ht hbmp hnot, i1, i2]
  · rw [parseFloat_parts rnd hf ht hbmp hnot, parseFloat_parts (f := f.plain) rnd hf ht hbmp hnot, i1, i2]

/-- A separator after three places is refused. -/
theorem parse_refused {e : Enc} {F : Spec.BinFmt} {rnd : ℚ → ℚ} (hF : F.Std) (hn : F.Nearest rnd)
    {f : FloatFormat} (hf : f.Valid) {s : Str e} {head : List Nat} {a b d x : Nat} {bs : List Nat} {v : Int}
    (ht : TextOf e s (head ++ f.radixCharacter.char ::
      Spec.upperDigit a :: Spec.upperDigit b :: Spec.upperDigit d :: x :: bs))
    (hasc : ∀ c ∈ head ++ f.radixCharacter.char ::
      Spec.upperDigit a :: Spec.upperDigit b :: Spec.upperDigit d :: x :: bs, c < 128)
    (hnot : f.radixCharacter.char ∉ head)
    (hint : parseInteger .char32 .llong (encs .char32 head) ⟨f.radix, f.sign, f.separator⟩ = .ok v)
    (ha : a < f.radix) (hb : b < f.radix) (hd : d < f.radix) (hx : x = 44 ∨ x = 46) :
    parseFloat e rnd s f = .throw (.parseFailed .wrongPlaceLimit) := by
  rw [parseFloat_parts rnd hf ht (fun _ c hc => by
    have := hasc c hc
    unfold Spec.IsBmp
    omega) hnot, hint, Outcome.ok_bind, if_neg (by simp), if_neg (by simp),
    refused_fourth hF hn hf.1 hf.2 ha hb hd hx]
  rfl

/-- C150 in general, with a separator that is also the radix character, which no format forbids.  Up to three
digits before the radix character have no separator, and the number is read back as by `C150_exact`.  With
more, an integer of four to six digits is read without an error, but as the same text means without
separators: its last three digits are places.  Everything else is refused. -/
theorem C150_exact_same (e : Enc) (F : Spec.BinFmt) (rnd : ℚ → ℚ) (f : FloatFormat) (x : ℚ) (k : Nat)
    (hF : F.Std) (hn : F.Nearest rnd) (hf : f.Valid) (hlim : f.placeLimit = .none)
    (heven : f.radix % 2 = 0) (hrc : f.separator.char = some f.radixCharacter.char)
    (hfit : PlacesFit F f.radix k) (hx : Storable F k x) :
    ∃ N s t neg ds fs, (∀ fuel ≥ N, formatFloat e rnd fuel x f = .ok s) ∧ TextOf e s t
      ∧ Spec.RealNumeral f.radix f.separator.char (f.sign = .alwaysShow) f.radixCharacter.char
        f.separator.char t neg ds fs
      ∧ Spec.positional f.radix ds = ⌊x⌋.natAbs ∧ fs.length ≤ k
      ∧ (ds.length ≤ 3 → fs.length < 3 → ∃ y, parseFloat e rnd s f = .ok y ∧ NearlyBack F k x y)
      ∧ (ds.length ≤ 3 → 3 ≤ fs.length → parseFloat e rnd s f = .throw (.parseFailed .wrongPlaceLimit))
      ∧ (4 ≤ ds.length → ds.length ≤ 6 → (∃ z : Int, x = z) →
        parseFloat e rnd s f = parseFloat e rnd s { f with separator := .none }
        ∧ Spec.RealNumeral f.radix none (f.sign = .alwaysShow) f.radixCharacter.char none t neg
          (ds.take (ds.length - 3)) (ds.drop (ds.length - 3)))
      ∧ (4 ≤ ds.length → (7 ≤ ds.length ∨ ¬ ∃ z : Int, x = z) →
        parseFloat e rnd s f = .throw (.parseFailed .wrongPlaceLimit)) := by
  obtain ⟨t, ds, fs, ⟨N, s, ht, hrun⟩, hne, hd, hfs, hp, hz, herr, hlen, hcase⟩ :=
    separated_text e hF hn hf hlim heven hfit hx
  have hrcc : f.radixCharacter.char = 44 ∨ f.radixCharacter.char = 46 := by
    cases f.radixCharacter <;> decide
  have hnum0 := numeral_of_format f hf.2 ⌊x⌋ ds hne hd
  have hasc : ∀ c ∈ t, c < 128 := by
    rcases hcase with ⟨-, -, -, rfl⟩ | ⟨-, -, rfl⟩
    · exact formatted_ascii ⟨f.radix, f.sign, f.separator⟩ hf.2 ⌊x⌋ ds hd
    · have := realText_ascii f hf.2 ⌊x⌋ ds fs hd hfs 0
      simpa using this
  have hshort : ds.length ≤ 3 → Spec.group f.separator.char (ds.map Spec.upperDigit)
      = ds.map Spec.upperDigit := by
    intro h3
    rw [hrc, group_short _ _ (by simpa using h3)]
  refine ⟨N, s, t, decide (⌊x⌋ < 0), ds, fs, hrun, ht, ?_, hp, hlen, ?_, ?_, ?_, ?_⟩
  · rcases hcase with ⟨-, rfl, -, rfl⟩ | ⟨-, -, rfl⟩
    · exact ⟨_, hnum0, by simp, .inl ⟨rfl, rfl⟩⟩
    · have := realNumeral_of_format f hf.2 ⌊x⌋ ds fs hne hd hfs 0
      simpa using this
  · intro hd3 hf3
    rw [hshort hd3] at hcase
    rw [fracText_short _ _ (by simpa using hf3)] at hcase
    rw [(parse_plain rnd hrc hf ht hasc ⌊x⌋ ds hne hd hd3 (fs.map Spec.upperDigit) (by
      rcases hcase with ⟨-, -, -, h⟩ | ⟨-, -, h⟩
      · exact .inl h
      · exact .inr h)).1]
    obtain ⟨-, n2⟩ := short_numeral hrc hf.2 ⌊x⌋ ds hne hd hd3
    refine stored_parsed_plain (f := f.plain) hF hn hf hlim (by rintro ⟨⟩) hfit hx ht ?_ hz herr hlen ?_ ?_
    · rcases hcase with ⟨-, rfl, -, rfl⟩ | ⟨-, -, rfl⟩
      · exact ⟨_, n2, by simp, .inl ⟨rfl, rfl⟩⟩
      · exact ⟨_, n2, hfs, .inr ⟨_, rfl, upper_digits hf.2 hfs⟩⟩
    · intro hi
      rcases hcase with ⟨-, h1, h2, -⟩ | ⟨h, -, -⟩
      · exact ⟨h1, h2⟩
      · exact absurd hi h
    · intro hi
      rcases hcase with ⟨h, -, -, -⟩ | ⟨-, h, -⟩
      · exact absurd h hi
      · exact h
  · intro hd3 hf3
    rw [hshort hd3] at hcase
    rcases hcase with ⟨-, rfl, -, -⟩ | ⟨-, -, rfl⟩
    · simp at hf3
    obtain ⟨a, b, d, l, rfl⟩ : ∃ a b d l, fs = a :: b :: d :: l := by
      rcases fs with - | ⟨a, - | ⟨b, - | ⟨d, l⟩⟩⟩
      · simp at hf3
      · simp at hf3
      · simp at hf3
      · exact ⟨a, b, d, l, rfl⟩
    obtain ⟨-, hnot, hi⟩ := parse_plain rnd hrc hf ht hasc ⌊x⌋ ds hne hd hd3 _ (.inr rfl)
    have htail : fracText f.separator.char 0 ((a :: b :: d :: l).map Spec.upperDigit) =
        Spec.upperDigit a :: Spec.upperDigit b :: Spec.upperDigit d :: f.radixCharacter.char ::
          fracText f.separator.char 0 (l.map Spec.upperDigit) := by
      simp [fracText, hrc]
    rw [htail] at ht hasc
    exact parse_refused hF hn hf ht hasc hnot hi (hfs a (by simp)) (hfs b (by simp)) (hfs d (by simp)) hrcc
  · intro h4 h6 hint
    obtain ⟨-, rfl, -, rfl⟩ := hcase.resolve_right fun h => h.1 hint
    obtain ⟨ps, a, b, c, e1⟩ := last_three ds (by omega)
    have hl : ds.length = ps.length + 3 := by rw [e1]; simp
    have hps : ps ≠ [] := by
      rintro rfl
      simp at hl
      omega
    have hg : Spec.group f.separator.char (ds.map Spec.upperDigit) = ps.map Spec.upperDigit ++
        f.radixCharacter.char :: [a, b, c].map Spec.upperDigit := by
      rw [hrc, e1, List.map_append, List.map_cons, List.map_cons, List.map_cons, List.map_nil,
        group_last _ _ _ _ _ (by simpa using hps), group_short _ _ (by simp; omega)]
    have hpd : ∀ d ∈ ps, d < f.radix := fun d h => hd d (by rw [e1]; simp [h])
    have htd : ∀ d ∈ [a, b, c], d < f.radix := fun d h => hd d (by rw [e1]; simp at h ⊢; tauto)
    rw [hg, ← List.append_assoc] at ht hasc ⊢
    refine ⟨(parse_plain rnd hrc hf ht hasc ⌊x⌋ ps hps hpd (by omega) _ (.inr rfl)).1, ?_⟩
    have et : ds.take (ds.length - 3) = ps := by rw [hl, e1]; simp
    have ed : ds.drop (ds.length - 3) = [a, b, c] := by rw [hl, e1]; simp
    rw [et, ed]
    exact ⟨_, (short_numeral hrc hf.2 ⌊x⌋ ps hps hpd (by omega)).2, htd,
      .inr ⟨_, rfl, upper_digits hf.2 htd⟩⟩
  · intro h4 hor
    obtain ⟨p, a, b, c, m, rest, e1, hp0, hp3, hg, hrest⟩ := group_first f.radixCharacter.char _
      (ds.map Spec.upperDigit) le_rfl (by simpa using h4)
    obtain ⟨ps, qs, e2, e3, e4⟩ := List.map_eq_append_iff.mp e1
    obtain ⟨a', q1, rfl, rfl, e5⟩ := List.map_eq_cons_iff.mp e4
    obtain ⟨b', q2, rfl, rfl, e6⟩ := List.map_eq_cons_iff.mp e5
    obtain ⟨c', q3, rfl, rfl, rfl⟩ := List.map_eq_cons_iff.mp e6
    subst e3
    have hps : ps ≠ [] := by
      rintro rfl
      simp at hp0
    have hpd : ∀ d ∈ ps, d < f.radix := fun d h => hd d (by rw [e2]; simp [h])
    have htext : ∃ bs, t = (signText f.sign ⌊x⌋ ++ ps.map Spec.upperDigit) ++ f.radixCharacter.char ::
        Spec.upperDigit a' :: Spec.upperDigit b' :: Spec.upperDigit c' :: f.radixCharacter.char :: bs := by
      rw [hrc, hg] at hcase
      rcases hrest with ⟨-, rfl, h6⟩ | ⟨-, r, rfl⟩
      · rw [List.length_map] at h6
        obtain ⟨-, -, rfl⟩ := hcase.resolve_left fun h => (hor.resolve_left (by omega)) h.1
        exact ⟨fracText f.separator.char 0 (fs.map Spec.upperDigit), by simp [hrc]⟩
      · rcases hcase with ⟨-, -, -, rfl⟩ | ⟨-, -, rfl⟩
        · exact ⟨r, by simp⟩
        · exact ⟨r ++ f.radixCharacter.char :: fracText f.separator.char 0 (fs.map Spec.upperDigit),
            by simp [hrc]⟩
    obtain ⟨bs, rfl⟩ := htext
    obtain ⟨-, hnot, hi⟩ := parse_plain rnd hrc hf ht hasc ⌊x⌋ ps hps hpd (by simpa using hp3) _ (.inr rfl)
    exact parse_refused hF hn hf ht hasc hnot hi (hd a' (by rw [e2]; simp)) (hd b' (by rw [e2]; simp))
      (hd c' (by rw [e2]; simp)) hrcc

/-- The default format with commas between groups. -/
abbrev commaGroups : FloatFormat := { FloatFormat.default with separator := .comma }

/-- The default format with periods between groups, which is also its radix character. -/
abbrev periodGroups : FloatFormat := { FloatFormat.default with separator := .period }

/-- C150 fails: 0.125 is written as `0.125,`, which is refused; and with periods both between groups and as
the radix character, 1234 is written as `1.234`, which is read as the double next to 1.234. -/
theorem C150_violated :
    (formatFloat .char8 Spec.binary64.tiesToEven 5 (1 / 8) commaGroups
        = .ok [48#8, 46#8, 49#8, 50#8, 53#8, 44#8]
      ∧ parseFloat .char8 Spec.binary64.tiesToEven [48#8, 46#8, 49#8, 50#8, 53#8, 44#8] commaGroups
        = .throw (.parseFailed .wrongPlaceLimit))
    ∧ formatFloat .char8 Spec.binary64.tiesToEven 5 1234 periodGroups
        = .ok [49#8, 46#8, 50#8, 51#8, 52#8]
      ∧ parseFloat .char8 Spec.binary64.tiesToEven [49#8, 46#8, 50#8, 51#8, 52#8] periodGroups
        = .ok (694680242521899 / 562949953421312) := by
  refine ⟨⟨?_, ?_⟩, ?_, ?_⟩ <;> decide +kernel

/-- The hypotheses hold for 1234567.25 and commas. -/
example : Storable Spec.binary64 2 (4938269 / 4) ∧ PlacesFit Spec.binary64 10 2 ∧ commaGroups.Valid
    ∧ commaGroups.separator ≠ .none ∧ commaGroups.separator.char ≠ some commaGroups.radixCharacter.char := by
  have h0 : ⌊(4938269 / 4 : ℚ)⌋ = 1234567 := by norm_num
  refine ⟨⟨⟨4938269, -2, by norm_num [Spec.binary64], by norm_num [Spec.binary64],
    by norm_num⟩, by rw [h0]; decide, by rw [h0]; decide, .inl (by norm_num),
    ⟨4938269, by norm_num⟩⟩, ?_, ?_, ?_, ?_⟩
  · unfold PlacesFit
    decide +kernel
  · unfold FloatFormat.Valid
    decide
  · decide
  · decide

/-- The hypotheses hold for 1234 and periods. -/
example : Storable Spec.binary64 0 1234 ∧ PlacesFit Spec.binary64 10 0 ∧ periodGroups.Valid
    ∧ periodGroups.separator.char = some periodGroups.radixCharacter.char := by
  have h0 : ⌊(1234 : ℚ)⌋ = 1234 := by norm_num
  refine ⟨⟨⟨1234, 0, by norm_num [Spec.binary64], by norm_num [Spec.binary64],
    by norm_num⟩, by rw [h0]; decide, by rw [h0]; decide, .inl (by norm_num),
    ⟨1234, by norm_num⟩⟩, ?_, ?_, ?_⟩
  · unfold PlacesFit
    decide +kernel
  · unfold FloatFormat.Valid
    decide
  · decide

/-- It is written as `1,234,567.25`, and read back. -/
example : formatFloat .char8 Spec.binary64.tiesToEven 5 (4938269 / 4) commaGroups
      = .ok [49#8, 44#8, 50#8, 51#8, 52#8, 44#8, 53#8, 54#8, 55#8, 46#8, 50#8, 53#8]
    ∧ parseFloat .char8 Spec.binary64.tiesToEven
      [49#8, 44#8, 50#8, 51#8, 52#8, 44#8, 53#8, 54#8, 55#8, 46#8, 50#8, 53#8] commaGroups
      = .ok (4938269 / 4) := by
  constructor <;> decide +kernel

end Cmp
