import Verif.Proofs.FloatFormat
import Verif.Proofs.FloatParse
import Verif.Props.Number

/-
Property theorems C27, C28, C70, C71 (floating-point numbers).  The specification of numerals
with a fraction part and of the binary formats is `Spec/Real`.  `rnd` is the rounding of the
machine: it is only assumed that results which are values of the format are not changed
(`∀ q, F.Has q → rnd q = q`), or that it has a bounded relative error where there is neither
overflow nor underflow.
-/

namespace Cmp

open IntTy

/-- A format the constructors accept. -/
def FloatFormat.Valid (f : FloatFormat) : Prop := 2 ≤ f.radix ∧ f.radix ≤ 36

/-- `cs` is a numeral for `v` in the format `f`: no superfluous leading zero, at most `places`
digits after the radix character, among which the separators of the format may occur. -/
def DenotesReal (f : FloatFormat) (v : ℚ) (places : Nat) (cs : List Nat) : Prop :=
  ∃ neg ds fs, Spec.RealNumeral f.radix f.separator.char (f.sign = .alwaysShow)
      f.radixCharacter.char f.separator.char cs neg ds fs
    ∧ (ds.head? = some 0 → ds = [0]) ∧ Spec.denoteReal f.radix neg ds fs = v
    ∧ fs.length ≤ places

/-! ### C27 -/

/-- What `format_floating_point` with enough time returns. -/
def FormatsTo (e : Enc) (rnd : ℚ → ℚ) (x : ℚ) (f : FloatFormat) (cs : List Nat) : Prop :=
  ∃ N s, TextOf e s cs ∧ ∀ fuel ≥ N, formatFloat e rnd fuel x f = .ok s

theorem floor_half : ⌊(-3 / 2 : ℚ)⌋ = -2 := by norm_num

theorem has_half : Spec.binary64.Has (-3 / 2) :=
  ⟨-3, -1, by norm_num [Spec.binary64], by norm_num [Spec.binary64], by norm_num⟩

theorem format_half_fraction {rnd : ℚ → ℚ} (hr : ∀ q, Spec.binary64.Has q → rnd q = q) (fuel : Nat) :
    formatFractionLoop .char32 rnd FloatFormat.default (fuel + 2) (1 / 2) 0 0 []
      = .ok ([53#32], 0) := by
  have e5 : rnd (1 / 2 * 10 : ℚ) = 5 := by
    rw [hr _ ⟨5, 0, by norm_num [Spec.binary64], by norm_num [Spec.binary64], by norm_num⟩]
    norm_num
  have e6 : ⌊(5 : ℚ)⌋ = 5 := by norm_num
  have e7 : rnd (5 - ((5 : Int) : ℚ)) = 0 := by
    rw [hr _ ⟨0, 0, by norm_num [Spec.binary64], by norm_num [Spec.binary64], by norm_num⟩]
    norm_num
  rw [formatFractionLoop, if_neg (by norm_num)]
  have er : ((FloatFormat.default.radix : Nat) : ℚ) = 10 := by norm_num [FloatFormat.default]
  have e0 : ¬ (FloatFormat.default.placeLimit ≠ .none ∧ 0 = FloatFormat.default.placeCount) := by
    decide
  have e1 : (if FloatFormat.default.placeLimit ≠ .none then 0 + 1 else 0) = 0 := by decide
  simp only [er, e5, e6, e1, e7]
  rw [if_neg (by decide), if_neg e0, show appendCP .char32 [] (formatDigit 5) = .ok [53#32] by
    decide, Outcome.ok_bind, if_neg (by omega), formatFractionLoop, if_pos rfl]

theorem formatFloat_run {e : Enc} {rnd : ℚ → ℚ} {fuel : Nat} {x fr : ℚ} {f : FloatFormat}
    {eq : IntegerFormat} {v : Int} {o fs o' : Str e} {pl : Nat}
    (h1 : IntegerFormat.make f.radix f.sign f.separator = .ok eq)
    (h2 : floorToLongLong x = .ok v) (h3 : formatInteger e .llong v eq = .ok o)
    (h4 : rnd ((if x < 0 then -x else x) - ((⌊if x < 0 then -x else x⌋ : Int) : ℚ)) = fr)
    (h5 : fr ≠ 0) (h6 : formatFractionLoop e rnd f fuel fr 0 0 [] = .ok (fs, pl))
    (h7 : ¬ f.placeLimit = .exactlyEqual)
    (h8 : appendCP e o (BitVec.ofNat 32 f.radixCharacter.char) = .ok o') :
    formatFloat e rnd fuel x f = .ok (o' ++ fs) := by
  simp only [formatFloat, h1, h2, h3, h4, Outcome.ok_bind]
  rw [if_neg h5, h6]
  simp only [if_neg h7, Outcome.ok_bind, h8]

/-- The number -1.5 comes out as `-2.5`. -/
theorem format_half {rnd : ℚ → ℚ} (hr : ∀ q, Spec.binary64.Has q → rnd q = q) (fuel : Nat) :
    formatFloat .char32 rnd (fuel + 2) (-3 / 2) FloatFormat.default
      = .ok [45#32, 50#32, 46#32, 53#32] := by
  have h1 : floorToLongLong (-3 / 2) = .ok (-2) := by
    rw [floorToLongLong, floor_half, if_pos (by decide)]
  have h5 : (if (-3 / 2 : ℚ) < 0 then -(-3 / 2 : ℚ) else -3 / 2) = 3 / 2 := by norm_num
  have hfl2 : ⌊(3 / 2 : ℚ)⌋ = 1 := by norm_num
  exact formatFloat_run (eq := ⟨10, .onlyWhenNegative, .none⟩) (o := [45#32, 50#32])
    (fr := 1 / 2) (by decide) h1 (by decide)
    (by
      rw [h5, hfl2, hr _ ⟨1, -1, by norm_num [Spec.binary64], by norm_num [Spec.binary64], by norm_num⟩]
      norm_num) (by norm_num)
    (format_half_fraction hr fuel) (by decide) (o' := [45#32, 50#32, 46#32]) (by decide)

/-- The text `-2.5` denotes nothing but that. -/
theorem denotes_half {y : ℚ} {places : Nat} {s : Str .char32} {cs : List Nat}
    (ht : TextOf .char32 s cs) (hs : s = [45#32, 50#32, 46#32, 53#32])
    (hden : DenotesReal FloatFormat.default y places cs) : y = -5 / 2 := by
  by_contra hy
  obtain ⟨neg, ds, fs, ⟨head, ⟨sign, body, rfl, hsp, hsign⟩, hfs, hcs⟩, -, hden, -⟩ := hden
  subst hs
  have hcs4 : cs = [45, 50, 46, 53] := by
    have h1 := ht.eq
    have h2 : ∀ l, encs .char32 l = l.map (BitVec.ofNat 32) := by
      intro l
      induction l with
      | nil => rfl
      | cons c l ih => rw [encs_cons, ih]; rfl
    rw [h2] at h1
    have h3 : cs = ([45#32, 50#32, 46#32, 53#32] : List (BitVec 32)).map BitVec.toNat := by
      rw [h1, List.map_map]
      conv => lhs; rw [← List.map_id cs]
      apply List.map_congr_left
      intro c hc
      have := (ht.1.1 c hc).1
      simp only [Function.comp_apply, BitVec.toNat_ofNat, id]
      omega
    rw [h3]
    rfl
  obtain ⟨hne, hdlt, chars, hchars, hbody⟩ := hsp
  have hbody : body = chars := hbody
  subst hbody
  have hdig : ∀ c ∈ body, Spec.digitValue c ≠ none := by
    intro c hc hnone
    have : Spec.digitValue c ∈ body.map Spec.digitValue := List.mem_map.mpr ⟨c, hc, rfl⟩
    rw [hchars, hnone] at this
    simp at this
  rcases hcs with ⟨h1, _⟩ | ⟨tail, h1, h2⟩
  · rw [hcs4] at h1
    rcases hsign with ⟨rfl, _⟩ | ⟨rfl, _⟩ | ⟨rfl, _⟩
    · exact hdig 45 (by simp at h1; simp [← h1]) (by decide)
    · exact hdig 46 (by simp at h1; simp [← h1]) (by decide)
    · simp at h1
  · rw [hcs4] at h1
    have htail : ∀ x ∈ tail, Spec.digitValue x ≠ none := by
      intro c hc hnone
      have : Spec.digitValue c ∈ tail.map Spec.digitValue := List.mem_map.mpr ⟨c, hc, rfl⟩
      have h2 : tail.map Spec.digitValue = fs.map some := h2
      rw [h2, hnone] at this
      simp at this
    rcases hsign with ⟨rfl, _⟩ | ⟨rfl, rfl⟩ | ⟨rfl, _⟩
    · rw [List.nil_append] at h1
      cases body with
      | nil =>
        rw [List.nil_append] at h1
        injection h1 with h1
        revert h1
        decide
      | cons c body =>
        simp at h1
        exact hdig 45 (by simp [← h1.1]) (by decide)
    · match body, hdig, hchars, h1 with
      | [], _, hchars, _ =>
        simp at hchars
        exact hne hchars
      | [c], _, hchars, h1 =>
        simp at h1
        obtain ⟨rfl, _, rfl⟩ := h1
        have h2 : [Spec.digitValue 53] = fs.map some := h2
        have e1 : ds = [2] := by
          match ds, hchars with
          | [d], hchars => simp [Spec.digitValue] at hchars; rw [← hchars]
        have e2 : fs = [5] := by
          match fs, h2 with
          | [d], hchars => simp [Spec.digitValue] at hchars; rw [← hchars]
        subst e1 e2
        apply hy
        rw [← hden]
        norm_num [Spec.denoteReal, Spec.fraction, Spec.positional, FloatFormat.default]
      | c :: c' :: body, hdig, _, h1 =>
        simp at h1
        exact hdig 46 (by simp [← h1.2.1]) (by decide)
    · simp at h1

/-- `-1.5` is formatted as `-2.5`, even on a machine that never rounds. -/
theorem C27_violated :
    ¬ ∀ (e : Enc) (F : Spec.BinFmt) (rnd : ℚ → ℚ) (f : FloatFormat) (x : ℚ), F.Std →
      (∀ q, F.Has q → rnd q = q) → f.Valid → F.Has x → llong.Has ⌊x⌋ → f.placeLimit = .none →
      (∃ (n : Nat) (z : Int), x * (f.radix : ℚ) ^ n = z) →
      ∃ cs places, FormatsTo e rnd x f cs ∧ DenotesReal f x places cs := by
  intro h
  obtain ⟨cs, _, ⟨N, s, ht, hs⟩, hden⟩ := h .char32 Spec.binary64 id FloatFormat.default (-3 / 2)
    (.inr rfl) (fun _ _ => rfl) (by unfold FloatFormat.Valid; decide)
    has_half (by rw [floor_half]; decide) rfl ⟨1, -15, by norm_num [FloatFormat.default]⟩
  have hs' := hs (N + 2) (by omega)
  rw [format_half (rnd := id) (fun _ _ => rfl) N] at hs'
  have := denotes_half ht (by cases hs'; rfl) hden
  norm_num at this

/-- Numbers outside the range of `long long` are undefined behaviour. -/
theorem C27_violated_range : formatFloat .char8 id 1 (2 ^ 63) FloatFormat.default = .ub := by
  have h1 : floorToLongLong (2 ^ 63) = .ub := by
    rw [floorToLongLong, show ⌊(2 ^ 63 : ℚ)⌋ = 9223372036854775808 by norm_num,
      if_neg (by decide)]
  have h4 : IntegerFormat.make FloatFormat.default.radix FloatFormat.default.sign
        FloatFormat.default.separator = .ok ⟨10, .onlyWhenNegative, .none⟩ := by decide
  simp only [formatFloat, h4, h1, Outcome.ok_bind]
  rfl

/-- The text of the number `v` with the fraction digits `fs`. -/
theorem realText_ascii (f : FloatFormat) (h36 : f.radix ≤ 36) (v : Int) (ds fs : List Nat)
    (hd : ∀ d ∈ ds, d < f.radix) (hf : ∀ d ∈ fs, d < f.radix) (n : Nat) :
    ∀ c ∈ (signText f.sign v ++ Spec.group f.separator.char (ds.map Spec.upperDigit))
      ++ f.radixCharacter.char
        :: (fracText f.separator.char 0 (fs.map Spec.upperDigit) ++ List.replicate n 48),
      c < 128 := by
  intro c hc
  rcases List.mem_append.mp hc with hc | hc
  · exact formatted_ascii ⟨f.radix, f.sign, f.separator⟩ h36 v ds hd c hc
  · rcases List.mem_cons.mp hc with rfl | hc
    · cases f.radixCharacter <;> decide
    · rcases List.mem_append.mp hc with hc | hc
      · rcases mem_fracText _ _ hc with hc | hc
        · obtain ⟨d, hd', rfl⟩ := List.mem_map.mp hc
          exact upperDigit_lt (by have := hf d hd'; omega)
        · cases hs : f.separator <;> simp [hs, Separator.char] at hc <;> omega
      · have := List.eq_of_mem_replicate hc
        omega

theorem numeral_of_format (f : FloatFormat) (h36 : f.radix ≤ 36) (v : Int) (ds : List Nat)
    (hne : ds ≠ []) (hd : ∀ d ∈ ds, d < f.radix) :
    Spec.Numeral f.radix f.separator.char (f.sign = .alwaysShow)
      (signText f.sign v ++ Spec.group f.separator.char (ds.map Spec.upperDigit))
      (decide (v < 0)) ds := by
  refine ⟨_, _, rfl, ⟨hne, hd, _, ?_, rfl⟩, ?_⟩
  · rw [List.map_map]
    apply List.map_congr_left
    intro d hd'
    exact upperDigit_value (by have := hd d hd'; omega)
  · unfold signText
    by_cases h0 : v < 0
    · rw [if_pos h0]; exact .inr (.inl ⟨rfl, by simpa using h0⟩)
    · rw [if_neg h0]
      by_cases h1 : 0 < v ∧ f.sign = .alwaysShow
      · rw [if_pos h1]; exact .inr (.inr ⟨rfl, by simpa using h0, by simpa using h1.2⟩)
      · rw [if_neg h1]; exact .inl ⟨rfl, by simpa using h0⟩

theorem ungroup_text (f : FloatFormat) (h36 : f.radix ≤ 36) (fs : List Nat)
    (hf : ∀ d ∈ fs, d < f.radix) (n : Nat) :
    Spec.ungroup f.separator.char
        (fracText f.separator.char 0 (fs.map Spec.upperDigit) ++ List.replicate n 48)
      = fs.map Spec.upperDigit ++ List.replicate n 48 := by
  have hs : ∀ s, f.separator.char = some s → s = 44 ∨ s = 46 := by
    intro s h
    cases hs : f.separator <;> simp [hs, Separator.char] at h <;> omega
  have hup : ∀ d, d < 36 → Spec.upperDigit d ≠ 44 ∧ Spec.upperDigit d ≠ 46 := by
    intro d _
    unfold Spec.upperDigit
    split <;> omega
  have h1 := ungroup_fracText (sep := f.separator.char) (fs.map Spec.upperDigit) (by
    intro s h hm
    obtain ⟨d, hd', rfl⟩ := List.mem_map.mp hm
    have := hf d hd'
    have := hup d (by omega)
    have := hs _ h
    omega) 0
  cases hsep : f.separator.char with
  | none => rw [hsep] at h1; simp only [Spec.ungroup] at h1 ⊢; rw [h1]
  | some s =>
    rw [hsep] at h1
    simp only [Spec.ungroup, List.filter_append] at h1 ⊢
    rw [h1]
    congr 1
    rw [List.filter_eq_self]
    intro c hc
    have := List.eq_of_mem_replicate hc
    have := hs s hsep
    simp
    omega

theorem realNumeral_of_format (f : FloatFormat) (h36 : f.radix ≤ 36) (v : Int) (ds fs : List Nat)
    (hne : ds ≠ []) (hd : ∀ d ∈ ds, d < f.radix) (hf : ∀ d ∈ fs, d < f.radix) (n : Nat) :
    Spec.RealNumeral f.radix f.separator.char (f.sign = .alwaysShow)
      f.radixCharacter.char f.separator.char
      ((signText f.sign v ++ Spec.group f.separator.char (ds.map Spec.upperDigit))
      ++ f.radixCharacter.char
        :: (fracText f.separator.char 0 (fs.map Spec.upperDigit) ++ List.replicate n 48))
      (decide (v < 0)) ds (fs ++ List.replicate n 0) := by
  have hr0 : n ≠ 0 → 0 < f.radix := by
    intro _
    cases ds with
    | nil => exact absurd rfl hne
    | cons d ds => have := hd d (by simp); omega
  refine ⟨_, numeral_of_format f h36 v ds hne hd, ?_, .inr ⟨_, rfl, ?_⟩⟩
  · intro d hd'
    rcases List.mem_append.mp hd' with h | h
    · exact hf d h
    · have h0 := List.eq_of_mem_replicate h
      have hn : n ≠ 0 := by
        rintro rfl
        simp at h
      have := hr0 hn
      omega
  · rw [ungroup_text f h36 fs hf n, List.map_append, List.map_append, List.map_map, List.map_replicate,
      List.map_replicate]
    congr 1
    apply List.map_congr_left
    intro d hd'
    exact upperDigit_value (by have := hf d hd'; omega)

/-- Radices and numbers for which no operation of the formatter rounds: powers of two, or (in any
radix) numbers with at most `prec - 6` binary places, which is 47 for `double`. -/
def NoRounding (F : Spec.BinFmt) (r : Nat) (x : ℚ) : Prop :=
  (∃ j, r = 2 ^ j) ∨ ∃ (k : Nat) (m : Int), k + 6 ≤ F.prec ∧ x = m / 2 ^ k

/-- C27 for numbers that are not negative or are integers, whose integral part fits
`long long` (the least value of which is excepted), and whose expansion does not make the
machine round.  The first part says that no more digits are written than necessary; the second
that with a limit of exactly `count` places a number that is not an integer gets `count` places.
Missing: negative numbers with a fraction part, large numbers, and numbers with more binary
places in radices that are not powers of two. -/
theorem C27_partial (e : Enc) (F : Spec.BinFmt) (rnd : ℚ → ℚ) (f : FloatFormat) (x : ℚ)
    (hF : F.Std) (hr : ∀ q, F.Has q → rnd q = q) (hf : f.Valid) (hx : F.Has x)
    (hll : llong.Has ⌊x⌋) (hmin : ⌊x⌋ ≠ llong.min) (hneg : 0 ≤ x ∨ ∃ z : Int, x = z)
    (hexact : NoRounding F f.radix x) :
    (f.placeLimit = .none → ∀ n : Nat, (∃ z : Int, x * (f.radix : ℚ) ^ n = z) →
      ∃ cs, FormatsTo e rnd x f cs ∧ DenotesReal f x n cs)
    ∧ (f.placeLimit ≠ .none →
      ∃ cs, FormatsTo e rnd x f cs
        ∧ DenotesReal f (Spec.truncatedToZero f.radix f.placeCount x) f.placeCount cs
        ∧ (f.placeLimit = .exactlyEqual → (∃ z : Int, x = z) ∨
          ∃ head fs, cs = head ++ f.radixCharacter.char :: fs
            ∧ (Spec.ungroup f.separator.char fs).length = f.placeCount)) := by
  obtain ⟨hf2, h36⟩ := hf
  have hr0 : 0 < f.radix := by omega
  obtain ⟨ds, e1, hp, hd, hne, hz⟩ := formatInteger_eq e (T := .llong)
    (f := ⟨f.radix, f.sign, f.separator⟩) (by decide) hf2 h36 hll (fun _ => hmin)
  have hmake : IntegerFormat.make f.radix f.sign f.separator
      = .ok ⟨f.radix, f.sign, f.separator⟩ := by
    rw [IntegerFormat.make, if_neg (by simp; omega)]
  have hfl : floorToLongLong x = .ok ⌊x⌋ := by rw [floorToLongLong, if_pos hll]
  -- the integral part alone
  have hint : ∀ z : Int, x = z →
      (∀ fuel, formatFloat e rnd fuel x f = .ok (encs e (signText f.sign ⌊x⌋
        ++ Spec.group f.separator.char (ds.map Spec.upperDigit))))
      ∧ ∀ n, DenotesReal f x n (signText f.sign ⌊x⌋
        ++ Spec.group f.separator.char (ds.map Spec.upperDigit)) := by
    intro z hxz
    have hfz : ⌊x⌋ = z := by rw [hxz, Int.floor_intCast]
    constructor
    · intro fuel
      have h0 : (if x < 0 then -x else x) - ((⌊if x < 0 then -x else x⌋ : Int) : ℚ) = 0 := by
        split
        · rw [hxz, ← Int.cast_neg, Int.floor_intCast, sub_self]
        · rw [hxz, Int.floor_intCast, sub_self]
      simp only [formatFloat, hmake, hfl, e1, Outcome.ok_bind, h0]
      rw [hr 0 (Spec.BinFmt.has_zero hF), if_pos rfl]
    · intro n
      refine ⟨_, ds, [], ⟨_, numeral_of_format f h36 ⌊x⌋ ds hne hd, by simp, .inl ⟨rfl, rfl⟩⟩,
        hz, ?_, by simp⟩
      rw [Spec.denoteReal, Spec.fraction_nil, hp, add_zero, hxz]
      rw [Int.floor_intCast]
      by_cases hneg : z < 0
      · rw [if_pos (by simpa using hneg)]
        have : ((z.natAbs : Nat) : Int) = -z := by omega
        have : ((z.natAbs : Nat) : ℚ) = -(z : ℚ) := by
          rw [show -(z : ℚ) = ((-z : Int) : ℚ) by push_cast; rfl, ← this, Int.cast_natCast]
        rw [this]; ring
      · rw [if_neg (by simpa using hneg)]
        have : ((z.natAbs : Nat) : Int) = z := by omega
        rw [← Int.cast_natCast, this]
  by_cases hxint : ∃ z : Int, x = z
  · obtain ⟨z, hxz⟩ := hxint
    obtain ⟨hrun, hden⟩ := hint z hxz
    have hasc := formatted_ascii ⟨f.radix, f.sign, f.separator⟩ h36 ⌊x⌋ ds hd
    refine ⟨fun _ _ _ => ⟨_, ⟨0, _, textOf_ascii e _ hasc, fun fuel _ => hrun fuel⟩, hden _⟩,
      fun _ => ⟨_, ⟨0, _, textOf_ascii e _ hasc, fun fuel _ => hrun fuel⟩, ?_,
        fun _ => .inl ⟨z, hxz⟩⟩⟩
    have : Spec.truncatedToZero f.radix f.placeCount x = x := by
      have hint : ∀ z : Int, Spec.truncated f.radix f.placeCount (z : ℚ) = z := by
        intro z
        apply Spec.truncated_of_int hr0
        exact ⟨z * (f.radix : Int) ^ f.placeCount, by push_cast; rfl⟩
      rw [Spec.truncatedToZero]
      split
      · rw [hxz, ← Int.cast_neg, hint]; push_cast; ring
      · rw [hxz, hint]
    rw [this]
    exact hden _
  · have hx0 : 0 ≤ x := by
      rcases hneg with h | h
      · exact h
      · exact absurd h hxint
    have hfr0 : Int.fract x ≠ 0 := by
      intro h
      refine hxint ⟨⌊x⌋, ?_⟩
      have := Int.floor_add_fract x
      rw [h, add_zero] at this
      exact this.symm
    have hv0 : 0 ≤ ⌊x⌋ := Int.floor_nonneg.mpr hx0
    have hxsum : x = (ds.foldl (fun a d => a * f.radix + d) 0 : Nat) + Int.fract x := by
      have h1 : (Spec.positional f.radix ds : Int) = ⌊x⌋ := by
        rw [hp]
        exact Int.natAbs_of_nonneg hv0
      have h2 : ((Spec.positional f.radix ds : Nat) : ℚ) = ((⌊x⌋ : Int) : ℚ) := by
        exact_mod_cast h1
      have := Int.floor_add_fract x
      rw [← h2] at this
      exact this.symm
    have hxsum : x = (Spec.positional f.radix ds : ℚ) + Int.fract x := hxsum
    have hpfl : (Spec.positional f.radix ds : ℚ) = ((⌊x⌋ : Int) : ℚ) := by
      have := Int.floor_add_fract x
      linarith
    have hinput : (if x < 0 then -x else x) = x := if_neg (not_lt.mpr hx0)
    have hfract : rnd (x - ((⌊x⌋ : Int) : ℚ)) = Int.fract x := hr _ (hx.fract hF hx0)
    -- the invariant of the loop
    obtain ⟨Inv, hI, hInv⟩ : ∃ Inv, ExactRem rnd f.radix Inv ∧ Inv (Int.fract x) := by
      rcases hexact with ⟨j, hj⟩ | ⟨k, m, hk, hxm⟩
      · rw [hj]
        exact ⟨_, exactRem_pow hF hr (hj ▸ h36), hx.fract hF hx0, Int.fract_nonneg _, Int.fract_lt_one _⟩
      · refine ⟨_, exactRem_dyadic hF hr hk h36, ⟨m - ⌊x⌋ * 2 ^ k, ?_⟩, Int.fract_nonneg _,
          Int.fract_lt_one _⟩
        rw [Int.fract]
        nth_rw 1 [hxm]
        push_cast
        field_simp
    have hrcIns := appendCP_enc e f.radixCharacter.char
      (insOk_ascii e (by cases f.radixCharacter <;> decide))
    constructor
    · intro hlim n ⟨z, hnz⟩
      obtain ⟨fs, hfs, hfrac, hlen, _, hrun⟩ := formatFractionLoop_all e hf2 h36 hI hlim n
        (Int.fract x) hInv (by
          refine ⟨z - ⌊x⌋ * (f.radix : Int) ^ n, ?_⟩
          rw [Int.fract]
          push_cast
          rw [← hnz]
          ring) 0
      refine ⟨_, ⟨n + 1, _, textOf_ascii e _ (realText_ascii f h36 ⌊x⌋ ds fs hd hfs 0), ?_⟩,
        _, ds, _, realNumeral_of_format f h36 ⌊x⌋ ds fs hne hd hfs 0, hz, ?_, by simpa using hlen⟩
      · intro fuel hfuel
        simp only [formatFloat, hmake, hfl, e1, Outcome.ok_bind, hinput, hfract]
        rw [if_neg hfr0, hrun fuel hfuel]
        simp only [Outcome.ok_bind]
        rw [if_neg (by rw [hlim]; simp)]
        simp only [Outcome.ok_bind, hrcIns]
        simp
      · rw [Spec.denoteReal, if_neg (by simpa using hv0), Spec.fraction_zeros hr0, hfrac,
          ← hxsum]
    · intro hlim
      obtain ⟨fs, k, hfs, hfrac, hlen, hk, hrun⟩ := formatFractionLoop_limit e hf2 h36 hI hlim
        f.placeCount (Int.fract x) hInv 0 0 (by omega)
      have hval : ∀ n, Spec.denoteReal f.radix (decide (⌊x⌋ < 0)) ds (fs ++ List.replicate n 0)
          = Spec.truncatedToZero f.radix f.placeCount x := by
        intro n
        rw [Spec.denoteReal, if_neg (by simpa using hv0), Spec.fraction_zeros hr0, hfrac,
          Spec.truncatedToZero, if_neg (not_lt.mpr hx0), hpfl, ← Spec.truncated_add_int hr0,
          Int.floor_add_fract]
      have hun : ∀ n, (Spec.ungroup f.separator.char
          (fracText f.separator.char 0 (fs.map Spec.upperDigit) ++ List.replicate n 48)).length
          = fs.length + n := by
        intro n
        rw [ungroup_text f h36 fs hfs n]
        simp
      by_cases hex : f.placeLimit = .exactlyEqual
      · refine ⟨_, ⟨f.placeCount + 1, _, textOf_ascii e _
          (realText_ascii f h36 ⌊x⌋ ds fs hd hfs (f.placeCount - k)), ?_⟩,
          ⟨_, ds, _, realNumeral_of_format f h36 ⌊x⌋ ds fs hne hd hfs (f.placeCount - k), hz,
            hval _, by simp; omega⟩, fun _ => .inr ⟨_, _, rfl, ?_⟩⟩
        · intro fuel hfuel
          simp only [formatFloat, hmake, hfl, e1, Outcome.ok_bind, hinput, hfract]
          rw [if_neg hfr0, hrun fuel hfuel]
          simp only [Outcome.ok_bind]
          rw [if_pos hex, padZeros_eq]
          simp only [Outcome.ok_bind, hrcIns]
          simp
        · rw [hun]; omega
      · refine ⟨_, ⟨f.placeCount + 1, _, textOf_ascii e _
          (realText_ascii f h36 ⌊x⌋ ds fs hd hfs 0), ?_⟩,
          ⟨_, ds, _, realNumeral_of_format f h36 ⌊x⌋ ds fs hne hd hfs 0, hz,
            hval _, by simpa using hlen⟩, fun h => absurd h hex⟩
        · intro fuel hfuel
          simp only [formatFloat, hmake, hfl, e1, Outcome.ok_bind, hinput, hfract]
          rw [if_neg hfr0, hrun fuel hfuel]
          simp only [Outcome.ok_bind]
          rw [if_neg hex]
          simp only [Outcome.ok_bind, hrcIns]
          simp

example : Spec.binary64.Std ∧ Spec.binary64.Has (7 / 8) ∧ llong.Has ⌊(7 / 8 : ℚ)⌋
    ∧ ⌊(7 / 8 : ℚ)⌋ ≠ llong.min ∧ NoRounding Spec.binary64 10 (7 / 8)
    ∧ (∃ (n : Nat) (z : Int), (7 / 8 : ℚ) * ((10 : Nat) : ℚ) ^ n = z) := by
  have h0 : ⌊(7 / 8 : ℚ)⌋ = 0 := by norm_num
  refine ⟨.inr rfl, ⟨7, -3, by norm_num [Spec.binary64], by norm_num [Spec.binary64],
    by norm_num⟩, by rw [h0]; decide, by rw [h0]; decide,
    .inr ⟨3, 7, by norm_num [Spec.binary64], by norm_num⟩, ⟨3, 875, by norm_num⟩⟩

/-! ### C28 -/

theorem encs32 (l : List Nat) : encs .char32 l = l.map (BitVec.ofNat 32) := by
  induction l with
  | nil => rfl
  | cons c l ih => rw [encs_cons, ih]; rfl

theorem RadixCharacter.char_cases (rc : RadixCharacter) : rc.char = 44 ∨ rc.char = 46 := by
  cases rc
  · exact .inl rfl
  · exact .inr rfl

theorem digit_char {c d : Nat} (h : Spec.digitValue c = some d) :
    c < 128 ∧ c ≠ 44 ∧ c ≠ 46 ∧ c ≠ 43 ∧ c ≠ 45 := by
  have := digitValue_cases h
  omega

theorem mem_digits {cs ds : List Nat} (h : cs.map Spec.digitValue = ds.map some) {c : Nat}
    (hc : c ∈ cs) : ∃ d, Spec.digitValue c = some d := by
  have : Spec.digitValue c ∈ cs.map Spec.digitValue := List.mem_map.mpr ⟨c, hc, rfl⟩
  rw [h] at this
  obtain ⟨d, _, hd⟩ := List.mem_map.mp this
  exact ⟨d, hd.symm⟩

theorem numeral_chars {f : FloatFormat} {plus : Bool} {head : List Nat} {neg : Bool}
    {ds : List Nat} (h : Spec.Numeral f.radix f.separator.char plus head neg ds) :
    ∀ c ∈ head, c < 128 ∧ ((c ≠ 44 ∧ c ≠ 46) ∨ f.separator.char = some c) := by
  obtain ⟨sign, body, rfl, ⟨_, _, chars, hm, rfl⟩, hsign⟩ := h
  intro c hc
  rcases List.mem_append.mp hc with hc | hc
  · rcases hsign with ⟨rfl, _⟩ | ⟨rfl, _⟩ | ⟨rfl, _⟩ <;> simp at hc <;> omega
  · rcases mem_group hc with hc | hc
    · obtain ⟨d, hd⟩ := mem_digits hm hc
      have := digit_char hd
      omega
    · have := Separator.char_eq_some hc.symm
      refine ⟨by omega, .inr hc.symm⟩

theorem findIdx_head {x : BitVec 32} {head tail : List (BitVec 32)} (h : x ∉ head) :
    (head ++ x :: tail).findIdx? (· == x) = some head.length := by
  rw [List.findIdx?_append, List.findIdx?_eq_none_iff.mpr (by
    intro y hy
    simp
    rintro rfl
    exact h hy)]
  simp [List.findIdx?_cons]

/-- The parser reduced to its loop over the digits after the radix character. -/
theorem parseFloat_text (e : Enc) (rnd : ℚ → ℚ) (f : FloatFormat) (s : Str e)
    (cs : List Nat) (neg : Bool) (ds fs : List Nat) (hf : f.Valid) (ht : TextOf e s cs)
    (hn : Spec.RealNumeral f.radix f.separator.char (f.sign = .alwaysShow)
      f.radixCharacter.char none cs neg ds fs)
    (hsep : f.separator.char ≠ some f.radixCharacter.char)
    (hlim : fs = [] → f.placeLimit = .none ∨ f.placeCount = 0 ∨ f.radixCharacter.char ∉ cs)
    (hfit : (Spec.positional f.radix ds : Int) ≤ llong.max)
    (hplace : (f.radix ^ (ds.length - 1) : Nat) ≤ llong.max) :
    parseFloat e rnd s f
      = (fs.foldlM (fun st (d : Nat) => appendDigit rnd f.radix st d)
          (1, rnd (Spec.denote f.radix neg ds)) >>= fun st => .ok st.2) := by
  obtain ⟨head, hnum, hfs, hcs⟩ := hn
  have hhead := numeral_chars hnum
  have hrc := f.radixCharacter.char_cases
  have hnot : f.radixCharacter.char ∉ head := by
    intro h
    rcases (hhead _ h).2 with h1 | h1
    · omega
    · exact hsep h1
  have hasc : ∀ c ∈ cs, c < 128 := by
    rcases hcs with ⟨rfl, _⟩ | ⟨tail, rfl, htail⟩
    · exact fun c hc => (hhead c hc).1
    · intro c hc
      rcases List.mem_append.mp hc with hc | hc
      · exact (hhead c hc).1
      · rcases List.mem_cons.mp hc with rfl | hc
        · omega
        · obtain ⟨d, hd⟩ := mem_digits htail hc
          exact (digit_char hd).1
  have hconv : convertString e .char32 s = .ok (encs .char32 cs) := by
    rw [ht.eq]
    exact convertString_enc e .char32 cs
      (ht.fwd (fun _ c hc => by have := hasc c hc; unfold Spec.IsBmp; omega))
      (fun c hc => by have := hasc c hc; show c < 2 ^ 32; omega)
  have hmake : IntegerFormat.make f.radix f.sign f.separator
      = .ok ⟨f.radix, f.sign, f.separator⟩ := by
    rw [IntegerFormat.make, if_neg (by have := hf.1; have := hf.2; simp; omega)]
  have hint : parseInteger .char32 .llong (encs .char32 head) ⟨f.radix, f.sign, f.separator⟩
      = .ok (Spec.denote f.radix neg ds) :=
    C22_partial .char32 .llong ⟨f.radix, f.sign, f.separator⟩ _ head neg ds (by decide) hf
      (textOf_ascii .char32 head (fun c hc => (hhead c hc).1)) hnum (fun _ => rfl) hfit
      (fun _ => hplace)
  have hne32 : ∀ c, c < 128 → (BitVec.ofNat 32 c = BitVec.ofNat 32 f.radixCharacter.char ↔
      c = f.radixCharacter.char) := by
    intro c hc
    refine ⟨fun h => ?_, fun h => by rw [h]⟩
    have := congrArg BitVec.toNat h
    simp only [BitVec.toNat_ofNat] at this
    omega
  have hnot32 : BitVec.ofNat 32 f.radixCharacter.char ∉ encs .char32 head := by
    rw [encs32]
    intro h
    obtain ⟨c, hc, h⟩ := List.mem_map.mp h
    rw [hne32 c (hhead c hc).1] at h
    exact hnot (h ▸ hc)
  rw [parseFloat, hconv, Outcome.ok_bind, hmake, Outcome.ok_bind]
  rcases hcs with ⟨rfl, rfl⟩ | ⟨tail, rfl, htail⟩
  · rw [List.findIdx?_eq_none_iff.mpr (by
      intro y hy
      simp
      rintro rfl
      exact hnot32 hy)]
    simp only [hint, Outcome.ok_bind]
    rfl
  · have hu : encs .char32 (head ++ f.radixCharacter.char :: tail)
        = encs .char32 head ++ BitVec.ofNat 32 f.radixCharacter.char :: encs .char32 tail := by
      rw [encs_append, encs_cons]
      rfl
    have htake : (encs .char32 head ++ BitVec.ofNat 32 f.radixCharacter.char
        :: encs .char32 tail).take (encs .char32 head).length = encs .char32 head :=
      List.take_left
    have hdrop : (encs .char32 head ++ BitVec.ofNat 32 f.radixCharacter.char
        :: encs .char32 tail).drop ((encs .char32 head).length + 1) = encs .char32 tail := by
      rw [List.drop_append]
      simp
    have hu' : List.findIdx? (· == BitVec.ofNat 32 f.radixCharacter.char)
        (encs .char32 (head ++ f.radixCharacter.char :: tail))
        = some (encs .char32 head).length := by
      rw [hu]
      exact findIdx_head hnot32
    rw [hu']
    simp only
    rw [hu, htake, hint, Outcome.ok_bind, hdrop]
    have hlen : (encs .char32 tail).length = 0 ↔ fs = [] := by
      have htail : tail.map Spec.digitValue = fs.map some := htail
      have := congrArg List.length htail
      rw [List.length_map, List.length_map] at this
      rw [encs32, List.length_map, this]
      exact List.length_eq_zero_iff
    by_cases hfs0 : fs = []
    · have hl := hlim hfs0
      have hmem : f.radixCharacter.char ∈ head ++ f.radixCharacter.char :: tail := by simp
      have h0 := hlen.mpr hfs0
      have htail0 : encs .char32 tail = [] := List.length_eq_zero_iff.mp h0
      subst hfs0
      by_cases hl1 : f.placeLimit = .none
      · rw [if_pos ⟨h0, hl1⟩]
        rfl
      · rw [if_neg (fun h => hl1 h.2), if_neg (fun h => by
          rcases hl with h' | h' | h'
          · exact hl1 h'
          · have := h.2; omega
          · exact h' hmem), htail0]
        rfl
    · rw [if_neg (fun h => hfs0 (hlen.mp h.1)), if_neg (fun h => hfs0 (hlen.mp h.1)), encs32,
        parseFraction_fold rnd hf.2 tail fs _ htail hfs]

/-- `"-1.5"` is read as -0.5, even on a machine that never rounds. -/
theorem C28_violated :
    ¬ ∀ (e : Enc) (f : FloatFormat) (s : Str e) (cs : List Nat) (neg : Bool) (ds fs : List Nat),
      f.Valid → TextOf e s cs →
      Spec.RealNumeral f.radix f.separator.char (f.sign = .alwaysShow)
        f.radixCharacter.char none cs neg ds fs →
      f.separator.char ≠ some f.radixCharacter.char → f.placeLimit = .none →
      (Spec.positional f.radix ds : Int) ≤ llong.max →
      (f.radix ^ (ds.length - 1) : Nat) ≤ llong.max →
      parseFloat e id s f = .ok (Spec.denoteReal f.radix neg ds fs) := by
  intro h
  have hn : Spec.RealNumeral FloatFormat.default.radix FloatFormat.default.separator.char
      (FloatFormat.default.sign = .alwaysShow) FloatFormat.default.radixCharacter.char none
      [45, 49, 46, 53] true [1] [5] :=
    ⟨[45, 49], ⟨[45], [49], rfl, ⟨by simp, by decide, [49], by decide, by decide⟩, by simp⟩,
      by decide, .inr ⟨[53], rfl, by decide⟩⟩
  have ht := textOf_ascii .char8 [45, 49, 46, 53] (by decide)
  have hv : FloatFormat.default.Valid := by unfold FloatFormat.Valid; decide
  have h1 := h .char8 .default _ _ true [1] [5] hv ht hn (by decide) rfl (by decide) (by decide)
  rw [parseFloat_text .char8 id .default _ _ true [1] [5] hv ht hn (by decide) (by simp)
    (by decide) (by decide)] at h1
  have hstep : appendDigit id 10 (1, -1) ((5 : Nat) : Int) = .ok (10, -1 / 2) := by
    have hroot : id ((1 : ℚ) * ((10 : Nat) : ℚ)) = 10 := by norm_num
    simp only [appendDigit]
    rw [hroot, if_neg (by norm_num)]
    norm_num
  have hden : ((Spec.denote 10 true [1] : Int) : ℚ) = -1 := by
    norm_num [Spec.denote, Spec.positional]
  have hrad : FloatFormat.default.radix = 10 := rfl
  rw [hrad, id, hden, List.foldlM_cons, hstep, Outcome.ok_bind, List.foldlM_nil] at h1
  simp only [pure, Outcome.ok_bind] at h1
  injection h1 with h1
  norm_num [Spec.denoteReal, Spec.fraction, Spec.positional] at h1

/-- C28 for numerals that are not negative or have no digits after the radix character, whose
integral part fits `long long`.  `u` is the unit roundoff of the machine (2^-53 for `double`);
`lo` and `hi` delimit the numbers that neither underflow nor overflow, and the numeral must not
be so long as to leave that range.  Missing: negative numerals with a fraction part. -/
theorem C28_partial (e : Enc) (rnd : ℚ → ℚ) (u lo hi : ℚ) (f : FloatFormat) (s : Str e)
    (cs : List Nat) (neg : Bool) (ds fs : List Nat) (hu0 : 0 ≤ u) (hu1 : u ≤ 1 / 2)
    (hr : ∀ q, q = 0 ∨ (lo ≤ q ∧ q ≤ hi) → (1 - u) * q ≤ rnd q ∧ rnd q ≤ (1 + u) * q)
    (hf : f.Valid) (ht : TextOf e s cs)
    (hn : Spec.RealNumeral f.radix f.separator.char (f.sign = .alwaysShow)
      f.radixCharacter.char none cs neg ds fs)
    (hsep : f.separator.char ≠ some f.radixCharacter.char)
    (hlim : fs = [] → f.placeLimit = .none ∨ f.placeCount = 0 ∨ f.radixCharacter.char ∉ cs)
    (hfit : (Spec.positional f.radix ds : Int) ≤ llong.max)
    (hplace : (f.radix ^ (ds.length - 1) : Nat) ≤ llong.max)
    (hneg : neg = false ∨ fs = [])
    (hlo : lo ≤ ((1 - u) / ((1 + u) * f.radix)) ^ (fs.length + 1))
    (hhi : (Spec.denoteReal f.radix false ds fs + f.radix)
      * ((1 + u) / (1 - u) * f.radix) ^ (fs.length + 1) ≤ hi) :
    ∃ v, parseFloat e rnd s f = .ok v
      ∧ (fs = [] → v = rnd (Spec.denoteReal f.radix neg ds fs))
      ∧ (neg = false →
        Spec.denoteReal f.radix neg ds fs * ((1 - u) ^ (fs.length + 1) / (1 + u) ^ fs.length) ≤ v
        ∧ v ≤ Spec.denoteReal f.radix neg ds fs
          * ((1 + u) ^ (fs.length + 1) / (1 - u) ^ fs.length)) := by
  have hr0 : 0 < f.radix := by have := hf.1; omega
  have hrq : (2 : ℚ) ≤ f.radix := by exact_mod_cast hf.1
  rw [parseFloat_text e rnd f s cs neg ds fs hf ht hn hsep hlim hfit hplace]
  have hfsd : ∀ d ∈ fs, d < f.radix := by
    obtain ⟨_, _, h, _⟩ := hn
    exact h
  have hden0 : Spec.denoteReal f.radix neg ds [] = ((Spec.denote f.radix neg ds : Int) : ℚ) := by
    rw [Spec.denoteReal, Spec.denote, Spec.fraction_nil]
    split <;> push_cast <;> ring
  by_cases hnf : neg = false
  · subst hnf
    obtain ⟨I, hI⟩ : ∃ I, I = Spec.positional f.radix ds := ⟨_, rfl⟩
    have hV : Spec.denoteReal f.radix false ds fs
        = (I : ℚ) + Spec.fraction f.radix fs / (f.radix : ℚ) ^ 0 := by
      rw [Spec.denoteReal, if_neg (by simp), pow_zero, div_one, hI]
    have hd : Spec.denote f.radix false ds = (I : Int) := by rw [Spec.denote, hI]; simp
    rw [hd]
    obtain ⟨c0, c1⟩ := fraction_bounds hr0 fs hfsd
    have ha : 0 < 1 + u := by linarith
    have hb : 0 < 1 - u := by linarith
    have hX : 1 ≤ (1 + u) / (1 - u) * f.radix := by
      have : 1 ≤ (1 + u) / (1 - u) := by rw [le_div_iff₀ hb]; linarith
      nlinarith
    have hXn : 1 ≤ ((1 + u) / (1 - u) * f.radix) ^ (fs.length + 1) := one_le_pow₀ hX
    have hYn : ((1 - u) / ((1 + u) * f.radix)) ^ (fs.length + 1) ≤ 1 := by
      refine pow_le_one₀ (by positivity) ?_
      rw [div_le_one (by positivity)]
      nlinarith
    have hI0 : (0 : ℚ) ≤ I := by positivity
    have hIhi : (I : ℚ) ≤ hi := by
      rw [hV, pow_zero, div_one] at hhi
      nlinarith
    obtain ⟨i1, i2⟩ := hr I (by
      rcases Nat.eq_zero_or_pos I with h | h
      · left; rw [h]; simp
      · right
        have : (1 : ℚ) ≤ I := by exact_mod_cast h
        exact ⟨by linarith, hIhi⟩)
    obtain ⟨st, h1, h2, h3⟩ := appendDigits_error (a := 1 + u) (b := 1 - u) (by linarith)
      (by linarith) (by linarith) hr hf.1 hlo hhi fs hfsd 0 I 1 (rnd I) (by omega)
      ⟨I, by simp⟩ hV (by simp) (by simp)
      (by rw [pow_zero, div_one, zero_add, pow_one]; linarith)
      (by rw [pow_zero, div_one, zero_add, pow_one]; linarith)
    simp only [Int.cast_natCast]
    rw [h1]
    refine ⟨st.2, rfl, ?_, fun _ => ⟨h2, h3⟩⟩
    intro hfs
    subst hfs
    cases h1
    rw [hden0, hd]
    simp
  · have hfs : fs = [] := by
      rcases hneg with h | h
      · exact absurd h hnf
      · exact h
    subst hfs
    exact ⟨_, rfl, fun _ => by rw [hden0], fun h => absurd h hnf⟩

-- 16 places in radix 10, integral parts up to 2^63, and a range that is part of that of `double`
example : (2 : ℚ)⁻¹ ^ 100 ≤ ((1 - 2⁻¹ ^ 53) / ((1 + 2⁻¹ ^ 53) * 10)) ^ (16 + 1)
    ∧ ((2 ^ 63 : ℚ) + 10) * ((1 + 2⁻¹ ^ 53) / (1 - 2⁻¹ ^ 53) * 10) ^ (16 + 1) ≤ 2 ^ 200 := by
  constructor <;> norm_num

example : Spec.RealNumeral 10 none false 46 none [51, 46, 49, 52] false [3] [1, 4] :=
  ⟨[51], ⟨[], [51], rfl, ⟨by simp, by decide, [51], by decide, by decide⟩, by simp⟩,
    by decide, .inr ⟨[49, 52], rfl, by decide⟩⟩

/-- In radices that are powers of two, a numeral that denotes a value of the floating-point
format is read exactly, unless it has so many places that the power of the radix overflows.
Missing: as for `C28_partial`. -/
theorem C28_exact_partial (e : Enc) (F : Spec.BinFmt) (rnd : ℚ → ℚ) (f : FloatFormat)
    (s : Str e) (cs : List Nat) (neg : Bool) (ds fs : List Nat) (j : Nat) (hF : F.Std)
    (hr : ∀ q, F.Has q → rnd q = q) (hf : f.Valid) (hj : f.radix = 2 ^ j) (ht : TextOf e s cs)
    (hn : Spec.RealNumeral f.radix f.separator.char (f.sign = .alwaysShow)
      f.radixCharacter.char none cs neg ds fs)
    (hsep : f.separator.char ≠ some f.radixCharacter.char)
    (hlim : fs = [] → f.placeLimit = .none ∨ f.placeCount = 0 ∨ f.radixCharacter.char ∉ cs)
    (hfit : (Spec.positional f.radix ds : Int) ≤ llong.max)
    (hplace : (f.radix ^ (ds.length - 1) : Nat) ≤ llong.max)
    (hneg : neg = false ∨ fs = []) (hroot : f.radix ^ fs.length < 2 ^ F.emax)
    (hval : F.Has (Spec.denoteReal f.radix neg ds fs)) :
    parseFloat e rnd s f = .ok (Spec.denoteReal f.radix neg ds fs) := by
  have hr0 : 0 < f.radix := by have := hf.1; omega
  rw [parseFloat_text e rnd f s cs neg ds fs hf ht hn hsep hlim hfit hplace]
  have hfsd : ∀ d ∈ fs, d < f.radix := by
    obtain ⟨_, _, h, _⟩ := hn
    exact h
  have hden0 : Spec.denoteReal f.radix neg ds [] = ((Spec.denote f.radix neg ds : Int) : ℚ) := by
    rw [Spec.denoteReal, Spec.denote, Spec.fraction_nil]
    split <;> push_cast <;> ring
  by_cases hfs : fs = []
  · subst hfs
    rw [hden0] at hval ⊢
    rw [hr _ hval]
    rfl
  · have hnf : neg = false := by
      rcases hneg with h | h
      · exact h
      · exact absurd h hfs
    subst hnf
    obtain ⟨I, hI⟩ : ∃ I, I = Spec.positional f.radix ds := ⟨_, rfl⟩
    have hV : Spec.denoteReal f.radix false ds fs
        = (I : ℚ) + Spec.fraction f.radix fs / (f.radix : ℚ) ^ 0 := by
      rw [Spec.denoteReal, if_neg (by simp), pow_zero, div_one, hI]
    have hd : ((Spec.denote f.radix false ds : Int) : ℚ) = I := by rw [Spec.denote, hI]; simp
    obtain ⟨c0, c1⟩ := fraction_bounds hr0 fs hfsd
    have hI0 : (0 : ℚ) ≤ I := by positivity
    have hV0 : 0 ≤ Spec.denoteReal f.radix false ds fs := by
      rw [hV, pow_zero, div_one]; linarith
    have hIF : F.Has I := by
      have h1 := trunc_of_rest (c := 1) (V := Spec.denoteReal f.radix false ds fs) (v := I)
        (q := Spec.fraction f.radix fs) (by norm_num) (by rw [hV, pow_zero]) c0 c1
        ⟨I, by simp⟩
      rw [← h1]
      have := hval.trunc hF hV0 0
      simpa using this
    obtain ⟨root, h1⟩ := appendDigits_exact hF hr hj hf.2 hval hV0 hroot fs hfsd 0 I
      (by omega) ⟨I, by simp⟩ hV
    rw [hd, hr _ hIF, ← pow_zero (f.radix : ℚ), h1]
    rfl

example : Spec.binary32.Has (Spec.denoteReal 16 false [10] [15, 8])
    ∧ (16 : Nat) = 2 ^ 4 := by
  refine ⟨⟨351, -5, by norm_num [Spec.binary32], by norm_num [Spec.binary32], ?_⟩, rfl⟩
  norm_num [Spec.denoteReal, Spec.fraction, Spec.positional]

/-! ### C70 -/

/-- Formatting -1.25 and parsing the result gives -1.75. -/
theorem C70_violated :
    ¬ ∀ (e : Enc) (F : Spec.BinFmt) (rnd : ℚ → ℚ) (f : FloatFormat) (x : ℚ) (j : Nat), F.Std →
      (∀ q, F.Has q → rnd q = q) → f.Valid → f.radix = 2 ^ j → f.separator = .none →
      f.placeLimit = .none → F.Has x → llong.Has ⌊x⌋ →
      ∃ N s, (∀ fuel ≥ N, formatFloat e rnd fuel x f = .ok s) ∧ parseFloat e rnd s f = .ok x := by
  intro h
  have hfl : ⌊(-5 / 4 : ℚ)⌋ = -2 := by norm_num
  obtain ⟨N, s, h1, h2⟩ := h .char32 Spec.binary64 id ⟨16, .onlyWhenNegative, .none, .period,
    .none, 0⟩ (-5 / 4) 4 (.inr rfl) (fun _ _ => rfl) (by unfold FloatFormat.Valid; decide) rfl
    rfl rfl ⟨-5, -2, by norm_num [Spec.binary64], by norm_num [Spec.binary64], by norm_num⟩
    (by rw [hfl]; decide)
  have hloop : ∀ fuel, formatFractionLoop .char32 id
      ⟨16, .onlyWhenNegative, .none, .period, .none, 0⟩ (fuel + 2) (1 / 4) 0 0 []
      = .ok ([52#32], 0) := by
    intro fuel
    have e4 : ⌊(1 / 4 * 16 : ℚ)⌋ = 4 := by norm_num
    rw [formatFractionLoop, if_neg (by norm_num)]
    have er : ((16 : Nat) : ℚ) = 16 := by norm_num
    have e0 : ¬ (PlaceLimit.none ≠ PlaceLimit.none ∧ True) := by decide
    have e1 : (if PlaceLimit.none ≠ PlaceLimit.none then 0 + 1 else 0) = 0 := by decide
    simp only [id, er, e4, e1]
    rw [if_neg (by decide), if_neg e0, show appendCP .char32 [] (formatDigit 4) = .ok [52#32] by
      decide, Outcome.ok_bind, if_neg (by omega), formatFractionLoop, if_pos (by norm_num)]
  have hrun : formatFloat .char32 id (N + 2) (-5 / 4)
      ⟨16, .onlyWhenNegative, .none, .period, .none, 0⟩ = .ok (encs .char32 [45, 50, 46, 52]) := by
    have g1 : floorToLongLong (-5 / 4) = .ok (-2) := by
      rw [floorToLongLong, hfl, if_pos (by decide)]
    have g5 : (if (-5 / 4 : ℚ) < 0 then -(-5 / 4 : ℚ) else -5 / 4) = 5 / 4 := by norm_num
    have hfl2 : ⌊(5 / 4 : ℚ)⌋ = 1 := by norm_num
    exact formatFloat_run (eq := ⟨16, .onlyWhenNegative, .none⟩) (o := [45#32, 50#32])
      (fr := 1 / 4) (by decide) g1 (by decide) (by rw [g5, hfl2, id]; norm_num) (by norm_num)
      (hloop N) (by decide) (o' := [45#32, 50#32, 46#32]) (by decide)
  rw [h1 (N + 2) (by omega)] at hrun
  injection hrun with hrun
  subst hrun
  have hn : Spec.RealNumeral 16 Separator.none.char false RadixCharacter.period.char none
      [45, 50, 46, 52] true [2] [4] :=
    ⟨[45, 50], ⟨[45], [50], rfl, ⟨by simp, by decide, [50], by decide, by decide⟩, by simp⟩,
      by decide, .inr ⟨[52], rfl, by decide⟩⟩
  rw [parseFloat_text .char32 id ⟨16, .onlyWhenNegative, .none, .period, .none, 0⟩ _ _ true [2]
    [4] (by unfold FloatFormat.Valid; decide) (textOf_ascii .char32 _ (by decide)) hn (by decide)
    (by simp) (by decide) (by decide)] at h2
  have hstep : appendDigit id 16 (1, -2) ((4 : Nat) : Int) = .ok (16, -7 / 4) := by
    have hroot : id ((1 : ℚ) * ((16 : Nat) : ℚ)) = 16 := by norm_num
    simp only [appendDigit]
    rw [hroot, if_neg (by norm_num)]
    norm_num
  have hden : ((Spec.denote 16 true [2] : Int) : ℚ) = -2 := by
    norm_num [Spec.denote, Spec.positional]
  simp only [id, hden] at h2
  rw [List.foldlM_cons, hstep, Outcome.ok_bind, List.foldlM_nil] at h2
  simp only [pure, Outcome.ok_bind] at h2
  injection h2 with h2
  norm_num at h2

/-- C70 for numbers that are not negative or are integers, with at most `n` places in the radix,
where the power `n` of the radix does not overflow.  Missing: negative numbers with a fraction
part, integral parts outside the range of `long long`, and subnormal numbers with so many places
that the parser overflows. -/
theorem C70_partial (e : Enc) (F : Spec.BinFmt) (rnd : ℚ → ℚ) (f : FloatFormat) (x : ℚ)
    (j n : Nat) (hF : F.Std) (hr : ∀ q, F.Has q → rnd q = q) (hf : f.Valid) (hj : f.radix = 2 ^ j)
    (hsep : f.separator = .none) (hlim : f.placeLimit = .none) (hx : F.Has x)
    (hll : llong.Has ⌊x⌋) (hmin : ⌊x⌋ ≠ llong.min) (hneg : 0 ≤ x ∨ ∃ z : Int, x = z)
    (hfin : ∃ z : Int, x * (f.radix : ℚ) ^ n = z) (hover : f.radix ^ n < 2 ^ F.emax) :
    ∃ N s, (∀ fuel ≥ N, formatFloat e rnd fuel x f = .ok s) ∧ parseFloat e rnd s f = .ok x := by
  have hr2 := hf.1
  -- integers need no places
  obtain ⟨n, hfin, hover, hn0⟩ : ∃ n : Nat, (∃ z : Int, x * (f.radix : ℚ) ^ n = z)
      ∧ f.radix ^ n < 2 ^ F.emax ∧ ((∃ z : Int, x = z) → n = 0) := by
    by_cases hint : ∃ z : Int, x = z
    · obtain ⟨z, hz⟩ := hint
      refine ⟨0, ⟨z, by rw [pow_zero, mul_one, hz]⟩, ?_, fun _ => rfl⟩
      rw [pow_zero]
      have := hF.emax_ge
      exact Nat.one_lt_two_pow (by omega)
    · exact ⟨n, hfin, hover, fun h => absurd h hint⟩
  obtain ⟨cs, ⟨N, s, ht, hs⟩, neg, ds, fs, hn, hz, hden, hlen⟩ :=
    (C27_partial e F rnd f x hF hr hf hx hll hmin hneg (.inl ⟨j, hj⟩)).1 hlim n hfin
  refine ⟨N, s, hs, ?_⟩
  have hsc : f.separator.char = none := by rw [hsep]; rfl
  have hfsd : ∀ d ∈ fs, d < f.radix := by
    obtain ⟨_, _, h, _⟩ := hn
    exact h
  obtain ⟨c0, c1⟩ := fraction_bounds (by omega) fs hfsd
  have hne : ds ≠ [] := by
    obtain ⟨_, ⟨_, _, _, hsp, _⟩, _⟩ := hn
    exact hsp.1
  have hI0 : (0 : ℚ) ≤ (Spec.positional f.radix ds : ℚ) := by positivity
  have hmx : llong.max = 9223372036854775807 := by decide
  have hmn : llong.min = -9223372036854775808 := by decide
  -- a negative numeral has no fraction part, and denotes an integer
  have hfsneg : neg = true → (∃ z : Int, x = z) ∨ x = 0 := by
    rintro rfl
    rw [Spec.denoteReal, if_pos rfl] at hden
    rcases hneg with h | h
    · right; linarith
    · exact .inl h
  have hfs : neg = false ∨ fs = [] := by
    cases neg with
    | false => exact .inl rfl
    | true =>
      right
      have : n = 0 := by
        rcases hfsneg rfl with h | h
        · exact hn0 h
        · exact hn0 ⟨0, by rw [h]; simp⟩
      exact List.length_eq_zero_iff.mp (by omega)
  have hfit : (Spec.positional f.radix ds : Int) ≤ llong.max := by
    rw [hmx]
    cases neg with
    | false =>
      rw [Spec.denoteReal, if_neg (by simp)] at hden
      have : ((Spec.positional f.radix ds : Int) : ℚ) ≤ x := by
        push_cast
        linarith
      have := Int.le_floor.mpr this
      have h2 := hll.2
      rw [hmx] at h2
      omega
    | true =>
      have hfs0 : fs = [] := by
        rcases hfs with h | h
        · exact absurd h (by simp)
        · exact h
      rw [Spec.denoteReal, if_pos rfl, hfs0, Spec.fraction_nil, add_zero] at hden
      have hfl : ⌊x⌋ = -(Spec.positional f.radix ds : Int) := by
        rw [← hden, ← Int.cast_natCast, ← Int.cast_neg, Int.floor_intCast]
      have h2 := hll.1
      rw [hmn] at h2 hmin
      omega
  have hplace : (f.radix ^ (ds.length - 1) : Nat) ≤ llong.max := by
    by_cases h0 : ds.head? = some 0
    · rw [hz h0, hmx]
      simp
    · have := place_le (r := f.radix) ds hne h0
      omega
  have hn' : Spec.RealNumeral f.radix f.separator.char (f.sign = .alwaysShow)
      f.radixCharacter.char none cs neg ds fs := by
    have := hn
    rw [hsc] at this
    rw [hsc]
    exact this
  have := C28_exact_partial e F rnd f s cs neg ds fs j hF hr hf hj ht hn' (by rw [hsc]; simp)
    (fun _ => .inl hlim) hfit hplace hfs
    (lt_of_le_of_lt (Nat.pow_le_pow_right (by omega) hlen) hover) (by rw [hden]; exact hx)
  rw [this, hden]

example : Spec.binary64.Has (3 / 16) ∧ (∃ z : Int, (3 / 16 : ℚ) * ((2 : Nat) : ℚ) ^ 4 = z)
    ∧ 2 ^ 4 < 2 ^ Spec.binary64.emax :=
  ⟨⟨3, -4, by norm_num [Spec.binary64], by norm_num [Spec.binary64], by norm_num⟩,
    ⟨3, by norm_num⟩, Nat.pow_lt_pow_right (by norm_num) (by norm_num [Spec.binary64])⟩

/-! ### C71 -/

/-- For every rounding and every number of places: equal numbers compare equal, the comparison is
an equivalence relation, and `cmp_not_equal` is its negation.  Where the products by the power
of ten do not round, numbers compare equal just if they have the same integral part after
shifting the decimal point. -/
theorem C71_cmp_equal (rnd : ℚ → ℚ) (power : ℚ) :
    (∀ x, cmpEqual rnd power x x = true)
    ∧ (∀ x y, cmpEqual rnd power x y = cmpEqual rnd power y x)
    ∧ (∀ x y z, cmpEqual rnd power x y = true → cmpEqual rnd power y z = true →
        cmpEqual rnd power x z = true)
    ∧ (∀ x y, cmpNotEqual rnd power x y = true ↔ ¬ cmpEqual rnd power x y = true)
    ∧ (∀ x y, rnd (x * power) = x * power → rnd (y * power) = y * power →
        (cmpEqual rnd power x y = true ↔ ⌊x * power⌋ = ⌊y * power⌋)) := by
  refine ⟨fun x => by simp [cmpEqual], fun x y => ?_, fun x y z h1 h2 => ?_, fun x y => ?_,
    fun x y h1 h2 => ?_⟩
  · rw [cmpEqual, cmpEqual, Bool.beq_comm]
  · simp only [cmpEqual, beq_iff_eq] at *
    rw [h1, h2]
  · simp [cmpNotEqual]
  · rw [cmpEqual, h1, h2]
    simp

example : cmpEqual id 100 (31415 / 10000) (31416 / 10000) = true := by
  rw [cmpEqual, id, id, show ⌊(31415 / 10000 * 100 : ℚ)⌋ = 314 by norm_num,
    show ⌊(31416 / 10000 * 100 : ℚ)⌋ = 314 by norm_num]
  rfl

end Cmp
