import Verif.Proofs.Ieee
import Verif.Props.FloatTrip
import Verif.Props.FloatReject

/-
Properties of floating-point text on machines with IEEE arithmetic: the rounding is to nearest, ties
to even.
-/

namespace Cmp

open IntTy
open _root_.Spec (binary32 binary64)

/-! ### C131 -/

/-- Steps of the parser over zeros. -/
theorem appendDigit_zeros {F : Spec.BinFmt} {rnd : ℚ → ℚ} (hF : F.Std) (hn : F.Nearest rnd) {r : Nat}
    (hr : 2 ≤ r) : ∀ (i : Nat) (p : ℚ) (j : Nat), (∀ k ≤ j + i, F.Has ((r : ℚ) ^ k)) → p = (r : ℚ) ^ j →
      ∀ l : List Nat, (List.replicate i 0 ++ l).foldlM (fun st (d : Nat) => appendDigit rnd r st d) (p, 0)
        = l.foldlM (fun st (d : Nat) => appendDigit rnd r st d) ((r : ℚ) ^ (j + i), 0) := by
  intro i
  induction i with
  | zero => rintro p j - rfl l; rfl
  | succ i ih =>
    rintro p j hk rfl l
    have h0 : rnd 0 = 0 := hn.exact (Spec.BinFmt.has_zero hF)
    have h1 : rnd ((r : ℚ) ^ j * r) = (r : ℚ) ^ (j + 1) := by
      rw [← pow_succ]
      exact hn.exact (hk _ (by omega))
    have hr0 : (r : ℚ) ^ (j + 1) ≠ 0 := pow_ne_zero _ (by exact_mod_cast (by omega : r ≠ 0))
    have hstep : appendDigit rnd r ((r : ℚ) ^ j, 0) ((0 : Nat) : Int) = .ok ((r : ℚ) ^ (j + 1), 0) := by
      simp only [appendDigit]
      rw [h1, if_neg hr0]
      simp [h0]
    rw [List.replicate_succ, List.cons_append, List.foldlM_cons, hstep, Outcome.ok_bind,
      ih _ (j + 1) (fun k hk' => hk k (by omega)) rfl, show j + 1 + i = j + (i + 1) by omega]

theorem positional_zeros (r : Nat) : ∀ i, Spec.positional r (List.replicate i 0) = 0
  | 0 => rfl
  | i + 1 => by
    rw [List.replicate_succ, Spec.positional_cons, zero_mul, zero_add, positional_zeros r i]

/-- C131 for numerals without fraction digits; for decimal numerals that are not negative, have one
fraction digit and an integral part that is a value of the format; and for numerals with the integral
part zero whose last digit is the only one that is not zero, as long as the power of the radix is a
value of the format (for `double` that is up to 22 decimal places).  Missing: all other numerals, for
which `C28_partial` bounds the error. -/
theorem C131_partial (e : Enc) (F : Spec.BinFmt) (f : FloatFormat) (s : Str e) (cs : List Nat)
    (neg : Bool) (ds fs : List Nat) (hF : F.Std) (hf : f.Valid) (ht : TextOf e s cs)
    (hn : Spec.RealNumeral f.radix f.separator.char (f.sign = .alwaysShow)
      f.radixCharacter.char none cs neg ds fs)
    (hsep : f.separator.char ≠ some f.radixCharacter.char)
    (hlim : fs = [] → f.placeLimit = .none ∨ f.placeCount = 0 ∨ f.radixCharacter.char ∉ cs)
    (hfit : (Spec.positional f.radix ds : Int) ≤ llong.max)
    (hplace : (f.radix ^ (ds.length - 1) : Nat) ≤ llong.max)
    (hcase : fs = []
      ∨ (neg = false ∧ f.radix = 10 ∧ fs.length = 1 ∧ F.Has (Spec.positional f.radix ds))
      ∨ (neg = false ∧ Spec.positional f.radix ds = 0 ∧ (∃ i d, fs = List.replicate i 0 ++ [d])
        ∧ ∀ k ≤ fs.length, F.Has ((f.radix : ℚ) ^ k))) :
    parseFloat e F.tiesToEven s f
      = .ok (F.tiesToEven (Spec.denoteReal f.radix neg ds fs)) := by
  have hr := Spec.BinFmt.tiesToEven_nearest hF
  have hdig : ∀ d ∈ fs, d < f.radix := hn.choose_spec.2.1
  rw [parseFloat_text e F.tiesToEven f s cs neg ds fs hf ht hn hsep hlim hfit hplace]
  rcases hcase with rfl | ⟨rfl, h10, hlen, hhas⟩ | ⟨rfl, h0, ⟨i, d, rfl⟩, hpow⟩
  · have : ((Spec.denote f.radix neg ds : Int) : ℚ) = Spec.denoteReal f.radix neg ds [] := by
      unfold Spec.denote Spec.denoteReal
      rw [Spec.fraction_nil]
      cases neg <;> simp
    rw [this]
    rfl
  · obtain ⟨d, rfl⟩ := List.length_eq_one_iff.mp hlen
    have hd : d < 10 := by rw [← h10]; exact hdig d (by simp)
    have hden : ((Spec.denote f.radix false ds : Int) : ℚ) = Spec.positional f.radix ds := by
      simp [Spec.denote]
    have hten : F.tiesToEven 10 = 10 := hr.exact
      ⟨10, 0, by rcases hF with rfl | rfl <;> decide, by rcases hF with rfl | rfl <;> decide, by norm_num⟩
    have hpos : Spec.positional f.radix ds ≤ 2 ^ 63 := by
      have : llong.max = 2 ^ 63 - 1 := by decide
      rw [this] at hfit
      omega
    have hone := Spec.BinFmt.onePlace hF hpos hd
    have hval : Spec.denoteReal f.radix false ds [d] = Spec.positional f.radix ds + d / 10 := by
      simp [Spec.denoteReal, Spec.fraction, Spec.positional, h10]
    rw [hden, hr.exact hhas, List.foldlM_cons, hval, ← hone, h10]
    have hstep : appendDigit F.tiesToEven 10 (1, (Spec.positional 10 ds : ℚ)) ((d : Nat) : Int)
        = .ok (10, F.tiesToEven (Spec.positional 10 ds + F.tiesToEven (d / 10))) := by
      simp only [appendDigit]
      rw [show (1 * ((10 : Nat) : ℚ)) = 10 by norm_num, hten, if_neg (by norm_num)]
      simp
    rw [hstep]
    rfl
  · have hz := appendDigit_zeros hF hr hf.1 i 1 0 (fun k hk => hpow k (by simp; omega)) (by simp) [d]
    have hden : ((Spec.denote f.radix false ds : Int) : ℚ) = 0 := by simp [Spec.denote, h0]
    have hval : Spec.denoteReal f.radix false ds (List.replicate i 0 ++ [d])
        = d / (f.radix : ℚ) ^ (i + 1) := by
      have : Spec.positional f.radix (List.replicate i 0 ++ [d]) = d := by
        rw [Spec.positional_append]
        rw [positional_zeros]
        simp [Spec.positional]
      simp [Spec.denoteReal, Spec.fraction, h0, this]
    have hroot : F.tiesToEven ((f.radix : ℚ) ^ i * f.radix) = (f.radix : ℚ) ^ (i + 1) := by
      rw [← pow_succ]
      exact hr.exact (hpow _ (by simp))
    have hr2 : (2 : ℚ) ≤ f.radix := by exact_mod_cast hf.1
    have hr0 : (f.radix : ℚ) ^ (i + 1) ≠ 0 := by positivity
    have hd : d < f.radix := hdig d (by simp)
    have hw : F.Within (d / (f.radix : ℚ) ^ (i + 1)) := by
      refine hF.small (by positivity) ?_
      rw [div_le_iff₀ (by positivity)]
      have h1 : (1 : ℚ) ≤ (f.radix : ℚ) ^ (i + 1) := one_le_pow₀ (by linarith)
      have h2 : (d : ℚ) ≤ 36 := by exact_mod_cast (by have := hf.2; omega : d ≤ 36)
      linarith
    rw [hden, hr.exact (Spec.BinFmt.has_zero hF), hz, zero_add, hval, List.foldlM_cons]
    have hstep : appendDigit F.tiesToEven f.radix ((f.radix : ℚ) ^ i, 0) ((d : Nat) : Int)
        = .ok ((f.radix : ℚ) ^ (i + 1), F.tiesToEven (d / (f.radix : ℚ) ^ (i + 1))) := by
      simp only [appendDigit]
      rw [hroot, if_neg hr0, zero_add, Int.cast_natCast, hr.exact (hr _ hw).1]
    rw [hstep]
    rfl

/-- `0.12` is not read as the double nearest to 0.12, which is that of the constant `0.12`, but as the
next one. -/
theorem C131_violated :
    ¬ ∀ (e : Enc) (f : FloatFormat) (s : Str e) (cs ds fs : List Nat), f.Valid → TextOf e s cs →
      Spec.RealNumeral f.radix f.separator.char (f.sign = .alwaysShow)
        f.radixCharacter.char none cs false ds fs →
      f.separator.char ≠ some f.radixCharacter.char → f.placeLimit = .none →
      (Spec.positional f.radix ds : Int) ≤ llong.max →
      (f.radix ^ (ds.length - 1) : Nat) ≤ llong.max →
      parseFloat e binary64.tiesToEven s f
        = .ok (binary64.tiesToEven (Spec.denoteReal f.radix false ds fs)) := by
  intro h
  have h1 := h .char8 .default _ [48, 46, 49, 50] [0] [1, 2] (by unfold FloatFormat.Valid; decide)
    (textOf_ascii .char8 [48, 46, 49, 50] (by decide))
    ⟨[48], ⟨[], [48], rfl, ⟨by simp, by decide, [48], by decide, by decide⟩, by simp⟩,
      by decide, .inr ⟨[49, 50], rfl, by decide⟩⟩ (by decide) rfl (by decide) (by decide)
  have h2 : parseFloat .char8 binary64.tiesToEven [48#8, 46#8, 49#8, 50#8] .default
      = .ok (8646911284551353 / 2 ^ 56) := by decide +kernel
  have h3 : binary64.tiesToEven (Spec.denoteReal FloatFormat.default.radix false [0] [1, 2])
      = 8646911284551352 / 2 ^ 56 := by decide +kernel
  have he : encs .char8 [48, 46, 49, 50] = [48#8, 46#8, 49#8, 50#8] := by decide
  rw [he, h2, h3] at h1
  injection h1 with h1
  norm_num at h1

/-- `3.7`, `12`, and `0.003`. -/
example : parseFloat .char8 binary64.tiesToEven [51#8, 46#8, 55#8] .default
      = .ok (binary64.tiesToEven 3.7)
    ∧ parseFloat .char8 binary64.tiesToEven [49#8, 50#8] .default = .ok 12
    ∧ parseFloat .char8 binary64.tiesToEven [48#8, 46#8, 48#8, 48#8, 51#8] .default
      = .ok (binary64.tiesToEven 0.003) := by
  decide +kernel

/-! ### C132 -/

/-- Formatting with the default format, given time, and parsing returns the number. -/
def Back (e : Enc) (rnd : ℚ → ℚ) (x : ℚ) : Prop :=
  ∃ N s, (∀ fuel ≥ N, formatFloat e rnd fuel x .default = .ok s)
    ∧ parseFloat e rnd s .default = .ok x

/-- The digits of a number that is written exactly with `k` places or fewer, the last of `k` digits not
being zero. -/
theorem digits_of {x : ℚ} {n k z : Nat} {cs : List Nat} (hz : z < 10 ^ k) (hz0 : z % 10 ≠ 0)
    (hx : x = n + z / 10 ^ k) (h : DenotesReal .default x k cs) :
    ∃ ds fs, Spec.RealNumeral 10 none false 46 none cs false ds fs
      ∧ (ds.head? = some 0 → ds = [0]) ∧ Spec.positional 10 ds = n ∧ fs.length = k
      ∧ Spec.positional 10 fs = z := by
  obtain ⟨neg, ds, fs, hnum, hd, hval, hlen⟩ := h
  have hnum : Spec.RealNumeral 10 none false 46 none cs neg ds fs := hnum
  have hval : Spec.denoteReal 10 neg ds fs = x := hval
  have hfs : ∀ d ∈ fs, d < 10 := hnum.choose_spec.2.1
  have hlt : Spec.positional 10 fs < 10 ^ fs.length := by
    have := (fraction_bounds (r := 10) (by norm_num) fs hfs).2
    rw [Spec.fraction, div_lt_one (by positivity)] at this
    exact_mod_cast this
  obtain ⟨j, hj⟩ : ∃ j, k = fs.length + j := ⟨k - fs.length, by omega⟩
  have hxp : 0 < x := by
    have : (0 : ℚ) < z := by exact_mod_cast (by omega : 0 < z)
    rw [hx]
    positivity
  have hneg : neg = false := by
    cases neg with
    | false => rfl
    | true =>
      exfalso
      have : (0 : ℚ) ≤ Spec.positional 10 ds + Spec.fraction 10 fs := by
        unfold Spec.fraction
        positivity
      unfold Spec.denoteReal at hval
      rw [if_pos rfl] at hval
      linarith
  subst hneg
  have heq : Spec.positional 10 ds * 10 ^ k + Spec.positional 10 fs * 10 ^ j = n * 10 ^ k + z := by
    have h1 : (Spec.positional 10 ds : ℚ) + Spec.positional 10 fs / 10 ^ fs.length = n + z / 10 ^ k := by
      rw [← hx, ← hval]
      simp [Spec.denoteReal, Spec.fraction]
    have h2 : (Spec.positional 10 ds : ℚ) * 10 ^ k + Spec.positional 10 fs * 10 ^ j = n * 10 ^ k + z := by
      have h3 := congrArg (· * (10 : ℚ) ^ k) h1
      simp only [add_mul] at h3
      rw [div_mul_cancel₀ _ (by positivity)] at h3
      rw [← h3]
      congr 1
      rw [hj, pow_add]
      field_simp
    exact_mod_cast h2
  have hlt2 : Spec.positional 10 fs * 10 ^ j < 10 ^ k := by
    rw [hj, pow_add]
    exact Nat.mul_lt_mul_of_pos_right hlt (by positivity)
  have hds : Spec.positional 10 ds = n := by
    have h1 := congrArg (· / 10 ^ k) heq
    simpa [Nat.mul_add_div, Nat.mul_comm _ (10 ^ k), Nat.div_eq_of_lt hlt2, Nat.div_eq_of_lt hz] using h1
  rw [hds] at heq
  have hzz : Spec.positional 10 fs * 10 ^ j = z := by omega
  have hj0 : j = 0 := by
    by_contra hne
    obtain ⟨i, rfl⟩ : ∃ i, j = i + 1 := ⟨j - 1, by omega⟩
    apply hz0
    rw [← hzz, pow_succ, ← mul_assoc, Nat.mul_mod_left]
  subst hj0
  exact ⟨ds, fs, hnum, hd, hds, by omega, by simpa using hzz⟩

/-- A numeral the library wrote, with two places, as the parser adds it up. -/
theorem parse_twoPlaces {e : Enc} {F : Spec.BinFmt} {s : Str e} {cs ds : List Nat} {a b : Nat}
    (hF : F.Std) (ht : TextOf e s cs) (hn : Spec.RealNumeral 10 none false 46 none cs false ds [a, b])
    (hd : ds.head? = some 0 → ds = [0]) (hsmall : Spec.positional 10 ds < 2 ^ F.prec) :
    parseFloat e F.tiesToEven s .default
      = .ok (F.tiesToEven (F.tiesToEven (Spec.positional 10 ds + F.tiesToEven (a / 10))
        + F.tiesToEven (b / 100))) := by
  have hr := Spec.BinFmt.tiesToEven_nearest hF
  have hint : ∀ m : Nat, m < 2 ^ F.prec → F.tiesToEven m = m := fun m hm => hr.exact
    ⟨m, 0, by simpa using hm, by rcases hF with rfl | rfl <;> decide, by simp⟩
  have hprec : F.prec ≤ 53 := by rcases hF with rfl | rfl <;> decide
  have hprec' : 7 ≤ F.prec := by rcases hF with rfl | rfl <;> decide
  have hpw : 2 ^ F.prec ≤ 2 ^ 53 := Nat.pow_le_pow_right (by norm_num) hprec
  have hpw' : 2 ^ 7 ≤ 2 ^ F.prec := Nat.pow_le_pow_right (by norm_num) hprec'
  have hmx : llong.max = 9223372036854775807 := by decide
  have hne : ds ≠ [] := by
    obtain ⟨_, ⟨_, _, _, ⟨h, _⟩, _⟩, _⟩ := hn
    exact h
  have hplace : ((10 ^ (ds.length - 1) : Nat) : Int) ≤ llong.max := by
    by_cases h0 : ds.head? = some 0
    · rw [hd h0, hmx]
      simp
    · have := place_le (r := 10) ds hne h0
      omega
  have h10 := hint 10 (by omega)
  have h100 := hint 100 (by omega)
  rw [parseFloat_text e F.tiesToEven .default s cs false ds [a, b] (by unfold FloatFormat.Valid; decide)
    ht hn (by decide) (by simp) (by show (Spec.positional 10 ds : Int) ≤ _; omega) hplace]
  have hden : ((Spec.denote FloatFormat.default.radix false ds : Int) : ℚ) = Spec.positional 10 ds := by
    simp [Spec.denote, FloatFormat.default]
  have hrad : FloatFormat.default.radix = 10 := rfl
  have hstep : ∀ (p v : ℚ) (d m : Nat), p * 10 = m → 0 < m → m < 2 ^ F.prec →
      appendDigit F.tiesToEven 10 (p, v) ((d : Nat) : Int)
        = .ok ((m : ℚ), F.tiesToEven (v + F.tiesToEven (d / m))) := by
    intro p v d m hp hm hm'
    simp only [appendDigit]
    rw [show p * ((10 : Nat) : ℚ) = m by rw [← hp]; norm_num, hint m hm',
      if_neg (by exact_mod_cast hm.ne')]
    simp
  rw [hden, hint _ hsmall, hrad, List.foldlM_cons, hstep 1 _ a 10 (by norm_num) (by norm_num) (by omega),
    Outcome.ok_bind, List.foldlM_cons, hstep _ _ b 100 (by norm_num) (by norm_num) (by omega)]
  norm_num

theorem places_two {fs : List Nat} {z : Nat} (hl : fs.length = 2) (hz : Spec.positional 10 fs = z)
    (hd : ∀ d ∈ fs, d < 10) : fs = [z / 10, z % 10] := by
  obtain ⟨a, b, rfl⟩ := List.length_eq_two.mp hl
  have := hd a (by simp)
  have := hd b (by simp)
  simp only [Spec.positional, List.foldl_cons, List.foldl_nil] at hz
  congr
  · omega
  · omega

/-- C132 for numbers with at most two binary places that are not negative or are integers and whose
integral part fits `long long`.  Missing: numbers with more binary places, for which `C107_partial`
bounds the error. -/
theorem C132_partial (e : Enc) (F : Spec.BinFmt) (x : ℚ) (hF : F.Std) (hx : F.Has x)
    (hll : llong.Has ⌊x⌋) (hmin : ⌊x⌋ ≠ llong.min) (hx0 : 0 ≤ x ∨ ∃ z : Int, x = z)
    (h2 : Spec.BinaryPlaces 2 x) : Back e F.tiesToEven x := by
  have hr := Spec.BinFmt.tiesToEven_nearest hF
  have hv : FloatFormat.default.Valid := by unfold FloatFormat.Valid; decide
  by_cases hint : ∃ z : Int, x = z
  · obtain ⟨N, s, y, e1, e2, e3, -⟩ := C107_partial e F F.tiesToEven .default x 0 hF hr hv rfl
      (by decide) rfl (by unfold PlacesFit; rcases hF with rfl | rfl <;> decide +kernel)
      ⟨hx, hll, hmin, hx0, by obtain ⟨z, hz⟩ := hint; exact ⟨z, by simp [hz]⟩⟩
    rw [e3 hint] at e2
    exact ⟨N, s, e1, e2⟩
  have hx0 := hx0.resolve_right hint
  have hsm := Spec.BinFmt.Has.small_of_not_int hx hint
  rw [abs_of_nonneg hx0] at hsm
  obtain ⟨z, hz⟩ := h2
  have hzpos : 0 ≤ z := by
    have : (0 : ℚ) ≤ z := by
      have := hx0
      rw [hz] at this
      linarith
    exact_mod_cast this
  obtain ⟨w, rfl⟩ := Int.eq_ofNat_of_zero_le hzpos
  obtain ⟨n, c, hc, hw⟩ : ∃ n c, c < 4 ∧ w = 4 * n + c := ⟨w / 4, w % 4, by omega, by omega⟩
  have hxn : x = n + c / 4 := by
    rw [hz, hw]
    push_cast
    ring
  have hc0 : c ≠ 0 := by
    rintro rfl
    exact hint ⟨n, by simp [hxn]⟩
  have hn : n < 2 ^ F.prec := by
    have : (n : ℚ) < 2 ^ F.prec := by
      refine lt_of_le_of_lt ?_ hsm
      rw [hxn]
      have : (0 : ℚ) ≤ c / 4 := by positivity
      linarith
    exact_mod_cast this
  have hprec : F.prec ≤ 53 := by rcases hF with rfl | rfl <;> decide
  have hn63 : n ≤ 2 ^ 63 := by
    have : 2 ^ F.prec ≤ 2 ^ 53 := Nat.pow_le_pow_right (by norm_num) hprec
    omega
  have hnr : NoRounding F FloatFormat.default.radix x :=
    .inr ⟨2, w, by rcases hF with rfl | rfl <;> decide, by rw [hz]⟩
  obtain ⟨hall, -⟩ := C27_partial e F F.tiesToEven .default x hF (fun _ => hr.exact) hv hx hll hmin
    (.inl hx0) hnr
  have hrad : FloatFormat.default.radix = 10 := rfl
  -- halves
  by_cases hc2 : c = 2
  · subst hc2
    obtain ⟨cs, ⟨N, s, ht, hs⟩, hden⟩ := hall rfl 1 ⟨10 * n + 5, by rw [hrad, hxn]; push_cast; ring⟩
    obtain ⟨ds, fs, hnum, hd, hds, hlen, hfs⟩ := digits_of (n := n) (z := 5) (by norm_num) (by norm_num)
      (by rw [hxn]; norm_num) hden
    have hdv : Spec.denoteReal 10 false ds fs = x := by
      simp [Spec.denoteReal, Spec.fraction, hds, hfs, hlen, hxn]
      norm_num
    have hne : ds ≠ [] := by
      obtain ⟨_, ⟨_, _, _, ⟨h, _⟩, _⟩, _⟩ := hnum
      exact h
    have hmx : llong.max = 9223372036854775807 := by decide
    have hpw : 2 ^ F.prec ≤ 2 ^ 53 := Nat.pow_le_pow_right (by norm_num) hprec
    have hplace : ((10 ^ (ds.length - 1) : Nat) : Int) ≤ llong.max := by
      by_cases h0 : ds.head? = some 0
      · rw [hd h0, hmx]
        simp
      · have := place_le (r := 10) ds hne h0
        omega
    have h := C131_partial e F .default s cs false ds fs hF hv ht hnum (by decide) (fun _ => .inl rfl)
      (by rw [hrad, hds]; omega) hplace (.inr (.inl ⟨rfl, rfl, hlen, by
        rw [hrad, hds]
        exact ⟨n, 0, by simpa using hn, by rcases hF with rfl | rfl <;> decide, by simp⟩⟩))
    rw [hrad, hdv, hr.exact hx] at h
    exact ⟨N, s, hs, h⟩
  -- quarters
  obtain ⟨i, hi, hci⟩ : ∃ i, i < 2 ∧ c = 1 + 2 * i := ⟨c / 2, by omega, by omega⟩
  subst hci
  obtain ⟨cs, ⟨N, s, ht, hs⟩, hden⟩ := hall rfl 2 ⟨100 * n + 25 * (1 + 2 * i), by
    rw [hrad, hxn]; push_cast; ring⟩
  obtain ⟨ds, fs, hnum, hd, hds, hlen, hfs⟩ := digits_of (n := n) (z := 25 * (1 + 2 * i)) (by omega)
    (by omega) (by rw [hxn]; push_cast; ring) hden
  have hab := places_two hlen hfs hnum.choose_spec.2.1
  rw [hab] at hnum
  have h := parse_twoPlaces hF ht hnum hd (by rw [hds]; exact hn)
  have ha : 25 * (1 + 2 * i) / 10 = 2 + 5 * i := by omega
  have hb : 25 * (1 + 2 * i) % 10 = 5 := by omega
  have hq := Spec.BinFmt.quarter hF hn63 hi (by rw [hxn] at hx; exact_mod_cast hx)
  rw [hds, ha, hb, Spec.BinFmt.onePlace hF hn63 (by omega)] at h
  have hx' : ((n : ℚ) + (1 + 2 * i) / 4) = x := by rw [hxn]; push_cast; ring
  rw [hx'] at hq
  refine ⟨N, s, hs, ?_⟩
  rw [h]
  exact congrArg Outcome.ok hq

/-- The number 7/8 is written as `0.875`, and what is read back is the next double. -/
theorem C132_violated : ¬ ∀ (e : Enc) (x : ℚ), binary64.Has x → llong.Has ⌊x⌋ → 0 ≤ x →
    Spec.BinaryPlaces 3 x → Back e binary64.tiesToEven x := by
  intro h
  have hfl : ⌊(7 / 8 : ℚ)⌋ = 0 := by norm_num
  have hx : binary64.Has (7 / 8) := ⟨7, -3, by norm_num [binary64], by norm_num [binary64], by norm_num⟩
  have hr := Spec.BinFmt.tiesToEven_nearest (F := binary64) (.inr rfl)
  obtain ⟨N, s, h1, h2⟩ := h .char8 (7 / 8) hx (by rw [hfl]; decide) (by norm_num) ⟨7, by norm_num⟩
  obtain ⟨hall, -⟩ := C27_partial .char8 binary64 binary64.tiesToEven .default (7 / 8) (.inr rfl)
    (fun _ => hr.exact) (by unfold FloatFormat.Valid; decide) hx (by rw [hfl]; decide)
    (by rw [hfl]; decide) (.inl (by norm_num)) (.inr ⟨3, 7, by decide, by norm_num⟩)
  obtain ⟨cs, ⟨N', s', ht, hs⟩, hden⟩ := hall rfl 3 ⟨875, by norm_num [FloatFormat.default]⟩
  have e1 := h1 (max N N') (by omega)
  rw [hs (max N N') (by omega)] at e1
  cases e1
  obtain ⟨ds, fs, hnum, hd, hds, hlen, hfs⟩ := digits_of (n := 0) (z := 875) (by norm_num) (by norm_num)
    (by norm_num) hden
  have hne : ds ≠ [] := by
    obtain ⟨_, ⟨_, _, _, ⟨h, _⟩, _⟩, _⟩ := hnum
    exact h
  have hds0 : ds = [0] := by
    by_contra hcon
    have := place_le (r := 10) ds hne (fun h => hcon (hd h))
    rw [hds] at this
    have : 0 < 10 ^ (ds.length - 1) := by positivity
    omega
  have hfs0 : fs = [8, 7, 5] := by
    have hdig : ∀ d ∈ fs, d < 10 := hnum.choose_spec.2.1
    obtain ⟨a, b, c, rfl⟩ := List.length_eq_three.mp hlen
    have := hdig a (by simp)
    have := hdig b (by simp)
    have := hdig c (by simp)
    simp only [Spec.positional, List.foldl_cons, List.foldl_nil] at hfs
    congr <;> omega
  subst hds0 hfs0
  rw [parseFloat_text .char8 binary64.tiesToEven .default s cs false [0] [8, 7, 5]
    (by unfold FloatFormat.Valid; decide) ht hnum (by decide) (by simp) (by decide) (by decide)] at h2
  have h3 : ([8, 7, 5].foldlM (fun st (d : Nat) =>
        appendDigit binary64.tiesToEven FloatFormat.default.radix st d)
      (1, binary64.tiesToEven (Spec.denote FloatFormat.default.radix false [0])) >>=
        fun st => Outcome.ok st.2) = .ok (7 / 8 + 1 / 2 ^ 53) := by
    decide +kernel
  rw [h3] at h2
  injection h2 with h2
  norm_num at h2

/-- Numbers with two binary places, the greatest of them about `2 ^ 51`. -/
example : binary64.Has (95 + 3 / 4) ∧ Spec.BinaryPlaces 2 (95 + 3 / 4 : ℚ)
    ∧ binary64.Has (2251799813685247 + 1 / 4) :=
  ⟨⟨383, -2, by norm_num [binary64], by norm_num [binary64], by norm_num⟩, ⟨383, by norm_num⟩,
    ⟨9007199254740989, -2, by norm_num [binary64], by norm_num [binary64], by norm_num⟩⟩

/-! ### The other properties of floating-point text, violated on a machine with IEEE arithmetic -/

/-- C27: -1.5 is written as `-2.5`. -/
theorem C27_violated_ieee (n : Nat) :
    formatFloat .char32 binary64.tiesToEven (n + 2) (-3 / 2) .default
      = .ok [45#32, 50#32, 46#32, 53#32] :=
  format_half (fun _ => (Spec.BinFmt.tiesToEven_nearest (.inr rfl)).exact) n

/-- C28: `-1.5` is read as -0.5. -/
theorem C28_violated_ieee :
    parseFloat .char8 binary64.tiesToEven [45#8, 49#8, 46#8, 53#8] .default = .ok (-1 / 2) := by
  decide +kernel

/-- C70: -1.25 is written as `-10.01` in radix 2, which is read as -1.75. -/
theorem C70_violated_ieee (n : Nat) : ∃ s,
    formatFloat .char8 binary64.tiesToEven (n + 3) (-5 / 4) binaryDigits = .ok s
      ∧ parseFloat .char8 binary64.tiesToEven s binaryDigits = .ok (-7 / 4) :=
  have hr := Spec.BinFmt.tiesToEven_nearest (F := binary64) (.inr rfl)
  ⟨_, format_quarter (fun _ => hr.exact) n, parse_quarter (fun _ => hr.exact)⟩

/-- C108: `1-2` is no numeral, but is read as -12. -/
theorem C108_violated_ieee :
    parseFloat .char8 binary64.tiesToEven [49#8, 45#8, 50#8] .default = .ok (-12) := by
  decide +kernel

/-- C109: with exactly three places demanded `1.5` is accepted. -/
theorem C109_violated_ieee :
    parseFloat .char8 binary64.tiesToEven [49#8, 46#8, 53#8] threePlaces = .ok (3 / 2) := by
  decide +kernel

/-- C110: `1.x` is rejected, but not for the character `x`. -/
theorem C110_violated_ieee :
    parseFloat .char8 binary64.tiesToEven [49#8, 46#8, 120#8] .default
      = .throw (.parseFailed .wrongPlaceLimit) := by
  decide +kernel

end Cmp
