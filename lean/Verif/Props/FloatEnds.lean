import Verif.Props.FloatExact
import Verif.Spec.Point

/-
C105 and C106 in full: when formatting a real number comes back, and what it writes if it does.
-/

namespace Cmp

open IntTy
open _root_.Spec (remainderAfter)

/-- The loop ends if the remainder vanishes after `n` digits. -/
theorem formatFractionLoop_ends (e : Enc) {F : Spec.BinFmt} (hF : F.Std) {rnd : ℚ → ℚ}
    (hn : F.Nearest rnd) {f : FloatFormat} (hf2 : 2 ≤ f.radix) (hf : f.radix ≤ 36)
    (hlim : f.placeLimit = .none) (n : Nat) :
    ∀ (q : ℚ), F.Has q → 0 ≤ q → q < 1 → remainderAfter rnd f.radix n q = 0 → ∀ counted,
      ∃ ds, (∀ d ∈ ds, d < f.radix) ∧ |Spec.fraction f.radix ds - q| ≤ 2 * (1 / 2 ^ F.prec)
        ∧ ds.length ≤ n
        ∧ ∀ fuel ≥ n + 1, ∀ places out,
        formatFractionLoop e rnd f fuel q counted places out
          = .ok (out ++ encs e (fracText f.separator.char counted (ds.map Spec.upperDigit)),
              places) := by
  have stop : ∀ (n : Nat) (q : ℚ), q = 0 → ∀ counted,
      ∃ ds, (∀ d ∈ ds, d < f.radix) ∧ |Spec.fraction f.radix ds - q| ≤ 2 * (1 / 2 ^ F.prec)
        ∧ ds.length ≤ n
        ∧ ∀ fuel ≥ n + 1, ∀ places out,
        formatFractionLoop e rnd f fuel q counted places out
          = .ok (out ++ encs e (fracText f.separator.char counted (ds.map Spec.upperDigit)),
              places) := by
    intro n q hq counted
    refine ⟨[], by simp, ?_, by simp, ?_⟩
    · rw [Spec.fraction_nil, hq, sub_zero, abs_zero]
      positivity
    intro fuel hfuel places out
    obtain ⟨fuel, rfl⟩ : ∃ m, fuel = m + 1 := ⟨fuel - 1, by omega⟩
    rw [formatFractionLoop, if_pos hq]
    simp [fracText, encs]
  induction n with
  | zero =>
    intro q _ _ _ hz counted
    exact stop 0 q hz counted
  | succ n ih =>
    intro q hq h0 h1 hz counted
    by_cases hq0 : q = 0
    · exact stop _ q hq0 counted
    obtain ⟨hv0, hv1, herr, hhas, -⟩ := product_near hF hn hf2 hf hq h0 h1
    obtain ⟨d, hd, hdlt, _⟩ := formatFractionLoop_near e hF hn hf2 hf hq h0 h1 hq0 0 counted 0 []
      (fun h => h.1 hlim)
    obtain ⟨ds, hds, hfrac, hlen, hrun⟩ := ih _ hhas (Int.fract_nonneg _)
      (Int.fract_lt_one _) hz (if counted + 1 = 3 then 0 else counted + 1)
    refine ⟨d :: ds, by simpa using ⟨hdlt, hds⟩, ?_, by simpa using hlen, ?_⟩
    · obtain ⟨g1, g2⟩ := abs_le.mp hfrac
      have := fraction_near hf2 (a := 0) (b := 0) (u := 1 / 2 ^ F.prec) (by positivity) hd herr
        (by rwa [zero_add]) (by rwa [zero_add])
      rw [zero_div, zero_add] at this
      exact abs_le.mpr this
    · intro fuel hfuel places out
      obtain ⟨fuel, rfl⟩ : ∃ m, fuel = m + 1 := ⟨fuel - 1, by omega⟩
      obtain ⟨d', hd', _, hstep⟩ := formatFractionLoop_near e hF hn hf2 hf hq h0 h1 hq0 fuel counted
        places out (fun h => h.1 hlim)
      have : d' = d := by omega
      subst this
      rw [hstep, hrun fuel (by omega), if_neg (not_not.mpr hlim), List.append_assoc,
        ← encs_append, List.map_cons, fracText_cons _ _ _ (ds.map Spec.upperDigit)]

/-- It does not end if the remainder never vanishes. -/
theorem formatFractionLoop_endless (e : Enc) {F : Spec.BinFmt} (hF : F.Std) {rnd : ℚ → ℚ}
    (hn : F.Nearest rnd) {f : FloatFormat} (hf2 : 2 ≤ f.radix) (hf : f.radix ≤ 36)
    (hlim : f.placeLimit = .none) (fuel : Nat) :
    ∀ (q : ℚ), F.Has q → 0 ≤ q → q < 1 → (∀ n, remainderAfter rnd f.radix n q ≠ 0) →
      ∀ counted places out, formatFractionLoop e rnd f fuel q counted places out = .hang := by
  induction fuel with
  | zero => intros; rfl
  | succ fuel ih =>
    intro q hq h0 h1 hz counted places out
    obtain ⟨-, -, -, hhas, -⟩ := product_near hF hn hf2 hf hq h0 h1
    obtain ⟨d, -, -, hstep⟩ := formatFractionLoop_near e hF hn hf2 hf hq h0 h1 (hz 0) fuel counted
      places out (fun h => h.1 hlim)
    rw [hstep]
    exact ih _ hhas (Int.fract_nonneg _) (Int.fract_lt_one _) (fun n => hz (n + 1)) _ _ _

/-- C105 in full.  Integral parts outside of `long long`, and its least value, are undefined
behaviour.  Otherwise formatting comes back exactly if there is a place limit or the remainder, as the
machine rounds it, vanishes after some digit; it always does in an even radix.  If not, it never comes
back. -/
theorem C105_exact (e : Enc) (F : Spec.BinFmt) (rnd : ℚ → ℚ) (f : FloatFormat) (x : ℚ)
    (hF : F.Std) (hn : F.Nearest rnd) (hf : f.Valid) (hx : F.Has x) :
    (¬ (llong.min < ⌊x⌋ ∧ ⌊x⌋ ≤ llong.max) → ∀ fuel, formatFloat e rnd fuel x f = .ub)
    ∧ (llong.min < ⌊x⌋ ∧ ⌊x⌋ ≤ llong.max →
      (Returns e rnd x f ↔
        f.placeLimit ≠ .none ∨ ∃ n, remainderAfter rnd f.radix n (Int.fract (|x|)) = 0)
      ∧ (¬ Returns e rnd x f → ∀ fuel, formatFloat e rnd fuel x f = .hang)
      ∧ (f.radix % 2 = 0 → ∃ n, remainderAfter rnd f.radix n (Int.fract (|x|)) = 0)) := by
  refine ⟨(C27_exact e F rnd f x _ hF (fun _ => hn.exact) hf hx rfl).1, ?_⟩
  rintro ⟨hlo, hhi⟩
  have hll : llong.Has ⌊x⌋ := ⟨by omega, hhi⟩
  have hmin : ⌊x⌋ ≠ llong.min := by omega
  obtain ⟨hf2, h36⟩ := id hf
  have hfh : F.Has (Int.fract (|x|)) := hx.abs.fract hF (abs_nonneg x)
  have hgo : f.placeLimit ≠ .none ∨ (∃ n, remainderAfter rnd f.radix n (Int.fract (|x|)) = 0) →
      Returns e rnd x f := by
    intro h
    by_cases hlim : f.placeLimit = .none
    · obtain ⟨n, hz⟩ := h.resolve_left (not_not.mpr hlim)
      obtain ⟨y, cs, ⟨N, s, -, hs⟩, -⟩ := formatFloat_shown e hF hn hf hx hll hmin (need := n + 1)
        (places := n) (ε := 2 * (1 / 2 ^ F.prec)) (by
          intro hh
          obtain ⟨fs, hfs, herr, hlen, hrun⟩ := formatFractionLoop_ends e hF hn hf.1 hf.2 hlim n _ hh
            (Int.fract_nonneg _) (Int.fract_lt_one _) hz 0
          refine ⟨fs, 0, hfs, herr, hlen, fun h => ?_, fun fuel hfuel => ?_⟩
          · rw [hlim] at h
            cases h
          · rw [hrun fuel hfuel, List.nil_append])
      exact ⟨N, s, hs⟩
    · exact (C105_partial e F rnd f x hF hn hf hx hll hmin).1 (.inl hlim)
  have hnot : ¬ (f.placeLimit ≠ .none ∨ ∃ n, remainderAfter rnd f.radix n (Int.fract (|x|)) = 0) →
      ∀ fuel, formatFloat e rnd fuel x f = .hang := by
    intro h fuel
    simp only [not_or, not_not, not_exists] at h
    obtain ⟨hlim, hz⟩ := h
    obtain ⟨ds, e1, -⟩ := formatInteger_eq e (T := .llong)
      (f := ⟨f.radix, f.sign, f.separator⟩) (by decide) hf2 h36 hll (fun _ => hmin)
    have hmake : IntegerFormat.make f.radix f.sign f.separator
        = .ok ⟨f.radix, f.sign, f.separator⟩ := by
      rw [IntegerFormat.make, if_neg (by simp; omega)]
    have hfl : floorToLongLong x = .ok ⌊x⌋ := by rw [floorToLongLong, if_pos hll]
    have habs : (if x < 0 then -x else x) = |x| := by
      split
      · rw [abs_of_neg ‹_›]
      · rw [abs_of_nonneg (not_lt.mp ‹_›)]
    have hfract : rnd (|x| - ((⌊|x|⌋ : Int) : ℚ)) = Int.fract |x| := hn.exact hfh
    have hloop := formatFractionLoop_endless e hF hn hf2 h36 hlim fuel (Int.fract |x|) hfh
      (Int.fract_nonneg _) (Int.fract_lt_one _) hz 0 0 []
    simp only [formatFloat, hmake, hfl, e1, Outcome.ok_bind, habs, hfract]
    rw [if_neg (show ¬ Int.fract |x| = 0 from hz 0), hloop]
    rfl
  have hiff : Returns e rnd x f ↔
      f.placeLimit ≠ .none ∨ ∃ n, remainderAfter rnd f.radix n (Int.fract (|x|)) = 0 := by
    refine ⟨?_, hgo⟩
    rintro ⟨N, s, hs⟩
    by_contra hcon
    have h1 := hnot hcon N
    rw [hs N le_rfl] at h1
    cases h1
  refine ⟨hiff, fun h => hnot (fun h' => h (hgo h')), fun heven => ?_⟩
  -- the remainder does not depend on the place limit
  have hf' : FloatFormat.Valid { f with placeLimit := .none } := hf
  by_contra hcon
  obtain ⟨N, s, hs⟩ := (C105_partial e F rnd { f with placeLimit := .none } x hF hn hf' hx hll hmin).1
    (.inr heven)
  obtain ⟨ds, e1, -⟩ := formatInteger_eq e (T := .llong)
    (f := ⟨f.radix, f.sign, f.separator⟩) (by decide) hf2 h36 hll (fun _ => hmin)
  have hmake : IntegerFormat.make f.radix f.sign f.separator
      = .ok ⟨f.radix, f.sign, f.separator⟩ := by
    rw [IntegerFormat.make, if_neg (by simp; omega)]
  have hfl : floorToLongLong x = .ok ⌊x⌋ := by rw [floorToLongLong, if_pos hll]
  have habs : (if x < 0 then -x else x) = |x| := by
    split
    · rw [abs_of_neg ‹_›]
    · rw [abs_of_nonneg (not_lt.mp ‹_›)]
  have hfract : rnd (|x| - ((⌊|x|⌋ : Int) : ℚ)) = Int.fract |x| := hn.exact hfh
  have hloop := formatFractionLoop_endless e hF hn (f := { f with placeLimit := .none }) hf2 h36 rfl N
    (Int.fract |x|) hfh (Int.fract_nonneg _) (Int.fract_lt_one _) (fun n hn0 => hcon ⟨n, hn0⟩) 0 0 []
  have h1 := hs N le_rfl
  simp only [formatFloat, hmake, hfl, e1, Outcome.ok_bind, habs, hfract] at h1
  rw [if_neg (show ¬ Int.fract |x| = 0 from fun h0 => hcon ⟨0, h0⟩), hloop] at h1
  cases h1

/-- C106 in full: whenever formatting comes back, in whatever radix and with whatever limit, the string
is a numeral whose value differs from the number by no more than the tolerance, or from one less if the
number is negative and has a fraction part; integers are exact, a limit of `n` places allows no more
than `n` places, and a limit of exactly `n` gives `n`. -/
theorem C106_exact (e : Enc) (F : Spec.BinFmt) (rnd : ℚ → ℚ) (f : FloatFormat) (x z : ℚ)
    (hF : F.Std) (hn : F.Nearest rnd) (hf : f.Valid) (hx : F.Has x)
    (hz : z = if 0 ≤ x ∨ ((⌊x⌋ : Int) : ℚ) = x then x else x - 1) (hr : Returns e rnd x f) :
    ∃ y cs places, FormatsTo e rnd x f cs ∧ DenotesReal f y places cs ∧ |y - z| ≤ f.tolerance F
      ∧ (f.placeLimit ≠ .none → places = f.placeCount) ∧ ((∃ i : Int, x = i) → y = x)
      ∧ (f.placeLimit = .exactlyEqual → (∃ z : Int, x = z) ∨
          ∃ head fs, cs = head ++ f.radixCharacter.char :: fs
            ∧ (Spec.ungroup f.separator.char fs).length = f.placeCount) := by
  rw [← shown_eq] at hz
  obtain ⟨hub, hin⟩ := C105_exact e F rnd f x hF hn hf hx
  have hrange : llong.min < ⌊x⌋ ∧ ⌊x⌋ ≤ llong.max := by
    by_contra hbad
    obtain ⟨N, s, hs⟩ := hr
    have h1 := hub hbad N
    rw [hs N le_rfl] at h1
    cases h1
  have hll : llong.Has ⌊x⌋ := ⟨by omega, hrange.2⟩
  have hmin : ⌊x⌋ ≠ llong.min := by omega
  by_cases hlim : f.placeLimit = .none
  · obtain ⟨n, h0⟩ := ((hin hrange).1.mp hr).resolve_left (not_not.mpr hlim)
    obtain ⟨y, cs, h1, h2, h3, h4, h5⟩ := formatFloat_shown e hF hn hf hx hll hmin (need := n + 1)
      (places := n) (ε := f.tolerance F) (by
        intro hh
        obtain ⟨fs, hfs, herr, hlen, hrun⟩ := formatFractionLoop_ends e hF hn hf.1 hf.2 hlim n _ hh
          (Int.fract_nonneg _) (Int.fract_lt_one _) h0 0
        refine ⟨fs, 0, hfs, ?_, hlen, fun h => ?_, fun fuel hfuel => ?_⟩
        · rw [FloatFormat.tolerance, if_pos hlim, zero_add]
          calc _ ≤ _ := herr
            _ = _ := by ring
        · rw [hlim] at h
          cases h
        · rw [hrun fuel hfuel, List.nil_append])
    exact ⟨y, cs, n, h1, h2, by rw [hz]; exact h3, fun h => absurd hlim h, h4, h5⟩
  · have hmin' := hF.emin_nonpos
    obtain ⟨y, cs, h1, h2, h3, h4, h5⟩ := formatFloat_near e hF hn hf hx
      (k := (-F.emin).toNat) (by omega) (hx.places hF) hll hmin (.inl hlim)
    refine ⟨y, cs, _, h1, h2, by rw [hz]; exact h3, fun h => ?_, h4, h5⟩
    rw [FloatFormat.mostPlaces, if_neg hlim]

/-- One third as a double in radix 3: the product with 3 lies halfway between two doubles and is
rounded to 1, so that formatting comes back although the radix is odd, if halves go to the even
neighbour; one half in radix 3 never comes back. -/
example (rnd : ℚ → ℚ) (h1 : rnd (6004799503160661 / 2 ^ 54 * (3 : Nat)) = 1)
    (h2 : rnd (1 / 2 * (3 : Nat)) = 3 / 2) :
    Spec.binary64.Has (6004799503160661 / 2 ^ 54)
    ∧ remainderAfter rnd 3 1 (Int.fract (|6004799503160661 / 2 ^ 54|)) = 0
    ∧ ∀ n, remainderAfter rnd 3 n (1 / 2) ≠ 0 := by
  refine ⟨⟨6004799503160661, -54, by norm_num [Spec.binary64], by norm_num [Spec.binary64],
    by norm_num⟩, ?_, ?_⟩
  · rw [abs_of_pos (by norm_num), Int.fract_eq_self.mpr ⟨by norm_num, by norm_num⟩]
    show Int.fract (rnd _) = 0
    rw [h1]
    exact Int.fract_one
  · intro n
    induction n with
    | zero => norm_num [remainderAfter]
    | succ n ih =>
      rw [remainderAfter, h2, show Int.fract (3 / 2 : ℚ) = 1 / 2 by
        rw [Int.fract_eq_iff]; exact ⟨by norm_num, by norm_num, 1, by norm_num⟩]
      exact ih

end Cmp
