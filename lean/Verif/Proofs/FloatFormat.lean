import Verif.Model.Float
import Verif.Proofs.FloatArith
import Verif.Proofs.NumberFormat

/-
The digit loop of `format_floating_point`.
-/

namespace Cmp

open IntTy

/-- The text of the digits after the radix character, with the separator after every third
one; `k` digits have been written since the last separator. -/
def fracText (sep : Option Nat) : Nat → List Nat → List Nat
  | _, [] => []
  | k, d :: ds =>
    d :: (if k + 1 = 3 then sep.toList ++ fracText sep 0 ds else fracText sep (k + 1) ds)

theorem ungroup_fracText {sep : Option Nat} (ds : List Nat) (hs : ∀ s, sep = some s → s ∉ ds) :
    ∀ k, Spec.ungroup sep (fracText sep k ds) = ds := by
  induction ds with
  | nil => intro k; cases sep <;> rfl
  | cons d ds ih =>
    intro k
    have ih := ih (fun s h hm => hs s h (by simp [hm]))
    rw [fracText]
    cases sep with
    | none =>
      simp only [Spec.ungroup, Option.toList, List.nil_append] at ih ⊢
      split <;> rw [ih]
    | some s =>
      have hd : d ≠ s := by
        intro h
        exact hs s rfl (by simp [h])
      simp only [Spec.ungroup] at ih ⊢
      split <;> simp [hd] at ih ⊢ <;> exact ih _

theorem mem_fracText {sep : Option Nat} {c : Nat} :
    ∀ (ds : List Nat) (k : Nat), c ∈ fracText sep k ds → c ∈ ds ∨ some c = sep := by
  intro ds
  induction ds with
  | nil => intro k h; simp [fracText] at h
  | cons d ds ih =>
    intro k h
    rw [fracText] at h
    rcases List.mem_cons.mp h with rfl | h
    · simp
    · split at h
      · rcases List.mem_append.mp h with h | h
        · right
          simpa [eq_comm] using h
        · rcases ih _ h with h | h
          · simp [h]
          · simp [h]
      · rcases ih _ h with h | h
        · simp [h]
        · simp [h]

/-- What is needed of the remainders `q`: no operation of the loop rounds. -/
structure ExactRem (rnd : ℚ → ℚ) (r : Nat) (Inv : ℚ → Prop) : Prop where
  nonneg : ∀ q, Inv q → 0 ≤ q
  lt_one : ∀ q, Inv q → q < 1
  product : ∀ q, Inv q → rnd (q * r) = q * r
  rest : ∀ q, Inv q → rnd (Int.fract (q * r)) = Int.fract (q * r)
  next : ∀ q, Inv q → Inv (Int.fract (q * r))

theorem digit_bounds {r : Nat} {q : ℚ} (h0 : 0 ≤ q) (h1 : q < 1) (hr : 0 < r) :
    0 ≤ ⌊q * r⌋ ∧ ⌊q * r⌋ < r := by
  have hr' : (0 : ℚ) < r := by exact_mod_cast hr
  constructor
  · exact Int.floor_nonneg.mpr (by positivity)
  · rw [Int.floor_lt]
    have : q * r < 1 * r := mul_lt_mul_of_pos_right h1 hr'
    simpa using this

/-- One round of the loop that appends a digit. -/
theorem formatFractionLoop_step (e : Enc) {rnd : ℚ → ℚ} {f : FloatFormat} {Inv : ℚ → Prop}
    (hf2 : 2 ≤ f.radix) (hf : f.radix ≤ 36) (hI : ExactRem rnd f.radix Inv) {q : ℚ} (hq : Inv q)
    (hq0 : q ≠ 0) (fuel counted places : Nat) (out : Str e)
    (hlim : ¬ (f.placeLimit ≠ .none ∧ places = f.placeCount)) :
    ∃ d : Nat, (d : Int) = ⌊q * f.radix⌋ ∧ d < f.radix ∧
      formatFractionLoop e rnd f (fuel + 1) q counted places out
      = formatFractionLoop e rnd f fuel (Int.fract (q * f.radix))
          (if counted + 1 = 3 then 0 else counted + 1)
          (if f.placeLimit ≠ .none then places + 1 else places)
          (out ++ encs e (fracText f.separator.char counted [Spec.upperDigit d])) := by
  obtain ⟨hd0, hd1⟩ := digit_bounds (hI.nonneg q hq) (hI.lt_one q hq) (r := f.radix) (by omega)
  obtain ⟨d, hd⟩ : ∃ d : Nat, (d : Int) = ⌊q * f.radix⌋ := ⟨_, Int.toNat_of_nonneg hd0⟩
  have hdlt : d < f.radix := by omega
  refine ⟨d, hd, hdlt, ?_⟩
  have hchar : int8.Has ⌊q * f.radix⌋ := by
    rw [← hd]
    refine ⟨?_, ?_⟩
    · simp [IntTy.min, int8]
      try omega
    · simp [IntTy.max, int8]; omega
  have hfr : q * f.radix - ⌊q * f.radix⌋ = Int.fract (q * f.radix) := rfl
  rw [formatFractionLoop, if_neg hq0]
  simp only [hI.product q hq]
  rw [if_neg (not_not.mpr hchar), hfr, hI.rest q hq, if_neg hlim, ← hd,
    formatDigit_eq (by omega), appendCP_enc e _ (insOk_ascii e (upperDigit_lt (by omega))),
    Outcome.ok_bind]
  by_cases h3 : counted + 1 = 3
  · rw [if_pos h3, if_pos h3, fracText, if_pos h3]
    cases hs : f.separator with
    | none =>
      simp only [Separator.char, fracText, Option.toList, List.append_nil]
      rw [show encs e [Spec.upperDigit d] = encU e (Spec.upperDigit d) by
        simp [encs]]
    | comma =>
      simp only [Separator.char, fracText, Option.toList, List.append_nil]
      rw [show (44#32) = BitVec.ofNat 32 44 from rfl,
        appendCP_enc e 44 (insOk_ascii e (by omega)), Outcome.ok_bind, List.append_assoc,
        show encs e [Spec.upperDigit d, 44] = encU e (Spec.upperDigit d) ++ encU e 44 by
          simp [encs]]
    | period =>
      simp only [Separator.char, fracText, Option.toList, List.append_nil]
      rw [show (46#32) = BitVec.ofNat 32 46 from rfl,
        appendCP_enc e 46 (insOk_ascii e (by omega)), Outcome.ok_bind, List.append_assoc,
        show encs e [Spec.upperDigit d, 46] = encU e (Spec.upperDigit d) ++ encU e 46 by
          simp [encs]]
  · rw [if_neg h3, if_neg h3, fracText, if_neg h3]
    simp only [fracText]
    rw [show encs e [Spec.upperDigit d] = encU e (Spec.upperDigit d) by simp [encs]]

theorem fracText_cons (sep : Option Nat) (k c : Nat) (cs : List Nat) :
    fracText sep k (c :: cs)
      = fracText sep k [c] ++ fracText sep (if k + 1 = 3 then 0 else k + 1) cs := by
  by_cases h : k + 1 = 3
  · simp only [fracText, if_pos h, List.append_nil, List.cons_append]
  · simp only [fracText, if_neg h, List.cons_append, List.nil_append]

/-- Without a place limit the loop writes all digits of a finite expansion. -/
theorem formatFractionLoop_all (e : Enc) {rnd : ℚ → ℚ} {f : FloatFormat} {Inv : ℚ → Prop}
    (hf2 : 2 ≤ f.radix) (hf : f.radix ≤ 36) (hI : ExactRem rnd f.radix Inv)
    (hlim : f.placeLimit = .none) (n : Nat) :
    ∀ (q : ℚ), Inv q → (∃ z : Int, q * (f.radix : ℚ) ^ n = z) → ∀ counted,
      ∃ ds, (∀ d ∈ ds, d < f.radix) ∧ Spec.fraction f.radix ds = q ∧ ds.length ≤ n ∧ (q = 0 → ds = [])
        ∧ ∀ fuel ≥ n + 1, ∀ places out,
        formatFractionLoop e rnd f fuel q counted places out
          = .ok (out ++ encs e (fracText f.separator.char counted (ds.map Spec.upperDigit)),
              places) := by
  have stop : ∀ (q : ℚ), q = 0 → ∀ counted,
      ∃ ds, (∀ d ∈ ds, d < f.radix) ∧ Spec.fraction f.radix ds = q ∧ ds.length ≤ n ∧ (q = 0 → ds = [])
        ∧ ∀ fuel ≥ n + 1, ∀ places out,
        formatFractionLoop e rnd f fuel q counted places out
          = .ok (out ++ encs e (fracText f.separator.char counted (ds.map Spec.upperDigit)),
              places) := by
    intro q hq counted
    refine ⟨[], by simp, by rw [Spec.fraction_nil, hq], by simp, by simp, ?_⟩
    intro fuel hfuel places out
    obtain ⟨fuel, rfl⟩ : ∃ m, fuel = m + 1 := ⟨fuel - 1, by omega⟩
    rw [formatFractionLoop, if_pos hq]
    simp [fracText, encs]
  induction n with
  | zero =>
    intro q hq ⟨z, hz⟩ counted
    refine stop q ?_ counted
    have h0 := hI.nonneg q hq
    have h1 := hI.lt_one q hq
    rw [pow_zero, mul_one] at hz
    rw [hz] at h0 h1
    have h0 : 0 ≤ z := by exact_mod_cast h0
    have h1 : z < 1 := by exact_mod_cast h1
    rw [hz, show z = 0 by omega]
    simp
  | succ n ih =>
    intro q hq ⟨z, hz⟩ counted
    by_cases hq0 : q = 0
    · exact stop q hq0 counted
    · have hfz : ∃ z : Int, Int.fract (q * f.radix) * (f.radix : ℚ) ^ n = z := by
        refine ⟨z - ⌊q * f.radix⌋ * (f.radix : Int) ^ n, ?_⟩
        rw [Int.fract]
        push_cast
        rw [← hz]
        ring
      have ih := ih (fun q hq counted => by
        refine ⟨[], by simp, by rw [Spec.fraction_nil, hq], by simp, by simp, ?_⟩
        intro fuel hfuel places out
        obtain ⟨fuel, rfl⟩ : ∃ m, fuel = m + 1 := ⟨fuel - 1, by omega⟩
        rw [formatFractionLoop, if_pos hq]
        simp [fracText, encs])
      obtain ⟨d, hd, hdlt, _⟩ := formatFractionLoop_step e hf2 hf hI hq hq0 0 counted 0 []
        (fun h => h.1 hlim)
      obtain ⟨ds, hds, hfrac, hlen, _, hrun⟩ := ih _ (hI.next q hq) hfz
        (if counted + 1 = 3 then 0 else counted + 1)
      refine ⟨d :: ds, by simpa using ⟨hdlt, hds⟩, ?_, by simpa using hlen,
        fun h => absurd h hq0, ?_⟩
      · have hr' : (f.radix : ℚ) ≠ 0 := by
          have : f.radix ≠ 0 := by omega
          exact_mod_cast this
        rw [Spec.fraction_cons (by omega), hfrac,
          show ((d : Nat) : ℚ) = ((⌊q * f.radix⌋ : Int) : ℚ) by rw [← hd]; simp,
          Int.floor_add_fract]
        field_simp
      · intro fuel hfuel places out
        obtain ⟨fuel, rfl⟩ : ∃ m, fuel = m + 1 := ⟨fuel - 1, by omega⟩
        obtain ⟨d', hd', _, hstep⟩ := formatFractionLoop_step e hf2 hf hI hq hq0 fuel counted
          places out (fun h => h.1 hlim)
        have : d' = d := by omega
        subst this
        rw [hstep, hrun fuel (by omega), if_neg (not_not.mpr hlim), List.append_assoc,
          ← encs_append, List.map_cons, fracText_cons _ _ _ (ds.map Spec.upperDigit)]

/-- With a place limit the loop writes the digits of the truncated number; if fewer digits are
written than the limit allows, the counter says how many. -/
theorem formatFractionLoop_limit (e : Enc) {rnd : ℚ → ℚ} {f : FloatFormat} {Inv : ℚ → Prop}
    (hf2 : 2 ≤ f.radix) (hf : f.radix ≤ 36) (hI : ExactRem rnd f.radix Inv)
    (hlim : f.placeLimit ≠ .none) (n : Nat) :
    ∀ (q : ℚ), Inv q → ∀ counted places, places + n = f.placeCount →
      ∃ ds k, (∀ d ∈ ds, d < f.radix) ∧ Spec.fraction f.radix ds = Spec.truncated f.radix n q
        ∧ ds.length ≤ n ∧ (k = places + ds.length ∨ ds.length = n ∧ f.placeCount < k)
        ∧ ∀ fuel ≥ n + 1, ∀ out,
        formatFractionLoop e rnd f fuel q counted places out
          = .ok (out ++ encs e (fracText f.separator.char counted (ds.map Spec.upperDigit)),
              k) := by
  have stop : ∀ (n : Nat) (q : ℚ), q = 0 → ∀ counted places,
      ∃ ds k, (∀ d ∈ ds, d < f.radix) ∧ Spec.fraction f.radix ds = Spec.truncated f.radix n q
        ∧ ds.length ≤ n ∧ (k = places + ds.length ∨ ds.length = n ∧ f.placeCount < k)
        ∧ ∀ fuel ≥ n + 1, ∀ out,
        formatFractionLoop e rnd f fuel q counted places out
          = .ok (out ++ encs e (fracText f.separator.char counted (ds.map Spec.upperDigit)),
              k) := by
    intro n q hq counted places
    refine ⟨[], places, by simp, by rw [Spec.fraction_nil, hq, Spec.truncated_of_zero], by simp,
      .inl (by simp), ?_⟩
    intro fuel hfuel out
    obtain ⟨fuel, rfl⟩ : ∃ m, fuel = m + 1 := ⟨fuel - 1, by omega⟩
    rw [formatFractionLoop, if_pos hq]
    simp [fracText, encs]
  induction n with
  | zero =>
    intro q hq counted places hp
    by_cases hq0 : q = 0
    · exact stop 0 q hq0 counted places
    · refine ⟨[], places + 1, by simp, ?_, by simp, .inr ⟨by simp, by omega⟩, ?_⟩
      · rw [Spec.fraction_nil, Spec.truncated_zero (hI.nonneg q hq) (hI.lt_one q hq)]
      · intro fuel hfuel out
        obtain ⟨fuel, rfl⟩ : ∃ m, fuel = m + 1 := ⟨fuel - 1, by omega⟩
        obtain ⟨hd0, hd1⟩ := digit_bounds (hI.nonneg q hq) (hI.lt_one q hq) (r := f.radix)
          (by omega)
        have hchar : int8.Has ⌊q * f.radix⌋ := by
          refine ⟨?_, ?_⟩
          · simp [IntTy.min, int8]; omega
          · simp [IntTy.max, int8]; omega
        rw [formatFractionLoop, if_neg hq0]
        simp only [hI.product q hq]
        rw [if_neg (not_not.mpr hchar), if_pos ⟨hlim, by omega⟩]
        simp [fracText, encs]
  | succ n ih =>
    intro q hq counted places hp
    by_cases hq0 : q = 0
    · exact stop _ q hq0 counted places
    · have hnl : ¬ (f.placeLimit ≠ .none ∧ places = f.placeCount) := fun h => by omega
      obtain ⟨d, hd, hdlt, _⟩ := formatFractionLoop_step e hf2 hf hI hq hq0 0 counted places []
        hnl
      obtain ⟨ds, k, hds, hfrac, hlen, hk, hrun⟩ := ih _ (hI.next q hq)
        (if counted + 1 = 3 then 0 else counted + 1) (places + 1) (by omega)
      refine ⟨d :: ds, k, by simpa using ⟨hdlt, hds⟩, ?_, by simp; omega, ?_, ?_⟩
      · rw [Spec.fraction_cons (by omega), hfrac, Spec.truncated_succ (by omega),
          show ((d : Nat) : ℚ) = ((⌊q * f.radix⌋ : Int) : ℚ) by rw [← hd]; simp]
      · simp only [List.length_cons]
        omega
      · intro fuel hfuel out
        obtain ⟨fuel, rfl⟩ : ∃ m, fuel = m + 1 := ⟨fuel - 1, by omega⟩
        obtain ⟨d', hd', _, hstep⟩ := formatFractionLoop_step e hf2 hf hI hq hq0 fuel counted
          places out hnl
        have : d' = d := by omega
        subst this
        rw [hstep, if_pos hlim, hrun fuel (by omega), List.append_assoc,
          ← encs_append, List.map_cons, fracText_cons _ _ _ (ds.map Spec.upperDigit)]

theorem padZeros_eq (e : Enc) (n : Nat) (out : Str e) :
    padZeros e n out = .ok (out ++ encs e (List.replicate n 48)) := by
  induction n generalizing out with
  | zero => simp [padZeros, encs]
  | succ n ih =>
    rw [padZeros, show (48#32) = BitVec.ofNat 32 48 from rfl,
      appendCP_enc e 48 (insOk_ascii e (by omega)), Outcome.ok_bind, ih, List.append_assoc,
      List.replicate_succ, encs_cons]

/-- Radices that are powers of two never round. -/
theorem exactRem_pow {F : Spec.BinFmt} (hF : F.Std) {rnd : ℚ → ℚ} (hr : ∀ q, F.Has q → rnd q = q)
    {j : Nat} (hj : 2 ^ j ≤ 36) :
    ExactRem rnd (2 ^ j) (fun q => F.Has q ∧ 0 ≤ q ∧ q < 1) := by
  have hj5 : j ≤ 5 := by
    by_contra h
    have : 2 ^ 6 ≤ 2 ^ j := Nat.pow_le_pow_right (by omega) (by omega)
    omega
  have key : ∀ q : ℚ, F.Has q ∧ 0 ≤ q ∧ q < 1 → F.Has (q * ((2 ^ j : Nat) : ℚ)) := by
    intro q h
    push_cast
    exact h.1.mul_two_pow hF h.2.1 h.2.2 hj5
  have key2 : ∀ q : ℚ, F.Has q ∧ 0 ≤ q ∧ q < 1 → F.Has (Int.fract (q * ((2 ^ j : Nat) : ℚ))) := by
    intro q h
    exact (key q h).fract hF (by have := h.2.1; positivity)
  exact ⟨fun _ h => h.2.1, fun _ h => h.2.2, fun q h => hr _ (key q h), fun q h => hr _ (key2 q h),
    fun q h => ⟨key2 q h, Int.fract_nonneg _, Int.fract_lt_one _⟩⟩

/-- Numbers with few binary places never round, whatever the radix. -/
theorem exactRem_dyadic {F : Spec.BinFmt} (hF : F.Std) {rnd : ℚ → ℚ}
    (hr : ∀ q, F.Has q → rnd q = q) {k : Nat} (hk : k + 6 ≤ F.prec) {r : Nat} (h36 : r ≤ 36) :
    ExactRem rnd r (fun q => (∃ m : Int, q = m / 2 ^ k) ∧ 0 ≤ q ∧ q < 1) := by
  have hemin : F.emin ≤ -(k : Int) := by
    have := hF.emin_le
    omega
  have key : ∀ (q : ℚ), (∃ m : Int, q = m / 2 ^ k) → 0 ≤ q → q < 64 → F.Has q := by
    rintro q ⟨m, rfl⟩ h0 h1
    have h2 : (0 : ℚ) < 2 ^ k := by positivity
    have hm0 : (0 : ℚ) ≤ m := by
      have := mul_nonneg h0 h2.le
      rwa [div_mul_cancel₀ _ h2.ne'] at this
    have hm1 : (m : ℚ) < 64 * 2 ^ k := by rwa [div_lt_iff₀ h2] at h1
    have hm0' : 0 ≤ m := by exact_mod_cast hm0
    have hm1' : m < 64 * 2 ^ k := by exact_mod_cast hm1
    refine ⟨m, -(k : Int), ?_, ⟨hemin, by have := hF.emax_ge; omega⟩, ?_⟩
    · have h3 : (64 * 2 ^ k : Nat) ≤ 2 ^ F.prec := by
        rw [show (64 : Nat) = 2 ^ 6 by norm_num, ← pow_add]
        exact Nat.pow_le_pow_right (by omega) (by omega)
      have h4 : m.natAbs < 64 * 2 ^ k := by
        zify
        rw [abs_of_nonneg hm0']
        exact hm1'
      omega
    · rw [zpow_neg, zpow_natCast, div_eq_mul_inv]
  have hprod : ∀ q : ℚ, (∃ m : Int, q = m / 2 ^ k) → ∃ m : Int, q * r = m / 2 ^ k := by
    rintro q ⟨m, rfl⟩
    exact ⟨m * r, by push_cast; ring⟩
  have hfract : ∀ q : ℚ, (∃ m : Int, q = m / 2 ^ k) → ∃ m : Int, Int.fract q = m / 2 ^ k := by
    rintro q ⟨m, hm⟩
    refine ⟨m - ⌊q⌋ * 2 ^ k, ?_⟩
    rw [Int.fract]
    nth_rw 1 [hm]
    push_cast
    field_simp
  have hlt : ∀ q : ℚ, 0 ≤ q → q < 1 → q * r < 64 := by
    intro q h0 h1
    have : (r : ℚ) ≤ 36 := by exact_mod_cast h36
    have hr0 : (0 : ℚ) ≤ r := by positivity
    nlinarith
  refine ⟨fun _ h => h.2.1, fun _ h => h.2.2, fun q h => ?_, fun q h => ?_, fun q h => ?_⟩
  · exact hr _ (key _ (hprod q h.1) (by have := h.2.1; positivity) (hlt q h.2.1 h.2.2))
  · exact hr _ (key _ (hfract _ (hprod q h.1)) (Int.fract_nonneg _)
      (lt_trans (Int.fract_lt_one _) (by norm_num)))
  · exact ⟨hfract _ (hprod q h.1), Int.fract_nonneg _, Int.fract_lt_one _⟩

end Cmp
