import Verif.Props.Number
import Verif.Proofs.NumberExact
import Verif.Proofs.NumberLeast

/-
What `parse_integer` makes of every numeral and `format_integer` of every value (C19, C21, C22,
C25), also where the claims fail.
-/

namespace Cmp

open IntTy

/-! ### C25 -/

/-- The digits `ds` of radix `r` can be added up in the signed type `T`, from the right, without
leaving its range: the place values (64-bit types only; in narrower types the place value is
reduced modulo `2^bits` instead), the products of digits with the reduced place values, the sums
of the last digits and, if the numeral is negative, the negation at the end. -/
def AddsUp (T : IntTy) (r : Nat) (neg : Bool) (ds : List Nat) : Prop :=
  (∀ k, k < ds.reverse.length → T.bits = 64 → T.Has ((r ^ k : Nat) : Int))
  ∧ (∀ k, (h : k < ds.reverse.length) →
    T.Has (ds.reverse[k] * T.wrap ((r ^ k : Nat) : Int))
    ∧ T.Has (Spec.weighted (fun j => T.wrap ((r ^ j : Nat) : Int)) (ds.reverse.take (k + 1))))
  ∧ (neg = true → Spec.weighted (fun j => T.wrap ((r ^ j : Nat) : Int)) ds.reverse ≠ T.min)

theorem wide_parse {T : IntTy} (hs : T.signed = true) (hb : T.bits = 32 ∨ T.bits = 64) {r : Nat}
    (h2 : 2 ≤ r) (h36 : r ≤ 36) {ds es : List Nat} {d : Nat} (hdr : ds.reverse = d :: es)
    (hd : d < r) (hes : ∀ x ∈ es, x < r) (neg : Bool) :
    (AddsUp T r neg ds → (accum T r es (T.wrap d) 1 >>= finish T neg)
      = .ok (T.wrap (Spec.denote r neg ds)))
    ∧ (¬ AddsUp T r neg ds → (accum T r es (T.wrap d) 1 >>= finish T neg) = .ub) := by
  have hT : T.Std := by unfold Std; omega
  have hmx := max_ge hT
  have hdH : T.Has d := has_of_nonneg hT (by omega) (by omega)
  have h1H : T.Has 1 := has_of_nonneg hT (by omega) (by omega)
  have hw1 : T.wrap 1 = 1 := h1H.wrap_eq hT
  have hp0 : (1 : Int) = T.wrap ((r ^ 0 : Nat) : Int) := by simp [hw1]
  obtain ⟨a1, a2⟩ := accum_wide hs hb h36 es 0 d hes hdH (by simpa using fun _ => h1H)
  rw [← hp0] at a1 a2
  have e3 : (fun j => T.wrap ((r ^ (j + 1) : Nat) : Int))
      = fun j => T.wrap ((r ^ (0 + 1 + j) : Nat) : Int) := by
    funext j
    rw [show j + 1 = 0 + 1 + j by omega]
  have hcons : ∀ l, Spec.weighted (fun j => T.wrap ((r ^ j : Nat) : Int)) (d :: l)
      = d + Spec.weighted (fun j => T.wrap ((r ^ (0 + 1 + j) : Nat) : Int)) l := by
    intro l
    rw [Spec.weighted, e3]
    simp [hw1]
  have hiff : AddsUp T r neg ds ↔ ((∀ j, j < es.length → T.bits = 64 →
        T.Has ((r ^ (0 + 1 + j) : Nat) : Int))
      ∧ Smooth T (fun j => T.wrap ((r ^ (0 + 1 + j) : Nat) : Int)) d es)
      ∧ (neg = true →
        d + Spec.weighted (fun j => T.wrap ((r ^ (0 + 1 + j) : Nat) : Int)) es ≠ T.min) := by
    unfold AddsUp
    simp only [hdr, hcons]
    constructor
    · rintro ⟨g1, g2, g3⟩
      refine ⟨⟨fun j hj h => ?_, fun j hj => ?_⟩, g3⟩
      · have := g1 (j + 1) (by simp; omega) h
        rwa [show j + 1 = 0 + 1 + j by omega] at this
      · have := g2 (j + 1) (by simp; omega)
        simp only [List.getElem_cons_succ, List.take_succ_cons, hcons] at this
        rwa [show r ^ (j + 1) = r ^ (0 + 1 + j) by rw [show j + 1 = 0 + 1 + j by omega]] at this
    · rintro ⟨⟨g1, g2⟩, g3⟩
      refine ⟨fun j hj h => ?_, fun j hj => ?_, g3⟩
      · cases j with
        | zero => simpa using h1H
        | succ j =>
          rw [show j + 1 = 0 + 1 + j by omega]
          exact g1 j (by simpa using hj) h
      · cases j with
        | zero =>
          simp only [List.getElem_cons_zero, List.take_succ_cons, List.take_zero, hcons,
            Spec.weighted, Nat.pow_zero, Int.natCast_one, hw1, Int.mul_one, Int.add_zero]
          exact ⟨hdH, hdH⟩
        | succ j =>
          have := g2 j (by simpa using hj)
          simp only [List.getElem_cons_succ, List.take_succ_cons, hcons]
          rw [show r ^ (j + 1) = r ^ (0 + 1 + j) by rw [show j + 1 = 0 + 1 + j by omega]]
          exact this
  rw [hdH.wrap_eq hT]
  generalize hW : d + Spec.weighted (fun j => T.wrap ((r ^ (0 + 1 + j) : Nat) : Int)) es = W at *
  have hWH : Smooth T (fun j => T.wrap ((r ^ (0 + 1 + j) : Nat) : Int)) d es → T.Has W := by
    intro h
    cases es with
    | nil => simpa [← hW, Spec.weighted] using hdH
    | cons x es =>
      have := (h es.length (by simp)).2
      rwa [show (x :: es).take (es.length + 1) = x :: es by simp, hW] at this
  have hWm : W % ((2 ^ T.bits : Nat) : Int)
      = (Spec.positional r ds : Int) % ((2 ^ T.bits : Nat) : Int) := by
    rw [← hW, Int.add_emod, weighted_emod, ← Int.add_emod, positional_eq, hdr, revVal]
    simp
  constructor
  · intro h
    obtain ⟨h1, h3⟩ := hiff.mp h
    rw [a1 h1, Outcome.ok_bind, finish_wide hs hb neg (hWH h1.2),
      if_neg (fun hh => h3 hh.1 hh.2)]
    congr 1
    cases neg with
    | false =>
      simp only [Spec.denote, Bool.false_eq_true, if_false]
      exact wrap_of_emod hT (hWH h1.2) hWm
    | true =>
      simp only [Spec.denote, if_true]
      have hmm : T.min = -T.max - 1 := by simp [IntTy.min, IntTy.max, hs]
      have hb1 := (hWH h1.2).1
      have hb2 := (hWH h1.2).2
      have := h3 rfl
      refine wrap_of_emod hT ⟨by omega, by omega⟩ ?_
      rw [Int.neg_emod_eq_sub_emod, Int.neg_emod_eq_sub_emod, Int.sub_emod, hWm, ← Int.sub_emod]
  · intro h
    rw [hiff] at h
    by_cases h1 : (∀ j, j < es.length → T.bits = 64 → T.Has ((r ^ (0 + 1 + j) : Nat) : Int))
      ∧ Smooth T (fun j => T.wrap ((r ^ (0 + 1 + j) : Nat) : Int)) d es
    · have h3 : neg = true ∧ W = T.min := by
        by_cases hn : neg = true
        · refine ⟨hn, ?_⟩
          by_cases hw : W = T.min
          · exact hw
          · exact absurd ⟨h1, fun _ => hw⟩ h
        · exact absurd ⟨h1, fun hh => absurd hh hn⟩ h
      rw [a1 h1, Outcome.ok_bind, finish_wide hs hb neg (hWH h1.2), if_pos h3]
    · rw [a2 h1]
      rfl

/-- Exactly what happens to every numeral, however large, in every integer type.  Unsigned types
reject a minus sign; apart from that every type yields the value of the numeral modulo `2^bits`
and never reports that it does not fit; but for `int` and wider signed types the behaviour is
undefined unless the digits `AddsUp`. -/
theorem C25_exact (e : Enc) (T : IntTy) (f : IntegerFormat) (s : Str e) (cs : List Nat)
    (neg : Bool) (ds : List Nat) (hT : T.Std) (hf : f.Valid) (ht : TextOf e s cs)
    (hn : Spec.Numeral f.radix f.separator.char (f.sign = .alwaysShow) cs neg ds) :
    (T.signed = false → neg = true →
      parseInteger e T s f = .throw (.parseFailed .negativeUnsigned))
    ∧ (T.signed = false → neg = false →
      parseInteger e T s f = .ok (T.wrap (Spec.denote f.radix neg ds)))
    ∧ (T.signed = true → T.bits < 32 →
      parseInteger e T s f = .ok (T.wrap (Spec.denote f.radix neg ds)))
    ∧ (T.signed = true → 32 ≤ T.bits → AddsUp T f.radix neg ds →
      parseInteger e T s f = .ok (T.wrap (Spec.denote f.radix neg ds)))
    ∧ (T.signed = true → 32 ≤ T.bits → ¬ AddsUp T f.radix neg ds →
      parseInteger e T s f = .ub) := by
  have hT' := hT
  unfold Std at hT'
  have hn' := hn
  obtain ⟨sign, body, hcs, hsp, hsign⟩ := hn'
  obtain ⟨d, es, hdr, hd, hes, hout⟩ := numeral_outcome T hf.2 hsp (neg := neg)
    (by simpa using hsign)
  have hp : parseInteger e T s f = (accum T f.radix es (T.wrap d) 1 >>= finish T neg) := by
    rw [ht.eq, parseInteger_encs e T f _ ht.bwd, hcs, hout]
  refine ⟨fun hu hng => ?_, fun hu hng => ?_, fun hs hb => ?_, fun hs hb h => ?_,
    fun hs hb h => ?_⟩
  · rw [C25_partial e T f s cs neg ds hT hu hf ht hn, if_pos hng]
  · rw [C25_partial e T f s cs neg ds hT hu hf ht hn, hng, wrap_unsigned hu]
    rfl
  · have hb' : T.bits = 8 ∨ T.bits = 16 := by omega
    have hmx := max_ge hT
    have hdH : T.Has d := has_of_nonneg hT (by have := hf.2; omega) (by have := hf.2; omega)
    have h1 : (1 : Int) = T.wrap ((f.radix ^ 0 : Nat) : Int) := by
      have : T.Has 1 := has_of_nonneg hT (by omega) (by omega)
      simp [this.wrap_eq hT]
    rw [hp, h1, accum_narrow hs hb' hf.2 es 0 _ hes (has_wrap hT _), Outcome.ok_bind,
      finish_narrow hs hb' neg (has_wrap hT _)]
    have hval : (T.wrap (T.wrap d + ((f.radix ^ (0 + 1) * revVal f.radix es : Nat) : Int)))
        % ((2 ^ T.bits : Nat) : Int)
        = (Spec.positional f.radix ds : Int) % ((2 ^ T.bits : Nat) : Int) := by
      rw [wrap_emod, Int.add_emod, wrap_emod, ← Int.add_emod, positional_eq, hdr, revVal]
      simp
    congr 1
    apply wrap_congr
    cases neg with
    | false => simpa [Spec.denote] using hval
    | true =>
      simp only [Spec.denote, if_true]
      rw [Int.neg_emod_eq_sub_emod, Int.neg_emod_eq_sub_emod, Int.sub_emod, hval, ← Int.sub_emod]
  · rw [hp]
    exact (wide_parse hs (by omega) hf.1 hf.2 hdr hd hes neg).1 h
  · rw [hp]
    exact (wide_parse hs (by omega) hf.1 hf.2 hdr hd hes neg).2 h

/-- The digits of `-42` add up in an `int`, those of 2147483648 do not; those of 10000000000 do,
though the value is far out of range: it is read as 1410065408. -/
example : AddsUp int 10 true [4, 2] ∧ ¬ AddsUp int 10 false [2, 1, 4, 7, 4, 8, 3, 6, 4, 8]
    ∧ AddsUp int 10 false [1, 0, 0, 0, 0, 0, 0, 0, 0, 0, 0]
    ∧ int.wrap (Spec.denote 10 false [1, 0, 0, 0, 0, 0, 0, 0, 0, 0, 0]) = 1410065408 := by
  unfold AddsUp
  decide

/-! ### C22 -/

/-- Exactly which numerals whose value the type has are read: all, except that in unsigned types
a minus sign is rejected (even that of `-0`), that in 64-bit signed types the behaviour is
undefined if the place value of the first digit does not fit (leading zeros), and that it is
undefined for the least value of `int` and wider signed types. -/
theorem C22_exact (e : Enc) (T : IntTy) (f : IntegerFormat) (s : Str e) (cs : List Nat)
    (neg : Bool) (ds : List Nat) (hT : T.Std) (hf : f.Valid) (ht : TextOf e s cs)
    (hn : Spec.Numeral f.radix f.separator.char (f.sign = .alwaysShow) cs neg ds)
    (hv : T.Has (Spec.denote f.radix neg ds)) :
    parseInteger e T s f =
      if T.signed = false ∧ neg = true then .throw (.parseFailed .negativeUnsigned)
      else if (T.signed = true ∧ T.bits = 64 ∧ T.max < (f.radix ^ (ds.length - 1) : Nat))
        ∨ (T.signed = true ∧ 32 ≤ T.bits ∧ Spec.denote f.radix neg ds = T.min) then .ub
      else .ok (Spec.denote f.radix neg ds) := by
  obtain ⟨x1, _, x3, _, x5⟩ := C25_exact e T f s cs neg ds hT hf ht hn
  have hmx := max_ge hT
  have hne : ds ≠ [] := by
    obtain ⟨_, _, _, hsp, _⟩ := hn
    exact hsp.1
  have hlen : 0 < ds.length := List.length_pos_iff.mpr hne
  by_cases hu : T.signed = false ∧ neg = true
  · rw [if_pos hu, x1 hu.1 hu.2]
  rw [if_neg hu]
  by_cases hbad : (T.signed = true ∧ T.bits = 64 ∧ T.max < (f.radix ^ (ds.length - 1) : Nat))
      ∨ (T.signed = true ∧ 32 ≤ T.bits ∧ Spec.denote f.radix neg ds = T.min)
  · rw [if_pos hbad]
    rcases hbad with ⟨hs, h64, hgt⟩ | ⟨hs, h32, hmin⟩
    · refine x5 hs (by omega) (fun h => ?_)
      have := (h.1 (ds.length - 1) (by simp; omega) h64).2
      omega
    · refine x5 hs h32 (fun h => ?_)
      have hmm : T.min = -T.max - 1 := by simp [IntTy.min, IntTy.max, hs]
      have hneg : neg = true := by
        cases neg with
        | true => rfl
        | false =>
          simp only [Spec.denote, Bool.false_eq_true, if_false] at hmin
          omega
      subst hneg
      simp only [Spec.denote, if_true] at hmin
      have h2 := (h.2.1 (ds.length - 1) (by simp; omega)).2
      rw [show ds.length - 1 + 1 = ds.reverse.length by simp; omega, List.take_length] at h2
      have h3 := weighted_emod T f.radix ds.reverse 0
      simp only [Nat.zero_add, Nat.pow_zero, Nat.one_mul, ← positional_eq] at h3
      refine h.2.2 rfl ?_
      rw [wrap_of_emod hT h2 h3]
      have hp : (Spec.positional f.radix ds : Int) = T.min + (2 ^ T.bits : Nat) * 1 := by
        have : ((2 ^ T.bits : Nat) : Int) = -T.min - T.min := by
          rcases hT.cases with rfl | rfl | rfl | rfl | rfl | rfl | rfl | rfl <;>
            first | decide | exact absurd hs (by decide)
        omega
      rw [hp, wrap_congr T (Int.add_mul_emod_self_left _ _ _)]
      exact Has.wrap_eq hT ⟨Int.le_refl _, by omega⟩
  · rw [if_neg hbad]
    by_cases hfit : (Spec.positional f.radix ds : Int) ≤ T.max
    · refine C22_partial e T f s cs neg ds hT hf ht hn (fun h => ?_) hfit (fun h => ?_)
      · cases hs : T.signed with
        | true => rfl
        | false => exact absurd ⟨hs, h⟩ hu
      · by_cases hgt : T.max < (f.radix ^ (ds.length - 1) : Nat)
        · exact absurd (.inl ⟨h.1, h.2, hgt⟩) hbad
        · omega
    · have h1 := hv.1
      have h2 := hv.2
      have hneg : neg = true := by
        cases neg with
        | true => rfl
        | false =>
          simp only [Spec.denote, Bool.false_eq_true, if_false] at h2
          omega
      have hs : T.signed = true := by
        cases hs : T.signed with
        | true => rfl
        | false => exact absurd ⟨hs, hneg⟩ hu
      have hmm : T.min = -T.max - 1 := by simp [IntTy.min, IntTy.max, hs]
      have hmin : Spec.denote f.radix neg ds = T.min := by
        subst hneg
        simp only [Spec.denote, if_true] at h1 ⊢
        omega
      have h32 : T.bits < 32 := by
        by_cases h : 32 ≤ T.bits
        · exact absurd (.inr ⟨hs, h, hmin⟩) hbad
        · omega
      rw [x3 hs h32, hv.wrap_eq hT]

/-- The least `signed char` is read, the least `int` is not. -/
example : Spec.Numeral 10 none false [45, 49, 50, 56] true [1, 2, 8]
    ∧ Spec.denote 10 true [1, 2, 8] = int8.min ∧ int8.bits < 32
    ∧ Spec.denote 10 true [2, 1, 4, 7, 4, 8, 3, 6, 4, 8] = int.min :=
  ⟨⟨[45], [49, 50, 56], rfl, ⟨by simp, by decide, [49, 50, 56], by decide, rfl⟩, by simp⟩,
    by decide, by decide, by decide⟩

/-! ### C19, C20 and C21 -/

/-- The format and the values for which `format_integer` returns: all values but the least one of
a signed type, and that of `signed char` and `short` for some radices. -/
def IntReturns (T : IntTy) (f : IntegerFormat) (v : Int) : Prop :=
  ¬ (T.signed = true ∧ v = T.min) ∨ (T.bits = 8 ∧ f.radix ∈ returns8)
    ∨ (T.bits = 16 ∧ f.radix ∈ returns16)

theorem narrow_common {T : IntTy} (hs : T.signed = true) (hb : T.bits = 8 ∨ T.bits = 16) :
    T.common .uint = uint := by
  obtain ⟨b, s⟩ := T
  simp only at hs hb
  subst hs
  rcases hb with rfl | rfl <;> decide

theorem formatInteger_min (e : Enc) {T : IntTy} (hs : T.signed = true)
    (hb : T.bits = 8 ∨ T.bits = 16) (f : IntegerFormat) :
    formatInteger e T T.min f
      = (formatLoop e T f.radix f.separator (2 ^ T.bits + 1) T.min 0 (encs e []) >>= fun out =>
        prependCP e out (BitVec.ofNat 32 45)) := by
  have hneg : T.min < 0 := by rcases hb with hb | hb <;> simp [IntTy.min, hs, hb]
  rw [formatInteger, if_neg (by omega)]
  simp only
  rw [absAssign_narrow hs hb, Outcome.ok_bind, if_pos hneg]
  rfl

/-- What `format_integer` returns for the least value of a narrow type. -/
theorem formatInteger_least_ok (e : Enc) {T : IntTy} (hs : T.signed = true)
    (hb : T.bits = 8 ∨ T.bits = 16) {f : IntegerFormat} (hf : f.Valid) {s : Str e}
    (h : formatInteger e T T.min f = .ok s) :
    ∃ ds, s = encs e (signText f.sign T.min
        ++ Spec.group f.separator.char (ds.reverse.map Spec.upperDigit))
      ∧ orbit T f.radix T.min ds = true ∧ (∀ d ∈ ds, d < f.radix) ∧ ds ≠ [] := by
  have hneg : T.min < 0 := by rcases hb with hb | hb <;> simp [IntTy.min, hs, hb]
  rw [formatInteger_min e hs hb, Outcome.bind_eq_ok] at h
  obtain ⟨out, h1, h2⟩ := h
  obtain ⟨ds, e1, ho, hd⟩ := formatLoop_orbit e (narrow_common hs hb) hf.1 hf.2 _ _ _ _ _ _
    (by omega) h1
  refine ⟨ds, ?_, ho, hd, ?_⟩
  · rw [e1, prependCP_enc e 45 (insOk_ascii e (by omega)), Outcome.ok.injEq] at h2
    rw [← h2, signText, if_pos hneg, group_eq, List.map_reverse, List.reverse_reverse]
    simp
  · rintro rfl
    simp only [orbit, beq_iff_eq] at ho
    omega

/-- Exactly when `format_integer` returns, and what happens otherwise. -/
theorem formatInteger_returns (e : Enc) (T : IntTy) (f : IntegerFormat) (v : Int) (hT : T.Std)
    (hf : f.Valid) (hv : T.Has v) :
    (IntReturns T f v → ∃ s, formatInteger e T v f = .ok s)
    ∧ (¬ IntReturns T f v → formatInteger e T v f = if 32 ≤ T.bits then .ub else .hang) := by
  by_cases hm : T.signed = true ∧ v = T.min
  swap
  · refine ⟨fun _ => ?_, fun h => absurd (.inl hm) h⟩
    obtain ⟨s, _, h, _⟩ := C19_partial e T f v hT hf hv (fun h1 h2 => hm ⟨h1, h2⟩)
    exact ⟨s, h⟩
  obtain ⟨hs, rfl⟩ := hm
  have hT' := hT
  unfold Std at hT'
  by_cases hb : T.bits = 8 ∨ T.bits = 16
  · have hC := narrow_common hs hb
    have hends := ends_least f.radix (by have := hf.2; omega) hf.1
    have hmin : (T.bits = 8 ∧ T = int8 ∧ T.min = -128)
        ∨ (T.bits = 16 ∧ T = int16 ∧ T.min = -32768) := by
      obtain ⟨b, s⟩ := T
      simp only at hs hb
      subst hs
      rcases hb with rfl | rfl <;> decide
    have hret : IntReturns T f T.min ↔ (T.bits = 8 ∧ f.radix ∈ returns8)
        ∨ (T.bits = 16 ∧ f.radix ∈ returns16) := by
      unfold IntReturns
      constructor
      · rintro (h | h)
        · exact absurd ⟨hs, rfl⟩ h
        · exact h
      · exact .inr
    have hok : ends T f.radix 40 T.min = true → ∃ s, formatInteger e T T.min f = .ok s := by
      intro h
      obtain ⟨s, h1⟩ := formatLoop_ends e hC hf.1 hf.2 f.separator 40 (2 ^ T.bits + 1) T.min 0 []
        (by rcases hb with hb | hb <;> rw [hb] <;> decide) h
      obtain ⟨ds, e1, _⟩ := formatLoop_orbit e hC hf.1 hf.2 _ _ _ _ _ _ (by omega) h1
      rw [formatInteger_min e hs hb, h1, Outcome.ok_bind, e1,
        prependCP_enc e 45 (insOk_ascii e (by omega))]
      exact ⟨_, rfl⟩
    have hhang : trap T f.radix (turns T f.radix 40 T.min) = true →
        formatInteger e T T.min f = .hang := by
      intro h
      rw [formatInteger_min e hs hb,
        formatLoop_trap e hC hf.1 hf.2 f.separator h _ _ _ _ (by simp [turns])]
      rfl
    rw [hret, if_neg (by omega)]
    rcases hmin with ⟨h8, hTe, hme⟩ | ⟨h16, hTe, hme⟩
    · have h1 := hends.1
      rw [← hme, ← hTe] at h1
      constructor
      · rintro (⟨_, h⟩ | ⟨h, _⟩)
        · rw [if_pos h] at h1
          exact hok h1
        · omega
      · intro h
        have hn : f.radix ∉ returns8 := fun hh => h (.inl ⟨h8, hh⟩)
        rw [if_neg hn] at h1
        exact hhang h1
    · have h1 := hends.2
      rw [← hme, ← hTe] at h1
      constructor
      · rintro (⟨h, _⟩ | ⟨_, h⟩)
        · omega
        · rw [if_pos h] at h1
          exact hok h1
      · intro h
        have hn : f.radix ∉ returns16 := fun hh => h (.inr ⟨h16, hh⟩)
        rw [if_neg hn] at h1
        exact hhang h1
  · have hb' : T.bits = 32 ∨ T.bits = 64 := by omega
    have hneg : T.min < 0 := by rcases hb' with hb | hb <;> simp [IntTy.min, hs, hb]
    refine ⟨fun h => ?_, fun _ => ?_⟩
    · rcases h with h | h | h
      · exact absurd ⟨hs, rfl⟩ h
      · omega
      · omega
    · rw [if_pos (by omega), formatInteger, if_neg (by omega)]
      simp only
      rw [absAssign_wide hs hb']
      rfl

/-- Exactly which values are formatted right, and where the behaviour is undefined: the least
value of `int` and wider signed types is undefined in every format; that of `signed char` and
`short` comes out right only for the radices dividing `2^(32-bits) - 1`. -/
theorem C19_exact (e : Enc) (T : IntTy) (f : IntegerFormat) (v : Int) (hT : T.Std)
    (hf : f.Valid) (hv : T.Has v) :
    ((∃ s cs, formatInteger e T v f = .ok s ∧ TextOf e s cs ∧ DenotesInteger f v cs)
      ↔ ¬ (T.signed = true ∧ v = T.min) ∨ (T.bits < 32 ∧ f.radix ∣ 2 ^ (32 - T.bits) - 1))
    ∧ (formatInteger e T v f = .ub ↔ T.signed = true ∧ v = T.min ∧ 32 ≤ T.bits) := by
  obtain ⟨hr1, hr2⟩ := formatInteger_returns e T f v hT hf hv
  have hT' := hT
  unfold Std at hT'
  constructor
  · by_cases hm : T.signed = true ∧ v = T.min
    swap
    · exact ⟨fun _ => .inl hm,
        fun _ => C19_partial e T f v hT hf hv (fun h1 h2 => hm ⟨h1, h2⟩)⟩
    obtain ⟨hs, rfl⟩ := hm
    by_cases hb : T.bits = 8 ∨ T.bits = 16
    · have hneg : T.min < 0 := by rcases hb with hb | hb <;> simp [IntTy.min, hs, hb]
      constructor
      · rintro ⟨s, cs, h1, h2, h3⟩
        refine .inr ⟨by omega, ?_⟩
        obtain ⟨ds, e1, ho, hd, hne⟩ := formatInteger_least_ok e hs hb hf h1
        have hd' : ∀ d ∈ ds.reverse, d < f.radix := by simpa using hd
        have hasc := formatted_ascii f hf.2 T.min ds.reverse hd'
        have hcs := textOf_ascii_unique (e1 ▸ textOf_ascii e _ hasc) h2 hasc
        obtain ⟨sign, es, h4, h5, h6, h7, h8, h9⟩ := h3
        have hsg : sign = [45] := by
          rcases h9 with ⟨h, _⟩ | ⟨_, h, _⟩ | ⟨_, h | ⟨h, _⟩⟩
          · exact h
          · omega
          · omega
          · omega
        rw [hcs, signText, if_pos hneg, hsg, List.cons_append, List.nil_append, List.cons_append,
          List.nil_append, List.cons.injEq] at h4
        have h10 := group_inj _ h4.2
        have hes : es = ds.reverse := by
          have := congrArg (List.map Spec.digitValue) h10
          rw [List.map_map, List.map_map] at this
          have hx : ∀ l : List Nat, (∀ d ∈ l, d < f.radix) →
              l.map (Spec.digitValue ∘ Spec.upperDigit) = l.map some := by
            intro l hl
            apply List.map_congr_left
            intro d hd
            exact upperDigit_value (by have := hl d hd; have := hf.2; omega)
          rw [hx _ hd', hx _ h6] at this
          exact (List.map_injective_iff.mpr (Option.some_injective Nat) this).symm
        subst hes
        rw [positional_eq, List.reverse_reverse] at h8
        have hlast : ds.getLast? ≠ some 0 := by
          intro h
          have h0 := h7 (by rw [List.head?_reverse]; exact h)
          have h11 : ds = [0] := by simpa using congrArg List.reverse h0
          rw [h11] at h8
          simp [revVal] at h8
          omega
        have hcase := orbit_least f.radix (by have := hf.2; omega) hf.1
        obtain ⟨b, sg⟩ := T
        simp only at hs hb
        subst hs
        rcases hb with rfl | rfl
        · refine hcase.1 ?_
          rw [← lows_unique hf.1 ds 8 128 (by decide) h8 hd hlast]
          exact ho
        · refine hcase.2 ?_
          rw [← lows_unique hf.1 ds 16 32768 (by decide) h8 hd hlast]
          exact ho
      · rintro (h | ⟨_, h⟩)
        · exact absurd ⟨hs, rfl⟩ h
        · obtain ⟨ds, e1, hp, hd, hne, hz⟩ := formatInteger_least e hs hb hf.1 hf.2 h
          refine ⟨_, _, e1, textOf_ascii e _ (formatted_ascii f hf.2 _ ds hd), _, ds, rfl, hne, hd,
            hz, hp, .inl ⟨?_, hneg⟩⟩
          rw [signText, if_pos hneg]
    · have hnr : ¬ IntReturns T f T.min := by
        rintro (h | h | h)
        · exact h ⟨hs, rfl⟩
        · omega
        · omega
      constructor
      · rintro ⟨s, _, h, _⟩
        rw [hr2 hnr, if_pos (by omega)] at h
        simp at h
      · rintro (h | ⟨h, _⟩)
        · exact absurd ⟨hs, rfl⟩ h
        · omega
  · constructor
    · intro h
      by_cases hr : IntReturns T f v
      · obtain ⟨s, h1⟩ := hr1 hr
        rw [h1] at h
        simp at h
      · have h1 := hr2 hr
        rw [h] at h1
        by_cases h32 : 32 ≤ T.bits
        · by_cases hm : T.signed = true ∧ v = T.min
          · exact ⟨hm.1, hm.2, h32⟩
          · exact absurd (.inl hm) hr
        · rw [if_neg h32] at h1
          simp at h1
    · rintro ⟨hs, hm, h32⟩
      rw [hr2, if_pos h32]
      rintro (h | h | h)
      · exact h ⟨hs, hm⟩
      · omega
      · omega

/-- 3 divides `2^24 - 1`, 10 does not; the least `signed char` is a value of the type. -/
example : 3 ∣ 2 ^ (32 - int8.bits) - 1 ∧ ¬ 10 ∣ 2 ^ (32 - int8.bits) - 1 ∧ int8.Has int8.min
    ∧ int8.Std := by decide

/-- Whatever `format_integer` returns is grouped in threes, and it returns exactly for the
formats and values of `IntReturns`. -/
theorem C20_exact (e : Enc) (T : IntTy) (f : IntegerFormat) (v : Int) (hT : T.Std)
    (hf : f.Valid) (hv : T.Has v) :
    (∃ s cs, formatInteger e T v f = .ok s ∧ TextOf e s cs ∧ GroupedInThrees f cs)
      ↔ IntReturns T f v := by
  obtain ⟨hr1, hr2⟩ := formatInteger_returns e T f v hT hf hv
  have hT' := hT
  unfold Std at hT'
  constructor
  · rintro ⟨s, _, h, _⟩
    by_cases hr : IntReturns T f v
    · exact hr
    · rw [hr2 hr] at h
      split at h <;> simp at h
  · intro hr
    obtain ⟨s, h⟩ := hr1 hr
    by_cases hm : T.signed = true ∧ v = T.min
    swap
    · exact C20_partial e T f v hT hf hv (fun h1 h2 => hm ⟨h1, h2⟩)
    obtain ⟨hs, rfl⟩ := hm
    have hb : T.bits = 8 ∨ T.bits = 16 := by
      rcases hr with h | h | h
      · exact absurd ⟨hs, rfl⟩ h
      · exact .inl h.1
      · exact .inr h.1
    obtain ⟨ds, e1, _, hd, hne⟩ := formatInteger_least_ok e hs hb hf h
    have hd' : ∀ d ∈ ds.reverse, d < f.radix := by simpa using hd
    exact ⟨s, _, h, e1 ▸ textOf_ascii e _ (formatted_ascii f hf.2 _ _ hd'),
      grouped_text hf _ hd' (by simpa using hne)⟩

/-- Whatever `format_integer` returns is read back as the value formatted, even where the text
is wrong (the least `signed char` in radix 11 is written as `-958`), and it returns exactly for
the formats and values of `IntReturns`. -/
theorem C21_exact (e : Enc) (T : IntTy) (f : IntegerFormat) (v : Int) (hT : T.Std)
    (hf : f.Valid) (hv : T.Has v) :
    (∃ s, formatInteger e T v f = .ok s ∧ parseInteger e T s f = .ok v) ↔ IntReturns T f v := by
  obtain ⟨hr1, hr2⟩ := formatInteger_returns e T f v hT hf hv
  have hT' := hT
  unfold Std at hT'
  constructor
  · rintro ⟨s, h, _⟩
    by_cases hr : IntReturns T f v
    · exact hr
    · rw [hr2 hr] at h
      split at h <;> simp at h
  · intro hr
    obtain ⟨s, h⟩ := hr1 hr
    by_cases hm : T.signed = true ∧ v = T.min
    swap
    · exact C21_partial e T f v hT hf hv (fun h1 h2 => hm ⟨h1, h2⟩)
    obtain ⟨hs, rfl⟩ := hm
    have hb : T.bits = 8 ∨ T.bits = 16 := by
      rcases hr with h | h | h
      · exact absurd ⟨hs, rfl⟩ h
      · exact .inl h.1
      · exact .inr h.1
    have hneg : T.min < 0 := by rcases hb with hb | hb <;> simp [IntTy.min, hs, hb]
    obtain ⟨ds, e1, ho, hd, hne⟩ := formatInteger_least_ok e hs hb hf h
    have hd' : ∀ d ∈ ds.reverse, d < f.radix := by simpa using hd
    have ht : TextOf e s _ := e1 ▸ textOf_ascii e _ (formatted_ascii f hf.2 _ _ hd')
    refine ⟨s, h, ?_⟩
    have hn : Spec.Numeral f.radix f.separator.char (f.sign = .alwaysShow)
        (signText f.sign T.min
          ++ Spec.group f.separator.char (ds.reverse.map Spec.upperDigit)) true ds.reverse := by
      refine ⟨_, _, rfl, ⟨by simpa using hne, hd', _, ?_, rfl⟩, .inr (.inl ⟨?_, rfl⟩)⟩
      · rw [List.map_map]
        apply List.map_congr_left
        intro d hd
        exact upperDigit_value (by have := hd' d hd; have := hf.2; omega)
      · rw [signText, if_pos hneg]
    rw [(C25_exact e T f s _ true ds.reverse hT hf ht hn).2.2.1 hs (by omega)]
    congr 1
    simp only [Spec.denote, if_true, positional_eq, List.reverse_reverse]
    have h1 := orbit_value (by omega) ds T.min ho
    refine (wrap_of_emod hT hv ?_).symm
    rw [Int.neg_emod_eq_sub_emod, Int.sub_emod, h1, ← Int.sub_emod, ← Int.neg_emod_eq_sub_emod]
    obtain ⟨b, sg⟩ := T
    simp only at hs hb
    subst hs
    rcases hb with rfl | rfl <;> decide

/-- The least `signed char` in radix 11: the text is wrong but read back right; in radix 10 there
is no text. -/
example : IntReturns int8 ⟨11, .onlyWhenNegative, .none⟩ int8.min
    ∧ ¬ IntReturns int8 ⟨10, .onlyWhenNegative, .none⟩ int8.min
    ∧ formatInteger .char8 int8 (-128) ⟨11, .onlyWhenNegative, .none⟩
      = .ok [0x2D#8, 0x39#8, 0x35#8, 0x38#8]
    ∧ parseInteger .char8 int8 [0x2D#8, 0x39#8, 0x35#8, 0x38#8] ⟨11, .onlyWhenNegative, .none⟩
      = .ok (-128) := by
  unfold IntReturns
  refine ⟨by decide, by decide, by decide, by decide⟩

end Cmp
