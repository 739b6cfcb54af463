import Verif.Model.Number
import Verif.Spec.Numeral

/-
Helper lemmas: C++ integer arithmetic on values that fit.
-/

namespace Cmp

namespace IntTy

/-- The eight standard integer types. -/
theorem Std.cases {T : IntTy} (h : T.Std) :
    T = int8 ∨ T = uint8 ∨ T = int16 ∨ T = uint16 ∨ T = int ∨ T = uint ∨ T = llong ∨ T = ullong := by
  obtain ⟨b, s⟩ := T
  unfold Std at h
  simp only at h
  rcases h with rfl | rfl | rfl | rfl <;> cases s <;> decide

theorem Has.wrap_eq {T : IntTy} (h : T.Std) {x : Int} (hx : T.Has x) : T.wrap x = x := by
  rcases h.cases with rfl | rfl | rfl | rfl | rfl | rfl | rfl | rfl <;>
    simp [Has, min, max, int8, uint8, int16, uint16, int, uint, llong, ullong, wrap,
      Int.bmod] at hx ⊢ <;> omega

theorem has_wrap {T : IntTy} (h : T.Std) (x : Int) : T.Has (T.wrap x) := by
  rcases h.cases with rfl | rfl | rfl | rfl | rfl | rfl | rfl | rfl <;>
    simp [Has, min, max, int8, uint8, int16, uint16, int, uint, llong, ullong, wrap,
      Int.bmod] <;> omega

theorem max_ge {T : IntTy} (h : T.Std) : 127 ≤ T.max := by
  rcases h.cases with rfl | rfl | rfl | rfl | rfl | rfl | rfl | rfl <;> decide

theorem min_nonpos {T : IntTy} (h : T.Std) : T.min ≤ 0 := by
  rcases h.cases with rfl | rfl | rfl | rfl | rfl | rfl | rfl | rfl <;> decide

theorem has_of_nonneg {T : IntTy} (h : T.Std) {x : Int} (h0 : 0 ≤ x) (h1 : x ≤ T.max) :
    T.Has x := ⟨by have := min_nonpos h; omega, h1⟩

theorem Std.promote {T : IntTy} (h : T.Std) : T.promote.Std := by
  rcases h.cases with rfl | rfl | rfl | rfl | rfl | rfl | rfl | rfl <;> decide

theorem promote_max {T : IntTy} (h : T.Std) : T.max ≤ T.promote.max := by
  rcases h.cases with rfl | rfl | rfl | rfl | rfl | rfl | rfl | rfl <;> decide

theorem Std.commonU {T : IntTy} (h : T.Std) : (T.common uint).Std := by
  rcases h.cases with rfl | rfl | rfl | rfl | rfl | rfl | rfl | rfl <;> decide

theorem commonU_max {T : IntTy} (h : T.Std) : T.max ≤ (T.common uint).max := by
  rcases h.cases with rfl | rfl | rfl | rfl | rfl | rfl | rfl | rfl <;> decide

theorem Std.commonI {T : IntTy} (h : T.Std) : (int.common T).Std := by
  rcases h.cases with rfl | rfl | rfl | rfl | rfl | rfl | rfl | rfl <;> decide

theorem commonI_max {T : IntTy} (h : T.Std) : T.max ≤ (int.common T).max := by
  rcases h.cases with rfl | rfl | rfl | rfl | rfl | rfl | rfl | rfl <;> decide

theorem common_commonI {T : IntTy} (h : T.Std) : T.common (int.common T) = int.common T := by
  rcases h.cases with rfl | rfl | rfl | rfl | rfl | rfl | rfl | rfl <;> decide

/-- Except for 64-bit signed types, arithmetic with an `unsigned int` is unsigned. -/
theorem commonU_unsigned {T : IntTy} (h : T.Std) (hs : ¬ (T.signed = true ∧ T.bits = 64)) :
    (T.common uint).signed = false := by
  rcases h.cases with rfl | rfl | rfl | rfl | rfl | rfl | rfl | rfl <;> first | rfl | exact absurd ⟨rfl, rfl⟩ hs

theorem arith_of_has {T : IntTy} (h : T.Std) {x : Int} (hx : T.Has x) : T.arith x = .ok x := by
  simp [arith, hx, hx.wrap_eq h]

theorem arith_unsigned {T : IntTy} (hs : T.signed = false) (x : Int) :
    T.arith x = .ok (T.wrap x) := by simp [arith, hs]

end IntTy

open IntTy

/-- `prepend_digit` on values that fit. -/
theorem prependDigit_exact {T : IntTy} (h : T.Std) {r : Nat} (hr : r ≤ 36) {d : Nat}
    (hd : d < r) (st : ParseState) (ho : 0 ≤ st.output) (hp : 0 ≤ st.power)
    (hp1 : st.power ≤ T.max) (hp2 : st.power * r ≤ T.max)
    (hs : st.output + d * (st.power * r) ≤ T.max) :
    prependDigit T r d st = .ok { st with
      output := st.output + d * (st.power * r), power := st.power * r,
      counted := st.counted + 1 } := by
  have hm := max_ge h
  have hq0 : 0 ≤ st.power * r := Int.mul_nonneg hp (by omega)
  have hdm0 : 0 ≤ (d : Int) * (st.power * r) := Int.mul_nonneg (by omega) hq0
  have hC := h.commonU
  have hCm := commonU_max h
  have hD := h.commonI
  have hDm := commonI_max h
  simp only [prependDigit, common_commonI h]
  have e1 : (T.common uint).wrap st.power = st.power :=
    (has_of_nonneg hC hp (by omega)).wrap_eq hC
  have e2 : (T.common uint).wrap (r : Int) = r :=
    (has_of_nonneg hC (by omega) (by omega)).wrap_eq hC
  simp only [e1, e2]
  generalize hq : st.power * r = q at *
  rw [arith_of_has hC (has_of_nonneg hC hq0 (by omega))]
  simp only [Outcome.ok_bind]
  rw [(has_of_nonneg h hq0 hp2).wrap_eq h,
    (has_of_nonneg hD hq0 (by omega)).wrap_eq hD,
    (has_of_nonneg hD (show (0 : Int) ≤ d by omega) (by omega)).wrap_eq hD]
  generalize hm' : (d : Int) * q = m at *
  rw [arith_of_has hD (has_of_nonneg hD hdm0 (by omega))]
  simp only [Outcome.ok_bind]
  rw [(has_of_nonneg hD hdm0 (by omega)).wrap_eq hD,
    (has_of_nonneg hD ho (by omega)).wrap_eq hD,
    arith_of_has hD (has_of_nonneg hD (show 0 ≤ st.output + m by omega) (by omega))]
  simp only [Outcome.ok_bind]
  rw [(has_of_nonneg h (show 0 ≤ st.output + m by omega) (by omega)).wrap_eq h]

/-- `prepend_digit` of a leading zero where the power no longer matters. -/
theorem prependDigit_zero {T : IntTy} (h : T.Std) (hs : ¬ (T.signed = true ∧ T.bits = 64))
    (r : Nat) (st : ParseState) (ho : 0 ≤ st.output) (ho1 : st.output ≤ T.max) :
    ∃ p, prependDigit T r 0 st
        = .ok { st with power := p, counted := st.counted + 1 } := by
  have hD := h.commonI
  have hDm := commonI_max h
  have hz := has_of_nonneg hD (show (0 : Int) ≤ 0 by omega) (by have := max_ge hD; omega)
  simp only [prependDigit, common_commonI h]
  rw [arith_unsigned (commonU_unsigned h hs)]
  simp only [Outcome.ok_bind]
  rw [hz.wrap_eq hD, Int.zero_mul, arith_of_has hD hz]
  simp only [Outcome.ok_bind]
  rw [hz.wrap_eq hD, (has_of_nonneg hD ho (by omega)).wrap_eq hD, Int.add_zero,
    arith_of_has hD (has_of_nonneg hD ho (by omega))]
  simp only [Outcome.ok_bind]
  rw [(has_of_nonneg h ho ho1).wrap_eq h]
  exact ⟨_, rfl⟩

theorem wrap_unsigned {T : IntTy} (hs : T.signed = false) (x : Int) :
    T.wrap x = x % (2 ^ T.bits : Nat) := by simp [wrap, hs]

/-- `prepend_digit` for unsigned types is arithmetic modulo `2^bits`. -/
theorem prependDigit_modular {T : IntTy} (h : T.Std) (hu : T.signed = false) {r : Nat}
    (hr : r ≤ 36) {d : Nat} (hd : d < r) (st : ParseState) (ho : T.Has st.output)
    (hp : T.Has st.power) :
    prependDigit T r d st = .ok { st with
      output := T.wrap (st.output + d * T.wrap (st.power * r)),
      power := T.wrap (st.power * r),
      counted := st.counted + 1 } := by
  obtain ⟨o, p, k, sf, ng⟩ := st
  simp only at ho hp ⊢
  have hC := h.commonU
  have hCm := commonU_max h
  have hm := max_ge h
  have hTu : ∀ x, T.Has x → 0 ≤ x := by
    intro x hx
    have : T.min = 0 := by simp [IntTy.min, hu]
    have := hx.1
    omega
  have hCu := commonU_unsigned h (by simp [hu])
  have e1 : (T.common uint).wrap p = p :=
    (has_of_nonneg hC (hTu _ hp) (by have := hp.2; omega)).wrap_eq hC
  have e2 : (T.common uint).wrap (r : Int) = r :=
    (has_of_nonneg hC (by omega) (by omega)).wrap_eq hC
  have e3 : ∀ x, T.wrap ((T.common uint).wrap x) = T.wrap x := by
    intro x
    rcases h.cases with rfl | rfl | rfl | rfl | rfl | rfl | rfl | rfl <;> cases hu <;>
      simp [wrap, common, IntTy.promote, uint, uint8, uint16, ullong, int] <;> omega
  simp only [prependDigit, common_commonI h]
  simp only [e1, e2]
  rw [arith_unsigned hCu]
  simp only [Outcome.ok_bind]
  rw [e3]
  generalize hq : T.wrap (p * r) = q
  have hqH : T.Has q := hq ▸ has_wrap h _
  have hq0 := hTu _ hqH
  have ho0 := hTu _ ho
  have hD := h.commonI
  have hDm := commonI_max h
  rw [(has_of_nonneg hD hq0 (by have := hqH.2; omega)).wrap_eq hD,
    (has_of_nonneg hD (show (0 : Int) ≤ d by omega) (by omega)).wrap_eq hD]
  have hdq0 : 0 ≤ (d : Int) * q := Int.mul_nonneg (by omega) hq0
  have hdq1 : (d : Int) * q ≤ 36 * q := Int.mul_le_mul_of_nonneg_right (by omega) hq0
  rcases h.cases with rfl | rfl | rfl | rfl | rfl | rfl | rfl | rfl <;> cases hu
  case inr.inl.refl =>
    have hb := ho.2
    have hb2 := hqH.2
    simp [IntTy.max, uint8] at hb hb2
    have eD : int.common uint8 = int := by decide
    rw [eD]
    have hh : ∀ x : Int, 0 ≤ x → x < 100000000 → int.Has x := by
      intro x h0 h1; simp [Has, IntTy.min, IntTy.max, int]; omega
    generalize (d : Int) * q = m at *
    have hi : int.Std := by decide
    rw [arith_of_has hi (hh m (by omega) (by omega))]
    simp only [Outcome.ok_bind]
    rw [(hh m (by omega) (by omega)).wrap_eq hi, (hh o (by omega) (by omega)).wrap_eq hi,
      arith_of_has hi (hh _ (by omega) (by omega))]
    rfl
  case inr.inr.inr.inl.refl =>
    have hb := ho.2
    have hb2 := hqH.2
    simp [IntTy.max, uint16] at hb hb2
    have eD : int.common uint16 = int := by decide
    rw [eD]
    have hh : ∀ x : Int, 0 ≤ x → x < 100000000 → int.Has x := by
      intro x h0 h1; simp [Has, IntTy.min, IntTy.max, int]; omega
    generalize (d : Int) * q = m at *
    have hi : int.Std := by decide
    rw [arith_of_has hi (hh m (by omega) (by omega))]
    simp only [Outcome.ok_bind]
    rw [(hh m (by omega) (by omega)).wrap_eq hi, (hh o (by omega) (by omega)).wrap_eq hi,
      arith_of_has hi (hh _ (by omega) (by omega))]
    rfl
  case inr.inr.inr.inr.inr.inl.refl =>
    have eD : int.common uint = uint := by decide
    rw [eD, arith_unsigned rfl]
    simp only [Outcome.ok_bind]
    rw [arith_unsigned rfl]
    simp only [Outcome.ok_bind, Outcome.ok.injEq, ParseState.mk.injEq, and_true]
    generalize (d : Int) * q = m
    simp [wrap, uint]
  case inr.inr.inr.inr.inr.inr.inr.refl =>
    have eD : int.common ullong = ullong := by decide
    rw [eD, arith_unsigned rfl]
    simp only [Outcome.ok_bind]
    rw [arith_unsigned rfl]
    simp only [Outcome.ok_bind, Outcome.ok.injEq, ParseState.mk.injEq, and_true]
    generalize (d : Int) * q = m
    simp [wrap, ullong]

end Cmp
