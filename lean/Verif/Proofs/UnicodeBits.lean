import Verif.Model.Unicode
import Verif.Spec.Unicode

/-
Helper lemmas: the bit manipulations of the model, on natural numbers.
-/

namespace Cmp

theorem bv8_lt (u : Char8) : u.toNat < 256 := u.isLt
theorem bv16_lt (u : Char16) : u.toNat < 65536 := u.isLt
theorem bv32_lt (u : Char32) : u.toNat < 4294967296 := u.isLt

theorem isStandaloneByte_eq (u : Char8) : isStandaloneByte u = decide (u.toNat < 128) := by
  have := bv8_lt u
  simp only [isStandaloneByte, fitsIn7Bits, BitVec.le_def, BitVec.toNat_setWidth]
  congr 1
  simp
  omega

theorem isTrailingByte_eq (u : Char8) : isTrailingByte u = decide (u.toNat / 64 = 2) := by
  rw [isTrailingByte, Bool.eq_iff_iff, beq_iff_eq, ← BitVec.toNat_inj, decide_eq_true_iff]
  simp [Nat.shiftRight_eq_div_pow]

theorem shr5_eq (u : Char8) : (u >>> 5 == 0b110#8) = decide (u.toNat / 32 = 6) := by
  rw [Bool.eq_iff_iff, beq_iff_eq, ← BitVec.toNat_inj, decide_eq_true_iff]
  simp [Nat.shiftRight_eq_div_pow]

theorem shr4_eq (u : Char8) : (u >>> 4 == 0b1110#8) = decide (u.toNat / 16 = 14) := by
  rw [Bool.eq_iff_iff, beq_iff_eq, ← BitVec.toNat_inj, decide_eq_true_iff]
  simp [Nat.shiftRight_eq_div_pow]

theorem shr3_eq (u : Char8) : (u >>> 3 == 0b11110#8) = decide (u.toNat / 8 = 30) := by
  rw [Bool.eq_iff_iff, beq_iff_eq, ← BitVec.toNat_inj, decide_eq_true_iff]
  simp [Nat.shiftRight_eq_div_pow]

theorem and31 (u : Char8) : ((u &&& 0b00011111#8).setWidth 32).toNat = u.toNat % 32 := by
  have h := Nat.and_two_pow_sub_one_eq_mod u.toNat 5
  have := bv8_lt u
  rw [BitVec.toNat_setWidth, BitVec.toNat_and]
  simp at h ⊢
  rw [h]; omega

theorem and15 (u : Char8) : ((u &&& 0b00001111#8).setWidth 32).toNat = u.toNat % 16 := by
  have h := Nat.and_two_pow_sub_one_eq_mod u.toNat 4
  have := bv8_lt u
  rw [BitVec.toNat_setWidth, BitVec.toNat_and]
  simp at h ⊢
  rw [h]; omega

theorem and7 (u : Char8) : ((u &&& 0b00000111#8).setWidth 32).toNat = u.toNat % 8 := by
  have h := Nat.and_two_pow_sub_one_eq_mod u.toNat 3
  have := bv8_lt u
  rw [BitVec.toNat_setWidth, BitVec.toNat_and]
  simp at h ⊢
  rw [h]; omega

theorem and63 (u : Char8) : ((u &&& 0b00111111#8).setWidth 32).toNat = u.toNat % 64 := by
  have h := Nat.and_two_pow_sub_one_eq_mod u.toNat 6
  have := bv8_lt u
  rw [BitVec.toNat_setWidth, BitVec.toNat_and]
  simp at h ⊢
  rw [h]; omega

/-- One step of the UTF-8 accumulation. -/
theorem shl6_or (r : Char32) (u : Char8) (hr : r.toNat < 2 ^ 26) :
    ((r <<< 6) ||| (u &&& 0b00111111#8).setWidth 32).toNat = r.toNat * 64 + u.toNat % 64 := by
  rw [BitVec.toNat_or, and63, BitVec.toNat_shiftLeft]
  have h1 : r.toNat <<< 6 % 2 ^ 32 = r.toNat <<< 6 := by
    apply Nat.mod_eq_of_lt
    rw [Nat.shiftLeft_eq]; omega
  rw [h1, ← Nat.shiftLeft_add_eq_or_of_lt (by omega), Nat.shiftLeft_eq]

theorem initializeUtf8Sequence_eq (u : Char8) :
    initializeUtf8Sequence u =
      if u.toNat < 128 then .ok (1, BitVec.ofNat 32 u.toNat)
      else if u.toNat / 32 = 6 then .ok (2, BitVec.ofNat 32 (u.toNat % 32))
      else if u.toNat / 16 = 14 then .ok (3, BitVec.ofNat 32 (u.toNat % 16))
      else if u.toNat / 8 = 30 then .ok (4, BitVec.ofNat 32 (u.toNat % 8))
      else .throw .invalidUnicodeEncoding := by
  have hu := bv8_lt u
  unfold initializeUtf8Sequence
  rw [isStandaloneByte_eq, shr5_eq, shr4_eq, shr3_eq]
  have e1 : u.setWidth 32 = BitVec.ofNat 32 u.toNat := by
    apply BitVec.eq_of_toNat_eq; simp
  have e2 : (u &&& 0b00011111#8).setWidth 32 = BitVec.ofNat 32 (u.toNat % 32) := by
    apply BitVec.eq_of_toNat_eq; rw [and31]; simp; omega
  have e3 : (u &&& 0b00001111#8).setWidth 32 = BitVec.ofNat 32 (u.toNat % 16) := by
    apply BitVec.eq_of_toNat_eq; rw [and15]; simp; omega
  have e4 : (u &&& 0b00000111#8).setWidth 32 = BitVec.ofNat 32 (u.toNat % 8) := by
    apply BitVec.eq_of_toNat_eq; rw [and7]; simp; omega
  rw [e1, e2, e3, e4]
  simp only [decide_eq_true_eq]

theorem isLeadingSurrogate_eq (u : Char16) :
    isLeadingSurrogate u = decide (0xD800 ≤ u.toNat ∧ u.toNat ≤ 0xDBFF) := by
  simp [isLeadingSurrogate, BitVec.le_def]

theorem isTrailingSurrogate_eq (u : Char16) :
    isTrailingSurrogate u = decide (0xDC00 ≤ u.toNat ∧ u.toNat ≤ 0xDFFF) := by
  simp [isTrailingSurrogate, BitVec.le_def]

theorem isSurrogate_eq (u : Char16) :
    isSurrogate u = decide (0xD800 ≤ u.toNat ∧ u.toNat ≤ 0xDFFF) := by
  simp [isSurrogate, BitVec.le_def]

theorem isCodePointValid_eq (c : Char32) :
    isCodePointValid c =
      decide (c.toNat ≤ 0x10FFFF ∧ ¬ (0xD800 ≤ c.toNat % 65536 ∧ c.toNat % 65536 ≤ 0xDFFF)) := by
  simp only [isCodePointValid, isSurrogate_eq, BitVec.toNat_setWidth, maximumCodePoint,
    BitVec.le_def]
  by_cases h1 : c.toNat ≤ 1114111 <;>
    by_cases h2 : (55296 ≤ c.toNat % 65536 ∧ c.toNat % 65536 ≤ 57343) <;> (simp_all; try omega)

theorem initializeUtf16Sequence_eq (u : Char16) :
    initializeUtf16Sequence u =
      if 0xD800 ≤ u.toNat ∧ u.toNat ≤ 0xDBFF then
        .ok (2, BitVec.ofNat 32 ((u.toNat - 0xD800) * 1024))
      else if 0xDC00 ≤ u.toNat ∧ u.toNat ≤ 0xDFFF then .throw .invalidUnicodeEncoding
      else .ok (1, BitVec.ofNat 32 u.toNat) := by
  have hu := bv16_lt u
  unfold initializeUtf16Sequence
  rw [isLeadingSurrogate_eq, isTrailingSurrogate_eq]
  simp only [decide_eq_true_eq]
  have e1 : u.setWidth 32 = BitVec.ofNat 32 u.toNat := by
    apply BitVec.eq_of_toNat_eq; simp
  split
  · have e2 : (u.setWidth 32 - 0xD800#32) <<< 10
        = BitVec.ofNat 32 ((u.toNat - 0xD800) * 1024) := by
      apply BitVec.eq_of_toNat_eq
      rw [BitVec.toNat_shiftLeft, BitVec.toNat_sub, Nat.shiftLeft_eq]
      simp only [BitVec.toNat_setWidth, BitVec.toNat_ofNat]
      omega
    rw [e2]
  · rw [e1]

theorem or_C0 : ∀ x < 32, x ||| 192 = 192 + x := by decide
theorem or_E0 : ∀ x < 16, x ||| 224 = 224 + x := by decide
theorem or_F0 : ∀ x < 8, x ||| 240 = 240 + x := by decide
theorem or_80 : ∀ x < 64, x ||| 128 = 128 + x := by decide

theorem and_63 (x : Nat) : x &&& 63 = x % 64 := Nat.and_two_pow_sub_one_eq_mod x 6
theorem and_1023 (x : Nat) : x &&& 1023 = x % 1024 := Nat.and_two_pow_sub_one_eq_mod x 10

end Cmp
