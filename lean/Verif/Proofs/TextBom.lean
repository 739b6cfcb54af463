import Verif.Proofs.TextRead

/-
The byte order mark.
-/

namespace Cmp

namespace InStream

variable {ρ : Type} {R : Reader ρ} {sizes : Nat → Prop} {tells : Bool}
  {left : List Byte → ρ → Prop}

theorem readByte_eq (D : R.Delivers sizes tells left) (native : Endian) (s : InStream ρ)
    (b : Byte) (bs : List Byte) (hs : sizes 1) (h : left (b :: bs) s.res) :
    ∃ r', readByte native R s = (.ok b, { s with res := r' }) ∧ left bs r' := by
  obtain ⟨r', e, q⟩ := read_full D native s [b] bs 1 rfl (by omega) hs h
  refine ⟨r', ?_, q⟩
  rw [readByte, M.bind_ok e]
  simp only [Nat.lt_irrefl, if_false]
  have : (if s.endian = native then [b] else [b].reverse).map some = [some b] := by
    split <;> simp
  rw [this]
  simp [loaded, M.bind_apply]

/-- A stream that begins with the byte order mark in byte order `o`. -/
theorem readBom_mark (D : R.Delivers sizes tells left) (native : Endian) (s : InStream ρ)
    (hf : s.form ≠ .utf8) (hs : sizes 1) (o : Endian) (rest : List Byte)
    (h : left (cpBytes s.form o 0xFEFF ++ rest) s.res) :
    ∃ r', readBom native R s = (.ok bom, { s with res := r', endian := o }) ∧ left rest r' := by
  rw [readBom, M.bind_ok (M.get_apply s)]
  cases hform : s.form with
  | utf8 => exact absurd hform hf
  | utf16 =>
    rw [hform] at h
    simp only [readUtf16Bom]
    cases o with
    | big =>
      have hb : cpBytes .utf16 .big 0xFEFF = [0xFE#8, 0xFF#8] := by decide
      rw [hb] at h
      obtain ⟨r1, e1, q1⟩ := readByte_eq D native s _ _ hs h
      obtain ⟨r2, e2, q2⟩ := readByte_eq D native { s with res := r1 } _ _ hs q1
      rw [M.bind_ok e1, M.bind_ok e2, if_pos ⟨rfl, rfl⟩]
      exact ⟨r2, by simp [setEndian, M.bind_apply, hform], q2⟩
    | little =>
      have hb : cpBytes .utf16 .little 0xFEFF = [0xFF#8, 0xFE#8] := by decide
      rw [hb] at h
      obtain ⟨r1, e1, q1⟩ := readByte_eq D native s _ _ hs h
      obtain ⟨r2, e2, q2⟩ := readByte_eq D native { s with res := r1 } _ _ hs q1
      rw [M.bind_ok e1, M.bind_ok e2, if_neg (by decide), if_pos ⟨rfl, rfl⟩]
      exact ⟨r2, by simp [setEndian, M.bind_apply, hform], q2⟩
  | utf32 =>
    rw [hform] at h
    simp only [readUtf32Bom]
    cases o with
    | big =>
      have hb : cpBytes .utf32 .big 0xFEFF = [0#8, 0#8, 0xFE#8, 0xFF#8] := by decide
      rw [hb] at h
      obtain ⟨r1, e1, q1⟩ := readByte_eq D native s _ _ hs h
      obtain ⟨r2, e2, q2⟩ := readByte_eq D native { s with res := r1 } _ _ hs q1
      obtain ⟨r3, e3, q3⟩ := readByte_eq D native { s with res := r2 } _ _ hs q2
      obtain ⟨r4, e4, q4⟩ := readByte_eq D native { s with res := r3 } _ _ hs q3
      rw [M.bind_ok e1, M.bind_ok e2, M.bind_ok e3, M.bind_ok e4, if_pos ⟨rfl, rfl, rfl, rfl⟩]
      exact ⟨r4, by simp [setEndian, M.bind_apply, hform], q4⟩
    | little =>
      have hb : cpBytes .utf32 .little 0xFEFF = [0xFF#8, 0xFE#8, 0#8, 0#8] := by decide
      rw [hb] at h
      obtain ⟨r1, e1, q1⟩ := readByte_eq D native s _ _ hs h
      obtain ⟨r2, e2, q2⟩ := readByte_eq D native { s with res := r1 } _ _ hs q1
      obtain ⟨r3, e3, q3⟩ := readByte_eq D native { s with res := r2 } _ _ hs q2
      obtain ⟨r4, e4, q4⟩ := readByte_eq D native { s with res := r3 } _ _ hs q3
      rw [M.bind_ok e1, M.bind_ok e2, M.bind_ok e3, M.bind_ok e4, if_neg (by decide),
        if_pos ⟨rfl, rfl, rfl, rfl⟩]
      exact ⟨r4, by simp [setEndian, M.bind_apply, hform], q4⟩

theorem unmarked16_big (b1 b2 : Byte) : (unmarked16 .big b1 b2).toNat = b2.toNat := by
  simp only [unmarked16]
  have : b1 <<< 8 = 0#8 := by
    apply BitVec.eq_of_toNat_eq
    rw [BitVec.toNat_shiftLeft, Nat.shiftLeft_eq]
    simp
  rw [this]
  have := bv8_lt b2
  simp
  omega

theorem unmarked16_little (b1 b2 : Byte) : (unmarked16 .little b1 b2).toNat = b1.toNat := by
  simp only [unmarked16]
  have : b2 <<< 8 = 0#8 := by
    apply BitVec.eq_of_toNat_eq
    rw [BitVec.toNat_shiftLeft, Nat.shiftLeft_eq]
    simp
  rw [this]
  have := bv8_lt b1
  simp
  omega

theorem shift_byte (b : Byte) (k : Nat) (h : 8 ≤ k) : b <<< k = 0#8 := by
  apply BitVec.eq_of_toNat_eq
  rw [BitVec.toNat_shiftLeft, Nat.shiftLeft_eq]
  obtain ⟨m, rfl⟩ : ∃ m, k = 8 + m := ⟨k - 8, by omega⟩
  rw [Nat.pow_add, Nat.mul_comm (2 ^ 8), ← Nat.mul_assoc, Nat.mul_mod_left]
  rfl

theorem unmarked32_big (b1 b2 b3 b4 : Byte) :
    unmarked32 .big b1 b2 b3 b4 = BitVec.ofNat 32 b4.toNat := by
  simp only [unmarked32, shift_byte _ 24 (by omega), shift_byte _ 16 (by omega),
    shift_byte _ 8 (by omega)]
  simp

theorem unmarked32_little (b1 b2 b3 b4 : Byte) :
    unmarked32 .little b1 b2 b3 b4 = BitVec.ofNat 32 b1.toNat := by
  simp only [unmarked32, shift_byte _ 24 (by omega), shift_byte _ 16 (by omega),
    shift_byte _ 8 (by omega)]
  simp

theorem objectBytes_two (o : Endian) (n : Nat) :
    objectBytes o 2 n = match o with
      | .big => [BitVec.ofNat 8 (n / 256), BitVec.ofNat 8 n]
      | .little => [BitVec.ofNat 8 n, BitVec.ofNat 8 (n / 256)] := by
  cases o <;> simp [objectBytes, List.range, List.range.loop]

theorem objectBytes_four (o : Endian) (n : Nat) :
    objectBytes o 4 n = match o with
      | .big => [BitVec.ofNat 8 (n / 16777216), BitVec.ofNat 8 (n / 65536),
          BitVec.ofNat 8 (n / 256), BitVec.ofNat 8 n]
      | .little => [BitVec.ofNat 8 n, BitVec.ofNat 8 (n / 256), BitVec.ofNat 8 (n / 65536),
          BitVec.ofNat 8 (n / 16777216)] := by
  cases o <;> simp [objectBytes, List.range, List.range.loop]

theorem ofNat8_eq {n m : Nat} (hm : m < 256) : BitVec.ofNat 8 n = BitVec.ofNat 8 m ↔ n % 256 = m := by
  constructor
  · intro h
    have := congrArg BitVec.toNat h
    rw [BitVec.toNat_ofNat, BitVec.toNat_ofNat] at this
    omega
  · intro h
    apply BitVec.eq_of_toNat_eq
    rw [BitVec.toNat_ofNat, BitVec.toNat_ofNat]
    omega

/-- UTF-16 without a mark: only the lower byte of the first code unit is returned. -/
theorem readBom_unmarked16 (D : R.Delivers sizes tells left) (native : Endian) (s : InStream ρ)
    (hf : s.form = .utf16) (hs : sizes 1) (u : Nat) (h1 : u % 65536 ≠ 0xFEFF)
    (h2 : u % 65536 ≠ 0xFFFE) (rest : List Byte)
    (h : left (objectBytes s.endian 2 u ++ rest) s.res) :
    ∃ r', readBom native R s = (.ok (BitVec.ofNat 32 (u % 256)), { s with res := r' }) ∧
      left rest r' := by
  rw [readBom, M.bind_ok (M.get_apply s)]
  simp only [hf, readUtf16Bom]
  have fin : ∀ (v : Char16) (r : ρ), v.toNat = u % 256 → left rest r →
      ∃ r', ((do
        let start ← M.lift (initializeUtf16Sequence v)
        finishUtf16 native R start.1 start.2 : M (InStream ρ) Char32)
          { s with res := r }) = (.ok (BitVec.ofNat 32 (u % 256)), { s with res := r' }) ∧
        left rest r' := by
    intro v r hv hr
    rw [initializeUtf16Sequence_eq, if_neg (by omega), if_neg (by omega),
      M.bind_ok (M.lift_apply _ _)]
    simp only [finishUtf16]
    rw [if_neg (by decide), hv]
    exact ⟨r, rfl, hr⟩
  rw [objectBytes_two] at h
  cases he : s.endian with
  | big =>
    rw [he] at h
    obtain ⟨r1, e1, q1⟩ := readByte_eq D native s _ _ hs h
    obtain ⟨r2, e2, q2⟩ := readByte_eq D native { s with res := r1 } _ _ hs q1
    rw [M.bind_ok e1, M.bind_ok e2, if_neg (by
        rintro ⟨a, b⟩
        rw [ofNat8_eq (by omega)] at a b
        omega), if_neg (by
        rintro ⟨a, b⟩
        rw [ofNat8_eq (by omega)] at a b
        omega), M.bind_ok (M.get_apply _)]
    simp only [he]
    have := fin (unmarked16 .big (BitVec.ofNat 8 (u / 256)) (BitVec.ofNat 8 u)) r2
      (by rw [unmarked16_big]; simp) q2
    rw [he] at this
    rw [hf] at this ⊢
    exact this
  | little =>
    rw [he] at h
    obtain ⟨r1, e1, q1⟩ := readByte_eq D native s _ _ hs h
    obtain ⟨r2, e2, q2⟩ := readByte_eq D native { s with res := r1 } _ _ hs q1
    rw [M.bind_ok e1, M.bind_ok e2, if_neg (by
        rintro ⟨a, b⟩
        rw [ofNat8_eq (by omega)] at a b
        omega), if_neg (by
        rintro ⟨a, b⟩
        rw [ofNat8_eq (by omega)] at a b
        omega), M.bind_ok (M.get_apply _)]
    simp only [he]
    have := fin (unmarked16 .little (BitVec.ofNat 8 u) (BitVec.ofNat 8 (u / 256))) r2
      (by rw [unmarked16_little]; simp) q2
    rw [he] at this
    rw [hf] at this ⊢
    exact this

/-- UTF-32 without a mark: only the lowest byte of the first code point is returned. -/
theorem readBom_unmarked32 (D : R.Delivers sizes tells left) (native : Endian) (s : InStream ρ)
    (hf : s.form = .utf32) (hs : sizes 1) (u : Nat) (hu : u ≤ 0x10FFFF) (h1 : u ≠ 0xFEFF)
    (rest : List Byte) (h : left (objectBytes s.endian 4 u ++ rest) s.res) :
    ∃ r', readBom native R s = (.ok (BitVec.ofNat 32 (u % 256)), { s with res := r' }) ∧
      left rest r' := by
  rw [readBom, M.bind_ok (M.get_apply s)]
  simp only [hf, readUtf32Bom]
  rw [objectBytes_four] at h
  cases he : s.endian with
  | big =>
    rw [he] at h
    obtain ⟨r1, e1, q1⟩ := readByte_eq D native s _ _ hs h
    obtain ⟨r2, e2, q2⟩ := readByte_eq D native { s with res := r1 } _ _ hs q1
    obtain ⟨r3, e3, q3⟩ := readByte_eq D native { s with res := r2 } _ _ hs q2
    obtain ⟨r4, e4, q4⟩ := readByte_eq D native { s with res := r3 } _ _ hs q3
    rw [M.bind_ok e1, M.bind_ok e2, M.bind_ok e3, M.bind_ok e4, if_neg (by
        rintro ⟨a, b, c, d⟩
        rw [ofNat8_eq (by omega)] at a b c d
        omega), if_neg (by
        rintro ⟨a, b, c, d⟩
        rw [ofNat8_eq (by omega)] at a b c d
        omega), M.bind_ok (M.get_apply _)]
    simp only [he, unmarked32_big]
    exact ⟨r4, by simp [hf], q4⟩
  | little =>
    rw [he] at h
    obtain ⟨r1, e1, q1⟩ := readByte_eq D native s _ _ hs h
    obtain ⟨r2, e2, q2⟩ := readByte_eq D native { s with res := r1 } _ _ hs q1
    obtain ⟨r3, e3, q3⟩ := readByte_eq D native { s with res := r2 } _ _ hs q2
    obtain ⟨r4, e4, q4⟩ := readByte_eq D native { s with res := r3 } _ _ hs q3
    rw [M.bind_ok e1, M.bind_ok e2, M.bind_ok e3, M.bind_ok e4, if_neg (by
        rintro ⟨a, b, c, d⟩
        rw [ofNat8_eq (by omega)] at a b c d
        omega), if_neg (by
        rintro ⟨a, b, c, d⟩
        rw [ofNat8_eq (by omega)] at a b c d
        omega), M.bind_ok (M.get_apply _)]
    simp only [he, unmarked32_little]
    exact ⟨r4, by simp [hf], q4⟩

end InStream

end Cmp
