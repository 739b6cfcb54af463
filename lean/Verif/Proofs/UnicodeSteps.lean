import Verif.Proofs.UnicodeBits

/-
Helper lemmas: one step of the iterators and of the encoders on the encoding of one code
point, in any context.
-/

namespace Cmp

/-- The encoding of a code point in the units of each character type. -/
def encU : (e : Enc) → Nat → Str e
  | .narrow, c => [BitVec.ofNat 8 c]
  | .char8, c => (Spec.utf8 c).map (BitVec.ofNat 8)
  | .char16, c => (Spec.utf16 c).map (BitVec.ofNat 16)
  | .char32, c => [BitVec.ofNat 32 c]
  | .wide2, c => (Spec.utf16 c).map (BitVec.ofNat 16)
  | .wide4, c => [BitVec.ofNat 32 c]

/-- Encoding of a text. -/
def encs (e : Enc) (cs : List Nat) : Str e := cs.flatMap (encU e)

@[simp] theorem encs_nil (e : Enc) : encs e [] = [] := rfl
@[simp] theorem encs_cons (e : Enc) (c : Nat) (cs : List Nat) :
    encs e (c :: cs) = encU e c ++ encs e cs := by simp [encs]
@[simp] theorem encs_append (e : Enc) (a b : List Nat) :
    encs e (a ++ b) = encs e a ++ encs e b := by simp [encs]

/-- Code points that dereferencing and stepping back handle correctly. -/
def BwdOk : Enc → Nat → Prop
  | .narrow, c => c < 128
  | .char8, c => Spec.IsScalar c
  | .char16, c => Spec.IsScalar c
  | .char32, c => c < 2 ^ 32
  | .wide2, c => Spec.IsScalar c
  | .wide4, c => c < 2 ^ 32

/-- Code points that stepping forward handles correctly. -/
def FwdOk : Enc → Nat → Prop
  | .narrow, c => c < 128
  | .char8, c => Spec.IsScalar c
  | .char16, c => Spec.IsScalar c ∧ c < 0x10000
  | .char32, c => c < 2 ^ 32
  | .wide2, c => Spec.IsScalar c ∧ c < 0x10000
  | .wide4, c => c < 2 ^ 32

theorem FwdOk.bwd {e : Enc} {c : Nat} (h : FwdOk e c) : BwdOk e c := by
  cases e <;> simp_all [FwdOk, BwdOk]

theorem unitAt_append_right {α : Type} (pre l : List α) (k : Nat) :
    unitAt (pre ++ l) (pre.length + k) = unitAt l k := by
  simp [unitAt, List.getElem?_append_right]

theorem unitAt_append_zero {α : Type} (pre l : List α) :
    unitAt (pre ++ l) pre.length = unitAt l 0 := unitAt_append_right pre l 0

@[simp] theorem unitAt_zero {α : Type} (x : α) (l : List α) : unitAt (x :: l) 0 = .ok x := rfl
@[simp] theorem unitAt_succ {α : Type} (x : α) (l : List α) (k : Nat) :
    unitAt (x :: l) (k + 1) = unitAt l k := by simp [unitAt]

@[simp] theorem toNat_ofNat8 (n : Nat) : (BitVec.ofNat 8 n).toNat = n % 256 := by simp
@[simp] theorem toNat_ofNat16 (n : Nat) : (BitVec.ofNat 16 n).toNat = n % 65536 := by simp

/-- The three multi-byte shapes and the single byte. -/
theorem utf8_cases (c : Nat) (h : Spec.IsScalar c) :
    (c < 128 ∧ Spec.utf8 c = [c]) ∨
    (128 ≤ c ∧ c < 2048 ∧ Spec.utf8 c = [0xC0 + c / 64, 0x80 + c % 64]) ∨
    (2048 ≤ c ∧ c < 65536 ∧
      Spec.utf8 c = [0xE0 + c / 4096, 0x80 + c / 64 % 64, 0x80 + c % 64]) ∨
    (65536 ≤ c ∧ c ≤ 0x10FFFF ∧ Spec.utf8 c =
      [0xF0 + c / 262144, 0x80 + c / 4096 % 64, 0x80 + c / 64 % 64, 0x80 + c % 64]) := by
  unfold Spec.IsScalar at h
  unfold Spec.utf8
  by_cases h1 : c < 128
  · simp [h1]
  · by_cases h2 : c < 2048
    · right; left; simp [h1, h2]; omega
    · by_cases h3 : c < 65536
      · right; right; left; simp [h1, h2, h3]; omega
      · right; right; right; simp [h1, h2, h3]; omega

theorem refFinish_step (s : List Char8) (n : Nat) (r : Char32) (i : Nat) (u : Char8)
    (hi : i + 1 ≠ s.length) (hu : unitAt s (i + 1) = .ok u) (ht : u.toNat / 64 = 2)
    (hr : r.toNat < 2 ^ 26) :
    Utf8.refFinish s (n + 1) r i
      = Utf8.refFinish s n (BitVec.ofNat 32 (r.toNat * 64 + u.toNat % 64)) (i + 1) := by
  have e : (r <<< 6) ||| (u &&& 0b00111111#8).setWidth 32
      = BitVec.ofNat 32 (r.toNat * 64 + u.toNat % 64) := by
    apply BitVec.eq_of_toNat_eq
    rw [shl6_or r u hr, BitVec.toNat_ofNat]; omega
  rw [Utf8.refFinish, if_neg hi, hu]
  rw [← e, Outcome.ok_bind, isTrailingByte_eq, if_neg (by simp [ht])]

theorem advFinish_step (s : List Char8) (n i : Nat) (u : Char8)
    (hi : i ≠ s.length) (hu : unitAt s (i + 1) = .ok u) (ht : u.toNat / 64 = 2) :
    Utf8.advFinish s (n + 1) i = Utf8.advFinish s n (i + 1) := by
  rw [Utf8.advFinish, if_neg hi, hu]
  simp [isTrailingByte_eq, ht]

theorem utf8_deref_enc (c : Nat) (h : Spec.IsScalar c) (pre post : List Char8) :
    Utf8.deref (pre ++ ((Spec.utf8 c).map (BitVec.ofNat 8) ++ post)) pre.length
      = .ok (BitVec.ofNat 32 c) := by
  rcases utf8_cases c h with ⟨h1, e⟩ | ⟨h1, h2, e⟩ | ⟨h1, h2, e⟩ | ⟨h1, h2, e⟩ <;> rw [e]
  · simp only [List.map_cons, List.map_nil, List.cons_append, List.nil_append]
    rw [Utf8.deref, if_neg (by simp), unitAt_append_zero, unitAt_zero, Outcome.ok_bind,
      initializeUtf8Sequence_eq, if_pos (by simp; omega)]
    simp only [Outcome.ok_bind, Utf8.refFinish, Nat.sub_self]
    congr 1; apply BitVec.eq_of_toNat_eq; simp; omega
  · simp only [List.map_cons, List.map_nil, List.cons_append, List.nil_append]
    rw [Utf8.deref, if_neg (by simp), unitAt_append_zero, unitAt_zero, Outcome.ok_bind,
      initializeUtf8Sequence_eq, if_neg (by simp; omega), if_pos (by simp; omega)]
    simp only [Outcome.ok_bind]
    rw [refFinish_step _ 0 _ _ (BitVec.ofNat 8 (0x80 + c % 64)) (by simp <;> omega)
      (by rw [unitAt_append_right]; simp) (by simp; omega) (by simp; omega)]
    simp only [Utf8.refFinish]
    congr 1; apply BitVec.eq_of_toNat_eq; simp; omega
  · simp only [List.map_cons, List.map_nil, List.cons_append, List.nil_append]
    rw [Utf8.deref, if_neg (by simp), unitAt_append_zero, unitAt_zero, Outcome.ok_bind,
      initializeUtf8Sequence_eq, if_neg (by simp; omega), if_neg (by simp; omega),
      if_pos (by simp; omega)]
    simp only [Outcome.ok_bind]
    rw [refFinish_step _ 1 _ _ (BitVec.ofNat 8 (0x80 + c / 64 % 64)) (by simp <;> omega)
      (by rw [unitAt_append_right]; simp) (by simp; omega) (by simp; omega)]
    rw [refFinish_step _ 0 _ _ (BitVec.ofNat 8 (0x80 + c % 64)) (by simp <;> omega)
      (by rw [Nat.add_assoc, unitAt_append_right]; simp) (by simp; omega) (by simp; omega)]
    simp only [Utf8.refFinish]
    congr 1; apply BitVec.eq_of_toNat_eq; simp; omega
  · simp only [List.map_cons, List.map_nil, List.cons_append, List.nil_append]
    rw [Utf8.deref, if_neg (by simp), unitAt_append_zero, unitAt_zero, Outcome.ok_bind,
      initializeUtf8Sequence_eq, if_neg (by simp; omega), if_neg (by simp; omega),
      if_neg (by simp; omega), if_pos (by simp; omega)]
    simp only [Outcome.ok_bind]
    rw [refFinish_step _ 2 _ _ (BitVec.ofNat 8 (0x80 + c / 4096 % 64)) (by simp <;> omega)
      (by rw [unitAt_append_right]; simp) (by simp; omega) (by simp; omega)]
    rw [refFinish_step _ 1 _ _ (BitVec.ofNat 8 (0x80 + c / 64 % 64)) (by simp <;> omega)
      (by rw [Nat.add_assoc, unitAt_append_right]; simp) (by simp; omega) (by simp; omega)]
    rw [refFinish_step _ 0 _ _ (BitVec.ofNat 8 (0x80 + c % 64)) (by simp <;> omega)
      (by rw [Nat.add_assoc, Nat.add_assoc, unitAt_append_right]; simp) (by simp; omega)
      (by simp; omega)]
    simp only [Utf8.refFinish]
    congr 1; apply BitVec.eq_of_toNat_eq; simp; omega

theorem utf8_advance_enc (c : Nat) (h : Spec.IsScalar c) (pre post : List Char8) :
    Utf8.advance (pre ++ ((Spec.utf8 c).map (BitVec.ofNat 8) ++ post)) pre.length
      = .ok (pre.length + (Spec.utf8 c).length) := by
  rcases utf8_cases c h with ⟨h1, e⟩ | ⟨h1, h2, e⟩ | ⟨h1, h2, e⟩ | ⟨h1, h2, e⟩ <;> rw [e]
  · simp only [List.map_cons, List.map_nil, List.cons_append, List.nil_append]
    rw [Utf8.advance, unitAt_append_zero, unitAt_zero, Outcome.ok_bind,
      initializeUtf8Sequence_eq, if_pos (by simp; omega)]
    simp [Utf8.advFinish]
  · simp only [List.map_cons, List.map_nil, List.cons_append, List.nil_append]
    rw [Utf8.advance, unitAt_append_zero, unitAt_zero, Outcome.ok_bind,
      initializeUtf8Sequence_eq, if_neg (by simp; omega), if_pos (by simp; omega)]
    simp only [Outcome.ok_bind]
    rw [advFinish_step _ 0 _ (BitVec.ofNat 8 (0x80 + c % 64)) (by simp <;> omega)
      (by rw [unitAt_append_right]; simp) (by simp; omega)]
    simp [Utf8.advFinish]
  · simp only [List.map_cons, List.map_nil, List.cons_append, List.nil_append]
    rw [Utf8.advance, unitAt_append_zero, unitAt_zero, Outcome.ok_bind,
      initializeUtf8Sequence_eq, if_neg (by simp; omega), if_neg (by simp; omega),
      if_pos (by simp; omega)]
    simp only [Outcome.ok_bind]
    rw [advFinish_step _ 1 _ (BitVec.ofNat 8 (0x80 + c / 64 % 64)) (by simp <;> omega)
      (by rw [unitAt_append_right]; simp) (by simp; omega)]
    rw [advFinish_step _ 0 _ (BitVec.ofNat 8 (0x80 + c % 64)) (by simp <;> omega)
      (by rw [Nat.add_assoc, unitAt_append_right]; simp) (by simp; omega)]
    simp [Utf8.advFinish]
  · simp only [List.map_cons, List.map_nil, List.cons_append, List.nil_append]
    rw [Utf8.advance, unitAt_append_zero, unitAt_zero, Outcome.ok_bind,
      initializeUtf8Sequence_eq, if_neg (by simp; omega), if_neg (by simp; omega),
      if_neg (by simp; omega), if_pos (by simp; omega)]
    simp only [Outcome.ok_bind]
    rw [advFinish_step _ 2 _ (BitVec.ofNat 8 (0x80 + c / 4096 % 64)) (by simp <;> omega)
      (by rw [unitAt_append_right]; simp) (by simp; omega)]
    rw [advFinish_step _ 1 _ (BitVec.ofNat 8 (0x80 + c / 64 % 64)) (by simp <;> omega)
      (by rw [Nat.add_assoc, unitAt_append_right]; simp) (by simp; omega)]
    rw [advFinish_step _ 0 _ (BitVec.ofNat 8 (0x80 + c % 64)) (by simp <;> omega)
      (by rw [Nat.add_assoc, Nat.add_assoc, unitAt_append_right]; simp) (by simp; omega)]
    simp [Utf8.advFinish]

theorem retreatLoop_trailing (s : List Char8) (i : Nat) (u : Char8)
    (hu : unitAt s (i + 1) = .ok u) (ht : u.toNat / 64 = 2) :
    Utf8.retreatLoop s (i + 1) = Utf8.retreatLoop s i := by
  rw [Utf8.retreatLoop, hu]; simp [isTrailingByte_eq, ht]

theorem retreatLoop_stop (s : List Char8) (i : Nat) (u : Char8)
    (hu : unitAt s i = .ok u) (ht : u.toNat / 64 ≠ 2) :
    Utf8.retreatLoop s i = .ok i := by
  cases i with
  | zero => rw [Utf8.retreatLoop, hu]; simp [isTrailingByte_eq, ht]
  | succ i => rw [Utf8.retreatLoop, hu]; simp [isTrailingByte_eq, ht]

theorem utf8_retreat_succ (s : List Char8) (i : Nat) (u : Char8) (hu : unitAt s i = .ok u) :
    Utf8.retreat s (i + 1) = if u.toNat < 128 then .ok i else Utf8.retreatLoop s i := by
  rw [Utf8.retreat, hu, Outcome.ok_bind, isStandaloneByte_eq]; simp

theorem utf8_retreat_enc (c : Nat) (h : Spec.IsScalar c) (pre post : List Char8) :
    Utf8.retreat (pre ++ ((Spec.utf8 c).map (BitVec.ofNat 8) ++ post))
      (pre.length + (Spec.utf8 c).length) = .ok pre.length := by
  rcases utf8_cases c h with ⟨h1, e⟩ | ⟨h1, h2, e⟩ | ⟨h1, h2, e⟩ | ⟨h1, h2, e⟩ <;> rw [e]
  · simp only [List.map_cons, List.map_nil, List.cons_append, List.nil_append,
      List.length_cons, List.length_nil]
    rw [utf8_retreat_succ _ pre.length (BitVec.ofNat 8 c)
      (by rw [unitAt_append_zero]; simp), if_pos (by simp; omega)]
  · simp only [List.map_cons, List.map_nil, List.cons_append, List.nil_append,
      List.length_cons, List.length_nil]
    rw [utf8_retreat_succ _ (pre.length + 1) (BitVec.ofNat 8 (0x80 + c % 64))
      (by rw [unitAt_append_right]; simp), if_neg (by simp; omega)]
    rw [retreatLoop_trailing _ _ (BitVec.ofNat 8 (0x80 + c % 64))
      (by rw [unitAt_append_right]; simp) (by simp; omega)]
    rw [retreatLoop_stop _ _ (BitVec.ofNat 8 (0xC0 + c / 64))
      (by rw [unitAt_append_zero]; simp) (by simp; omega)]
  · simp only [List.map_cons, List.map_nil, List.cons_append, List.nil_append,
      List.length_cons, List.length_nil]
    rw [utf8_retreat_succ _ (pre.length + 2) (BitVec.ofNat 8 (0x80 + c % 64))
      (by rw [unitAt_append_right]; simp), if_neg (by simp; omega)]
    rw [retreatLoop_trailing _ (pre.length + 1) (BitVec.ofNat 8 (0x80 + c % 64))
      (by rw [Nat.add_assoc, unitAt_append_right]; simp) (by simp; omega)]
    rw [retreatLoop_trailing _ pre.length (BitVec.ofNat 8 (0x80 + c / 64 % 64))
      (by rw [unitAt_append_right]; simp) (by simp; omega)]
    rw [retreatLoop_stop _ _ (BitVec.ofNat 8 (0xE0 + c / 4096))
      (by rw [unitAt_append_zero]; simp) (by simp; omega)]
  · simp only [List.map_cons, List.map_nil, List.cons_append, List.nil_append,
      List.length_cons, List.length_nil]
    rw [utf8_retreat_succ _ (pre.length + 3) (BitVec.ofNat 8 (0x80 + c % 64))
      (by rw [unitAt_append_right]; simp), if_neg (by simp; omega)]
    rw [retreatLoop_trailing _ (pre.length + 2) (BitVec.ofNat 8 (0x80 + c % 64))
      (by rw [Nat.add_assoc, unitAt_append_right]; simp) (by simp; omega)]
    rw [retreatLoop_trailing _ (pre.length + 1) (BitVec.ofNat 8 (0x80 + c / 64 % 64))
      (by rw [Nat.add_assoc, unitAt_append_right]; simp) (by simp; omega)]
    rw [retreatLoop_trailing _ pre.length (BitVec.ofNat 8 (0x80 + c / 4096 % 64))
      (by rw [unitAt_append_right]; simp) (by simp; omega)]
    rw [retreatLoop_stop _ _ (BitVec.ofNat 8 (0xF0 + c / 262144))
      (by rw [unitAt_append_zero]; simp) (by simp; omega)]

/-! ### UTF-16 -/

theorem utf16_cases (c : Nat) (h : Spec.IsScalar c) :
    (c < 65536 ∧ ¬ (0xD800 ≤ c ∧ c ≤ 0xDFFF) ∧ Spec.utf16 c = [c]) ∨
    (65536 ≤ c ∧ c ≤ 0x10FFFF ∧
      Spec.utf16 c = [0xD800 + (c - 0x10000) / 1024, 0xDC00 + (c - 0x10000) % 1024]) := by
  unfold Spec.IsScalar at h
  unfold Spec.utf16
  by_cases h1 : c < 65536
  · simp [h1]; omega
  · simp [h1]; omega

theorem unit_decode (c : Nat) (h : c < 65536) :
    BitVec.ofNat 32 (BitVec.ofNat 16 c).toNat = BitVec.ofNat 32 c := by
  rw [BitVec.toNat_ofNat, Nat.mod_eq_of_lt (by omega)]

theorem pair_decode (c : Nat) (h1 : 65536 ≤ c) (h2 : c ≤ 0x10FFFF) :
    BitVec.ofNat 32 (((BitVec.ofNat 16 (0xD800 + (c - 0x10000) / 1024)).toNat - 0xD800) * 1024)
        + ((BitVec.ofNat 16 (0xDC00 + (c - 0x10000) % 1024)).setWidth 32 - 0xDC00#32)
        + 0x10000#32
      = BitVec.ofNat 32 c := by
  apply BitVec.eq_of_toNat_eq
  rw [BitVec.toNat_add, BitVec.toNat_add, BitVec.toNat_sub]
  simp only [BitVec.toNat_setWidth, BitVec.toNat_ofNat]
  omega

theorem utf16_deref_one (s : List Char16) (i : Nat) (u : Char16) (hi : i ≠ s.length)
    (hu : unitAt s i = .ok u) (h : ¬ (0xD800 ≤ u.toNat ∧ u.toNat ≤ 0xDFFF)) :
    Utf16.deref s i = .ok (BitVec.ofNat 32 u.toNat) := by
  rw [Utf16.deref, if_neg hi, hu, Outcome.ok_bind, initializeUtf16Sequence_eq,
    if_neg (by omega), if_neg (by omega)]
  rfl

theorem utf16_deref_two (s : List Char16) (i : Nat) (u v : Char16) (hi : i ≠ s.length)
    (hi' : i + 1 ≠ s.length)
    (hu : unitAt s i = .ok u) (hv : unitAt s (i + 1) = .ok v)
    (h : 0xD800 ≤ u.toNat ∧ u.toNat ≤ 0xDBFF) (h' : 0xDC00 ≤ v.toNat ∧ v.toNat ≤ 0xDFFF) :
    Utf16.deref s i = .ok (BitVec.ofNat 32 ((u.toNat - 0xD800) * 1024)
      + (v.setWidth 32 - 0xDC00#32) + 0x10000#32) := by
  rw [Utf16.deref, if_neg hi, hu, Outcome.ok_bind, initializeUtf16Sequence_eq, if_pos h,
    Outcome.ok_bind]
  dsimp only
  rw [if_pos rfl, if_neg hi', hv, Outcome.ok_bind, isTrailingSurrogate_eq, decide_eq_true h']
  rfl

theorem utf16_deref_enc (c : Nat) (h : Spec.IsScalar c) (pre post : List Char16) :
    Utf16.deref (pre ++ ((Spec.utf16 c).map (BitVec.ofNat 16) ++ post)) pre.length
      = .ok (BitVec.ofNat 32 c) := by
  rcases utf16_cases c h with ⟨h1, h2, e⟩ | ⟨h1, h2, e⟩ <;> rw [e]
  · rw [utf16_deref_one _ _ (BitVec.ofNat 16 c) (by simp) (by rw [unitAt_append_zero]; rfl)
      (by simp; omega), unit_decode c h1]
  · rw [utf16_deref_two _ _ (BitVec.ofNat 16 (0xD800 + (c - 0x10000) / 1024))
      (BitVec.ofNat 16 (0xDC00 + (c - 0x10000) % 1024)) (by simp) (by simp)
      (by rw [unitAt_append_zero]; rfl) (by rw [unitAt_append_right]; rfl)
      (by rw [BitVec.toNat_ofNat]; omega) (by rw [BitVec.toNat_ofNat]; omega), pair_decode c h1 h2]

theorem utf16_advance_enc (c : Nat) (h : Spec.IsScalar c) (hb : c < 0x10000)
    (pre post : List Char16) :
    Utf16.advance (pre ++ ((Spec.utf16 c).map (BitVec.ofNat 16) ++ post)) pre.length
      = .ok (pre.length + (Spec.utf16 c).length) := by
  rcases utf16_cases c h with ⟨h1, h2, e⟩ | ⟨h1, h2, e⟩
  · rw [e]
    simp only [List.map_cons, List.map_nil, List.cons_append, List.nil_append]
    rw [Utf16.advance, unitAt_append_zero, unitAt_zero, Outcome.ok_bind,
      initializeUtf16Sequence_eq, if_neg (by simp; omega), if_neg (by simp; omega)]
    simp
  · omega

theorem utf16_retreat_succ (s : List Char16) (i : Nat) (u : Char16)
    (hu : unitAt s i = .ok u) (ht : ¬ (0xDC00 ≤ u.toNat ∧ u.toNat ≤ 0xDFFF)) :
    Utf16.retreat s (i + 1) = .ok i := by
  have e : Utf16.retreat s (i + 1) = (unitAt s i >>= fun u =>
      if isTrailingSurrogate u then
        match i with
        | 0 => .ub
        | j + 1 => .ok j
      else .ok i) := rfl
  rw [e, hu, Outcome.ok_bind, isTrailingSurrogate_eq, decide_eq_false ht, if_neg (by simp)]

theorem utf16_retreat_succ2 (s : List Char16) (i : Nat) (u : Char16)
    (hu : unitAt s (i + 1) = .ok u) (ht : 0xDC00 ≤ u.toNat ∧ u.toNat ≤ 0xDFFF) :
    Utf16.retreat s (i + 2) = .ok i := by
  have e : Utf16.retreat s (i + 2) = (unitAt s (i + 1) >>= fun u =>
      if isTrailingSurrogate u then .ok i else .ok (i + 1)) := rfl
  rw [e, hu, Outcome.ok_bind, isTrailingSurrogate_eq, decide_eq_true ht, if_pos rfl]

theorem utf16_retreat_enc (c : Nat) (h : Spec.IsScalar c) (pre post : List Char16) :
    Utf16.retreat (pre ++ ((Spec.utf16 c).map (BitVec.ofNat 16) ++ post))
      (pre.length + (Spec.utf16 c).length) = .ok pre.length := by
  rcases utf16_cases c h with ⟨h1, h2, e⟩ | ⟨h1, h2, e⟩ <;> rw [e]
  · simp only [List.map_cons, List.map_nil, List.cons_append, List.nil_append,
      List.length_cons, List.length_nil]
    exact utf16_retreat_succ _ _ (BitVec.ofNat 16 c) (by rw [unitAt_append_zero]; simp)
      (by simp; omega)
  · simp only [List.map_cons, List.map_nil, List.cons_append, List.nil_append,
      List.length_cons, List.length_nil]
    exact utf16_retreat_succ2 _ _ (BitVec.ofNat 16 (0xDC00 + (c - 0x10000) % 1024))
      (by rw [unitAt_append_right]; simp) (by simp; omega)

/-! ### All character types -/

theorem signExtend_ascii (c : Nat) (h : c < 128) :
    (BitVec.ofNat 8 c).signExtend 32 = BitVec.ofNat 32 c := by
  have : ∀ c < 128, (BitVec.ofNat 8 c).signExtend 32 = BitVec.ofNat 32 c := by decide
  exact this c h

theorem narrowDeref_enc (c : Nat) (h : c < 128) (pre post : List Char8) :
    narrowDeref (pre ++ BitVec.ofNat 8 c :: post) pre.length = .ok (BitVec.ofNat 32 c) := by
  rw [narrowDeref, if_neg (by simp), unitAt_append_zero, unitAt_zero, Outcome.ok_bind,
    signExtend_ascii c h]

theorem rawDeref_enc (c : Char32) (pre post : List Char32) :
    rawDeref (pre ++ c :: post) pre.length = .ok c := by
  rw [rawDeref, if_neg (by simp), unitAt_append_zero, unitAt_zero]

theorem deref_enc (e : Enc) (c : Nat) (h : BwdOk e c) (pre post : Str e) :
    deref e (pre ++ (encU e c ++ post)) pre.length = .ok (BitVec.ofNat 32 c) := by
  cases e with
  | narrow => exact narrowDeref_enc c h pre post
  | char8 => exact utf8_deref_enc c h pre post
  | char16 => exact utf16_deref_enc c h pre post
  | wide2 => exact utf16_deref_enc c h pre post
  | char32 => exact rawDeref_enc _ pre post
  | wide4 => exact rawDeref_enc _ pre post

theorem advance_enc (e : Enc) (c : Nat) (h : FwdOk e c) (pre post : Str e) :
    advance e (pre ++ (encU e c ++ post)) pre.length = .ok (pre.length + (encU e c).length) := by
  cases e with
  | narrow => simp [advance, encU, rawAdvance]
  | char8 => simpa [encU, advance] using utf8_advance_enc c h pre post
  | char16 => simpa [encU, advance] using utf16_advance_enc c h.1 h.2 pre post
  | wide2 => simpa [encU, advance] using utf16_advance_enc c h.1 h.2 pre post
  | char32 => simp [advance, encU, rawAdvance]
  | wide4 => simp [advance, encU, rawAdvance]

theorem retreat_enc (e : Enc) (c : Nat) (h : BwdOk e c) (pre post : Str e) :
    retreat e (pre ++ (encU e c ++ post)) (pre.length + (encU e c).length)
      = .ok pre.length := by
  cases e with
  | narrow => simp [retreat, encU, rawRetreat]
  | char8 => simpa [encU, retreat] using utf8_retreat_enc c h pre post
  | char16 => simpa [encU, retreat] using utf16_retreat_enc c h pre post
  | wide2 => simpa [encU, retreat] using utf16_retreat_enc c h pre post
  | char32 => simp [retreat, encU, rawRetreat]
  | wide4 => simp [retreat, encU, rawRetreat]

theorem encU_length_pos (e : Enc) (c : Nat) : 0 < (encU e c).length := by
  cases e <;> simp [encU, Spec.utf8, Spec.utf16] <;> (repeat' split) <;> simp

theorem encs_length_ge (e : Enc) (cs : List Nat) : cs.length ≤ (encs e cs).length := by
  induction cs with
  | nil => simp
  | cons c cs ih =>
    have := encU_length_pos e c
    simp; omega

end Cmp
