import Verif.Spec.Recover
import Verif.Proofs.TextLines

/-
Reading code points from arbitrary bytes: what is taken each time.
-/

namespace Cmp

open Spec (Taken Item Itemised passReturns)

theorem takeTail_pos (len : Nat) : ∀ (n acc : Nat) (l : List Nat), n < len →
    match Spec.takeTail len n acc l with
    | .char _ k => 0 < k
    | .bad k => 0 < k
    | .cut => True := by
  intro n
  induction n with
  | zero => intro acc l h; simpa [Spec.takeTail] using h
  | succ n ih =>
    intro acc l h
    cases l with
    | nil => trivial
    | cons b bs =>
      rw [Spec.takeTail]
      by_cases hb : 0x80 ≤ b ∧ b < 0xC0
      · rw [if_pos hb]
        exact ih _ _ (by omega)
      · rw [if_neg hb]
        simp only
        omega

/-- Something is taken. -/
theorem takeBytes_pos (f : Spec.Form) (o : Spec.ByteOrder) (l : List Nat) :
    match f.takeBytes o l with
    | .char _ k => 0 < k
    | .bad k => 0 < k
    | .cut => True := by
  cases f with
  | utf8 =>
    rw [Spec.Form.takeBytes]
    cases l with
    | nil => trivial
    | cons b bs =>
      rw [Spec.take8]
      by_cases h1 : b < 0x80
      · rw [if_pos h1]; simp
      rw [if_neg h1]
      by_cases h2 : 0xC0 ≤ b ∧ b < 0xE0
      · rw [if_pos h2]; exact takeTail_pos _ _ _ _ (by omega)
      rw [if_neg h2]
      by_cases h3 : 0xE0 ≤ b ∧ b < 0xF0
      · rw [if_pos h3]; exact takeTail_pos _ _ _ _ (by omega)
      rw [if_neg h3]
      by_cases h4 : 0xF0 ≤ b ∧ b < 0xF8
      · rw [if_pos h4]; exact takeTail_pos _ _ _ _ (by omega)
      rw [if_neg h4]; simp
  | utf16 =>
    rw [Spec.Form.takeBytes]
    cases o.units 2 2 l with
    | nil => trivial
    | cons u us =>
      rw [Spec.take16]
      by_cases h1 : 0xD800 ≤ u ∧ u ≤ 0xDBFF
      · rw [if_pos h1]
        cases us with
        | nil => trivial
        | cons v vs =>
          rw [Spec.takePair]
          by_cases h2 : 0xDC00 ≤ v ∧ v ≤ 0xDFFF
          · rw [if_pos h2]; simp
          · rw [if_neg h2]; simp
      rw [if_neg h1]
      by_cases h2 : 0xDC00 ≤ u ∧ u ≤ 0xDFFF
      · rw [if_pos h2]; simp
      · rw [if_neg h2]; simp
  | utf32 =>
    rw [Spec.Form.takeBytes]
    cases o.units 4 1 l with
    | nil => trivial
    | cons u us => simp

/-- All bytes are a sequence of items. -/
theorem itemised_exists (f : Spec.Form) (o : Spec.ByteOrder) (l : List Nat) :
    ∃ is, Itemised f o l is := by
  suffices ∀ n (l : List Nat), l.length ≤ n → ∃ is, Itemised f o l is from this _ _ (Nat.le_refl _)
  intro n
  induction n with
  | zero =>
    intro l h
    have : l = [] := List.eq_nil_of_length_eq_zero (by omega)
    exact ⟨[], this ▸ .none⟩
  | succ n ih =>
    intro l h
    by_cases hl : l = []
    · exact ⟨[], hl ▸ .none⟩
    have hp := takeBytes_pos f o l
    have hlen : 0 < l.length := List.length_pos_iff.mpr hl
    cases ht : f.takeBytes o l with
    | char v k =>
      rw [ht] at hp
      obtain ⟨is, h'⟩ := ih (l.drop k) (by rw [List.length_drop]; simp only at hp; omega)
      exact ⟨_, .char ht h'⟩
    | bad k =>
      rw [ht] at hp
      obtain ⟨is, h'⟩ := ih (l.drop k) (by rw [List.length_drop]; simp only at hp; omega)
      exact ⟨_, .bad ht h'⟩
    | cut => exact ⟨_, .cut hl ht⟩

theorem takeBytes_nil (f : Spec.Form) (o : Spec.ByteOrder) : f.takeBytes o [] = .cut := by
  cases f <;> cases o <;> rfl

theorem itemised_nil {f : Spec.Form} {o : Spec.ByteOrder} {l : List Nat} (h : Itemised f o l []) :
    l = [] := by
  cases h
  rfl

theorem itemised_of_nil {f : Spec.Form} {o : Spec.ByteOrder} {is : List Item}
    (h : Itemised f o [] is) : is = [] := by
  cases h with
  | none => rfl
  | char h _ => rw [takeBytes_nil] at h; cases h
  | bad h _ => rw [takeBytes_nil] at h; cases h
  | cut h _ => exact absurd rfl h

/-- They are so in one way only. -/
theorem itemised_unique {f : Spec.Form} {o : Spec.ByteOrder} {l : List Nat} {is js : List Item}
    (h : Itemised f o l is) (h' : Itemised f o l js) : is = js := by
  induction h generalizing js with
  | none => exact (itemised_of_nil h').symm
  | char h t ih =>
    cases h' with
    | none => rw [takeBytes_nil] at h; cases h
    | char h2 t2 =>
      rw [h] at h2
      cases h2
      rw [ih t2]
    | bad h2 _ => rw [h] at h2; cases h2
    | cut _ h2 => rw [h] at h2; cases h2
  | bad h t ih =>
    cases h' with
    | none => rw [takeBytes_nil] at h; cases h
    | char h2 t2 => rw [h] at h2; cases h2
    | bad h2 t2 =>
      rw [h] at h2
      cases h2
      rw [ih t2]
    | cut _ h2 => rw [h] at h2; cases h2
  | cut hl h =>
    cases h' with
    | none => exact absurd rfl hl
    | char h2 _ => rw [h] at h2; cases h2
    | bad h2 _ => rw [h] at h2; cases h2
    | cut _ _ => rfl

/-- How reading a code point reports what is taken from the bytes `bs`. -/
def TakeRead {ρ : Type} (left : List Byte → ρ → Prop) (s : InStream ρ) (bs : List Byte) :
    Taken → Outcome Char32 × InStream ρ → Prop
  | .char v n, out => ∃ r', out = (.ok (BitVec.ofNat 32 v), { s with res := r' }) ∧ left (bs.drop n) r'
  | .bad n, out => ∃ r', out = (.throw .invalidUnicodeEncoding, { s with res := r' }) ∧
      left (bs.drop n) r'
  | .cut, out => ∃ r', out = (.throw .readPastEnd, { s with res := r' }) ∧ left [] r'

namespace InStream

variable {ρ : Type} {R : Reader ρ} {sizes : Nat → Prop} {tells : Bool}
  {left : List Byte → ρ → Prop}

theorem finishUtf8_take (D : R.Delivers sizes tells left) (native : Endian) (hs : sizes 1)
    (len : Nat) (bs0 : List Byte) (n : Nat) :
    ∀ (a m : Nat) (s : InStream ρ), m + n = len → (a + 1) * 64 ^ n ≤ 2 ^ 26 →
      left (bs0.drop m) s.res →
      TakeRead left s bs0 (Spec.takeTail len n a (nats (bs0.drop m)))
        (finishUtf8 native R n (BitVec.ofNat 32 a) s) := by
  induction n with
  | zero =>
    intro a m s hm _ h
    exact ⟨s.res, rfl, by rw [← hm]; exact h⟩
  | succ n ih =>
    intro a m s hm ha h
    have hle : (a + 1) * 64 ≤ (a + 1) * 64 ^ (n + 1) := by
      rw [Nat.pow_succ, ← Nat.mul_assoc, Nat.mul_right_comm]
      exact Nat.le_mul_of_pos_right _ (Nat.pow_pos (by omega))
    rw [finishUtf8]
    cases hd : bs0.drop m with
    | nil =>
      rw [hd] at h
      obtain ⟨r', e, q⟩ := readUnit_nil D native s hs h
      rw [M.bind_ok e]
      exact ⟨r', rfl, q⟩
    | cons b bs =>
      rw [hd] at h
      obtain ⟨r', e, q⟩ := readUnit_byte D native s b bs hs h
      have hd' : bs0.drop (m + 1) = bs := by
        rw [← List.drop_drop, hd]; rfl
      have hu := bv8_lt b
      rw [M.bind_ok e]
      simp only [nats, List.map_cons, Spec.takeTail, ofNat8_nat, isTrailingByte_eq]
      by_cases ht : b.toNat / 64 = 2
      · rw [if_pos (by omega), if_neg (by simp [ht]), ofNat_scan_step _ _ (by omega)]
        have := ih (a * 64 + b.toNat % 64) (m + 1) { s with res := r' } (by omega)
          (Nat.le_trans (by
            rw [Nat.pow_succ, Nat.mul_comm (64 ^ n), ← Nat.mul_assoc]
            exact Nat.mul_le_mul_right _ (by omega)) ha) (by rw [hd']; exact q)
        rw [hd'] at this
        exact this
      · rw [if_neg (by omega), if_pos (by simp [ht])]
        exact ⟨r', rfl, by rw [show len - n = m + 1 by omega, hd']; exact q⟩

theorem readUtf8_take (D : R.Delivers sizes tells left) (native : Endian) (hs : sizes 1)
    (s : InStream ρ) (bs : List Byte) (h : left bs s.res) :
    TakeRead left s bs (Spec.take8 (nats bs)) (readUtf8 native R s) := by
  rw [readUtf8]
  cases bs with
  | nil =>
    obtain ⟨r', e, q⟩ := readUnit_nil D native s hs h
    rw [M.bind_ok e]
    exact ⟨r', rfl, q⟩
  | cons b bs =>
    obtain ⟨r', e, q⟩ := readUnit_byte D native s b bs hs h
    have hu := bv8_lt b
    rw [M.bind_ok e]
    simp only [nats, List.map_cons, Spec.take8, ofNat8_nat, initializeUtf8Sequence_eq]
    have hfin := fun len n a (hm : 1 + n = len) (ha : (a + 1) * 64 ^ n ≤ 2 ^ 26) =>
      finishUtf8_take D native hs len (b :: bs) n a 1 { s with res := r' } hm ha (by simpa using q)
    by_cases h1 : b.toNat < 128
    · simp only [if_pos h1]
      rw [M.bind_ok (M.lift_apply _ _)]
      exact ⟨r', rfl, by simpa using q⟩
    simp only [if_neg h1]
    by_cases h2 : b.toNat / 32 = 6
    · rw [if_pos h2, if_pos (by omega), M.bind_ok (M.lift_apply _ _)]
      exact hfin 2 1 _ rfl (by omega)
    rw [if_neg h2, if_neg (show ¬ (0xC0 ≤ b.toNat ∧ b.toNat < 0xE0) by omega)]
    by_cases h3 : b.toNat / 16 = 14
    · rw [if_pos h3, if_pos (by omega), M.bind_ok (M.lift_apply _ _)]
      exact hfin 3 2 _ rfl (by omega)
    rw [if_neg h3, if_neg (show ¬ (0xE0 ≤ b.toNat ∧ b.toNat < 0xF0) by omega)]
    by_cases h4 : b.toNat / 8 = 30
    · rw [if_pos h4, if_pos (by omega), M.bind_ok (M.lift_apply _ _)]
      exact hfin 4 3 _ rfl (by omega)
    rw [if_neg h4, if_neg (show ¬ (0xF0 ≤ b.toNat ∧ b.toNat < 0xF8) by omega),
      M.bind_throw (M.lift_apply _ _)]
    exact ⟨r', rfl, by simpa using q⟩

/-- Finishing a UTF-16 sequence whose first unit is `u`. -/
theorem finishUtf16_take (D : R.Delivers sizes tells left) (native : Endian) (hs : sizes 2)
    (s : InStream ρ) (u : Char16) (bs0 : List Byte) (h : left (bs0.drop 2) s.res) :
    TakeRead left s bs0 (Spec.take16 (u.toNat :: s.endian.order.units 2 1 (nats (bs0.drop 2))))
      ((do
        let start ← M.lift (initializeUtf16Sequence u)
        finishUtf16 native R start.1 start.2 : M (InStream ρ) Char32) s) := by
  have hu := bv16_lt u
  rw [initializeUtf16Sequence_eq, Spec.take16]
  by_cases h1 : 0xD800 ≤ u.toNat ∧ u.toNat ≤ 0xDBFF
  · rw [if_pos h1, if_pos h1, M.bind_ok (M.lift_apply _ _)]
    simp only [finishUtf16, if_true]
    simp only [Spec.ByteOrder.units]
    by_cases hl : (bs0.drop 2).length < 2
    · obtain ⟨r', e, q⟩ := readUnit_short D native s _ 2 hl hs h
      rw [if_pos (by simpa using hl), M.bind_ok e]
      exact ⟨r', rfl, q⟩
    · obtain ⟨r', e, q⟩ := readUnit_some D native s (bs0.drop 2) 2 (by omega) (by omega) hs h
      rw [if_neg (by simpa using hl), M.bind_ok e]
      have hv : s.endian.order.value (nats ((bs0.drop 2).take 2)) < 65536 := by
        have := value_lt s.endian ((bs0.drop 2).take 2)
        have hl2 : ((bs0.drop 2).take 2).length = 2 := by
          rw [List.length_take]; omega
        rw [hl2] at this
        simpa using this
      rw [show nats ((bs0.drop 2).take 2) = (nats (bs0.drop 2)).take 2 by simp [nats]] at hv ⊢
      generalize s.endian.order.value ((nats (bs0.drop 2)).take 2) = v at hv
      have hvn : (BitVec.ofNat 16 v).toNat = v := by
        rw [BitVec.toNat_ofNat]; omega
      simp only [isTrailingSurrogate_eq, hvn, Spec.takePair]
      by_cases h2 : 0xDC00 ≤ v ∧ v ≤ 0xDFFF
      · rw [if_pos h2, if_neg (by simp [h2])]
        refine ⟨r', ?_, by rw [List.drop_drop] at q; exact q⟩
        have := pair_value u (BitVec.ofNat 16 v) h1 (by rw [hvn]; exact h2)
        rw [hvn] at this
        rw [this]
        rfl
      · rw [if_neg h2, if_pos (by simp; omega)]
        exact ⟨r', rfl, by rw [List.drop_drop] at q; exact q⟩
  · rw [if_neg h1, if_neg h1]
    by_cases h2 : 0xDC00 ≤ u.toNat ∧ u.toNat ≤ 0xDFFF
    · rw [if_pos h2, if_pos h2, M.bind_throw (M.lift_apply _ _)]
      exact ⟨s.res, rfl, h⟩
    · rw [if_neg h2, if_neg h2, M.bind_ok (M.lift_apply _ _)]
      exact ⟨s.res, rfl, h⟩

theorem readUtf16_take (D : R.Delivers sizes tells left) (native : Endian) (hs : sizes 2)
    (s : InStream ρ) (bs : List Byte) (h : left bs s.res) :
    TakeRead left s bs (Spec.take16 (s.endian.order.units 2 2 (nats bs)))
      (readUtf16 native R s) := by
  rw [readUtf16, Spec.ByteOrder.units]
  by_cases hl : bs.length < 2
  · obtain ⟨r', e, q⟩ := readUnit_short D native s _ 2 hl hs h
    rw [if_pos (by simpa using hl), M.bind_ok e]
    exact ⟨r', rfl, q⟩
  · obtain ⟨r', e, q⟩ := readUnit_some D native s bs 2 (by omega) (by omega) hs h
    rw [if_neg (by simpa using hl), M.bind_ok e]
    have hv : s.endian.order.value (nats (bs.take 2)) < 65536 := by
      have := value_lt s.endian (bs.take 2)
      have hl2 : (bs.take 2).length = 2 := by
        rw [List.length_take]; omega
      rw [hl2] at this
      simpa using this
    rw [show nats (bs.take 2) = (nats bs).take 2 by simp [nats]] at hv ⊢
    generalize s.endian.order.value ((nats bs).take 2) = v at hv
    have hvn : (BitVec.ofNat 16 v).toNat = v := by
      rw [BitVec.toNat_ofNat]; omega
    have := finishUtf16_take D native hs { s with res := r' } (BitVec.ofNat 16 v) bs q
    rw [hvn] at this
    rw [show (nats bs).drop 2 = nats (bs.drop 2) by simp [nats]]
    exact this

theorem readUtf32_take (D : R.Delivers sizes tells left) (native : Endian) (hs : sizes 4)
    (s : InStream ρ) (bs : List Byte) (h : left bs s.res) :
    TakeRead left s bs (Spec.Form.utf32.takeBytes s.endian.order (nats bs))
      (readUtf32 native R s) := by
  rw [readUtf32, Spec.Form.takeBytes]
  simp only [Spec.ByteOrder.units]
  by_cases hl : bs.length < 4
  · obtain ⟨r', e, q⟩ := readUnit_short D native s _ 4 hl hs h
    rw [if_pos (by simpa using hl), M.bind_ok e]
    exact ⟨r', rfl, q⟩
  · obtain ⟨r', e, q⟩ := readUnit_some D native s bs 4 (by omega) (by omega) hs h
    rw [if_neg (by simpa using hl), M.bind_ok e]
    exact ⟨r', by simp [nats], q⟩

/-- Reading a code point in the encoding form and byte order of the stream. -/
theorem readCodePoint_take (D : R.Delivers sizes tells left) (native : Endian) (s : InStream ρ)
    (hs : sizes s.form.form.unitSize) (bs : List Byte) (h : left bs s.res) :
    TakeRead left s bs (s.form.form.takeBytes s.endian.order (nats bs)) (readCodePoint native R s) := by
  rw [readCodePoint, M.bind_ok (M.get_apply s)]
  cases hf : s.form with
  | utf8 =>
    rw [hf] at hs
    exact readUtf8_take D native hs s bs h
  | utf16 =>
    rw [hf] at hs
    exact readUtf16_take D native hs s bs h
  | utf32 =>
    rw [hf] at hs
    exact readUtf32_take D native hs s bs h

/-! ### Items -/

/-- The stream is about to come upon the items `is`. -/
def HasItems (sizes : Nat → Prop) (tells : Bool) (left : List Byte → ρ → Prop) (s : InStream ρ)
    (is : List Item) : Prop :=
  sizes s.form.form.unitSize ∧ ∃ bs js, left bs s.res ∧
    Itemised s.form.form s.endian.order (nats bs) js ∧ passReturns tells js = is

/-- How an item is reported. -/
def report : Item → Outcome Char32
  | .char v => .ok (BitVec.ofNat 32 v)
  | .bad => .throw .invalidUnicodeEncoding
  | .cut => .throw .readPastEnd

theorem nats_drop (bs : List Byte) (n : Nat) : (nats bs).drop n = nats (bs.drop n) := by simp [nats]

/-- Reading a code point of the items as they are in the source. -/
theorem readCodePoint_item (D : R.Delivers sizes tells left) (native : Endian) (s : InStream ρ)
    (hs : sizes s.form.form.unitSize) (bs : List Byte) (h : left bs s.res) {i : Item}
    {is : List Item} (hi : Itemised s.form.form s.endian.order (nats bs) (i :: is)) :
    ∃ r' bs', readCodePoint native R s = (report i, { s with res := r' }) ∧ left bs' r'
      ∧ Itemised s.form.form s.endian.order (nats bs') is := by
  have ht := readCodePoint_take D native s hs bs h
  have hd := nats_drop bs
  revert ht hd
  generalize nats bs = l at hi
  intro ht hd
  cases hi with
  | char h1 t =>
    rw [h1] at ht
    obtain ⟨r', e, q⟩ := ht
    exact ⟨r', _, e, q, by rw [hd] at t; exact t⟩
  | bad h1 t =>
    rw [h1] at ht
    obtain ⟨r', e, q⟩ := ht
    exact ⟨r', _, e, q, by rw [hd] at t; exact t⟩
  | cut _ h1 =>
    rw [h1] at ht
    obtain ⟨r', e, q⟩ := ht
    exact ⟨r', [], e, q, .none⟩

theorem itemised_isEmpty {f : Spec.Form} {o : Spec.ByteOrder} {bs : List Byte} {is : List Item}
    (h : Itemised f o (nats bs) is) : bs.isEmpty = is.isEmpty := by
  cases bs with
  | nil =>
    rw [itemised_of_nil (show Itemised f o [] is from h)]
    rfl
  | cons b bs =>
    cases is with
    | nil =>
      have := itemised_nil h
      simp [nats] at this
    | cons i is => rfl

theorem takeTail_lt (len : Nat) : ∀ (n acc : Nat) (l : List Nat) (v k : Nat),
    Spec.takeTail len n acc l = .char v k → v < (acc + 1) * 64 ^ n := by
  intro n
  induction n with
  | zero =>
    intro acc l v k h
    simp only [Spec.takeTail, Taken.char.injEq] at h
    omega
  | succ n ih =>
    intro acc l v k h
    cases l with
    | nil => cases h
    | cons b bs =>
      rw [Spec.takeTail] at h
      split at h
      · have := ih _ _ _ _ h
        have h2 : (acc * 64 + b % 64 + 1) * 64 ^ n ≤ ((acc + 1) * 64) * 64 ^ n :=
          Nat.mul_le_mul_right _ (by omega)
        rw [Nat.pow_succ, Nat.mul_comm (64 ^ n), ← Nat.mul_assoc]
        omega
      · cases h

theorem take8_lt (l : List Nat) (v k : Nat) (h : Spec.take8 l = .char v k) : v < 2 ^ 32 := by
  cases l with
  | nil => cases h
  | cons b bs =>
    rw [Spec.take8] at h
    split at h
    · simp only [Taken.char.injEq] at h
      omega
    split at h
    · have := takeTail_lt _ _ _ _ _ _ h
      omega
    split at h
    · have := takeTail_lt _ _ _ _ _ _ h
      omega
    split at h
    · have := takeTail_lt _ _ _ _ _ _ h
      omega
    · cases h

theorem take16_lt (us : List Nat) (hu : ∀ u ∈ us, u < 2 ^ 32) (v k : Nat)
    (h : Spec.take16 us = .char v k) : v < 2 ^ 32 := by
  cases us with
  | nil => cases h
  | cons u us =>
    rw [Spec.take16] at h
    split at h
    · cases us with
      | nil => cases h
      | cons w ws =>
        rw [Spec.takePair] at h
        split at h
        · simp only [Taken.char.injEq] at h
          omega
        · cases h
    split at h
    · cases h
    · simp only [Taken.char.injEq] at h
      have := hu u (by simp)
      omega

theorem units_lt (o : Endian) (k : Nat) (hk : k ≤ 4) (n : Nat) (bs : List Byte) :
    ∀ u ∈ o.order.units k n (nats bs), u < 2 ^ 32 := by
  induction n generalizing bs with
  | zero => intro u hu; cases hu
  | succ n ih =>
    intro u hu
    rw [Spec.ByteOrder.units] at hu
    split at hu
    · cases hu
    · rcases List.mem_cons.mp hu with rfl | hu
      · rw [show (nats bs).take k = nats (bs.take k) by simp [nats]]
        have := value_lt o (bs.take k)
        have h2 : 256 ^ (bs.take k).length ≤ 256 ^ 4 :=
          Nat.pow_le_pow_right (by omega) (by rw [List.length_take]; omega)
        omega
      · rw [nats_drop] at hu
        exact ih _ u hu

theorem takeBytes_lt (f : Spec.Form) (o : Endian) (bs : List Byte) (v k : Nat)
    (h : f.takeBytes o.order (nats bs) = .char v k) : v < 2 ^ 32 := by
  cases f with
  | utf8 => exact take8_lt _ v k h
  | utf16 => exact take16_lt _ (units_lt o 2 (by omega) 2 bs) v k h
  | utf32 =>
    have hu := units_lt o 4 (by omega) 1 bs
    rw [Spec.Form.takeBytes] at h
    revert h hu
    generalize o.order.units 4 1 (nats bs) = us
    intro h hu
    cases us with
    | nil => cases h
    | cons u us =>
      simp only [Taken.char.injEq] at h
      have := hu u (by simp)
      omega

theorem itemised_lt {f : Spec.Form} {o : Endian} {bs : List Byte} {v : Nat} {is : List Item}
    (h : Itemised f o.order (nats bs) (.char v :: is)) : v < 2 ^ 32 := by
  have := takeBytes_lt f o bs
  revert this
  generalize nats bs = l at h
  intro this
  cases h with
  | char h _ => exact this _ _ h

theorem hasItems_end (D : R.Delivers sizes tells left) {s : InStream ρ} {is : List Item}
    (h : HasItems sizes tells left s is) : isAtEnd R s = (.ok (tells && is.isEmpty), s) := by
  obtain ⟨-, bs, js, hl, hj, rfl⟩ := h
  rw [isAtEnd_eq D s bs hl, itemised_isEmpty hj]
  congr 2
  cases js with
  | nil => rfl
  | cons i js =>
    cases js with
    | nil => rw [passReturns]; split <;> rfl
    | cons j js => rw [passReturns]; split <;> rfl

/-- Reading an item. -/
theorem hasItems_read (D : R.Delivers sizes tells left) (native : Endian) {s : InStream ρ} {i : Item}
    {is : List Item} (h : HasItems sizes tells left s (i :: is)) :
    ∃ r', readFiltered native R s = (report i, { s with res := r' }) ∧
      HasItems sizes tells left { s with res := r' } is := by
  obtain ⟨hs, bs, js, hl, hj, hp⟩ := h
  cases js with
  | nil => cases hp
  | cons j js =>
    obtain ⟨r1, bs1, e1, hl1, hj1⟩ := readCodePoint_item D native s hs bs hl hj
    by_cases hc : j = .char 13
    · subst hc
      have e1' : readCodePoint native R s = (.ok 13#32, { s with res := r1 }) := e1
      have hend := isAtEnd_eq D { s with res := r1 } bs1 hl1
      rw [itemised_isEmpty hj1] at hend
      rw [readFiltered, M.bind_ok e1', if_pos rfl, M.bind_ok hend]
      cases js with
      | nil =>
        rw [passReturns] at hp
        cases tells with
        | true =>
          rw [if_neg (by simp)] at hp
          cases hp
          exact ⟨r1, rfl, hs, bs1, [], hl1, hj1, rfl⟩
        | false =>
          rw [if_pos (by simp)] at hp
          cases hp
          have hnil : nats bs1 = [] := itemised_nil hj1
          have ht := readCodePoint_take D native { s with res := r1 } hs bs1 hl1
          rw [hnil, takeBytes_nil] at ht
          obtain ⟨r2, e2, q2⟩ := ht
          exact ⟨r2, e2, hs, [], [], q2, .none, rfl⟩
      | cons k js =>
        rw [passReturns, if_pos rfl] at hp
        cases hp
        obtain ⟨r2, bs2, e2, hl2, hj2⟩ := readCodePoint_item D native { s with res := r1 } hs bs1 hl1 hj1
        refine ⟨r2, ?_, hs, bs2, js, hl2, hj2, rfl⟩
        rw [if_neg (by simp)]
        exact e2
    · have hp' : j = i ∧ passReturns tells js = is := by
        cases js with
        | nil =>
          rw [passReturns, if_neg (by simp [hc])] at hp
          cases hp
          exact ⟨rfl, rfl⟩
        | cons k js =>
          rw [passReturns, if_neg hc] at hp
          cases hp
          exact ⟨rfl, rfl⟩
      obtain ⟨rfl, hp'⟩ := hp'
      refine ⟨r1, ?_, hs, bs1, js, hl1, hj1, hp'⟩
      cases j with
      | char v =>
        have hv := itemised_lt hj
        rw [readFiltered, M.bind_ok e1, if_neg]
        · rfl
        · intro h
          exact hc (by rw [(ofNat32_inj hv (by omega)).mp h])
      | bad => rw [readFiltered, M.bind_throw e1]; rfl
      | cut => rw [readFiltered, M.bind_throw e1]; rfl

/-- Reading at the end. -/
theorem hasItems_none (D : R.Delivers sizes tells left) (native : Endian) {s : InStream ρ}
    (h : HasItems sizes tells left s []) :
    ∃ r', readFiltered native R s = (.throw .readPastEnd, { s with res := r' }) ∧
      HasItems sizes tells left { s with res := r' } [] := by
  obtain ⟨hs, bs, js, hl, hj, hp⟩ := h
  have hjs : js = [] := by
    cases js with
    | nil => rfl
    | cons i js =>
      cases js with
      | nil => rw [passReturns] at hp; split at hp <;> cases hp
      | cons j js => rw [passReturns] at hp; split at hp <;> cases hp
  subst hjs
  have ht := readCodePoint_take D native s hs bs hl
  rw [itemised_nil hj, takeBytes_nil] at ht
  obtain ⟨r', e, q⟩ := ht
  exact ⟨r', by rw [readFiltered, M.bind_throw e], hs, [], [], q, .none, rfl⟩

end InStream

end Cmp
