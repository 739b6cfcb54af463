import Verif.Proofs.Stream
import Verif.Proofs.UnicodeText
import Verif.Proofs.UnicodeMalformed

/-
Reading code points: what a text stream delivers is what the bytes at the front of the source are
in its encoding scheme.
-/

namespace Cmp

theorem ofNat8_nat (b : Byte) : BitVec.ofNat 8 b.toNat = b := by simp

/-- How reading a code point reports what the bytes `bs` begin with: `k` is the size of a code
unit. -/
def ScanRead {ρ : Type} (left : List Byte → ρ → Prop) (k : Nat) (s : InStream ρ) (bs : List Byte) :
    Spec.Scan → Outcome Char32 × InStream ρ → Prop
  | .complete v n, out => ∃ r', out = (.ok (BitVec.ofNat 32 v), { s with res := r' }) ∧
      left (bs.drop (n * k)) r'
  | .malformed, out => ∃ r' m, out = (.throw .invalidUnicodeEncoding, { s with res := r' }) ∧
      left (bs.drop m) r'
  | .truncated, out => ∃ r', out = (.throw .readPastEnd, { s with res := r' }) ∧ left [] r'

namespace InStream

variable {ρ : Type} {R : Reader ρ} {sizes : Nat → Prop} {tells : Bool}
  {left : List Byte → ρ → Prop}

theorem readUnit_some (D : R.Delivers sizes tells left) (native : Endian) (s : InStream ρ)
    (bs : List Byte) (k : Nat) (hb : k ≤ bs.length) (hk : 0 < k) (hs : sizes k)
    (h : left bs s.res) :
    ∃ r', readUnit native R k s =
        (.ok (some (s.endian.order.value (nats (bs.take k)))), { s with res := r' }) ∧
      left (bs.drop k) r' := by
  have h' : left (bs.take k ++ bs.drop k) s.res := by rw [List.take_append_drop]; exact h
  obtain ⟨r', e, q⟩ := readUnit_full D native s (bs.take k) (bs.drop k) k (by simp; omega) hk hs h'
  exact ⟨r', by rw [e, objectValue_eq], q⟩

theorem value_one (o : Spec.ByteOrder) (n : Nat) : o.value [n] = n := by
  cases o <;> simp [Spec.ByteOrder.value]

theorem readUnit_byte (D : R.Delivers sizes tells left) (native : Endian) (s : InStream ρ)
    (b : Byte) (bs : List Byte) (hs : sizes 1) (h : left (b :: bs) s.res) :
    ∃ r', readUnit native R 1 s = (.ok (some b.toNat), { s with res := r' }) ∧ left bs r' := by
  obtain ⟨r', e, q⟩ := readUnit_some D native s (b :: bs) 1 (by simp) (by omega) hs h
  refine ⟨r', ?_, by simpa using q⟩
  rw [e]
  simp [nats, value_one]

theorem readUnit_nil (D : R.Delivers sizes tells left) (native : Endian) (s : InStream ρ)
    (hs : sizes 1) (h : left [] s.res) :
    ∃ r', readUnit native R 1 s = (.ok none, { s with res := r' }) ∧ left [] r' :=
  readUnit_short D native s [] 1 (by simp) hs h

theorem finishUtf8_scan (D : R.Delivers sizes tells left) (native : Endian) (hs : sizes 1)
    (len : Nat) (bs0 : List Byte) (n : Nat) :
    ∀ (a m : Nat) (s : InStream ρ), m + n = len → (a + 1) * 64 ^ n ≤ 2 ^ 26 →
      left (bs0.drop m) s.res →
      ScanRead left 1 s bs0 (Spec.scanTail len n a (nats (bs0.drop m)))
        (finishUtf8 native R n (BitVec.ofNat 32 a) s) := by
  induction n with
  | zero =>
    intro a m s hm _ h
    exact ⟨s.res, rfl, by rw [Nat.mul_one, ← hm]; exact h⟩
  | succ n ih =>
    intro a m s hm ha h
    have hle : (a + 1) * 64 ≤ (a + 1) * 64 ^ (n + 1) := by
      rw [Nat.pow_succ, ← Nat.mul_assoc, Nat.mul_right_comm]
      exact Nat.le_mul_of_pos_right _ (Nat.pow_pos (by omega))
    rw [finishUtf8]
    cases hd : bs0.drop m with
    | nil =>
      rw [hd] at h
      obtain ⟨r', e, q⟩ := readUnit_nil D native s hs h
      rw [M.bind_ok e]
      exact ⟨r', rfl, q⟩
    | cons b bs =>
      rw [hd] at h
      obtain ⟨r', e, q⟩ := readUnit_byte D native s b bs hs h
      have hd' : bs0.drop (m + 1) = bs := by
        rw [← List.drop_drop, hd]; rfl
      have hu := bv8_lt b
      rw [M.bind_ok e]
      simp only [nats, List.map_cons, Spec.scanTail, ofNat8_nat, isTrailingByte_eq]
      by_cases ht : b.toNat / 64 = 2
      · rw [if_pos (by omega), if_neg (by simp [ht]), ofNat_scan_step _ _ (by omega)]
        have := ih (a * 64 + b.toNat % 64) (m + 1) { s with res := r' } (by omega)
          (Nat.le_trans (by
            rw [Nat.pow_succ, Nat.mul_comm (64 ^ n), ← Nat.mul_assoc]
            exact Nat.mul_le_mul_right _ (by omega)) ha) (by rw [hd']; exact q)
        rw [hd'] at this
        exact this
      · rw [if_neg (by omega), if_pos (by simp [ht])]
        exact ⟨r', m + 1, rfl, by rw [hd']; exact q⟩

theorem readUtf8_scan (D : R.Delivers sizes tells left) (native : Endian) (hs : sizes 1)
    (s : InStream ρ) (bs : List Byte) (h : left bs s.res) :
    ScanRead left 1 s bs (Spec.scan8 (nats bs)) (readUtf8 native R s) := by
  rw [readUtf8]
  cases bs with
  | nil =>
    obtain ⟨r', e, q⟩ := readUnit_nil D native s hs h
    rw [M.bind_ok e]
    exact ⟨r', rfl, q⟩
  | cons b bs =>
    obtain ⟨r', e, q⟩ := readUnit_byte D native s b bs hs h
    have hu := bv8_lt b
    rw [M.bind_ok e]
    simp only [nats, List.map_cons, Spec.scan8, ofNat8_nat, initializeUtf8Sequence_eq]
    have hfin := fun len n a (hm : 1 + n = len) (ha : (a + 1) * 64 ^ n ≤ 2 ^ 26) =>
      finishUtf8_scan D native hs len (b :: bs) n a 1 { s with res := r' } hm ha (by simpa using q)
    by_cases h1 : b.toNat < 128
    · simp only [if_pos h1]
      rw [M.bind_ok (M.lift_apply _ _)]
      exact ⟨r', rfl, by simpa using q⟩
    simp only [if_neg h1]
    by_cases h2 : b.toNat / 32 = 6
    · rw [if_pos h2, if_pos (by omega), M.bind_ok (M.lift_apply _ _)]
      exact hfin 2 1 _ rfl (by omega)
    rw [if_neg h2, if_neg (show ¬ (0xC0 ≤ b.toNat ∧ b.toNat < 0xE0) by omega)]
    by_cases h3 : b.toNat / 16 = 14
    · rw [if_pos h3, if_pos (by omega), M.bind_ok (M.lift_apply _ _)]
      exact hfin 3 2 _ rfl (by omega)
    rw [if_neg h3, if_neg (show ¬ (0xE0 ≤ b.toNat ∧ b.toNat < 0xF0) by omega)]
    by_cases h4 : b.toNat / 8 = 30
    · rw [if_pos h4, if_pos (by omega), M.bind_ok (M.lift_apply _ _)]
      exact hfin 4 3 _ rfl (by omega)
    rw [if_neg h4, if_neg (show ¬ (0xF0 ≤ b.toNat ∧ b.toNat < 0xF8) by omega),
      M.bind_throw (M.lift_apply _ _)]
    exact ⟨r', 1, rfl, by simpa using q⟩

theorem value_lt (o : Endian) (l : List Byte) : o.order.value (nats l) < 256 ^ l.length := by
  rw [← objectValue_eq]
  exact objectValue_lt o l

/-- Finishing a UTF-16 sequence whose first unit is `u`. -/
theorem finishUtf16_scan (D : R.Delivers sizes tells left) (native : Endian) (hs : sizes 2)
    (s : InStream ρ) (u : Char16) (bs0 : List Byte) (h : left (bs0.drop 2) s.res) :
    ScanRead left 2 s bs0 (Spec.scan16 (u.toNat :: s.endian.order.units 2 1 (nats (bs0.drop 2))))
      ((do
        let start ← M.lift (initializeUtf16Sequence u)
        finishUtf16 native R start.1 start.2 : M (InStream ρ) Char32) s) := by
  have hu := bv16_lt u
  rw [initializeUtf16Sequence_eq, Spec.scan16]
  by_cases h1 : 0xD800 ≤ u.toNat ∧ u.toNat ≤ 0xDBFF
  · rw [if_pos h1, if_pos h1, M.bind_ok (M.lift_apply _ _)]
    simp only [finishUtf16, if_true]
    simp only [Spec.ByteOrder.units]
    by_cases hl : (bs0.drop 2).length < 2
    · obtain ⟨r', e, q⟩ := readUnit_short D native s _ 2 hl hs h
      rw [if_pos (by simpa using hl), M.bind_ok e]
      exact ⟨r', rfl, q⟩
    · obtain ⟨r', e, q⟩ := readUnit_some D native s (bs0.drop 2) 2 (by omega) (by omega) hs h
      rw [if_neg (by simpa using hl), M.bind_ok e]
      have hv : s.endian.order.value (nats ((bs0.drop 2).take 2)) < 65536 := by
        have := value_lt s.endian ((bs0.drop 2).take 2)
        have hl2 : ((bs0.drop 2).take 2).length = 2 := by
          rw [List.length_take]; omega
        rw [hl2] at this
        simpa using this
      rw [show nats ((bs0.drop 2).take 2) = (nats (bs0.drop 2)).take 2 by simp [nats]] at hv ⊢
      generalize s.endian.order.value ((nats (bs0.drop 2)).take 2) = v at hv
      have hvn : (BitVec.ofNat 16 v).toNat = v := by
        rw [BitVec.toNat_ofNat]; omega
      simp only [isTrailingSurrogate_eq, hvn, Spec.scanPair]
      by_cases h2 : 0xDC00 ≤ v ∧ v ≤ 0xDFFF
      · rw [if_pos h2, if_neg (by simp [h2])]
        refine ⟨r', ?_, by rw [List.drop_drop] at q; exact q⟩
        have := pair_value u (BitVec.ofNat 16 v) h1 (by rw [hvn]; exact h2)
        rw [hvn] at this
        rw [this]
        rfl
      · rw [if_neg h2, if_pos (by simp; omega)]
        exact ⟨r', 4, rfl, by rw [List.drop_drop] at q; exact q⟩
  · rw [if_neg h1, if_neg h1]
    by_cases h2 : 0xDC00 ≤ u.toNat ∧ u.toNat ≤ 0xDFFF
    · rw [if_pos h2, if_pos h2, M.bind_throw (M.lift_apply _ _)]
      exact ⟨s.res, 2, rfl, h⟩
    · rw [if_neg h2, if_neg h2, M.bind_ok (M.lift_apply _ _)]
      exact ⟨s.res, rfl, h⟩

theorem readUtf16_scan (D : R.Delivers sizes tells left) (native : Endian) (hs : sizes 2)
    (s : InStream ρ) (bs : List Byte) (h : left bs s.res) :
    ScanRead left 2 s bs (Spec.scan16 (s.endian.order.units 2 2 (nats bs)))
      (readUtf16 native R s) := by
  rw [readUtf16, Spec.ByteOrder.units]
  by_cases hl : bs.length < 2
  · obtain ⟨r', e, q⟩ := readUnit_short D native s _ 2 hl hs h
    rw [if_pos (by simpa using hl), M.bind_ok e]
    exact ⟨r', rfl, q⟩
  · obtain ⟨r', e, q⟩ := readUnit_some D native s bs 2 (by omega) (by omega) hs h
    rw [if_neg (by simpa using hl), M.bind_ok e]
    have hv : s.endian.order.value (nats (bs.take 2)) < 65536 := by
      have := value_lt s.endian (bs.take 2)
      have hl2 : (bs.take 2).length = 2 := by
        rw [List.length_take]; omega
      rw [hl2] at this
      simpa using this
    rw [show nats (bs.take 2) = (nats bs).take 2 by simp [nats]] at hv ⊢
    generalize s.endian.order.value ((nats bs).take 2) = v at hv
    have hvn : (BitVec.ofNat 16 v).toNat = v := by
      rw [BitVec.toNat_ofNat]; omega
    have := finishUtf16_scan D native hs { s with res := r' } (BitVec.ofNat 16 v) bs q
    rw [hvn] at this
    rw [show (nats bs).drop 2 = nats (bs.drop 2) by simp [nats]]
    exact this

theorem readUtf32_scan (D : R.Delivers sizes tells left) (native : Endian) (hs : sizes 4)
    (s : InStream ρ) (bs : List Byte) (h : left bs s.res) :
    ScanRead left 4 s bs (Spec.Form.utf32.scanBytes s.endian.order (nats bs))
      (readUtf32 native R s) := by
  rw [readUtf32, Spec.Form.scanBytes]
  simp only [Spec.ByteOrder.units]
  by_cases hl : bs.length < 4
  · obtain ⟨r', e, q⟩ := readUnit_short D native s _ 4 hl hs h
    rw [if_pos (by simpa using hl), M.bind_ok e]
    exact ⟨r', rfl, q⟩
  · obtain ⟨r', e, q⟩ := readUnit_some D native s bs 4 (by omega) (by omega) hs h
    rw [if_neg (by simpa using hl), M.bind_ok e]
    exact ⟨r', by simp [nats], q⟩

/-- Reading a code point in the encoding form and byte order of the stream. -/
theorem readCodePoint_scan (D : R.Delivers sizes tells left) (native : Endian) (s : InStream ρ)
    (hs : sizes s.form.form.unitSize) (bs : List Byte) (h : left bs s.res) :
    ScanRead left s.form.form.unitSize s bs (s.form.form.scanBytes s.endian.order (nats bs))
      (readCodePoint native R s) := by
  rw [readCodePoint, M.bind_ok (M.get_apply s)]
  cases hf : s.form with
  | utf8 =>
    rw [hf] at hs
    exact readUtf8_scan D native hs s bs h
  | utf16 =>
    rw [hf] at hs
    exact readUtf16_scan D native hs s bs h
  | utf32 =>
    rw [hf] at hs
    exact readUtf32_scan D native hs s bs h

end InStream

/-! ### Texts as bytes -/

/-- The bytes of one code point. -/
def cpBytes (f : EncodingForm) (o : Endian) (c : Nat) : List Byte :=
  asBytes ((f.form.encode1 c).flatMap (o.order.bytes f.form.unitSize))

theorem textBytes_nil (f : EncodingForm) (o : Endian) : textBytes f o [] = [] := rfl

theorem textBytes_cons (f : EncodingForm) (o : Endian) (c : Nat) (cs : List Nat) :
    textBytes f o (c :: cs) = cpBytes f o c ++ textBytes f o cs := by
  simp [textBytes, cpBytes, Spec.Form.serialize, encode_cons, asBytes]

theorem textBytes_append (f : EncodingForm) (o : Endian) (a b : List Nat) :
    textBytes f o (a ++ b) = textBytes f o a ++ textBytes f o b := by
  induction a with
  | nil => rfl
  | cons c a ih => rw [List.cons_append, textBytes_cons, textBytes_cons, ih, List.append_assoc]

theorem bytes_lt (o : Spec.ByteOrder) (k n : Nat) : ∀ b ∈ o.bytes k n, b < 256 := by
  intro b hb
  cases o <;> simp only [Spec.ByteOrder.bytes, List.mem_map] at hb <;>
    (obtain ⟨i, -, rfl⟩ := hb; exact Nat.mod_lt _ (by omega))

theorem bytes_length (o : Spec.ByteOrder) (k n : Nat) : (o.bytes k n).length = k := by
  cases o <;> simp [Spec.ByteOrder.bytes]

theorem nats_flatMap (o : Spec.ByteOrder) (k : Nat) (us : List Nat) :
    nats (asBytes (us.flatMap (o.bytes k))) = us.flatMap (o.bytes k) := by
  apply toNat_asBytes
  intro b hb
  obtain ⟨u, -, hu⟩ := List.mem_flatMap.mp hb
  exact bytes_lt o k u b hu

theorem value_bytes (o : Endian) (k n : Nat) : o.order.value (o.order.bytes k n) = n % 256 ^ k := by
  have := objectValue_objectBytes o k n
  rwa [objectValue_eq, objectBytes_eq, toNat_asBytes _ (bytes_lt _ _ _)] at this

theorem units_serialized (o : Endian) (k : Nat) (us : List Nat)
    (hu : ∀ u ∈ us, u < 256 ^ k) (l : List Nat) (n : Nat) :
    o.order.units k (us.length + n) (us.flatMap (o.order.bytes k) ++ l) =
      us ++ o.order.units k n l := by
  induction us with
  | nil => simp
  | cons u us ih =>
    rw [List.length_cons, show us.length + 1 + n = (us.length + n) + 1 by omega,
      Spec.ByteOrder.units, List.flatMap_cons, List.append_assoc, if_neg (by
        rw [List.length_append, bytes_length]; omega),
      List.take_left' (bytes_length _ _ _), List.drop_left' (bytes_length _ _ _),
      ih (fun x hx => hu x (by simp [hx])), value_bytes, Nat.mod_eq_of_lt (hu u (by simp))]
    rfl

theorem flatMap_bytes_one (o : Spec.ByteOrder) (us : List Nat) (h : ∀ u ∈ us, u < 256) :
    us.flatMap (o.bytes 1) = us := by
  induction us with
  | nil => rfl
  | cons u us ih =>
    have h1 : o.bytes 1 u = [u] := by
      have := h u (by simp)
      cases o <;> simp [Spec.ByteOrder.bytes] <;> omega
    rw [List.flatMap_cons, h1, ih (fun x hx => h x (by simp [hx]))]
    rfl

theorem scanBytes_cp (f : EncodingForm) (o : Endian) (c : Nat) (hc : Spec.IsScalar c)
    (rest : List Byte) :
    f.form.scanBytes o.order (nats (cpBytes f o c ++ rest)) =
        .complete c (f.form.encode1 c).length ∧
      (f.form.encode1 c).length * f.form.unitSize = (cpBytes f o c).length := by
  have hl : (f.form.encode1 c).length * f.form.unitSize = (cpBytes f o c).length := by
    simp only [cpBytes, asBytes, List.length_map, List.length_flatMap, bytes_length,
      List.map_const', List.sum_replicate_nat]
  refine ⟨?_, hl⟩
  have e : nats (cpBytes f o c ++ rest) =
      (f.form.encode1 c).flatMap (o.order.bytes f.form.unitSize) ++ nats rest := by
    rw [cpBytes, nats, List.map_append]
    congr 1
    exact nats_flatMap _ _ _
  rw [e]
  cases f with
  | utf8 =>
    simp only [EncodingForm.form, Spec.Form.scanBytes, Spec.Form.unitSize, Spec.Form.encode1]
    rw [flatMap_bytes_one _ _ (utf8_bound c hc)]
    exact scan8_utf8 c hc _
  | utf16 =>
    simp only [EncodingForm.form, Spec.Form.scanBytes, Spec.Form.unitSize, Spec.Form.encode1]
    have hle : (Spec.utf16 c).length ≤ 2 := by unfold Spec.utf16; split <;> simp
    rw [show (2 : Nat) = (Spec.utf16 c).length + (2 - (Spec.utf16 c).length) by omega]
    rw [← show (2 : Nat) = (Spec.utf16 c).length + (2 - (Spec.utf16 c).length) by omega]
    have := units_serialized o 2 (Spec.utf16 c) (by simpa using utf16_bound c hc)
      (nats rest) (2 - (Spec.utf16 c).length)
    rw [show (Spec.utf16 c).length + (2 - (Spec.utf16 c).length) = 2 by omega] at this
    rw [this]
    exact scan16_utf16 c hc _
  | utf32 =>
    simp only [EncodingForm.form, Spec.Form.scanBytes, Spec.Form.unitSize, Spec.Form.encode1]
    have h1 := hc.1
    have := units_serialized o 4 (Spec.utf32 c) (by simp [Spec.utf32]; omega)
      (nats rest) 0
    simp only [Spec.utf32, List.length_cons, List.length_nil, Nat.zero_add, Nat.add_zero] at this ⊢
    rw [this]
    rfl

namespace InStream

variable {ρ : Type} {R : Reader ρ} {sizes : Nat → Prop} {tells : Bool}
  {left : List Byte → ρ → Prop}

/-- Reading the first code point of a text. -/
theorem readCodePoint_text (D : R.Delivers sizes tells left) (native : Endian) (s : InStream ρ)
    (hs : sizes s.form.form.unitSize) (c : Nat) (hc : Spec.IsScalar c) (rest : List Byte)
    (h : left (cpBytes s.form s.endian c ++ rest) s.res) :
    ∃ r', readCodePoint native R s = (.ok (BitVec.ofNat 32 c), { s with res := r' }) ∧
      left rest r' := by
  have := readCodePoint_scan D native s hs _ h
  obtain ⟨e, hl⟩ := scanBytes_cp s.form s.endian c hc rest
  rw [e] at this
  obtain ⟨r', e', q⟩ := this
  rw [hl, List.drop_left] at q
  exact ⟨r', e', q⟩

theorem cpBytes_ne_nil (f : EncodingForm) (o : Endian) (c : Nat) : cpBytes f o c ≠ [] := by
  intro h
  have := congrArg List.length h
  simp only [cpBytes, asBytes, List.length_map, List.length_flatMap, bytes_length,
      List.map_const', List.sum_replicate_nat, List.length_nil, Nat.mul_eq_zero] at this
  cases f <;> simp [EncodingForm.form, Spec.Form.unitSize, Spec.Form.encode1, Spec.utf8,
    Spec.utf16, Spec.utf32] at this
  · split at this
    · simp at this
    · split at this
      · simp at this
      · split at this <;> simp at this
  · split at this <;> simp at this

theorem textBytes_isEmpty (f : EncodingForm) (o : Endian) (cs : List Nat) :
    (textBytes f o cs).isEmpty = cs.isEmpty := by
  cases cs with
  | nil => rfl
  | cons c cs =>
    rw [textBytes_cons]
    have := cpBytes_ne_nil f o c
    cases h : cpBytes f o c with
    | nil => exact absurd h this
    | cons => rfl

end InStream

end Cmp
