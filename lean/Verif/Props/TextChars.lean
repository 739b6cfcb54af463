import Verif.Props.TextOutput
import Verif.Props.TextExact

/-
Property C112: characters through text streams.  `char` has an output operator of its own but is
read by the operator for integers; `char8_t`, `char16_t` and `wchar_t` are written and read by the
operators for integers; `char32_t` has operators of its own in both directions.
-/

namespace Cmp

open InStream OutStream

/-- Write a `char` to a container, `text_output_stream.ipp` 146-156, and read a `char` from the
result, `text_input_stream.ipp` 484-497. -/
def charTrip (native o : Endian) (form : EncodingForm) (cap cap' fuel : Nat) (c : BitVec 8) : Outcome Int := do
  let wire ← written cap o form (writeChar native Ctr.writer c)
  received cap' wire o form (readInteger native Ctr.reader .int8 fuel)

/-- The claim fails for `'A'`. -/
theorem C112_violated :
    ¬ ∀ (native o : Endian) (form : EncodingForm) (cap cap' fuel : Nat) (c : BitVec 8), RoomFor form cap' →
      2 ≤ fuel → 32 < c.toNat → c.toNat < 127 → charTrip native o form cap cap' fuel c = .ok c.toInt := by
  intro h
  have := h .little .little .utf8 0 0 2 0x41#8 (by decide) (by decide) (by decide) (by decide)
  revert this
  decide +kernel

/-- What comes back instead of a character of type `char`. -/
def charBack (form : EncodingForm) (c : BitVec 8) : Outcome Int :=
  if c.toNat ≥ 128 then if form = .utf16 then .ub else .throw .invalidCodePoint
  else if 48 ≤ c.toNat ∧ c.toNat ≤ 57 then .ok (c.toNat - 48)
  else if 9 ≤ c.toNat ∧ c.toNat ≤ 13 ∨ c.toNat = 32 then .throw (.parseFailed .emptyInput)
  else .throw (.parseFailed .digitCharacterExpected)

/-- A code point that stands alone in the input, read as a `char`. -/
theorem received_char (native o : Endian) (form : EncodingForm) (cap' fuel x : Nat)
    (hroom : RoomFor form cap') (hf : 2 ≤ fuel) (hx : Spec.IsScalar x) (hl : ¬ LowSurrogate x) :
    received cap' (textBytes form o [x]) o form (readInteger native Ctr.reader .int8 fuel) =
      if isWhitespace (BitVec.ofNat 32 x) = true then .throw (.parseFailed .emptyInput)
      else (getNextDigit (BitVec.ofNat 32 x) 10) >>= fun d => .ok (IntTy.int8.wrap d) := by
  have ht := fresh_hasText o form cap' hroom [x] (by intro y hy; rw [List.mem_singleton.mp hy]; exact hx)
  have hfilt : filt [x] = [x] := by simp [filt]
  rw [hfilt] at ht
  have D := ctr_delivers cap' (textBytes form o [x])
  unfold received
  by_cases hw : isWhitespace (BitVec.ofNat 32 x) = true
  · rw [if_pos hw]
    obtain ⟨r1, e1, -⟩ := readWord_end D native .char8 [x] [] (by simpa using hw) (by simp) (by simp) fuel
      _ (by simp; omega) (by simpa using ht)
    rw [readInteger, M.bind_ok e1]
    rfl
  · rw [if_neg hw]
    obtain ⟨r1, e1, -⟩ := readWord_end D native .char8 [] [x] (by simp) (by simpa using hw)
      (by intro y hy; rw [List.mem_singleton.mp hy]; exact ⟨hx, hl⟩) fuel
      _ (by simp; omega) (by simpa using ht)
    rw [readInteger, M.bind_ok e1]
    show parseInteger .char8 .int8 _ _ = _
    rw [parseInteger_encs .char8 .int8 _ [x] (by
      intro y hy; rw [List.mem_singleton.mp hy]; exact hx)]
    show parseRev .int8 .default [x] = _
    rw [parseRev, show IntegerFormat.default.radix = 10 from rfl]
    cases getNextDigit (BitVec.ofNat 32 x) 10 <;> rfl

/-- In UTF-32 anything is written, also what is no code point. -/
theorem written_utf32 (native o : Endian) (cap : Nat) (c : Char32) :
    written cap o .utf32 (writeCodePoint native Ctr.writer c) = .ok (objectBytes o 4 c.toNat) := by
  have C := Ctr.collects cap []
  have h0 : ∀ n x, objectBytes n 4 x ≠ [] := by
    intro n x h
    have := congrArg List.length h
    rw [objectBytes_length] at this
    simp at this
  obtain ⟨r', e1, q⟩ : ∃ r', writeCodePoint native Ctr.writer c ⟨freshCtr cap 1 [], o, .utf32⟩
        = (.ok (), ⟨r', o, .utf32⟩) ∧
      Res.Writing cap (fun _ => True) (Res.Overwrote (Ctr.Idle 1) [] 0) r' (objectBytes o 4 c.toNat) := by
    rw [writeCodePoint, M.bind_ok (M.get_apply _)]
    simp only [writeUtf32]
    rw [M.bind_ok (M.get_apply _)]
    by_cases hn : o = native
    · rw [if_pos hn]
      obtain ⟨n, r', e, q⟩ := write_eq C ⟨freshCtr cap 1 [], o, .utf32⟩ [] (objectBytes native 4 c.toNat)
        trivial (Ctr.got_fresh cap)
      exact ⟨r', by rw [M.bind_ok e]; rfl, by rw [hn]; exact q⟩
    · rw [if_neg hn]
      obtain ⟨n, r', e, q⟩ := reverseWrite_eq C ⟨freshCtr cap 1 [], o, .utf32⟩ []
        (objectBytes native 4 c.toNat) (h0 _ _) trivial (Ctr.got_fresh cap)
      rw [objectBytes_reverse native o 4 c.toNat (fun h => hn h.symm)] at q
      exact ⟨r', by rw [M.bind_ok e]; rfl, q⟩
  exact written_eq cap o .utf32 _ () _ r' e1 q

/-- Reading it as a character fails. -/
theorem received_utf32 (native o : Endian) (cap' fuel : Nat) (c : Char32) (hroom : RoomFor .utf32 cap')
    (hf : 2 ≤ fuel) (h13 : c ≠ 13#32) (hw : isWhitespace c = false)
    (hi : appendCP .char8 [] c = .throw .invalidCodePoint) :
    received cap' (objectBytes o 4 c.toNat) o .utf32 (readInteger native Ctr.reader .int8 fuel) =
      .throw .invalidCodePoint := by
  have D := ctr_delivers cap' (objectBytes o 4 c.toNat)
  obtain ⟨fuel, rfl⟩ : ∃ n, fuel = n + 1 := ⟨fuel - 1, by omega⟩
  have hl := Ctr.left_fresh cap' 1 (objectBytes o 4 c.toNat)
  have hend := isAtEnd_eq D ⟨freshCtr cap' 1 (objectBytes o 4 c.toNat), o, .utf32⟩ _ hl
  obtain ⟨r', e1, -⟩ := readUnit_some D native ⟨freshCtr cap' 1 (objectBytes o 4 c.toNat), o, .utf32⟩ _ 4
    (by rw [objectBytes_length]) (by omega) hroom hl
  have hv : o.order.value (nats ((objectBytes o 4 c.toNat).take 4)) = c.toNat := by
    rw [List.take_of_length_le (by rw [objectBytes_length]), ← objectValue_eq, objectValue_objectBytes]
    have := c.isLt
    omega
  rw [hv] at e1
  have e2 : readFiltered native Ctr.reader ⟨freshCtr cap' 1 (objectBytes o 4 c.toNat), o, .utf32⟩
      = (.ok c, ⟨r', o, .utf32⟩) := by
    have : readCodePoint native Ctr.reader ⟨freshCtr cap' 1 (objectBytes o 4 c.toNat), o, .utf32⟩
        = (.ok c, ⟨r', o, .utf32⟩) := by
      rw [readCodePoint, M.bind_ok (M.get_apply _)]
      simp only [readUtf32]
      rw [M.bind_ok e1]
      simp
    rw [readFiltered, M.bind_ok this, if_neg h13]
    rfl
  have hne : (objectBytes o 4 c.toNat).isEmpty = false := by
    rw [List.isEmpty_eq_false_iff]
    intro h
    have := congrArg List.length h
    rw [objectBytes_length] at this
    simp at this
  unfold received
  rw [readInteger, readWord, skipSpace]
  simp only [M.bind_apply, hend, hne, Bool.and_false, Bool.false_eq_true, if_false, e2, hw, hi,
    M.lift_apply]

/-- Characters outside ASCII. -/
theorem char_high (c : BitVec 8) (h : 128 ≤ c.toNat) :
    appendCP .char8 [] (c.signExtend 32) = .throw .invalidCodePoint
      ∧ appendCP .char16 [] (c.signExtend 32) = appendCP .char16 [] (BitVec.ofNat 32 (0xFFF00 + c.toNat))
      ∧ isWhitespace (c.signExtend 32) = false ∧ c.signExtend 32 ≠ 13#32
      ∧ isWhitespace (BitVec.ofNat 32 (0xFFF00 + c.toNat)) = false
      ∧ getNextDigit (BitVec.ofNat 32 (0xFFF00 + c.toNat)) 10 = .ub := by
  revert c
  decide +kernel

/-- ASCII. -/
theorem char_low (c : BitVec 8) (h : c.toNat < 128) :
    (if isWhitespace (BitVec.ofNat 32 c.toNat) = true then .throw (.parseFailed .emptyInput)
      else (getNextDigit (BitVec.ofNat 32 c.toNat) 10) >>= fun d => .ok (IntTy.int8.wrap d))
        = (charBack .utf8 c : Outcome Int)
      ∧ c.signExtend 32 = BitVec.ofNat 32 c.toNat := by
  revert c
  decide +kernel

/-- C112 for `char`, completely: of no character what comes back is the character. -/
theorem C112_exact (native o : Endian) (form : EncodingForm) (cap cap' fuel : Nat) (c : BitVec 8)
    (hroom : RoomFor form cap') (hf : 2 ≤ fuel) :
    charTrip native o form cap cap' fuel c = charBack form c ∧ charBack form c ≠ .ok c.toInt := by
  have hlt := c.isLt
  constructor
  · unfold charTrip writeChar
    by_cases h : c.toNat < 128
    · obtain ⟨h1, h2⟩ := char_low c h
      have hs : Spec.IsScalar c.toNat := by unfold Spec.IsScalar; omega
      have hl : ¬ LowSurrogate c.toNat := by unfold LowSurrogate; omega
      obtain ⟨r', e1, q⟩ := writeCodePoint_eq (Ctr.collects cap []) native ⟨freshCtr cap 1 [], o, form⟩
        c.toNat (writeOk_of hs (fun _ => hl)) [] trivial (Ctr.got_fresh cap)
      rw [h2, written_eq cap o form _ () _ r' e1 q, Outcome.ok_bind, List.nil_append]
      have := received_char native o form cap' fuel c.toNat hroom hf hs hl
      rw [textBytes_cons, textBytes_nil, List.append_nil] at this
      have hn : ¬ c.toNat ≥ 128 := by omega
      rw [this, h1]
      simp only [charBack, if_neg hn]
    · obtain ⟨h1, h2, h3, h4, h5, h6⟩ := char_high c (by omega)
      cases form with
      | utf8 =>
        have : written cap o .utf8 (writeCodePoint native Ctr.writer (c.signExtend 32))
            = .throw .invalidCodePoint := by
          unfold written
          rw [writeCodePoint]
          simp only [M.bind_apply, M.get_apply, writeUtf8, h1, M.lift_apply]
        rw [this, charBack, if_pos (by omega)]
        rfl
      | utf16 =>
        have hs : Spec.IsScalar (0xFFF00 + c.toNat) := by unfold Spec.IsScalar; omega
        have hl : ¬ LowSurrogate (0xFFF00 + c.toNat) := by unfold LowSurrogate; omega
        obtain ⟨r', e1, q⟩ := writeCodePoint_eq (Ctr.collects cap []) native
          ⟨freshCtr cap 1 [], o, .utf16⟩ _ (writeOk_of hs (fun _ => hl)) [] trivial (Ctr.got_fresh cap)
        have e2 : writeCodePoint native Ctr.writer (c.signExtend 32) ⟨freshCtr cap 1 [], o, .utf16⟩
            = writeCodePoint native Ctr.writer (BitVec.ofNat 32 (0xFFF00 + c.toNat))
              ⟨freshCtr cap 1 [], o, .utf16⟩ := by
          simp only [writeCodePoint, M.bind_apply, M.get_apply, writeUtf16, h2]
        rw [e1] at e2
        rw [written_eq cap o .utf16 _ () _ r' e2 q, Outcome.ok_bind, List.nil_append]
        have := received_char native o .utf16 cap' fuel _ hroom hf hs hl
        rw [textBytes_cons, textBytes_nil, List.append_nil] at this
        rw [this, if_neg (by rw [h5]; simp), h6, charBack, if_pos (by omega), if_pos rfl]
        rfl
      | utf32 =>
        rw [written_utf32, Outcome.ok_bind, received_utf32 native o cap' fuel _ hroom hf h4 h3 h1, charBack,
          if_pos (by omega), if_neg (by decide)]
  · unfold charBack
    split_ifs
    · simp
    · simp
    · rw [BitVec.toInt_eq_toNat_cond, if_pos (by omega)]
      intro h
      have := Outcome.ok.inj h
      omega
    · simp
    · simp

/-- What is written for characters of the other types: their numbers, except for `char32_t`. -/
theorem C112_violated_number :
    written 0 .little .utf8 (writeInteger .little Ctr.writer .uint8 0x41) = .ok [0x36, 0x35]
      ∧ written 0 .little .utf8 (writeCodePoint .little Ctr.writer 0x41) = .ok [0x41] := by
  decide +kernel

/-- Code units that are written and read by the operators for integers. -/
inductive NumericUnit
  | char8 (c : BitVec 8)
  | char16 (c : BitVec 16)
  /-- `wchar_t` on Windows -/
  | wide2 (c : BitVec 16)
  /-- `wchar_t` on Unix, which is signed -/
  | wide4 (c : BitVec 32)

/-- The value as which a code unit is written and read. -/
def NumericUnit.value : NumericUnit → TextValue
  | char8 c => .int .uint8 c.toNat
  | char16 c => .int .uint16 c.toNat
  | wide2 c => .int .uint16 c.toNat
  | wide4 c => .int .int c.toInt

/-- C112 for `char8_t`, `char16_t` and `wchar_t`: code units that are written with blanks behind them
come back (for `char32_t` see C50).  Missing: `char` (see `C112_exact`), and the least value of
`wchar_t`; and the text shows numbers, not the characters. -/
theorem C112_partial (native o : Endian) (form : EncodingForm) (cap cap' : Nat) (units : List NumericUnit)
    (hroom : RoomFor form cap') (hl : ∀ c, .wide4 c ∈ units → c ≠ 0x80000000#32) :
    ∃ wire, written cap o form (writeItems native Ctr.writer (units.map fun u => (u.value, [32]))) = .ok wire ∧
      ∀ fuel > wire.length,
        received cap' wire o form (readItems native Ctr.reader fuel (units.map fun u => (u.value, [32]))) =
          .ok (units.map NumericUnit.value) := by
  have := C57_partial native o form cap cap' (units.map fun u => (u.value, [32])) hroom ?_ ?_ ?_ ?_
  · rwa [List.map_map] at this
  · intro i hi
    obtain ⟨u, -, rfl⟩ := List.mem_map.mp hi
    cases u with
    | char8 c =>
      have := c.isLt
      refine ⟨by decide, ?_⟩
      simp [IntTy.Has, IntTy.min, IntTy.max, IntTy.uint8]; omega
    | char16 c =>
      have := c.isLt
      refine ⟨by decide, ?_⟩
      simp [IntTy.Has, IntTy.min, IntTy.max, IntTy.uint16]; omega
    | wide2 c =>
      have := c.isLt
      refine ⟨by decide, ?_⟩
      simp [IntTy.Has, IntTy.min, IntTy.max, IntTy.uint16]; omega
    | wide4 c =>
      have h1 := c.toInt_lt
      have h2 := c.le_toInt
      refine ⟨by decide, ?_⟩
      simp [IntTy.Has, IntTy.min, IntTy.max, IntTy.int]; omega
  · refine ⟨?_, ?_⟩
    · intro i hi
      obtain ⟨u, -, rfl⟩ := List.mem_map.mp hi
      intro c hc
      rw [List.mem_singleton.mp hc]
      decide
    · intro i hi
      obtain ⟨u, -, rfl⟩ := List.mem_map.mp (List.dropLast_subset _ hi)
      simp
  · intro i hi
    obtain ⟨u, hu, rfl⟩ := List.mem_map.mp hi
    cases u with
    | char8 c => simp [NumericUnit.value, TextValue.IsLeast, IntTy.uint8]
    | char16 c => simp [NumericUnit.value, TextValue.IsLeast, IntTy.uint16]
    | wide2 c => simp [NumericUnit.value, TextValue.IsLeast, IntTy.uint16]
    | wide4 c =>
      rintro ⟨-, h⟩
      apply hl c hu
      apply BitVec.eq_of_toInt_eq
      rw [h]
      decide
  · intro i hi
    obtain ⟨u, -, rfl⟩ := List.mem_map.mp (List.dropLast_subset _ hi)
    simp

example : RoomFor .utf16 2 ∧ ∀ c, NumericUnit.wide4 c ∈ [NumericUnit.char8 0x41, .wide4 0x20AC, .char16 0xFFFF] →
    c ≠ 0x80000000#32 := by
  refine ⟨by decide, ?_⟩
  intro c hc
  simp at hc
  rw [hc]
  decide

end Cmp
