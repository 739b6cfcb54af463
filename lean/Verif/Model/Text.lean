import Verif.Model.Stream
import Verif.Model.Number
import Verif.Model.Float

/-
Model of the text streams: `api/src/cmp/io/text_input_stream.ipp` and `text_output_stream.ipp`.

Strings that are targets of an extraction are passed and returned; `Model/Target.lean` has them as
state, with what is in them after an exception.
-/

namespace Cmp

/-! ### Object representations -/

/-- The object representation of an unsigned integer of `k` bytes on a host of the given byte
order. -/
def objectBytes (native : Endian) (k v : Nat) : List Byte :=
  match native with
  | .little => (List.range k).map fun i => BitVec.ofNat 8 (v / 256 ^ i)
  | .big => ((List.range k).map fun i => BitVec.ofNat 8 (v / 256 ^ i)).reverse

/-- The unsigned integer with the given bytes, lowest first. -/
def littleValue : List Byte → Nat
  | [] => 0
  | b :: bs => b.toNat + 256 * littleValue bs

/-- The unsigned integer with the given object representation: `std::memcpy` into it. -/
def objectValue (native : Endian) (bytes : List Byte) : Nat :=
  match native with
  | .little => littleValue bytes
  | .big => littleValue bytes.reverse

namespace InStream

variable {ρ : Type}

/-! ### Reading code points -/

/-- `read_utf8_code_unit`, `read_utf16_code_unit` and `read_utf32_code_unit`,
`text_input_stream.ipp` 131-174; `k` is the size of the unit and `none` is the result `false`. -/
def readUnit (native : Endian) (R : Reader ρ) (k : Nat) : M (InStream ρ) (Option Nat) := do
  let got ← read native R k
  if got.1 < k then pure none
  else do
    let bytes ← M.lift (loaded got.2)
    pure (some (objectValue native bytes))

/-- The loop of `finish_utf8_sequence`, `text_input_stream.ipp` 186-195. -/
def finishUtf8 (native : Endian) (R : Reader ρ) : Nat → Char32 → M (InStream ρ) Char32
  | 0, result => pure result
  | n + 1, result => do
    let got ← readUnit native R 1
    match got with
    | none => M.throw .readPastEnd
    | some v =>
      let u := BitVec.ofNat 8 v
      if !isTrailingByte u then M.throw .invalidUnicodeEncoding
      else finishUtf8 native R n ((result <<< 6) ||| (u &&& 0b00111111#8).setWidth 32)

/-- `finish_utf16_sequence`, `text_input_stream.ipp` 199-219. -/
def finishUtf16 (native : Endian) (R : Reader ρ) (len : Nat) (init : Char32) :
    M (InStream ρ) Char32 :=
  if len = 2 then do
    let got ← readUnit native R 2
    match got with
    | none => M.throw .readPastEnd
    | some v =>
      let u := BitVec.ofNat 16 v
      if !isTrailingSurrogate u then M.throw .invalidUnicodeEncoding
      else pure (init + (u.setWidth 32 - 0xDC00#32) + 0x10000#32)
  else pure init

/-- `read_utf8_code_point`, `text_input_stream.ipp` 221-235. -/
def readUtf8 (native : Endian) (R : Reader ρ) : M (InStream ρ) Char32 := do
  let got ← readUnit native R 1
  match got with
  | none => M.throw .readPastEnd
  | some v => do
    let start ← M.lift (initializeUtf8Sequence (BitVec.ofNat 8 v))
    finishUtf8 native R (start.1 - 1) start.2

/-- `read_utf16_code_point`, `text_input_stream.ipp` 237-251. -/
def readUtf16 (native : Endian) (R : Reader ρ) : M (InStream ρ) Char32 := do
  let got ← readUnit native R 2
  match got with
  | none => M.throw .readPastEnd
  | some v => do
    let start ← M.lift (initializeUtf16Sequence (BitVec.ofNat 16 v))
    finishUtf16 native R start.1 start.2

/-- `read_utf32_code_point`, `text_input_stream.ipp` 253-264. -/
def readUtf32 (native : Endian) (R : Reader ρ) : M (InStream ρ) Char32 := do
  let got ← readUnit native R 4
  match got with
  | none => M.throw .readPastEnd
  | some v => pure (BitVec.ofNat 32 v)

/-- `read_code_point`, `text_input_stream.ipp` 266-280. -/
def readCodePoint (native : Endian) (R : Reader ρ) : M (InStream ρ) Char32 := do
  let s ← M.get
  match s.form with
  | .utf8 => readUtf8 native R
  | .utf16 => readUtf16 native R
  | .utf32 => readUtf32 native R

/-- `read_filtered_code_point`, `text_input_stream.ipp` 282-293, which is also `operator >>` for
`char32_t`, 400-410. -/
def readFiltered (native : Endian) (R : Reader ρ) : M (InStream ρ) Char32 := do
  let c ← readCodePoint native R
  if c = 13#32 then do
    let e ← isAtEnd R
    if e then pure c else readCodePoint native R
  else pure c

/-! ### The byte order mark -/

/-- Reading one byte into a `std::byte`, `text_input_stream.ipp` 303-308 and 351-362. -/
def readByte (native : Endian) (R : Reader ρ) : M (InStream ρ) Byte := do
  let got ← read native R 1
  if got.1 < 1 then M.throw .readPastEnd
  else do
    let bytes ← M.lift (loaded got.2)
    match bytes with
    | b :: _ => pure b
    | [] => M.ub

/-- `set_endianness`, `input_stream.ipp` 57-67. -/
def setEndian (e : Endian) : M (InStream ρ) Unit := M.modify fun s => { s with endian := e }

/-- The code unit `read_utf16_bom` makes of two bytes, `text_input_stream.ipp` 322-331: shifting a
`std::byte` by 8 gives the `std::byte` 0. -/
def unmarked16 (endian : Endian) (b1 b2 : Byte) : Char16 :=
  match endian with
  | .big => ((b1 <<< 8).setWidth 16) ||| b2.setWidth 16
  | .little => ((b2 <<< 8).setWidth 16) ||| b1.setWidth 16

/-- `read_utf16_bom`, `text_input_stream.ipp` 295-339. -/
def readUtf16Bom (native : Endian) (R : Reader ρ) : M (InStream ρ) Char32 := do
  let b1 ← readByte native R
  let b2 ← readByte native R
  if b1 = 0xFE#8 ∧ b2 = 0xFF#8 then do
    setEndian .big
    pure bom
  else if b1 = 0xFF#8 ∧ b2 = 0xFE#8 then do
    setEndian .little
    pure bom
  else do
    let s ← M.get
    let start ← M.lift (initializeUtf16Sequence (unmarked16 s.endian b1 b2))
    finishUtf16 native R start.1 start.2

/-- The code point `read_utf32_bom` makes of four bytes, `text_input_stream.ipp` 380-393. -/
def unmarked32 (endian : Endian) (b1 b2 b3 b4 : Byte) : Char32 :=
  match endian with
  | .big => (b1 <<< 24).setWidth 32 ||| (b2 <<< 16).setWidth 32 ||| (b3 <<< 8).setWidth 32 |||
      b4.setWidth 32
  | .little => (b4 <<< 24).setWidth 32 ||| (b3 <<< 16).setWidth 32 ||| (b2 <<< 8).setWidth 32 |||
      b1.setWidth 32

/-- `read_utf32_bom`, `text_input_stream.ipp` 341-396. -/
def readUtf32Bom (native : Endian) (R : Reader ρ) : M (InStream ρ) Char32 := do
  let b1 ← readByte native R
  let b2 ← readByte native R
  let b3 ← readByte native R
  let b4 ← readByte native R
  if b1 = 0#8 ∧ b2 = 0#8 ∧ b3 = 0xFE#8 ∧ b4 = 0xFF#8 then do
    setEndian .big
    pure bom
  else if b1 = 0xFF#8 ∧ b2 = 0xFE#8 ∧ b3 = 0#8 ∧ b4 = 0#8 then do
    setEndian .little
    pure bom
  else do
    let s ← M.get
    pure (unmarked32 s.endian b1 b2 b3 b4)

/-- `read_bom`, `text_input_stream.ipp` 50-64. -/
def readBom (native : Endian) (R : Reader ρ) : M (InStream ρ) Char32 := do
  let s ← M.get
  match s.form with
  | .utf8 => readCodePoint native R
  | .utf16 => readUtf16Bom native R
  | .utf32 => readUtf32Bom native R

/-! ### Lines, words and numbers -/

/-- The loop of `append_line`, `text_input_stream.ipp` 77-83; `fuel` bounds the number of code
points. -/
def appendLine (native : Endian) (R : Reader ρ) (e : Enc) : Nat → Str e → M (InStream ρ) (Str e)
  | 0, _ => M.hang
  | fuel + 1, target => do
    let atEnd ← isAtEnd R
    if atEnd then pure target
    else do
      let c ← readFiltered native R
      if c = 10#32 then pure target
      else do
        let target ← M.lift (appendCP e target c)
        appendLine native R e fuel target

/-- `read_line`, `text_input_stream.ipp` 86-98. -/
def readLine (native : Endian) (R : Reader ρ) (e : Enc) (fuel : Nat) : M (InStream ρ) (Str e) :=
  appendLine native R e fuel []

/-- The loop of `append_all`, `text_input_stream.ipp` 110-112. -/
def appendAll (native : Endian) (R : Reader ρ) (e : Enc) : Nat → Str e → M (InStream ρ) (Str e)
  | 0, _ => M.hang
  | fuel + 1, target => do
    let atEnd ← isAtEnd R
    if atEnd then pure target
    else do
      let c ← readFiltered native R
      let target ← M.lift (appendCP e target c)
      appendAll native R e fuel target

/-- `read_all`, `text_input_stream.ipp` 115-127. -/
def readAll (native : Endian) (R : Reader ρ) (e : Enc) (fuel : Nat) : M (InStream ρ) (Str e) :=
  appendAll native R e fuel []

/-- The first loop of `operator >>` for strings, `text_input_stream.ipp` 439-449. -/
def skipSpace (native : Endian) (R : Reader ρ) (e : Enc) : Nat → M (InStream ρ) (Str e)
  | 0 => M.hang
  | fuel + 1 => do
    let atEnd ← isAtEnd R
    if atEnd then pure []
    else do
      let c ← readFiltered native R
      if isWhitespace c then skipSpace native R e fuel else M.lift (appendCP e [] c)

/-- The second loop of `operator >>` for strings, `text_input_stream.ipp` 454-465. -/
def takeWord (native : Endian) (R : Reader ρ) (e : Enc) : Nat → Str e → M (InStream ρ) (Str e)
  | 0, _ => M.hang
  | fuel + 1, target => do
    let atEnd ← isAtEnd R
    if atEnd then pure target
    else do
      let c ← readFiltered native R
      if isWhitespace c then pure target
      else do
        let target ← M.lift (appendCP e target c)
        takeWord native R e fuel target

/-- `operator >>` for strings, `text_input_stream.ipp` 412-468. -/
def readWord (native : Endian) (R : Reader ρ) (e : Enc) (fuel : Nat) : M (InStream ρ) (Str e) := do
  let target ← skipSpace native R e fuel
  takeWord native R e fuel target

/-- `operator >>` for `bool`, `text_input_stream.ipp` 470-482. -/
def readBool (native : Endian) (R : Reader ρ) (fuel : Nat) : M (InStream ρ) Bool := do
  let input ← readWord native R .char8 fuel
  M.lift (parseBool .char8 input BoolFormat.default)

/-- `operator >>` for integers, `text_input_stream.ipp` 484-497. -/
def readInteger (native : Endian) (R : Reader ρ) (T : IntTy) (fuel : Nat) :
    M (InStream ρ) Int := do
  let input ← readWord native R .char8 fuel
  M.lift (parseInteger .char8 T input IntegerFormat.default)

/-- `operator >>` for floating-point numbers, `text_input_stream.ipp` 499-512.  `rnd` is the rounding
of the machine. -/
def readFloat (native : Endian) (R : Reader ρ) (rnd : ℚ → ℚ) (fuel : Nat) : M (InStream ρ) ℚ := do
  let input ← readWord native R .char8 fuel
  M.lift (parseFloat .char8 rnd input FloatFormat.default)

end InStream

namespace OutStream

variable {ρ : Type}

/-! ### Writing code points -/

/-- `write_code_point_in_utf8`, `text_output_stream.ipp` 61-74. -/
def writeUtf8 (W : Writer ρ) (c : Char32) : M (OutStream ρ) Unit := do
  let data ← M.lift (appendCP .char8 [] c)
  let _ ← write W data
  pure ()

/-- Writing the units of a string one by one, inverted, `text_output_stream.ipp` 91-100 (the string
has one or two units). -/
def reverseUnits (native : Endian) (W : Writer ρ) : List Char16 → M (OutStream ρ) Unit
  | [] => pure ()
  | u :: us => do
    let _ ← reverseWrite W (objectBytes native 2 u.toNat)
    reverseUnits native W us

/-- `write_code_point_in_utf16`, `text_output_stream.ipp` 76-102. -/
def writeUtf16 (native : Endian) (W : Writer ρ) (c : Char32) : M (OutStream ρ) Unit := do
  let data ← M.lift (appendCP .char16 [] c)
  let s ← M.get
  if s.endian = native then do
    let _ ← write W (data.flatMap fun u => objectBytes native 2 u.toNat)
    pure ()
  else reverseUnits native W data

/-- `write_code_point_in_utf32`, `text_output_stream.ipp` 104-122. -/
def writeUtf32 (native : Endian) (W : Writer ρ) (c : Char32) : M (OutStream ρ) Unit := do
  let s ← M.get
  if s.endian = native then do
    let _ ← write W (objectBytes native 4 c.toNat)
    pure ()
  else do
    let _ ← reverseWrite W (objectBytes native 4 c.toNat)
    pure ()

/-- `write_code_point`, `text_output_stream.ipp` 124-142, which is also `operator <<` for
`char32_t`, 158-168. -/
def writeCodePoint (native : Endian) (W : Writer ρ) (c : Char32) : M (OutStream ρ) Unit := do
  let s ← M.get
  match s.form with
  | .utf8 => writeUtf8 W c
  | .utf16 => writeUtf16 native W c
  | .utf32 => writeUtf32 native W c

/-- `write_bom`, `text_output_stream.ipp` 50-57. -/
def writeBom (native : Endian) (W : Writer ρ) : M (OutStream ρ) Unit := writeCodePoint native W bom

/-- `operator <<` for `char`, `text_output_stream.ipp` 146-156: a (signed) `char` converts to
`char32_t` by sign extension. -/
def writeChar (native : Endian) (W : Writer ρ) (c : BitVec 8) : M (OutStream ρ) Unit :=
  writeCodePoint native W (c.signExtend 32)

/-! ### Writing strings -/

/-- A range-for over `by_code_point{source}` whose body writes, such as `text_output_stream.ipp`
237-239; `fuel` bounds the number of iterations. -/
def forCodePoints (e : Enc) (s : Str e) (f : Char32 → M (OutStream ρ) Unit) :
    Nat → Nat → M (OutStream ρ) Unit
  | 0, _ => M.hang
  | fuel + 1, i =>
    if i = s.length then pure ()
    else do
      let c ← M.lift (deref e s i)
      f c
      let j ← M.lift (advance e s i)
      forCodePoints e s f fuel j

/-- Writing the memory of a string as it is, such as `text_output_stream.ipp` 191-194, 277-280. -/
def writeMemory (native : Endian) (W : Writer ρ) {e : Enc} (s : Str e) : M (OutStream ρ) Unit := do
  let _ ← write W (s.flatMap fun u => objectBytes native (e.width / 8) u.toNat)
  pure ()

/-- The stream writes the memory of strings of this character type as it is when its encoding form
has the same code units and, for units of more than a byte, its byte order is the host's; the
conditions in `text_output_stream.ipp` 189-207, 229-247, 269-293, 315-339 and 361-404. -/
def takesMemory (native : Endian) (e : Enc) (s : OutStream ρ) : Bool :=
  match e, s.form with
  | .narrow, .utf8 => true
  | .char8, .utf8 => true
  | .char16, .utf16 => s.endian == native
  | .wide2, .utf16 => s.endian == native
  | .char32, .utf32 => s.endian == native
  | .wide4, .utf32 => s.endian == native
  | _, _ => false

/-- `operator <<` for string views: `std::string_view`, `text_output_stream.ipp` 181-208;
`std::u8string_view`, 221-248; `std::u16string_view`, 261-294; `std::u32string_view`, 307-340;
`std::wstring_view`, 353-405.  (The loops over a `std::string_view` are plain loops over `char`,
which visit what `by_code_point<char>` visits.) -/
def writeString (native : Endian) (W : Writer ρ) (e : Enc) (s : Str e) : M (OutStream ρ) Unit := do
  let o ← M.get
  if takesMemory native e o then writeMemory native W s
  else forCodePoints e s (writeCodePoint native W) (s.length + 1) 0

/-- The character type `operator <<` formats numbers in, `text_output_stream.ipp` 415-425 and
438-448. -/
def formatEnc : EncodingForm → Enc
  | .utf8 => .char8
  | .utf16 => .char16
  | .utf32 => .char32

/-- The view `std::basic_string_view{source}` of a null-terminated array: its units up to the first
null.  Without one the length is undefined. -/
def viewOf {e : Enc} (memory : Str e) : Outcome (Str e) :=
  if 0 ∈ memory then .ok (memory.takeWhile (· ≠ 0)) else .ub

/-- `operator <<` for null-terminated arrays: `const char*`, `text_output_stream.ipp` 170-179;
`const char8_t*`, 210-219; `const char16_t*`, 250-259; `const char32_t*`, 296-305;
`const wchar_t*`, 342-351. -/
def writeArray (native : Endian) (W : Writer ρ) (e : Enc) (memory : Str e) :
    M (OutStream ρ) Unit := do
  let view ← M.lift (viewOf memory)
  writeString native W e view

/-- `operator <<` for `bool`, `text_output_stream.ipp` 407-427. -/
def writeBool (native : Endian) (W : Writer ρ) (b : Bool) : M (OutStream ρ) Unit := do
  let o ← M.get
  let text ← M.lift (formatBool (formatEnc o.form) b BoolFormat.default)
  writeString native W (formatEnc o.form) text

/-- `operator <<` for integers, `text_output_stream.ipp` 429-450. -/
def writeInteger (native : Endian) (W : Writer ρ) (T : IntTy) (v : Int) : M (OutStream ρ) Unit := do
  let o ← M.get
  let text ← M.lift (formatInteger (formatEnc o.form) T v IntegerFormat.default)
  writeString native W (formatEnc o.form) text

/-- `operator <<` for floating-point numbers, `text_output_stream.ipp` 452-482.  `rnd` is the rounding
of the machine; `fuel` bounds the loop over the places. -/
def writeFloat (native : Endian) (W : Writer ρ) (rnd : ℚ → ℚ) (fuel : Nat) (x : ℚ) :
    M (OutStream ρ) Unit := do
  let o ← M.get
  let text ← M.lift (formatFloat (formatEnc o.form) rnd fuel x FloatFormat.default)
  writeString native W (formatEnc o.form) text

end OutStream

end Cmp
