import Verif.Checks.Literal
import Verif.Model.IoStream
import Verif.Model.Text

/-
The tests of `tests/automated/io/test_container_transfer_resources.cpp`, `test_io_general.cpp`,
`test_data_io_stream.cpp`, the first half of `test_text_io_stream.cpp`, and the tests of
`test_text_input_stream.cpp` that read strings, carried out on the model.  The machine is
little-endian, as the first of these tests presume.  Containers have no buffer by default
(`opaque_container_input_resource.hpp` 60).

These are tests: they compare the model with what the authors of the library expect of it, case by
case, and prove no property.
-/

namespace Cmp.Checks

/-- The memory of elements of `k` bytes that hold the characters of a text of ASCII. -/
def cells (k : Nat) (s : String) : List Byte :=
  s.toList.flatMap fun c => BitVec.ofNat 8 c.toNat :: List.replicate (k - 1) 0

/-- A container resource without a buffer. -/
def container (k : Nat) (s : String) : Res Ctr := ⟨IoBuffer.make 0, Ctr.make k (cells k s)⟩

/-! ### `test_container_transfer_resources.cpp` -/

/-- `test_read_generic`: the bytes the two reads store. -/
def readTwice (k : Nat) : M (Res Ctr) (List Byte × List Byte) := do
  let first ← Res.read Ctr.readRaw (5 * k)
  let second ← Res.read Ctr.readRaw (3 * k)
  pure (first.bytes, second.bytes)

/-- `test_read_blob` to `test_read_wstring`, for elements of one, two and four bytes. -/
example : (readTwice 1 (container 1 "Hello!\n")).1 = .ok (cells 1 "Hello", cells 1 "!\n")
    ∧ (readTwice 2 (container 2 "Hello!\n")).1 = .ok (cells 2 "Hello", cells 2 "!\n")
    ∧ (readTwice 4 (container 4 "Hello!\n")).1 = .ok (cells 4 "Hello", cells 4 "!\n") := by
  decide +kernel

/-- `test_write_generic`: the number of bytes written, and the content. -/
def writeHello (k : Nat) : M (Res Ctr) (Nat × List Byte) := do
  let n ← Res.write Ctr.writeRaw (cells k "Hello")
  Res.flush Ctr.writeRaw
  let r ← M.get
  pure (n, r.dev.content)

/-- `test_write_blob` to `test_write_wstring`. -/
example : (writeHello 1 (container 1 "")).1 = .ok (5, cells 1 "Hello")
    ∧ (writeHello 2 (container 2 "")).1 = .ok (10, cells 2 "Hello")
    ∧ (writeHello 4 (container 4 "")).1 = .ok (20, cells 4 "Hello") := by
  decide +kernel

/-- `test_set_position_generic`: the content after the first writes, after the others, whether the
resource is at its end, and the content after reading. -/
def writeYellow (k : Nat) : M (Res Ctr) (List Byte × List Byte × Bool × List Byte) := do
  let _ ← Res.write Ctr.writeRaw (cells k "Hello")
  Res.flush Ctr.writeRaw
  let r1 ← M.get
  Res.setPositionIO Ctr.writeRaw Ctr.seek 0 .begin
  let _ ← Res.write Ctr.writeRaw (cells k "Y")
  Res.setPositionIO Ctr.writeRaw Ctr.seek 0 .end
  let _ ← Res.write Ctr.writeRaw (cells k "w")
  Res.flush Ctr.writeRaw
  let r2 ← M.get
  Res.setPositionIO Ctr.writeRaw Ctr.seek 0 .begin
  let _ ← Res.read Ctr.readRaw (5 * k + 1)
  let r3 ← M.get
  pure (r1.dev.content, r2.dev.content, Ctr.isAtEnd r2, r3.dev.content)

/-- `test_set_position_blob` to `test_set_position_wstring`. -/
example : (writeYellow 1 (container 1 "")).1
      = .ok (cells 1 "Hello", cells 1 "Yellow", true, cells 1 "Yellow")
    ∧ (writeYellow 2 (container 2 "")).1
      = .ok (cells 2 "Hello", cells 2 "Yellow", true, cells 2 "Yellow")
    ∧ (writeYellow 4 (container 4 "")).1
      = .ok (cells 4 "Hello", cells 4 "Yellow", true, cells 4 "Yellow") := by
  decide +kernel

/-! ### `test_io_general.cpp` -/

/-- `test_invert_endianness`. -/
example : invertEndianness [0x02#8, 0x01#8] 0 2 = .ok [0x01#8, 0x02#8]
    ∧ invertEndianness [0x04#8, 0x03#8, 0x02#8, 0x01#8] 0 4
      = .ok [0x01#8, 0x02#8, 0x03#8, 0x04#8]
    ∧ invertEndianness [0x08#8, 0x07#8, 0x06#8, 0x05#8, 0x04#8, 0x03#8, 0x02#8, 0x01#8] 0 8
      = .ok [0x01#8, 0x02#8, 0x03#8, 0x04#8, 0x05#8, 0x06#8, 0x07#8, 0x08#8] := by
  decide +kernel

/-! ### `test_data_io_stream.cpp` -/

/-- `test_read`: the content afterwards. -/
def semicolon : M (IoStream (Res Ctr)) (List Byte) := do
  IoStream.onRes (Ctr.members.setPosition 5 .current)
  IoStream.output (OutStream.writeValue .little Ctr.writer (cells 1 ";"))
  IoStream.onRes Ctr.members.writer.flush
  let s ← M.get
  pure s.res.dev.content

example : (semicolon (IoStream.make (container 1 "Hello, world!") .little .utf8)).1
    = .ok (cells 1 "Hello; world!") := by
  decide +kernel

/-! ### `test_text_io_stream.cpp` -/

/-- `test_stream` on a string: the text read. -/
def there : M (IoStream (Res Ctr)) (Str .char8) := do
  IoStream.onRes (Ctr.members.setPosition 7 .begin)
  IoStream.output (OutStream.writeArray .little Ctr.writer .char8 (u8 "there!" ++ [0]))
  IoStream.onRes (Ctr.members.setPosition 0 .begin)
  IoStream.input (InStream.readAll .little Ctr.reader .char8 99)

example : (there (IoStream.make (container 1 "Hello, world!") .little .utf8)).1
    = .ok (u8 "Hello, there!") := by
  decide +kernel

/-! ### `test_text_input_stream.cpp` -/

/-- `test_read_strings_generic`. -/
def threeWords (e : Enc) : M (InStream (Res Ctr)) (Str e × Str e × Str e) := do
  let a ← InStream.readWord .little Ctr.reader e 99
  let b ← InStream.readWord .little Ctr.reader e 99
  let c ← InStream.readWord .little Ctr.reader e 99
  pure (a, b, c)

/-- `test_read_strings_from_char`. -/
example : (threeWords .narrow ⟨container 1 "Hello yellow world!", .little, .utf8⟩).1
    = .ok (u8 "Hello", u8 "yellow", u8 "world!") := by
  decide +kernel

/-- `test_read_strings_from_utf8`. -/
example : (threeWords .char8 ⟨container 1 "Hello yellow world!", .little, .utf8⟩).1
    = .ok (u8 "Hello", u8 "yellow", u8 "world!") := by
  decide +kernel

/-- `test_read_strings_from_utf16`. -/
example : (threeWords .char16 ⟨container 2 "Hello yellow world!", .little, .utf16⟩).1
    = .ok (u16 "Hello", u16 "yellow", u16 "world!") := by
  decide +kernel

/-- `test_read_strings_from_utf32`. -/
example : (threeWords .char32 ⟨container 4 "Hello yellow world!", .little, .utf32⟩).1
    = .ok (u32 "Hello", u32 "yellow", u32 "world!") := by
  decide +kernel

/-- `test_read_strings_from_wide` where `wchar_t` has two bytes. -/
example : (threeWords .wide2 ⟨container 2 "Hello yellow world!", .little, .utf16⟩).1
    = .ok (u16 "Hello", u16 "yellow", u16 "world!") := by
  decide +kernel

/-- `test_read_strings_from_wide` where `wchar_t` has four bytes. -/
example : (threeWords .wide4 ⟨container 4 "Hello yellow world!", .little, .utf32⟩).1
    = .ok (u32 "Hello", u32 "yellow", u32 "world!") := by
  decide +kernel

end Cmp.Checks
