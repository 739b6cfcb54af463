import Verif.Checks.Containers
import Verif.Model.Disk

/-
The tests of `tests/automated/io/test_file.cpp`, `test_data_input_stream.cpp`,
`test_data_output_stream.cpp`, `test_text_output_stream.cpp`, the second half of
`test_text_io_stream.cpp`, and the tests of `test_text_input_stream.cpp` that read lines and whole
files, carried out on the model.  The machine is little-endian.  Files have a buffer of 1024 bytes
by default (`config.hpp` 30); for the longer tests of text streams it is taken to have 64 bytes, so
that it is filled and written several times.

These are tests: they compare the model with what the authors of the library expect of it, case by
case, and prove no property.
-/

namespace Cmp.Checks

/-- `CMP_CONFIG_DEFAULT_BUFFER_CAPACITY`. -/
def capacity : Nat := 1024

/-- The only file is file 0. -/
def one (content : List Byte) : Nat → Option (List Byte) := fun p =>
  if p = 0 then some content else none

/-- `file f{…, mode, if_not_there::fail, capacity}` on that file. -/
def opened (P : FilePlatform) (cap : Nat) (content : List Byte) (mode : AccessMode) : FileObj :=
  FileObj.make P cap (one content) [] 0 mode .fail

/-- `file f{…, mode, if_not_there::create, capacity}` with no file there. -/
def created (P : FilePlatform) (cap : Nat) (mode : AccessMode) : FileObj :=
  FileObj.make P cap (fun _ => none) [] 0 mode .create

/-- The content of the file. -/
def onDisk (f : FileObj) : List Byte := (f.res.dev.files 0).getD []

/-! ### `test_file.cpp` -/

/-- `test_open`: is the first object open, is its file there, is the second open, is the third, and
is its file there; then the two objects are closed, and a file that is there is opened. -/
def openings (P : FilePlatform) : M Disk (List Bool) := do
  Disk.construct P 1 capacity [] 1 .readOnly .create
  let d ← M.get
  let a := ((d.objects 1).map FileObj.isOpen).getD false
  let b := (d.files 1).isSome
  Disk.construct P 2 capacity [] 1 .readOnly .create
  let d ← M.get
  let c := ((d.objects 2).map FileObj.isOpen).getD false
  Disk.construct P 3 capacity [] 2 .readOnly .fail
  let d ← M.get
  let e := ((d.objects 3).map FileObj.isOpen).getD false
  let f := (d.files 2).isSome
  Disk.use 1 (FileObj.close P)
  Disk.use 2 (FileObj.close P)
  Disk.use 3 (FileObj.close P)
  Disk.construct P 4 capacity [] 0 .readOnly .fail
  let d ← M.get
  let g := ((d.objects 4).map FileObj.isOpen).getD false
  pure [a, b, c, e, f, g]

example : (openings .unix (Disk.make (one []))).1 = .ok [true, true, true, false, false, true]
    ∧ (openings .windows (Disk.make (one []))).1
      = .ok [true, true, true, false, false, true] := by
  decide +kernel

/-- `test_position`: the five positions. -/
def positions (P : FilePlatform) : M FileObj (List Int) := do
  let f ← M.get
  let a ← M.lift (FileObj.getPosition P f)
  let _ ← FileObj.read P 2
  let f ← M.get
  let b ← M.lift (FileObj.getPosition P f)
  FileObj.setPosition P 0 .begin
  let f ← M.get
  let c ← M.lift (FileObj.getPosition P f)
  FileObj.setPosition P 0 .end
  let f ← M.get
  let d ← M.lift (FileObj.getPosition P f)
  FileObj.setPosition P (-1) .end
  let f ← M.get
  let e ← M.lift (FileObj.getPosition P f)
  pure [a, b, c, d, e]

example : (positions .unix (opened .unix capacity (cells 1 "abcd") .readOnly)).1
      = .ok [0, 2, 0, 4, 3]
    ∧ (positions .windows (opened .windows capacity (cells 1 "abcd") .readOnly)).1
      = .ok [0, 2, 0, 4, 3] := by
  decide +kernel

/-- `test_is_at_end`. -/
def ends (P : FilePlatform) : M FileObj (List Bool) := do
  let f ← M.get
  let a ← M.lift (FileObj.isAtEnd P f)
  let _ ← FileObj.read P 2
  let f ← M.get
  let b ← M.lift (FileObj.isAtEnd P f)
  let _ ← FileObj.read P 2
  let f ← M.get
  let c ← M.lift (FileObj.isAtEnd P f)
  FileObj.setPosition P 0 .end
  let f ← M.get
  let d ← M.lift (FileObj.isAtEnd P f)
  pure [a, b, c, d]

example : (ends .unix (opened .unix capacity (cells 1 "abcd") .readOnly)).1
      = .ok [false, false, true, true]
    ∧ (ends .windows (opened .windows capacity (cells 1 "abcd") .readOnly)).1
      = .ok [false, false, true, true] := by
  decide +kernel

/-- `test_read`. -/
example : (FileObj.read .unix 4 (opened .unix 2 (cells 1 "abcd") .readOnly)).1
      = .ok ⟨cells 1 "abcd", 4⟩
    ∧ (FileObj.read .windows 4 (opened .windows 2 (cells 1 "abcd") .readOnly)).1
      = .ok ⟨cells 1 "abcd", 4⟩ := by
  decide +kernel

/-- `test_write`; here the content is looked at, too. -/
example : (FileObj.write .unix (cells 1 "xyzw") (opened .unix 2 [] .writeOnly)).1 = .ok 4
    ∧ onDisk (FileObj.write .unix (cells 1 "xyzw") (opened .unix 2 [] .writeOnly)).2
      = cells 1 "xyzw"
    ∧ (FileObj.write .windows (cells 1 "xyzw") (opened .windows 2 [] .writeOnly)).1 = .ok 4
    ∧ onDisk (FileObj.write .windows (cells 1 "xyzw") (opened .windows 2 [] .writeOnly)).2
      = cells 1 "xyzw" := by
  decide +kernel

/-! ### `test_data_input_stream.cpp` and `test_data_output_stream.cpp` -/

/-- `int{75}`. -/
def seventyFive : List Byte := [75#8, 0#8, 0#8, 0#8]

/-- `double{128.25}`: 0x4060080000000000. -/
def oneTwentyEight : List Byte := [0#8, 0#8, 0#8, 0#8, 0#8, 0x08#8, 0x60#8, 0x40#8]

/-- `test_read`. -/
def readTwo (P : FilePlatform) : M (InStream FileObj) (List Byte × List Byte) := do
  let a ← InStream.readValue .little (FileObj.reader P) 4
  let b ← InStream.readValue .little (FileObj.reader P) 8
  pure (a, b)

example : (readTwo .unix
      ⟨opened .unix capacity (seventyFive ++ oneTwentyEight) .readOnly, .little, .utf8⟩).1
      = .ok (seventyFive, oneTwentyEight)
    ∧ (readTwo .windows
      ⟨opened .windows capacity (seventyFive ++ oneTwentyEight) .readOnly, .little, .utf8⟩).1
      = .ok (seventyFive, oneTwentyEight) := by
  decide +kernel

/-- `test_write`: what the file holds in the end. -/
def writeTwo (P : FilePlatform) : M (OutStream FileObj) (List Byte) := do
  OutStream.writeValue .little (FileObj.writer P) seventyFive
  OutStream.writeValue .little (FileObj.writer P) oneTwentyEight
  OutStream.flush (FileObj.writer P)
  let s ← M.get
  pure (onDisk s.res)

example : (writeTwo .unix ⟨opened .unix capacity [] .writeOnly, .little, .utf8⟩).1
      = .ok (seventyFive ++ oneTwentyEight)
    ∧ (writeTwo .windows ⟨opened .windows capacity [] .writeOnly, .little, .utf8⟩).1
      = .ok (seventyFive ++ oneTwentyEight) := by
  decide +kernel

/-! ### `test_text_io_stream.cpp` -/

/-- `test_stream` on a file: the text read. -/
def thereInFile (P : FilePlatform) : M (IoStream FileObj) (Str .char8) := do
  IoStream.onRes ((FileObj.members P).setPosition 7 .begin)
  IoStream.output (OutStream.writeArray .little (FileObj.writer P) .char8 (u8 "there!" ++ [0]))
  IoStream.onRes ((FileObj.members P).setPosition 0 .begin)
  IoStream.input (InStream.readAll .little (FileObj.reader P) .char8 99)

example : (thereInFile .unix (IoStream.make
      (opened .unix capacity (cells 1 "Hello, world!") .readAndWrite) .little .utf8)).1
      = .ok (u8 "Hello, there!")
    ∧ (thereInFile .windows (IoStream.make
      (opened .windows capacity (cells 1 "Hello, world!") .readAndWrite) .little .utf8)).1
      = .ok (u8 "Hello, there!") := by
  decide +kernel

/-! ### `test_text_output_stream.cpp` -/

/-- `test_write_generic`: what the file holds in the end. -/
def shrugs (P : FilePlatform) : M (OutStream FileObj) (List Byte) := do
  let s ← M.get
  if s.form ≠ .utf8 then OutStream.writeBom .little (FileObj.writer P) else pure ()
  OutStream.writeString .little (FileObj.writer P) .char8 (u8 "¯\\_(ツ)_/¯")
  OutStream.writeChar .little (FileObj.writer P) 10#8
  OutStream.writeString .little (FileObj.writer P) .char16 (u16 "¯\\_(ツ)_/¯")
  OutStream.writeChar .little (FileObj.writer P) 10#8
  OutStream.writeString .little (FileObj.writer P) .char32 (u32 "¯\\_(ツ)_/¯")
  OutStream.writeChar .little (FileObj.writer P) 10#8
  OutStream.writeString .little (FileObj.writer P) .wide4 (u32 "¯\\_(ツ)_/¯")
  OutStream.writeChar .little (FileObj.writer P) 10#8
  OutStream.flush (FileObj.writer P)
  let s ← M.get
  pure (onDisk s.res)

/-- A code unit of two or four bytes in memory. -/
def inMemory {w : Nat} (endian : Endian) (units : List (BitVec w)) : List Byte :=
  units.flatMap fun u =>
    let bytes := (List.range (w / 8)).map fun i => BitVec.ofNat 8 (u.toNat / 256 ^ i)
    match endian with
    | .little => bytes
    | .big => bytes.reverse

/-- The four lines. -/
def fourShrugs : String := "¯\\_(ツ)_/¯\n¯\\_(ツ)_/¯\n¯\\_(ツ)_/¯\n¯\\_(ツ)_/¯\n"

/-- `test_write_to_utf8`. -/
example : (shrugs .unix ⟨created .unix 64 .writeOnly, .little, .utf8⟩).1 = .ok (u8 fourShrugs) := by
  decide +kernel

/-- `test_write_to_utf16`. -/
example : (shrugs .unix ⟨created .unix 64 .writeOnly, .little, .utf16⟩).1
      = .ok (inMemory .little (0xFEFF#16 :: u16 fourShrugs))
    ∧ (shrugs .unix ⟨created .unix 64 .writeOnly, .big, .utf16⟩).1
      = .ok (inMemory .big (0xFEFF#16 :: u16 fourShrugs)) := by
  decide +kernel

/-- `test_write_to_utf32`, and `test_write_to_wide` where `wchar_t` has four bytes. -/
example : (shrugs .unix ⟨created .unix 64 .writeOnly, .little, .utf32⟩).1
      = .ok (inMemory .little (0xFEFF#32 :: u32 fourShrugs))
    ∧ (shrugs .unix ⟨created .unix 64 .writeOnly, .big, .utf32⟩).1
      = .ok (inMemory .big (0xFEFF#32 :: u32 fourShrugs)) := by
  decide +kernel

/-! ### `test_text_input_stream.cpp` -/

/-- One line of the files. -/
def line : String := "coração😀¯\\_(ツ)_/¯"

/-- The content of the files: four lines, the last without an end. -/
def fourLines : String := line ++ "\n" ++ line ++ "\n" ++ line ++ "\n" ++ line

/-- `is_at_end` of the stream. -/
def atEnd (P : FilePlatform) : M (InStream FileObj) Bool := InStream.isAtEnd (FileObj.reader P)

/-- `test_read_line_generic`: are the four lines as expected, and whether the stream is at its end
after each. -/
def readLines (P : FilePlatform) : M (InStream FileObj) (List Bool × List Bool) := do
  let s ← M.get
  if s.form ≠ .utf8 then
    let _ ← InStream.readBom .little (FileObj.reader P)
  else pure ()
  let a ← InStream.readLine .little (FileObj.reader P) .char8 99
  let ea ← atEnd P
  let b ← InStream.readLine .little (FileObj.reader P) .char16 99
  let eb ← atEnd P
  let c ← InStream.readLine .little (FileObj.reader P) .char32 99
  let ec ← atEnd P
  let d ← InStream.readLine .little (FileObj.reader P) .wide4 99
  let ed ← atEnd P
  pure ([a == u8 line, b == u16 line, c == u32 line, d == u32 line], [ea, eb, ec, ed])

/-- `test_read_all_generic`: is the content as expected each time, and whether the stream is at its
end each time. -/
def readWhole (P : FilePlatform) : M (InStream FileObj) (List Bool × List Bool) := do
  let s ← M.get
  let mark : M (InStream FileObj) Unit :=
    if s.form ≠ .utf8 then do
      let _ ← InStream.readBom .little (FileObj.reader P)
    else pure ()
  mark
  let a ← InStream.readAll .little (FileObj.reader P) .char8 99
  let ea ← atEnd P
  InStream.onRes (FileObj.setPosition P 0 .begin)
  mark
  let b ← InStream.readAll .little (FileObj.reader P) .char16 99
  let eb ← atEnd P
  InStream.onRes (FileObj.setPosition P 0 .begin)
  mark
  let c ← InStream.readAll .little (FileObj.reader P) .char32 99
  let ec ← atEnd P
  InStream.onRes (FileObj.setPosition P 0 .begin)
  mark
  let d ← InStream.readAll .little (FileObj.reader P) .wide4 99
  let ed ← atEnd P
  pure ([a == u8 fourLines, b == u16 fourLines, c == u32 fourLines, d == u32 fourLines],
    [ea, eb, ec, ed])

/-- `test_read_utf8_without_bom.txt`. -/
def utf8File : List Byte := u8 fourLines

/-- `test_read_utf16_with_…_bom.txt`. -/
def utf16File (endian : Endian) : List Byte := inMemory endian (0xFEFF#16 :: u16 fourLines)

/-- `test_read_utf32_with_…_bom.txt`. -/
def utf32File (endian : Endian) : List Byte := inMemory endian (0xFEFF#32 :: u32 fourLines)

/-- The files have the sizes of those of the project. -/
example : utf8File.length = 107 ∧ (utf16File .little).length = 152
    ∧ (utf32File .big).length = 288 := by
  decide +kernel

/-- What the tests of lines expect. -/
def linesExpected : Outcome (List Bool × List Bool) :=
  .ok ([true, true, true, true], [false, false, false, true])

/-- What the tests of whole files expect. -/
def wholeExpected : Outcome (List Bool × List Bool) :=
  .ok ([true, true, true, true], [true, true, true, true])

/-- `test_read_line_from_utf8`. -/
example : (readLines .unix ⟨opened .unix 64 utf8File .readOnly, .little, .utf8⟩).1
    = linesExpected := by
  decide +kernel

/-- `test_read_line_from_utf16`. -/
example : (readLines .unix ⟨opened .unix 64 (utf16File .little) .readOnly, .little, .utf16⟩).1
      = linesExpected
    ∧ (readLines .unix ⟨opened .unix 64 (utf16File .big) .readOnly, .big, .utf16⟩).1
      = linesExpected := by
  decide +kernel

/-- `test_read_line_from_utf32`, and `test_read_line_from_wide` where `wchar_t` has four bytes. -/
example : (readLines .unix ⟨opened .unix 64 (utf32File .little) .readOnly, .little, .utf32⟩).1
      = linesExpected
    ∧ (readLines .unix ⟨opened .unix 64 (utf32File .big) .readOnly, .big, .utf32⟩).1
      = linesExpected := by
  decide +kernel

/-- `test_read_all_from_utf8`. -/
example : (readWhole .unix ⟨opened .unix 64 utf8File .readOnly, .little, .utf8⟩).1
    = wholeExpected := by
  decide +kernel

/-- `test_read_all_from_utf16`. -/
example : (readWhole .unix ⟨opened .unix 64 (utf16File .little) .readOnly, .little, .utf16⟩).1
      = wholeExpected
    ∧ (readWhole .unix ⟨opened .unix 64 (utf16File .big) .readOnly, .big, .utf16⟩).1
      = wholeExpected := by
  decide +kernel

/-- `test_read_all_from_utf32`, and `test_read_all_from_wide` where `wchar_t` has four bytes. -/
example : (readWhole .unix ⟨opened .unix 64 (utf32File .little) .readOnly, .little, .utf32⟩).1
      = wholeExpected
    ∧ (readWhole .unix ⟨opened .unix 64 (utf32File .big) .readOnly, .big, .utf32⟩).1
      = wholeExpected := by
  decide +kernel

end Cmp.Checks
