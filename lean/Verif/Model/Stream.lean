import Verif.Model.Buffer

/-
Model of the streams below text: `invert_endianness` (`api/src/cmp/io/general.cpp`),
`input_stream.ipp`, `output_stream.ipp`, `data_input_stream.ipp` and `data_output_stream.ipp` in
`api/src/cmp/io`.

The host's byte order `std::endian::native` is the parameter `native`, which is taken to be big or
little.  A value of a fundamental type is the list of the bytes of its object representation.
-/

namespace Cmp

/-- `std::endian`. -/
inductive Endian
  | big
  | little
  deriving DecidableEq, Repr

/-- `get_opposite_endianness` (`noexcept`), `general.ipp` 10-20. -/
def Endian.opposite (e : Endian) : Endian := if e = .little then .big else .little

/-- `encoding_form`, `api/include/cmp/io/general.hpp` 20-24. -/
inductive EncodingForm
  | utf8
  | utf16
  | utf32
  deriving DecidableEq, Repr

/-- `std::swap` of two places of an array; outside the array it is undefined. -/
def swapAt {α : Type} (mem : List α) (i j : Nat) : Outcome (List α) :=
  match mem[i]?, mem[j]? with
  | some x, some y => .ok ((mem.set i y).set j x)
  | _, _ => .ub

/-- The loop of `invert_endianness`, `general.cpp` 19-21, on an array; the pointers are indices
into it. -/
def invertLoop {α : Type} : Nat → List α → Nat → Nat → Outcome (List α)
  | 0, mem, b, e => if b < e then .hang else .ok mem
  | fuel + 1, mem, b, e =>
    if b < e then do
      let mem ← swapAt mem b e
      invertLoop fuel mem (b + 1) (e - 1)
    else .ok mem

/-- `invert_endianness` (`noexcept`), `general.cpp` 10-22, on the `count` places of an array from
place `data` on.  Computing a pointer before the array (`data + byte_count - 1` for an empty block
at its beginning) is undefined. -/
def invertEndianness {α : Type} (mem : List α) (data count : Nat) : Outcome (List α) :=
  if data + count = 0 then .ub else invertLoop count mem data (data + count - 1)

/-! ### Input -/

/-- The members of an input resource that a stream calls: `read` and `is_at_end`. -/
structure Reader (ρ : Type) where
  read : Nat → M ρ ReadResult
  isAtEnd : ρ → Outcome Bool

/-- `input_stream` with the resource it refers to; `form` is the member of `text_input_stream`. -/
structure InStream (ρ : Type) where
  res : ρ
  endian : Endian
  form : EncodingForm
  deriving DecidableEq

namespace InStream

variable {ρ α : Type}

/-- Run an operation of the resource. -/
def onRes (x : M ρ α) : M (InStream ρ) α := fun s =>
  ((x s.res).1, { s with res := (x s.res).2 })

/-- `input_stream::is_at_end` (`noexcept`), `input_stream.ipp` 69-77. -/
def isAtEnd (R : Reader ρ) : M (InStream ρ) Bool := fun s => ((R.isAtEnd s.res).noexcept, s)

/-- Inverting the array a read has filled, `input_stream.ipp` 90-92. -/
def invertIf (native : Endian) (array : List (Option Byte)) : M (InStream ρ) (List (Option Byte)) :=
  fun s =>
    (if s.endian = native then .ok array else invertEndianness array 0 array.length, s)

/-- `input_stream::read`, `input_stream.ipp` 81-94: the count it returns and what the caller's
array of `n` bytes holds afterwards (`none`: not written). -/
def read (native : Endian) (R : Reader ρ) (n : Nat) :
    M (InStream ρ) (Nat × List (Option Byte)) := do
  let got ← onRes (R.read n)
  let array ← invertIf native ((got.bytes.map some ++ List.replicate n none).take n)
  pure (got.count, array)

/-- Using the bytes of an array; using one that was not written is undefined. -/
def loaded : List (Option Byte) → Outcome (List Byte)
  | [] => .ok []
  | none :: _ => .ub
  | some b :: rest => do
    let bytes ← loaded rest
    .ok (b :: bytes)

/-- `operator >>` of `data_input_stream` for a type of `n` bytes, `data_input_stream.ipp` 26-74. -/
def readValue (native : Endian) (R : Reader ρ) (n : Nat) : M (InStream ρ) (List Byte) := do
  let got ← read native R n
  if got.1 < n then M.throw .readPastEnd
  else do
    let array ← invertIf native got.2
    M.lift (loaded array)

end InStream

/-! ### Output -/

/-- The members of an output resource that a stream calls: `write` and `flush`. -/
structure Writer (ρ : Type) where
  write : List Byte → M ρ Nat
  flush : M ρ Unit

/-- `output_stream` with the resource it refers to; `form` is the member of
`text_output_stream`. -/
structure OutStream (ρ : Type) where
  res : ρ
  endian : Endian
  form : EncodingForm
  deriving DecidableEq

namespace OutStream

variable {ρ α : Type}

/-- Run an operation of the resource. -/
def onRes (x : M ρ α) : M (OutStream ρ) α := fun s =>
  ((x s.res).1, { s with res := (x s.res).2 })

/-- `output_stream::write`, `output_stream.ipp` 89-99. -/
def write (W : Writer ρ) (bytes : List Byte) : M (OutStream ρ) Nat := onRes (W.write bytes)

/-- `output_stream::reverse_write`, `output_stream.ipp` 101-112, on a whole array, which is not
used afterwards. -/
def reverseWrite (W : Writer ρ) (bytes : List Byte) : M (OutStream ρ) Nat := do
  let bytes ← M.lift (invertEndianness bytes 0 bytes.length)
  onRes (W.write bytes)

/-- `output_stream::flush`, `output_stream.ipp` 114-121, and the destructor, 25-31. -/
def flush (W : Writer ρ) : M (OutStream ρ) Unit := onRes W.flush

/-- `operator <<` of `data_output_stream`, `data_output_stream.ipp` 26-66. -/
def writeValue (native : Endian) (W : Writer ρ) (object : List Byte) : M (OutStream ρ) Unit := do
  let s ← M.get
  if s.endian = native then do
    let _ ← write W object
    pure ()
  else do
    let _ ← reverseWrite W object
    pure ()

end OutStream

end Cmp
