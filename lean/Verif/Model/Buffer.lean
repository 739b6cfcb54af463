import Verif.Base.Outcome

/-
Model of the buffered transfer of bytes: `api/src/cmp/io/io_buffer.cpp`, `input_resource.cpp`,
`output_resource.cpp`, and the seek functions of `seekable_input_resource.ipp`,
`seekable_output_resource.ipp` and `seekable_io_resource.ipp`.

The device below the buffer (a container, a file, standard input or output) is a state `δ`
with functions for the virtual members `read_raw`, `write_raw` and `set_position_raw`, which are
parameters here and are defined in the models of the devices.

Byte counts are natural numbers: no object has 2^64 bytes, so sums of a position in the buffer
and a count do not wrap around.  Where the code subtracts a larger from a smaller `std::size_t`
and then copies that many bytes the model has undefined behaviour.
-/

namespace Cmp

/-- `std::byte`. -/
abbrev Byte := BitVec 8

/-- `read_request`, `api/include/cmp/io/general.hpp`. -/
inductive ReadRequest
  | fillBuffer
  | leanRetrieval
  deriving DecidableEq, Repr

/-- `position_reference`, `api/include/cmp/io/general.hpp`. -/
inductive PositionReference
  | begin
  | current
  | «end»
  deriving DecidableEq, Repr

/-- What a read does: the bytes stored from the start of the caller's array on, and the count it
returns.  The two agree unless a device misreports. -/
structure ReadResult where
  bytes : List Byte
  count : Nat
  deriving DecidableEq, Repr

/-- `io_buffer`.  `data` is the content of the vector, whose `capacity()` is taken to be the number
of elements it was resized to (`io_buffer.cpp` 20-21). -/
structure IoBuffer where
  data : List Byte
  size : Nat
  position : Nat
  readDirty : Bool
  writeDirty : Bool
  deriving DecidableEq, Repr

namespace IoBuffer

/-- The constructor, `io_buffer.cpp` 12-22. -/
def make (capacity : Nat) : IoBuffer := ⟨List.replicate capacity 0, 0, 0, true, false⟩

/-- `get_capacity`, `io_buffer.cpp` 26-31. -/
def capacity (b : IoBuffer) : Nat := b.data.length

/-- `set_read_dirty`, `io_buffer.cpp` 79-87. -/
def setReadDirty (b : IoBuffer) (flag : Bool) : IoBuffer :=
  { b with position := 0, readDirty := flag }

/-- `set_write_dirty`, `io_buffer.cpp` 96-106. -/
def setWriteDirty (b : IoBuffer) (flag : Bool) : IoBuffer :=
  if flag then { b with writeDirty := true } else { b with writeDirty := false, position := 0 }

/-- `read`, `io_buffer.cpp` 110-123. -/
def read (b : IoBuffer) (count : Nat) : Outcome (List Byte × IoBuffer) :=
  if b.position + count > b.size ∧ b.position > b.size then .ub
  else
    let count := if b.position + count > b.size then b.size - b.position else count
    if b.position + count > b.data.length then .ub
    else .ok ((b.data.drop b.position).take count, { b with position := b.position + count })

/-- `write`, `io_buffer.cpp` 125-134. -/
def write (b : IoBuffer) (bytes : List Byte) : Outcome IoBuffer :=
  if b.position + bytes.length > b.data.length then .ub
  else .ok (setWriteDirty { b with
      data := b.data.take b.position ++ bytes ++ b.data.drop (b.position + bytes.length),
      position := b.position + bytes.length } true)

end IoBuffer

/-- A transfer resource: its buffer and its device. -/
structure Res (δ : Type) where
  buf : IoBuffer
  dev : δ
  deriving DecidableEq

namespace Res

variable {δ α : Type}

/-- Run an operation of the device. -/
def onDev (x : M δ α) : M (Res δ) α := fun r => ((x r.dev).1, { r with dev := (x r.dev).2 })

/-- Run `io_buffer::read`. -/
def bufRead (count : Nat) : M (Res δ) (List Byte) := fun r =>
  match r.buf.read count with
  | .ok (bytes, b) => (.ok bytes, { r with buf := b })
  | .throw e => (.throw e, r)
  | .terminate => (.terminate, r)
  | .ub => (.ub, r)
  | .hang => (.hang, r)

/-- Run `io_buffer::write`, which returns its byte count. -/
def bufWrite (bytes : List Byte) : M (Res δ) Nat := fun r =>
  match r.buf.write bytes with
  | .ok b => (.ok bytes.length, { r with buf := b })
  | .throw e => (.throw e, r)
  | .terminate => (.terminate, r)
  | .ub => (.ub, r)
  | .hang => (.hang, r)

/-- `input_resource::fill`, `input_resource.cpp` 48-61. -/
def fill (raw : Nat → ReadRequest → M δ ReadResult) : M (Res δ) Nat := do
  let r ← M.get
  let result ← onDev (raw r.buf.capacity .fillBuffer)
  M.modify fun r => { r with buf := { r.buf with
    data := result.bytes.take r.buf.data.length ++ r.buf.data.drop result.bytes.length } }
  M.modify fun r => { r with buf := r.buf.setReadDirty false }
  M.modify fun r => { r with buf := { r.buf with size := result.count } }
  pure result.count

/-- Reading what is left in the buffer, `input_resource.cpp` 93-105. -/
def drain (difference : Nat) : M (Res δ) (List Byte) :=
  if difference > 0 then bufRead difference else pure []

/-- `input_resource::read_buffered` once the buffer is loaded, `input_resource.cpp` 79-165. -/
def readLoaded (raw : Nat → ReadRequest → M δ ReadResult) (count : Nat) :
    M (Res δ) ReadResult := do
  let r ← M.get
  if r.buf.position + count > r.buf.size then
    if r.buf.position > r.buf.size then M.ub
    else
      let first ← drain (r.buf.size - r.buf.position)
      let count := count - first.length
      if count > r.buf.capacity then
        let rest ← onDev (raw count .leanRetrieval)
        pure ⟨first ++ rest.bytes, first.length + rest.count⟩
      else
        let filled ← fill raw
        let last ← bufRead (if filled < count then filled else count)
        pure ⟨first ++ last, first.length + last.length⟩
  else
    let bytes ← bufRead count
    pure ⟨bytes, bytes.length⟩

/-- `input_resource::read_buffered`, `input_resource.cpp` 65-166. -/
def readBuffered (raw : Nat → ReadRequest → M δ ReadResult) (count : Nat) :
    M (Res δ) ReadResult := do
  let r ← M.get
  if r.buf.readDirty then
    let _ ← fill raw
    readLoaded raw count
  else readLoaded raw count

/-- `input_resource::read` without the tie, `input_resource.cpp` 30-34. -/
def read (raw : Nat → ReadRequest → M δ ReadResult) (count : Nat) : M (Res δ) ReadResult := do
  let r ← M.get
  if r.buf.capacity > 0 then readBuffered raw count else onDev (raw count .leanRetrieval)

/-- `output_resource::flush`, `output_resource.cpp` 33-40. -/
def flush (raw : List Byte → M δ Nat) : M (Res δ) Unit := do
  let r ← M.get
  if r.buf.writeDirty then
    if r.buf.position > r.buf.data.length then M.ub
    else
      let _ ← onDev (raw (r.buf.data.take r.buf.position))
      M.modify fun r => { r with buf := r.buf.setWriteDirty false }
  else pure ()

/-- `output_resource::write_buffered`, `output_resource.cpp` 44-73. -/
def writeBuffered (raw : List Byte → M δ Nat) (bytes : List Byte) : M (Res δ) Nat := do
  let r ← M.get
  if r.buf.position + bytes.length > r.buf.capacity then
    flush raw
    if bytes.length > r.buf.capacity then onDev (raw bytes) else bufWrite bytes
  else bufWrite bytes

/-- `output_resource::write`, `output_resource.cpp` 21-31. -/
def write (raw : List Byte → M δ Nat) (bytes : List Byte) : M (Res δ) Nat := do
  let r ← M.get
  if r.buf.capacity > 0 then writeBuffered raw bytes else onDev (raw bytes)

/-- `seekable_input_resource::set_position` (`noexcept`), `seekable_input_resource.ipp` 26-38. -/
def setPositionIn (seek : Int → PositionReference → M δ Unit) (p : Int) (pr : PositionReference) :
    M (Res δ) Unit := M.noexcept do
  onDev (seek p pr)
  M.modify fun r => { r with buf := r.buf.setReadDirty true }

/-- `seekable_output_resource::set_position` (`noexcept`), `seekable_output_resource.ipp` 26-38. -/
def setPositionOut (raw : List Byte → M δ Nat) (seek : Int → PositionReference → M δ Unit)
    (p : Int) (pr : PositionReference) : M (Res δ) Unit := M.noexcept do
  flush raw
  onDev (seek p pr)

/-- `seekable_io_resource::set_position` (`noexcept`), `seekable_io_resource.ipp` 26-39. -/
def setPositionIO (raw : List Byte → M δ Nat) (seek : Int → PositionReference → M δ Unit)
    (p : Int) (pr : PositionReference) : M (Res δ) Unit := M.noexcept do
  flush raw
  onDev (seek p pr)
  M.modify fun r => { r with buf := r.buf.setReadDirty true }

/-- `seekable_transfer_resource::go_back` (`noexcept`), `seekable_transfer_resource.ipp` 24-34. -/
def goBack (seek : Int → PositionReference → M δ Unit) (n : Int) : M δ Unit :=
  M.noexcept (seek (-n) .current)

/-- `seekable_transfer_resource::go_forward` (`noexcept`), `seekable_transfer_resource.ipp`
36-46. -/
def goForward (seek : Int → PositionReference → M δ Unit) (n : Int) : M δ Unit :=
  M.noexcept (seek n .current)

end Res

end Cmp
