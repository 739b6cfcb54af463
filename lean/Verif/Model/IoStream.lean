import Verif.Model.Resource
import Verif.Model.Text

/-
Model of the streams for reading and writing (`data_io_stream.ipp` and `text_io_stream.ipp` in
`api/src/cmp/io`): an input stream and an output stream on one resource, which is also reached
through `operator ->`.
-/

namespace Cmp

/-- The members of a seekable resource for reading and writing that a program with a stream on it
uses. -/
structure IoMembers (ρ : Type) where
  reader : Reader ρ
  writer : Writer ρ
  setPosition : Int → PositionReference → M ρ Unit
  getPosition : ρ → Outcome Int

/-- A container resource for reading and writing: `seekable_io_resource.ipp` 26-39 over
`ctr_essence`, and `get_position` (`ctr_essence.ipp` 69-79). -/
def Ctr.members : IoMembers (Res Ctr) :=
  ⟨Ctr.reader, Ctr.writer, Res.setPositionIO Ctr.writeRaw Ctr.seek, fun r => .ok (Ctr.getPosition r)⟩

/-- A file, `file.cpp` 44-81 and `unix_like_file.cpp`, `windows_file.cpp`. -/
def FileObj.members (P : FilePlatform) : IoMembers FileObj :=
  ⟨FileObj.reader P, FileObj.writer P, FileObj.setPosition P, FileObj.getPosition P⟩

/-- `data_io_stream` and `text_io_stream` with the resource they refer to: both halves have byte
order and encoding form of their own. -/
structure IoStream (ρ : Type) where
  res : ρ
  inEndian : Endian
  inForm : EncodingForm
  outEndian : Endian
  outForm : EncodingForm

namespace IoStream

variable {ρ α : Type}

/-- The constructors, `data_io_stream.ipp` 12-24 and `text_io_stream.ipp` 12-25: both halves are
given the same arguments.  For data streams the encoding form means nothing. -/
def make (res : ρ) (endian : Endian) (form : EncodingForm) : IoStream ρ :=
  ⟨res, endian, form, endian, form⟩

/-- Using it as an input stream. -/
def input (x : M (InStream ρ) α) : M (IoStream ρ) α := fun s =>
  let y := x ⟨s.res, s.inEndian, s.inForm⟩
  (y.1, { s with res := y.2.res, inEndian := y.2.endian, inForm := y.2.form })

/-- Using it as an output stream. -/
def output (x : M (OutStream ρ) α) : M (IoStream ρ) α := fun s =>
  let y := x ⟨s.res, s.outEndian, s.outForm⟩
  (y.1, { s with res := y.2.res, outEndian := y.2.endian, outForm := y.2.form })

/-- Using the resource through `operator ->`, `data_io_stream.ipp` 28-36 and `text_io_stream.ipp`
29-37. -/
def onRes (x : M ρ α) : M (IoStream ρ) α := fun s =>
  ((x s.res).1, { s with res := (x s.res).2 })

/-- The destructor (`noexcept`): that of `output_stream`, `output_stream.ipp` 25-31. -/
def destroy (W : Writer ρ) : M (IoStream ρ) Unit := M.noexcept (output (OutStream.flush W))

end IoStream

end Cmp
