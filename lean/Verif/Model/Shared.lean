import Verif.Model.Text

/-
Model of several streams on one resource.  A stream refers to its resource
(`input_stream.hpp` and `output_stream.hpp`, `m_resource`) and has settings of its own; streams can
be copied.
-/

namespace Cmp

/-- The members of a stream apart from the reference to the resource: `m_endianness` of
`input_stream` and `output_stream`, `m_source_encoding_form` of `text_input_stream` and
`m_target_encoding_form` of `text_output_stream`.  For data streams the form means nothing. -/
structure Settings where
  endian : Endian
  form : EncodingForm
  deriving DecidableEq

/-- A resource and the streams on it in the order in which they were made; `none`: destroyed. -/
structure Shared (ρ : Type) where
  res : ρ
  streams : List (Option Settings)

namespace Shared

variable {ρ α : Type}

/-- Use a stream.  It is undefined to use one that is not there or is destroyed. -/
def withStream (i : Nat) (x : Settings → M (Shared ρ) α) : M (Shared ρ) α := fun s =>
  match s.streams[i]? with
  | some (some t) => x t s
  | _ => (.ub, s)

/-- An operation of stream `i`, which is an input stream. -/
def input (i : Nat) (x : M (InStream ρ) α) : M (Shared ρ) α := withStream i fun t s =>
  let y := x ⟨s.res, t.endian, t.form⟩
  (y.1, ⟨y.2.res, s.streams.set i (some ⟨y.2.endian, y.2.form⟩)⟩)

/-- An operation of stream `i`, which is an output stream. -/
def output (i : Nat) (x : M (OutStream ρ) α) : M (Shared ρ) α := withStream i fun t s =>
  let y := x ⟨s.res, t.endian, t.form⟩
  (y.1, ⟨y.2.res, s.streams.set i (some ⟨y.2.endian, y.2.form⟩)⟩)

/-- The constructors, `input_stream.ipp` 12-23, `text_input_stream.ipp` 12-24, `output_stream.ipp`
12-23 and `text_output_stream.ipp` 12-24. -/
def construct (e : Endian) (f : EncodingForm) : M (Shared ρ) Unit :=
  M.modify fun s => { s with streams := s.streams ++ [some ⟨e, f⟩] }

/-- The copy constructors, which are defaulted, as are the move constructors: the new stream refers
to the same resource. -/
def copy (i : Nat) : M (Shared ρ) Unit := withStream i fun t =>
  M.modify fun s => { s with streams := s.streams ++ [some t] }

/-- `set_endianness`, `input_stream.ipp` 57-67 and `output_stream.ipp` 65-75. -/
def setEndian (i : Nat) (e : Endian) : M (Shared ρ) Unit := withStream i fun t =>
  M.modify fun s => { s with streams := s.streams.set i (some { t with endian := e }) }

/-- `set_encoding_form`, `text_input_stream.ipp` 38-48 and `text_output_stream.ipp` 38-48. -/
def setForm (i : Nat) (f : EncodingForm) : M (Shared ρ) Unit := withStream i fun t =>
  M.modify fun s => { s with streams := s.streams.set i (some { t with form := f }) }

/-- The end of an object. -/
def drop (i : Nat) : M (Shared ρ) Unit :=
  M.modify fun s => { s with streams := s.streams.set i none }

/-- The destructor of an input stream, which is defaulted. -/
def destroyInput (i : Nat) : M (Shared ρ) Unit := withStream i fun _ => drop i

/-- The destructor of an output stream (`noexcept`), `output_stream.ipp` 25-31. -/
def destroyOutput (W : Writer ρ) (i : Nat) : M (Shared ρ) Unit := M.noexcept do
  output i (OutStream.flush W)
  drop i

end Shared

end Cmp
