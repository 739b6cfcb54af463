import Verif.Model.Container

/-
Several transparent container resources on one container:
`api/src/cmp/io/transparent_container_input_resource.ipp`,
`api/src/cmp/io/transparent_container_output_resource.ipp` and what they inherit.  A resource refers to
the container, so that what one writes into it another reads; each has a buffer and a position of its
own.
-/

namespace Cmp

/-- A container as the bytes of its elements of `elem` bytes, and the input and output resources that
refer to it, by a name the program has for each.  The `content` inside a resource (`Res Ctr`) is not
used between operations: each operation is performed on the content the container has then. -/
structure Common where
  elem : Nat
  content : List Byte
  readers : Nat → Option (Res Ctr)
  writers : Nat → Option (Res Ctr)

namespace Common

/-- A container to which no resource refers. -/
def make (elem : Nat) (content : List Byte) : Common := ⟨elem, content, fun _ => none, fun _ => none⟩

/-- Give the name `i` to a resource for reading, or to none. -/
def putReader (c : Common) (i : Nat) (r : Option (Res Ctr)) : Common :=
  { c with readers := fun j => if j = i then r else c.readers j }

/-- Give the name `i` to a resource for writing, or to none. -/
def putWriter (c : Common) (i : Nat) (r : Option (Res Ctr)) : Common :=
  { c with writers := fun j => if j = i then r else c.writers j }

/-- A resource as it is with the content its container has now: the pointer of `ctr_essence.ipp` 14-30
and 38-50 followed. -/
def load (content : List Byte) (r : Res Ctr) : Res Ctr := { r with dev := { r.dev with content := content } }

/-- An operation of the resource for reading called `i`.  Without such a resource it is undefined. -/
def useReader {α : Type} (i : Nat) (x : M (Res Ctr) α) : M Common α := fun c =>
  match c.readers i with
  | none => (.ub, c)
  | some r =>
    let (o, r) := x (load c.content r)
    (o, { c.putReader i (some r) with content := r.dev.content })

/-- An operation of the resource for writing called `i`.  Without such a resource it is undefined. -/
def useWriter {α : Type} (i : Nat) (x : M (Res Ctr) α) : M Common α := fun c =>
  match c.writers i with
  | none => (.ub, c)
  | some r =>
    let (o, r) := x (load c.content r)
    (o, { c.putWriter i (some r) with content := r.dev.content })

/-- The constructor of a `transparent_container_input_resource`,
`transparent_container_input_resource.ipp` 12-27. -/
def openReader (i cap : Nat) : M Common Unit :=
  M.modify fun c => c.putReader i (some ⟨IoBuffer.make cap, Ctr.make c.elem c.content⟩)

/-- The constructor of a `transparent_container_output_resource`,
`transparent_container_output_resource.ipp` 12-27. -/
def openWriter (i cap : Nat) : M Common Unit :=
  M.modify fun c => c.putWriter i (some ⟨IoBuffer.make cap, Ctr.make c.elem c.content⟩)

/-- The destructor, `transparent_container_input_resource.hpp` 66-67. -/
def closeReader (i : Nat) : M Common Unit := M.modify fun c => c.putReader i none

/-- The destructor, `transparent_container_output_resource.hpp` 66-67: there is no flush in it. -/
def closeWriter (i : Nat) : M Common Unit := M.modify fun c => c.putWriter i none

/-- Copy construction, `transparent_container_input_resource.hpp` 71-84: `j` becomes a copy of `i`, with
the buffer and the position.  (Assignment to an object with a larger buffer is in `Model/Views`.) -/
def copyReader (i j : Nat) : M Common Unit := fun c =>
  match c.readers i with
  | none => (.ub, c)
  | some r => (.ok (), c.putReader j (some r))

/-- Copy construction, `transparent_container_output_resource.hpp` 71-84. -/
def copyWriter (i j : Nat) : M Common Unit := fun c =>
  match c.writers i with
  | none => (.ub, c)
  | some r => (.ok (), c.putWriter j (some r))

/-- `read`, `input_resource.cpp`, with the `read_raw` of
`transparent_container_input_resource.ipp` 79-93. -/
def read (i n : Nat) : M Common ReadResult := useReader i (Res.read Ctr.readRaw n)

/-- `set_position`, `seekable_input_resource.ipp`, with the `set_position_raw` of
`transparent_container_input_resource.ipp` 63-77. -/
def seekReader (i : Nat) (p : Int) (pr : PositionReference) : M Common Unit :=
  useReader i (Res.setPositionIn Ctr.seek p pr)

/-- `write`, `output_resource.cpp`, with the `write_raw` of
`transparent_container_output_resource.ipp` 88-100. -/
def write (i : Nat) (data : List Byte) : M Common Nat := useWriter i (Res.write Ctr.writeRaw data)

/-- `flush`, `output_resource.cpp`. -/
def flush (i : Nat) : M Common Unit := useWriter i (Res.flush Ctr.writeRaw)

/-- `set_position`, `seekable_output_resource.ipp`, with the `set_position_raw` of
`transparent_container_output_resource.ipp` 72-86. -/
def seekWriter (i : Nat) (p : Int) (pr : PositionReference) : M Common Unit :=
  useWriter i (Res.setPositionOut Ctr.writeRaw Ctr.seek p pr)

/-- `get_position`, `transparent_container_input_resource.ipp` 40-48. -/
def readerPosition (i : Nat) : M Common Int := useReader i fun r => (.ok (Ctr.getPosition r), r)

/-- `is_at_end`, `transparent_container_input_resource.ipp` 31-38. -/
def readerAtEnd (i : Nat) : M Common Bool := useReader i fun r => (.ok (Ctr.isAtEnd r), r)

/-- `get_position`, `transparent_container_output_resource.ipp` 40-48. -/
def writerPosition (i : Nat) : M Common Int := useWriter i fun r => (.ok (Ctr.getPosition r), r)

/-- `is_at_end`, `transparent_container_output_resource.ipp` 31-38. -/
def writerAtEnd (i : Nat) : M Common Bool := useWriter i fun r => (.ok (Ctr.isAtEnd r), r)

/-- What the program itself sees in the container; `grab_content` of any of the resources refers to
the same, `transparent_container_input_resource.ipp` 50-58 and
`transparent_container_output_resource.ipp` 50-68. -/
def look : M Common (List Byte) := fun c => (.ok c.content, c)

/-- The program itself changes the container. -/
def assign (content : List Byte) : M Common Unit := M.modify fun c => { c with content := content }

end Common

end Cmp
