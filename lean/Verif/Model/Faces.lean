import Verif.Model.Opaque
import Verif.Model.Common

/-
The classes through which a container I/O resource can be used:
`opaque_container_io_resource` derives from `opaque_container_input_resource` and
`opaque_container_output_resource` (`api/include/cmp/io/opaque_container_io_resource.hpp` 25-28), and each
of the three has a container `m_content` (`opaque_container_io_resource.hpp` 292,
`opaque_container_input_resource.hpp` 241, `opaque_container_output_resource.hpp` 247) and a
`grab_content` of its own, which is not virtual.  `transparent_container_io_resource` derives from its
siblings in the same way (`transparent_container_io_resource.hpp` 25-28), but has no container.
-/

namespace Cmp

/-- The class a resource is taken for. -/
inductive Face
  | io
  | input
  | output
  deriving DecidableEq, Repr

/-- A container I/O resource.  `owns` is true for `opaque_container_io_resource`; then the content of
`res` is that of its own `m_content`, and the containers of its base classes are separate.  Otherwise
it is the container referred to, and `inputs` and `outputs` are not used. -/
structure Faces where
  owns : Bool
  res : Res Ctr
  inputs : List Byte
  outputs : List Byte

/-- What a program does with it. -/
inductive FaceOp
  /-- an operation of the resource; all of these are virtual -/
  | use (op : ResOp)
  /-- look at what `grab_content` of a class refers to -/
  | grab (f : Face)
  /-- change what the non-constant `grab_content` of the I/O class refers to -/
  | assign (content : List Byte)
  /-- change what the non-constant `grab_content` of the output class refers to -/
  | assignOutput (content : List Byte)
  deriving DecidableEq, Repr

namespace Faces

/-- The constructors: `opaque_container_io_resource.ipp` 12-56, where the base classes are default
constructed, `opaque_container_input_resource.ipp` 12-24 and `opaque_container_output_resource.ipp`
12-24, with empty containers, and the common `ctr_essence` gets the pointer to the container of the
I/O class; `transparent_container_io_resource.ipp` 12-32. -/
def make (owns : Bool) (elem cap : Nat) (content : List Byte) : Faces :=
  ⟨owns, ⟨IoBuffer.make cap, Ctr.make elem content⟩, [], []⟩

/-- `grab_content`: `opaque_container_io_resource.ipp` 94-112, `opaque_container_input_resource.ipp`
80-88, `opaque_container_output_resource.ipp` 80-98; `transparent_container_io_resource.ipp` 56-74,
`transparent_container_input_resource.ipp` 50-58, `transparent_container_output_resource.ipp` 50-68. -/
def grab (f : Face) : M Faces ResObs := fun s =>
  (.ok (.bytes (if s.owns then
    match f with
    | .io => s.res.dev.content
    | .input => s.inputs
    | .output => s.outputs
  else s.res.dev.content)), s)

/-- Change what the `grab_content` of the I/O class refers to. -/
def assign (content : List Byte) : M Faces ResObs := fun s =>
  (.ok .nothing, { s with res := Common.load content s.res })

/-- Change what the `grab_content` of the output class refers to. -/
def assignOutput (content : List Byte) : M Faces ResObs := fun s =>
  if s.owns then (.ok .nothing, { s with outputs := content }) else assign content s

/-- One step. -/
def step : FaceOp → M Faces ResObs
  | .use op => fun s => ((op.run s.res).1, { s with res := (op.run s.res).2 })
  | .grab f => grab f
  | .assign content => assign content
  | .assignOutput content => assignOutput content

end Faces

end Cmp
