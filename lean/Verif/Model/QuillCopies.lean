import Verif.Model.Quills

/-
Model of copying `transparent_container_output_resource` objects
(`api/include/cmp/io/transparent_container_output_resource.hpp`), beside the moves of
`Verif/Model/Quills.lean`.
-/

namespace Cmp

/-- What a program does with output resources on one container of bytes, with copies; the resources are
named by numbers. -/
inductive CopyOp
  /-- everything but copies -/
  | plain (op : QuillOp)
  /-- construct `i` as a copy of `j` -/
  | copyConstruct (i j : Nat)
  /-- assign to `i` by copying from `j` -/
  | copyAssign (i j : Nat)
  deriving DecidableEq, Repr

namespace Quills

/-- One operation.  The copy operations are defaulted (`transparent_container_output_resource.hpp`
81-101, `seekable_output_resource.hpp` 67-87, `output_resource.hpp` 56-77, `transfer_resource.hpp`
54-75): the new object has a copy of the buffer with the bytes that wait in it, the same position, and
a pointer to the same container.  How often the virtual base class is assigned makes no difference for
copies.  Copies of objects that are not alive, and construction where one is, are undefined. -/
def copyStep : CopyOp → M Quills Nat
  | .plain op => step op
  | .copyConstruct i j => fun w =>
    match w.objs i, w.objs j with
    | none, some p => (.ok 0, w.put i (some p))
    | _, _ => (.ub, w)
  | .copyAssign i j => fun w =>
    match w.objs i, w.objs j with
    | some _, some p => (.ok 0, w.put i (some p))
    | _, _ => (.ub, w)

end Quills

end Cmp
