import Verif.Model.Views

/-
Model of moving `transparent_container_output_resource` objects
(`api/include/cmp/io/transparent_container_output_resource.hpp`), several of which refer to one
container that they do not own.  Copies are in `Verif/Model/QuillCopies.lean`.
-/

namespace Cmp

/-- What a program does with output resources on one container of bytes; the resources are named by
numbers. -/
inductive QuillOp
  | write (i : Nat) (bytes : List Byte)
  | flush (i : Nat)
  /-- construct `i` by moving from `j` -/
  | moveConstruct (i j : Nat)
  /-- assign to `i` by moving from `j`; whether the common base class is assigned more than once is
  up to the compiler -/
  | moveAssign (i j : Nat) (again : Bool)
  | destroy (i : Nat)
  deriving DecidableEq, Repr

/-- A resource without the container it refers to: the buffer (`transfer_resource.hpp` 127), and
`m_position` and `m_last_fill_amount` (`ctr_essence.hpp` 36-37). -/
structure Quill where
  buf : IoBuffer
  position : Int
  lastFill : Nat
  deriving DecidableEq, Repr

/-- The container and the resources that are alive. -/
structure Quills where
  content : List Byte
  objs : Nat → Option Quill

namespace Quills

/-- A resource together with its container. -/
def res (content : List Byte) (p : Quill) : Res Ctr := ⟨p.buf, ⟨1, content, p.position, p.lastFill⟩⟩

/-- A resource taken from its container. -/
def pen (r : Res Ctr) : Quill := ⟨r.buf, r.dev.position, r.dev.lastFill⟩

/-- Store a resource, or remove it. -/
def put (w : Quills) (i : Nat) (p : Option Quill) : Quills :=
  { w with objs := fun k => if k = i then p else w.objs k }

/-- What is left of a resource whose buffer was moved from: the vector of the buffer is empty, and
numbers, flags and the pointer to the container keep their values. -/
def emptied (p : Quill) : Quill := { p with buf := { p.buf with data := [] } }

/-- Use a resource. -/
def use (i : Nat) (x : M (Res Ctr) Nat) : M Quills Nat := fun w =>
  match w.objs i with
  | none => (.ub, w)
  | some p => ((x (res w.content p)).1,
      { (w.put i (some (pen (x (res w.content p)).2))) with
        content := (x (res w.content p)).2.dev.content })

/-- One operation.  Operations on objects that are not alive, and construction where one is, are
undefined, and so is here the move of an object to itself.
* `write`, `flush_output`: `output_resource.cpp`, with the `write_raw` of
  `transparent_container_output_resource.ipp` 88-100;
* move operations: defaulted, `transparent_container_output_resource.hpp` 116-135.  The buffer is in
  a virtual base class (`transfer_resource`; `seekable_transfer_resource.hpp` 24,
  `seekable_output_resource.hpp` 24-25, `output_resource.hpp` 20), which is constructed once but may
  be assigned more than once, and the second time the vector of the source is empty;
* destructor: defaulted, it does not flush the buffer. -/
def step : QuillOp → M Quills Nat
  | .write i bytes => use i (Res.write Ctr.writeRaw bytes)
  | .flush i => use i do
    Res.flush Ctr.writeRaw
    pure 0
  | .moveConstruct i j => fun w =>
    match w.objs i, w.objs j with
    | none, some p => (.ok 0, (w.put j (some (emptied p))).put i (some p))
    | _, _ => (.ub, w)
  | .moveAssign i j again => fun w =>
    if i = j then (.ub, w)
    else
      match w.objs i, w.objs j with
      | some _, some p =>
        (.ok 0, (w.put j (some (emptied p))).put i (some (if again then emptied p else p)))
      | _, _ => (.ub, w)
  | .destroy i => fun w =>
    match w.objs i with
    | none => (.ub, w)
    | some _ => (.ok 0, w.put i none)

end Quills

end Cmp
