import Verif.Model.Container
import Verif.Base.History

/-
Model of who uses which container: `opaque_container_io_resource` and its input-only and
output-only siblings (`api/include/cmp/io/opaque_container_*_resource.hpp`,
`api/src/cmp/io/opaque_container_*_resource.ipp`).  Objects own a container (`m_content`), but all
operations go through the pointer in `ctr_essence`.
-/

namespace Cmp

/-- What can be done with a resource: the members of `opaque_container_io_resource`. -/
inductive ResOp
  | read (n : Nat)
  | write (bytes : List Byte)
  | flush
  | seek (p : Int) (pr : PositionReference)
  | position
  | atEnd
  deriving DecidableEq, Repr

/-- What an operation returns. -/
inductive ResObs
  | bytes (l : List Byte)
  | number (n : Int)
  | flag (b : Bool)
  | nothing
  deriving DecidableEq, Repr

/-- The operations of a container resource, all of which forward to `ctr_essence` through the
common parts of the resource classes: `opaque_container_io_resource.ipp` 60-162. -/
def ResOp.run : ResOp → M (Res Ctr) ResObs
  | .read n => do
    let got ← Res.read Ctr.readRaw n
    pure (.bytes got.bytes)
  | .write bytes => do
    let n ← Res.write Ctr.writeRaw bytes
    pure (.number n)
  | .flush => do
    Res.flush Ctr.writeRaw
    pure .nothing
  | .seek p pr => do
    Res.setPositionIO Ctr.writeRaw Ctr.seek p pr
    pure .nothing
  | .position => do
    let r ← M.get
    pure (.number (Ctr.getPosition r))
  | .atEnd => do
    let r ← M.get
    pure (.flag (Ctr.isAtEnd r))

/-- An opaque container resource: its buffer, its container `m_content`, and its `ctr_essence`:
the element size, the object whose container `m_content_ptr` points to, the position and the fill
amount. -/
structure Opaque where
  buf : IoBuffer
  content : List Byte
  elem : Nat
  target : Nat
  position : Int
  lastFill : Nat
  deriving DecidableEq, Repr

/-- The objects that are alive. -/
abbrev Opaques : Type := Nat → Option Opaque

/-- What a program does with opaque container resources, which are named by numbers. -/
inductive OpaqueOp
  | construct (i elem cap : Nat) (content : List Byte)
  /-- construct `i` as a copy of `j` -/
  | copyConstruct (i j : Nat)
  | copyAssign (i j : Nat)
  | moveConstruct (i j : Nat)
  /-- assign to `i` by moving from `j`; whether the common base class is assigned more than once is
  up to the compiler -/
  | moveAssign (i j : Nat) (again : Bool)
  | destroy (i : Nat)
  | use (i : Nat) (op : ResOp)
  /-- `grab_content` -/
  | content (i : Nat)
  deriving DecidableEq, Repr

namespace Opaques

/-- Store an object, or remove it. -/
def put (w : Opaques) (i : Nat) (o : Option Opaque) : Opaques := fun k => if k = i then o else w k

/-- What is left behind by the defaulted move operations of the members: the vectors are empty,
numbers and flags keep their values. -/
def movedFrom (o : Opaque) : Opaque := { o with buf := { o.buf with data := [] }, content := [] }

/-- Run an operation on object `o`, which is number `i`, and on the container it points to.  If the
object that has the container is gone, the pointer dangles. -/
def use (i : Nat) (op : ResOp) : M Opaques ResObs := fun w =>
  match w i with
  | none => (.ub, w)
  | some o =>
    match w o.target with
    | none => (.ub, w)
    | some t =>
      let (res, r) := op.run ⟨o.buf, ⟨o.elem, t.content, o.position, o.lastFill⟩⟩
      let w := w.put o.target (some { t with content := r.dev.content })
      match w i with
      | none => (.ub, w)
      | some o =>
        (res, w.put i (some { o with buf := r.buf, position := r.dev.position, lastFill := r.dev.lastFill }))

/-- One operation.  Operations on objects that are not alive, and construction where one is, are
undefined.
* constructors: `opaque_container_io_resource.ipp` 14-56, the essence points to the object's own
  container;
* copy and move operations: defaulted, `opaque_container_io_resource.hpp` 108-172, so the pointer
  is copied like the other members (the capacity of a vector is taken to be copied, too);
* move assignment: the buffer is in a virtual base class, which may be assigned more than once, and
  the second time the vector of the source is empty;
* `grab_content`: `opaque_container_io_resource.ipp` 96-116. -/
def step : OpaqueOp → M Opaques ResObs
  | .construct i elem cap content => fun w =>
    match w i with
    | some _ => (.ub, w)
    | none => (.ok .nothing, w.put i (some ⟨IoBuffer.make cap, content, elem, i, 0, 0⟩))
  | .copyConstruct i j => fun w =>
    match w i, w j with
    | none, some o => (.ok .nothing, w.put i (some o))
    | _, _ => (.ub, w)
  | .copyAssign i j => fun w =>
    match w i, w j with
    | some _, some o => (.ok .nothing, w.put i (some o))
    | _, _ => (.ub, w)
  | .moveConstruct i j => fun w =>
    match w i, w j with
    | none, some o => (.ok .nothing, (w.put j (some (movedFrom o))).put i (some o))
    | _, _ => (.ub, w)
  | .moveAssign i j again => fun w =>
    match w i, w j with
    | some _, some o => (.ok .nothing, (w.put j (some (movedFrom o))).put i
        (some (if again then { o with buf := { o.buf with data := [] } } else o)))
    | _, _ => (.ub, w)
  | .destroy i => fun w =>
    match w i with
    | none => (.ub, w)
    | some _ => (.ok .nothing, w.put i none)
  | .use i op => use i op
  | .content i => fun w =>
    match w i with
    | none => (.ub, w)
    | some o => (.ok (.bytes o.content), w)

end Opaques

end Cmp
