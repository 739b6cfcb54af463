import Verif.Model.Opaque

/-
Model of copying and moving `transparent_container_input_resource` objects
(`api/include/cmp/io/transparent_container_input_resource.hpp`), which refer to a container they do
not own and cannot change, and of their operations (`transparent_container_input_resource.ipp`).
-/

namespace Cmp

/-- What a program does with transparent container input resources, which are named by numbers.  The
elements of the containers are bytes. -/
inductive ViewOp
  /-- construct `i` on a container, with a buffer of `cap` bytes -/
  | construct (i cap : Nat) (content : List Byte)
  /-- construct `i` as a copy of `j` -/
  | copyConstruct (i j : Nat)
  | copyAssign (i j : Nat)
  /-- construct `i` by moving from `j` -/
  | moveConstruct (i j : Nat)
  /-- assign to `i` by moving from `j`; whether the common base class is assigned more than once is
  up to the compiler -/
  | moveAssign (i j : Nat) (again : Bool)
  | destroy (i : Nat)
  | read (i n : Nat)
  /-- `set_position` from the beginning -/
  | seek (i k : Nat)
  | position (i : Nat)
  | atEnd (i : Nat)
  deriving DecidableEq, Repr

/-- The objects that are alive, each with the bytes of the container it refers to. -/
abbrev Views : Type := Nat → Option (Res Ctr)

namespace Views

/-- Store an object, or remove it. -/
def put (w : Views) (i : Nat) (r : Option (Res Ctr)) : Views := fun k => if k = i then r else w k

/-- What is left of a resource whose buffer was moved from: the vector of the buffer is empty, and
numbers, flags and the pointer to the container keep their values. -/
def emptied (r : Res Ctr) : Res Ctr := { r with buf := { r.buf with data := [] } }

/-- Use an object. -/
def use (i : Nat) (x : M (Res Ctr) ResObs) : M Views ResObs := fun w =>
  match w i with
  | none => (.ub, w)
  | some r => ((x r).1, w.put i (some (x r).2))

/-- One operation.  Operations on objects that are not alive, and construction where one is, are
undefined.
* constructor: `transparent_container_input_resource.ipp` 14-27;
* copy operations: defaulted, `transparent_container_input_resource.hpp` 83-101.  A vector keeps its
  storage if it is assigned a shorter one, so its capacity, which the buffer takes for its size, then
  exceeds its size; what happens afterwards is not modelled and taken as undefined;
* move operations: defaulted, 117-135.  The buffer is in a virtual base class (`transfer_resource`,
  `seekable_transfer_resource.hpp` 24, `input_resource.hpp` 21), which is constructed once but may be
  assigned more than once, and the second time the vector of the source is empty;
* `read`, `set_position`, `get_position`, `is_at_end`: as in `ctr_essence`. -/
def step : ViewOp → M Views ResObs
  | .construct i cap content => fun w =>
    match w i with
    | some _ => (.ub, w)
    | none => (.ok .nothing, w.put i (some ⟨IoBuffer.make cap, Ctr.make 1 content⟩))
  | .copyConstruct i j => fun w =>
    match w i, w j with
    | none, some r => (.ok .nothing, w.put i (some r))
    | _, _ => (.ub, w)
  | .copyAssign i j => fun w =>
    match w i, w j with
    | some o, some r =>
      if o.buf.capacity > r.buf.capacity then (.ub, w) else (.ok .nothing, w.put i (some r))
    | _, _ => (.ub, w)
  | .moveConstruct i j => fun w =>
    match w i, w j with
    | none, some r => (.ok .nothing, (w.put j (some (emptied r))).put i (some r))
    | _, _ => (.ub, w)
  | .moveAssign i j again => fun w =>
    match w i, w j with
    | some _, some r =>
      (.ok .nothing, (w.put j (some (emptied r))).put i (some (if again then emptied r else r)))
    | _, _ => (.ub, w)
  | .destroy i => fun w =>
    match w i with
    | none => (.ub, w)
    | some _ => (.ok .nothing, w.put i none)
  | .read i n => use i do
    let got ← Res.read Ctr.readRaw n
    pure (.bytes got.bytes)
  | .seek i k => use i do
    Res.setPositionIn Ctr.seek k .begin
    pure .nothing
  | .position i => use i do
    let r ← M.get
    pure (.number (Ctr.getPosition r))
  | .atEnd i => use i do
    let r ← M.get
    pure (.flag (Ctr.isAtEnd r))

end Views

end Cmp
