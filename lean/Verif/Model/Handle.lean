/-
Model of who owns a file descriptor: the constructors, destructor, move operations, `open` and
`close` of `api/src/cmp/io/impl/unix_like/unix_like_file.cpp` and `unix_like_file.hpp`, as far as
`m_file_descriptor` is concerned.
-/

namespace Cmp

/-- The file objects that are alive, each with its `m_file_descriptor` (`none` is -1); the
descriptors the system has open; and the calls of `::close` so far, each with whether its
descriptor was open.  (`::close(-1)` has no effect and is left out.) -/
structure Handles where
  objs : Nat → Option (Option Nat)
  opened : List Nat
  closes : List (Nat × Bool)

/-- What a program does with file objects, which are named by numbers. -/
inductive HandleOp
  | construct (i : Nat)
  /-- `open` on object `i`; the system gives out descriptor `fd` -/
  | «open» (i fd : Nat)
  | close (i : Nat)
  /-- construct `i` by moving from `j` -/
  | moveConstruct (i j : Nat)
  /-- assign to `i` by moving from `j` -/
  | moveAssign (i j : Nat)
  | destroy (i : Nat)
  deriving DecidableEq, Repr

/-- The operation is a move. -/
def HandleOp.IsMove : HandleOp → Prop
  | .moveConstruct .. => True
  | .moveAssign .. => True
  | _ => False

namespace Handles

/-- No objects, nothing open. -/
def empty : Handles := ⟨fun _ => none, [], []⟩

/-- Store a descriptor in an object. -/
def put (h : Handles) (i : Nat) (o : Option (Option Nat)) : Handles :=
  { h with objs := fun k => if k = i then o else h.objs k }

/-- `::close`. -/
def sysClose (h : Handles) : Option Nat → Handles
  | none => h
  | some fd => { h with opened := h.opened.erase fd, closes := h.closes ++ [(fd, h.opened.contains fd)] }

/-- `close`, `unix_like_file.cpp` 94-101, for an object with descriptor `fd`. -/
def close (h : Handles) (i : Nat) (fd : Option Nat) : Handles := (h.sysClose fd).put i (some none)

/-- One operation.  Operations a program cannot perform (on objects that are not alive, or
constructing one that is) and descriptors the system cannot give out (because they are open) leave
everything as it is.
* default constructor: `unix_like_file.cpp` 12-18;
* `open`: 56-92, the case that it succeeds;
* move operations: defaulted, `unix_like_file.hpp` 52-63, so they copy the descriptor and leave the
  source and, for assignment, the descriptor of the target alone;
* destructor: `unix_like_file.cpp` 33-36. -/
def step (h : Handles) : HandleOp → Handles
  | .construct i =>
    match h.objs i with
    | none => h.put i (some none)
    | some _ => h
  | .open i fd =>
    match h.objs i with
    | none => h
    | some own =>
      let h' := match own with
        | none => h
        | some _ => h.close i own
      if h'.opened.contains fd then h
      else { h'.put i (some (some fd)) with opened := fd :: h'.opened }
  | .close i =>
    match h.objs i with
    | none => h
    | some own => h.close i own
  | .moveConstruct i j =>
    match h.objs i, h.objs j with
    | none, some own => h.put i (some own)
    | _, _ => h
  | .moveAssign i j =>
    match h.objs i, h.objs j with
    | some _, some own => h.put i (some own)
    | _, _ => h
  | .destroy i =>
    match h.objs i with
    | none => h
    | some own => (h.close i own).put i none

/-- A history. -/
def run (ops : List HandleOp) : Handles := ops.foldl step empty

end Handles

end Cmp
