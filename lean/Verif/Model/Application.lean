import Verif.Base.History

/-
Model of `api/include/cmp/core/application.hpp` and `api/src/cmp/core/application.cpp`: the
application objects of a process and the pointer to the application.
-/

namespace Cmp

/-- The data members of `application`, `application.hpp` 173-175: the arguments of `main`, with
`argv` as an address, and the copyright notice. -/
structure AppObj where
  argc : Int
  argv : Nat
  notice : List (BitVec 8)
  deriving DecidableEq, Repr

/-- The objects by their address, and `application::g_instance_ptr`, `application.cpp` 70-71, which
is a null pointer (`none`) at first. -/
structure Apps where
  objs : Nat → Option AppObj
  instance? : Option Nat

namespace Apps

def empty : Apps := ⟨fun _ => none, none⟩

def put (s : Apps) (i : Nat) (o : Option AppObj) : Apps :=
  { s with objs := fun k => if k = i then o else s.objs k }

end Apps

/-- What a program does with applications.  `left` is what the standard library leaves in a string
that was moved from: some valid string. -/
inductive AppOp
  | construct (i : Nat) (argc : Int) (argv : Nat)
  | moveConstruct (i j : Nat) (left : List (BitVec 8))
  | moveAssign (i j : Nat) (left : List (BitVec 8))
  | destroy (i : Nat)
  | setNotice (i : Nat) (t : List (BitVec 8))
  | getArgc (i : Nat)
  | getArgv (i : Nat)
  | getNotice (i : Nat)
  | app
  deriving DecidableEq, Repr

/-- What it sees. -/
inductive AppObs
  | nothing
  | int (n : Int)
  | address (p : Option Nat)
  | text (t : List (BitVec 8))
  deriving DecidableEq, Repr

/-- One operation.  `construct`: `application::application(int, char**)`, `application.cpp` 12-21.
`moveConstruct`, `moveAssign`: defaulted, `application.hpp` 76-97, so the members are moved and
`g_instance_ptr` stays.  `destroy`: defaulted, `application.hpp` 46-49.  `setNotice`, `getArgc`,
`getArgv`, `getNotice`: `application.cpp` 32-58.  `app`: `app` and `get_instance_ptr`,
`application.cpp` 25-30 and 75-80.  Two objects at one address and the use of an object that is not
alive are undefined behaviour. -/
def appStep : AppOp → M Apps AppObs
  | .construct i argc argv => fun s =>
    match s.objs i with
    | some _ => (.ub, s)
    | none => (.ok .nothing, { s.put i (some ⟨argc, argv, []⟩) with instance? := some i })
  | .moveConstruct i j left => fun s =>
    match s.objs i, s.objs j with
    | none, some o => (.ok .nothing, (s.put i (some o)).put j (some { o with notice := left }))
    | _, _ => (.ub, s)
  | .moveAssign i j left => fun s =>
    match s.objs i, s.objs j with
    | some _, some o => (.ok .nothing, (s.put i (some o)).put j (some { o with notice := left }))
    | _, _ => (.ub, s)
  | .destroy i => fun s =>
    match s.objs i with
    | some _ => (.ok .nothing, s.put i none)
    | none => (.ub, s)
  | .setNotice i t => fun s =>
    match s.objs i with
    | some o => (.ok .nothing, s.put i (some { o with notice := t }))
    | none => (.ub, s)
  | .getArgc i => fun s =>
    match s.objs i with
    | some o => (.ok (.int o.argc), s)
    | none => (.ub, s)
  | .getArgv i => fun s =>
    match s.objs i with
    | some o => (.ok (.address (some o.argv)), s)
    | none => (.ub, s)
  | .getNotice i => fun s =>
    match s.objs i with
    | some o => (.ok (.text o.notice), s)
    | none => (.ub, s)
  | .app => fun s => (.ok (.address s.instance?), s)

end Cmp
