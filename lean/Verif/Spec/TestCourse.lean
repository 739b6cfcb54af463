import Verif.Spec.TestRun

/-
Specification of any number of test runs of one module, for test functions that may announce tests
as often as they like or raise exceptions.
-/

namespace Cmp

namespace Spec

/-- What a test function does that can be seen. -/
inductive Deed
  | announce (name : List Char)
  | stage
  | text (t : List Char)
  deriving DecidableEq

/-- What a test function does that can be seen, given the messages in the queue, and its result;
`none` if an exception leaves it. -/
def deeds : TestBody → List Message → List Deed × Option Bool
  | .done ok, _ => ([], some ok)
  | .raise, _ => ([], none)
  | .startTest name next, q => (.announce name :: (deeds next q).1, (deeds next q).2)
  | .endStage next, q => (.stage :: (deeds next q).1, (deeds next q).2)
  | .push m next, q => deeds next (q ++ [m])
  | .pop next, [] => deeds (next .empty) []
  | .pop next, m :: q => deeds (next m) q
  | .clear next, _ => deeds next []
  | .count next, q => deeds (next q.length) q
  | .log t next, q => (.text t :: (deeds next q).1, (deeds next q).2)

/-- What has happened since the module was made: how many tests were announced, the name of the last
one and how many stages it has ended, how many tests succeeded, and number, name and stage of those
that failed. -/
structure Ledger where
  announced : Nat
  name : List Char
  stages : Nat
  good : Nat
  bad : List (Nat × List Char × Nat)

/-- The number of the current test has no more digits than the number of tests.  Numbers are counted
modulo 65536. -/
def Ledger.Narrow (total : Nat) (l : Ledger) : Prop :=
  (decimal (l.announced % 65536)).length ≤ (decimal total).length

instance (total : Nat) (l : Ledger) : Decidable (l.Narrow total) := inferInstanceAs (Decidable (_ ≤ _))

/-- The number of the current test. -/
def Ledger.number (total : Nat) (l : Ledger) : List Char := padded total (l.announced % 65536)

/-- The ledger after a deed. -/
def Ledger.after (l : Ledger) : Deed → Ledger
  | .announce name => { l with announced := l.announced + 1, name := name, stages := 0 }
  | .stage => { l with stages := l.stages + 1 }
  | .text _ => l

/-- What is printed by a deed; `l` is the ledger after it. -/
def Ledger.line (total : Nat) (l : Ledger) : Deed → List Char
  | .announce name =>
    "Test #".toList ++ l.number total ++ " - '".toList ++ name ++ "' starting.\n".toList
  | .stage => "Stage ".toList ++ decimal (l.stages % 65536) ++ " completed successfully.\n".toList
  | .text t => t

/-- What is printed when the result of a test is known. -/
def Ledger.result (total : Nat) (l : Ledger) (ok : Bool) : List Char :=
  "Test #".toList ++ l.number total ++ " - '".toList ++ l.name ++ "' ".toList
  ++ (if ok then "succeeded".toList else "failed".toList)
  ++ " with ".toList ++ decimal (l.stages % 65536)
  ++ (if l.stages % 65536 = 1 then " successful stage.".toList else " successful stages.".toList)
  ++ "\n".toList ++ List.replicate (6 + (l.number total).length) '=' ++ "\n".toList

/-- The result is noted. -/
def Ledger.noted (l : Ledger) (ok : Bool) : Ledger :=
  if ok then { l with good := l.good + 1 }
  else { l with bad := l.bad ++ [(l.announced, l.name, l.stages + 1)] }

/-- What is printed at the end of a run. -/
def Ledger.totals (l : Ledger) : List Char :=
  "Successful tests: ".toList ++ decimal (l.good % 65536) ++ "\n".toList
  ++ "Failed tests: ".toList ++ decimal l.bad.length ++ "\n\n".toList
  ++ l.bad.flatMap fun t => "Test #".toList ++ decimal (t.1 % 65536) ++ " - '".toList ++ t.2.1
    ++ "' failed on stage ".toList ++ decimal (t.2.2 % 65536) ++ "\n".toList

/-- How a run goes: it comes to its end, an exception leaves a test function, or the number of a test
is too wide. -/
inductive Course
  | ends (l : Ledger) (text : List Char)
  | raises
  | tooWide

/-- Text in front of what is printed. -/
def Course.behind (t : List Char) : Course → Course
  | .ends l text => .ends l (t ++ text)
  | c => c

/-- The deeds of a test function: the ledger after them and what is printed; `none` if it announces a
test whose number is too wide. -/
def Ledger.tell (total : Nat) (l : Ledger) : List Deed → Option (Ledger × List Char)
  | [] => some (l, [])
  | .announce name :: ds =>
    if (l.after (.announce name)).Narrow total then
      (Ledger.tell total (l.after (.announce name)) ds).map fun p =>
        (p.1, (l.after (.announce name)).line total (.announce name) ++ p.2)
    else none
  | .stage :: ds =>
    (Ledger.tell total (l.after .stage) ds).map fun p => (p.1, (l.after .stage).line total .stage ++ p.2)
  | .text t :: ds => (Ledger.tell total l ds).map fun p => (p.1, t ++ p.2)

/-- One test function after the other: its deeds, and then what is made of its result. -/
def course (total : Nat) (l : Ledger) : List (List Deed × Option Bool) → Course
  | [] => .ends l []
  | (ds, r) :: rest =>
    match l.tell total ds, r with
    | none, _ => .tooWide
    | some _, none => .raises
    | some (l', text), some ok =>
      if l'.Narrow total then
        (course total (l'.noted ok) rest).behind (text ++ l'.result total ok)
      else .tooWide

end Spec

end Cmp
