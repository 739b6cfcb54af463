/-
Specification of a test run, independent of the library's bookkeeping.
-/

namespace Cmp

/-- `test_module<T>::message`, `test_module.hpp`. -/
inductive Message
  | empty | constructorCalled | copyConstructorCalled | moveConstructorCalled | destructorCalled
  deriving DecidableEq, Repr

/-- What the body of a test function does with its test module, step by step; what it does next may
depend on the messages it takes from the queue and on how many there are.  `raise`: an exception
leaves the function. -/
inductive TestBody
  | done (ok : Bool)
  | raise
  | startTest (name : List Char) (next : TestBody)
  | endStage (next : TestBody)
  | push (m : Message) (next : TestBody)
  | pop (next : Message → TestBody)
  | clear (next : TestBody)
  | count (next : Nat → TestBody)
  /-- writes a text to the standard output -/
  | log (text : List Char) (next : TestBody)

namespace Spec

/-- A decimal digit. -/
def digitChar (d : Nat) : Char := Char.ofNat (48 + d)

/-- The decimal numeral of a number below the first argument. -/
def decimalBelow : Nat → Nat → List Char
  | 0, _ => []
  | f + 1, n => if n < 10 then [digitChar n] else decimalBelow f (n / 10) ++ [digitChar (n % 10)]

/-- The decimal numeral of a number. -/
def decimal (n : Nat) : List Char := decimalBelow (n + 1) n

/-- The number a decimal numeral denotes. -/
def numeralValue (cs : List Char) : Nat := cs.foldl (fun a c => a * 10 + (c.toNat - 48)) 0

/-- The numeral of `n` with as many digits as that of `total`. -/
def padded (total n : Nat) : List Char :=
  List.replicate ((decimal total).length - (decimal n).length) '0' ++ decimal n

/-- What a test function that has been announced does when it runs on its own: its result, how many
stages it ends, and what it prints; given the number of stages ended so far and the messages in the
queue.  `none` if an exception leaves it, or if it announces another test. -/
def alone : TestBody → Nat → List Message → Option (Bool × Nat × List Char)
  | .done ok, stages, _ => some (ok, stages, [])
  | .raise, _, _ => none
  | .startTest _ _, _, _ => none
  | .endStage next, stages, queue =>
    (alone next (stages + 1) queue).map fun (ok, n, text) =>
      (ok, n, "Stage ".toList ++ decimal (stages + 1) ++ " completed successfully.\n".toList ++ text)
  | .push m next, stages, queue => alone next stages (queue ++ [m])
  | .pop next, stages, [] => alone (next .empty) stages []
  | .pop next, stages, m :: queue => alone (next m) stages queue
  | .clear next, stages, _ => alone next stages []
  | .count next, stages, queue => alone (next queue.length) stages queue
  | .log text next, stages, queue =>
    (alone next stages queue).map fun (ok, n, rest) => (ok, n, text ++ rest)

/-- A test function: the name it announces itself with, its result, the number of stages it ends and
what it prints. -/
structure TestReport where
  name : List Char
  ok : Bool
  stages : Nat
  text : List Char
  deriving DecidableEq

/-- What is printed while test number `i` of `total` runs. -/
def TestReport.transcript (total i : Nat) (r : TestReport) : List Char :=
  "Test #".toList ++ padded total i ++ " - '".toList ++ r.name ++ "' starting.\n".toList
  ++ r.text
  ++ "Test #".toList ++ padded total i ++ " - '".toList ++ r.name ++ "' ".toList
  ++ (if r.ok then "succeeded".toList else "failed".toList)
  ++ " with ".toList ++ decimal r.stages
  ++ (if r.stages = 1 then " successful stage.".toList else " successful stages.".toList)
  ++ "\n".toList ++ List.replicate (6 + (padded total i).length) '=' ++ "\n".toList

/-- The line about failed test number `i`. -/
def TestReport.failure (i : Nat) (r : TestReport) : List Char :=
  "Test #".toList ++ decimal i ++ " - '".toList ++ r.name ++ "' failed on stage ".toList
  ++ decimal (r.stages + 1) ++ "\n".toList

/-- The number of failures. -/
def failures (rs : List TestReport) : Nat := (rs.filter (fun r => !r.ok)).length

/-- Everything that is printed by a run: the tests in order, numbered from one, the totals, and a
line about each test that failed. -/
def runOutput (rs : List TestReport) : List Char :=
  ((rs.zipIdx 1).flatMap fun (r, i) => r.transcript rs.length i)
  ++ "Successful tests: ".toList ++ decimal (rs.length - failures rs) ++ "\n".toList
  ++ "Failed tests: ".toList ++ decimal (failures rs) ++ "\n\n".toList
  ++ ((rs.zipIdx 1).filter (fun (r, _) => !r.ok)).flatMap fun (r, i) => r.failure i

/-- What can be done with the message queue. -/
inductive MessageOp
  | push (m : Message)
  | pop
  | clear
  | count
  deriving DecidableEq

/-- What is seen of it. -/
inductive MessageObs
  | done
  | message (m : Message)
  | count (n : Nat)
  deriving DecidableEq

/-- First in, first out: all the messages pushed since the queue was last cleared are remembered, and
how many of them have been taken; the next one to be taken is the one with that number. -/
def messageResults : List Message → Nat → List MessageOp → List MessageObs
  | _, _, [] => []
  | pushed, taken, .push m :: ops => .done :: messageResults (pushed ++ [m]) taken ops
  | pushed, taken, .pop :: ops =>
    match pushed[taken]? with
    | some m => .message m :: messageResults pushed (taken + 1) ops
    | none => .message .empty :: messageResults pushed taken ops
  | _, _, .clear :: ops => .done :: messageResults [] 0 ops
  | pushed, taken, .count :: ops =>
    .count (pushed.length - taken) :: messageResults pushed taken ops

end Spec

end Cmp
