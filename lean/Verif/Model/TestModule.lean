import Verif.Base.History
import Verif.Spec.TestRun

/-
Model of `api/src/cmp/core/test_module.ipp`.  Text is ASCII (`char`); decimal output of
`std::ostream` is `Spec.decimal`.  Allocation does not fail.
-/

namespace Cmp

/-- `static_cast<int>` of a message, `test_module.ipp` 234. -/
def Message.code : Message → Nat
  | .empty => 0
  | .constructorCalled => 1
  | .copyConstructorCalled => 2
  | .moveConstructorCalled => 3
  | .destructorCalled => 4

/-- `static_cast<message>` of a number, `test_module.ipp` 246.  Only numbers made by `Message.code`
are in the queue. -/
def Message.ofCode : Nat → Message
  | 1 => .constructorCalled
  | 2 => .copyConstructorCalled
  | 3 => .moveConstructorCalled
  | 4 => .destructorCalled
  | _ => .empty

/-- The data of a `test_module`, `test_module.hpp`, and the standard output.  Of the test functions
only the number is needed here. -/
structure TestModule where
  name : List Char
  index : BitVec 16
  stage : BitVec 16
  successes : BitVec 16
  failed : List (BitVec 16 × List Char × BitVec 16)
  total : Nat
  queue : List Nat
  out : List Char
  deriving DecidableEq

namespace TestModule

/-- The constructor, `test_module.ipp` 104-120, given the number of test functions. -/
def make (total : Nat) : TestModule := ⟨"<uninitialized>".toList, 0, 0, 0, [], total, [], []⟩

/-- `std::cout <<`. -/
def print (text : List Char) : M TestModule Unit := M.modify fun s => { s with out := s.out ++ text }

/-- `get_message_count`, `test_module.ipp` 127-132. -/
def getMessageCount : M TestModule Nat := fun s => (.ok s.queue.length, s)

/-- `end_stage`, `test_module.ipp` 211-223. -/
def endStage : M TestModule Unit := do
  M.modify fun s => { s with stage := s.stage + 1 }
  let s ← M.get
  print ("Stage ".toList ++ Spec.decimal s.stage.toNat ++ " completed successfully.\n".toList)

/-- `push_message`, `test_module.ipp` 228-235. -/
def pushMessage (m : Message) : M TestModule Unit :=
  M.modify fun s => { s with queue := s.queue ++ [m.code] }

/-- `pop_message`, `test_module.ipp` 240-250. -/
def popMessage : M TestModule Message := fun s =>
  match s.queue with
  | [] => (.ok .empty, s)
  | m :: queue => (.ok (.ofCode m), { s with queue := queue })

/-- The loop of `clear_message_queue`, `test_module.ipp` 259-261. -/
def clearLoop : List Nat → List Nat
  | [] => []
  | _ :: queue => clearLoop queue

/-- `clear_message_queue`, `test_module.ipp` 255-262. -/
def clearMessageQueue : M TestModule Unit := M.modify fun s => { s with queue := clearLoop s.queue }

/-- The loop of `count_digits`, `test_module.ipp` 298-301; the first argument bounds it. -/
def countDigitsLoop : Nat → Int → Nat → Outcome Nat
  | 0, _, _ => .hang
  | fuel + 1, integer, count =>
    if integer.tdiv 10 ≠ 0 then countDigitsLoop fuel (integer.tdiv 10) (count + 1)
    else .ok (count + 1)

/-- `count_digits`, `test_module.ipp` 291-303.  An `int` has at most ten digits. -/
def countDigits (integer : Int) : Outcome Nat := countDigitsLoop 11 integer 0

/-- The first loop of `zero_pad`, `test_module.ipp` 335-338.  Writing a character other than the
terminator at or behind the end of a string is undefined. -/
def putZeros : Nat → Nat → List Char → Outcome (List Char)
  | 0, _, s => .ok s
  | n + 1, at_, s => if at_ < s.length then putZeros n (at_ + 1) (s.set at_ '0') else .ub

/-- The second loop of `zero_pad`, `test_module.ipp` 340-345; `unsigned int` arithmetic. -/
def putDigits (length : BitVec 32) : Nat → BitVec 32 → BitVec 32 → List Char → Outcome (List Char)
  | 0, _, _, _ => .hang
  | fuel + 1, digitIndex, number, s =>
    let at_ := (length - digitIndex).toNat
    if at_ < s.length then
      let s := s.set at_ (Char.ofNat ((number % 10).toNat + 48))
      if number / 10 ≠ 0 then putDigits length fuel (digitIndex + 1) (number / 10) s else .ok s
    else .ub

/-- `zero_pad`, `test_module.ipp` 308-348: the arguments of `count_digits` are converted to `int`
(modulo 2^32). -/
def zeroPad (total : Nat) (number : BitVec 32) : Outcome (List Char) := do
  let inputDigits ← countDigits number.toInt
  let totalDigits ← countDigits (BitVec.ofNat 32 total).toInt
  let difference := BitVec.ofNat 32 totalDigits - BitVec.ofNat 32 inputDigits
  let length := BitVec.ofNat 32 totalDigits
  let s ← putZeros difference.toNat 0 (List.replicate totalDigits '\x00')
  putDigits length 11 1 number s

/-- `start_test`, `test_module.ipp` 174-206. -/
def startTest (name : List Char) : M TestModule Unit := do
  M.modify fun s => { s with index := s.index + 1 }
  let s ← M.get
  let number ← M.lift (zeroPad s.total (s.index.setWidth 32))
  print ("Test #".toList ++ number ++ " - '".toList ++ name ++ "' starting.\n".toList)
  M.modify fun s => { s with name := name, stage := 0 }

/-- The bookkeeping of `end_test`, `test_module.ipp` 389-397. -/
def noteResult (ok : Bool) : M TestModule Unit := M.modify fun s =>
  if ok then { s with successes := s.successes + 1 }
  else { s with failed := s.failed ++ [(s.index, s.name, s.stage + 1)] }

/-- `end_test`, `test_module.ipp` 353-400. -/
def endTest (ok : Bool) : M TestModule Unit := do
  let s ← M.get
  let number ← M.lift (zeroPad s.total (s.index.setWidth 32))
  print ("Test #".toList ++ number ++ " - '".toList ++ s.name ++ "' ".toList
    ++ (if ok then "succeeded".toList else "failed".toList)
    ++ " with ".toList ++ Spec.decimal s.stage.toNat
    ++ (if s.stage = 1 then " successful stage.".toList else " successful stages.".toList)
    ++ "\n".toList)
  print (List.replicate (6 + number.length) '=')
  print "\n".toList
  noteResult ok
  clearMessageQueue

/-- `report_failed_test`, `test_module.ipp` 405-418. -/
def reportFailedTest (t : BitVec 16 × List Char × BitVec 16) : M TestModule Unit :=
  print ("Test #".toList ++ Spec.decimal t.1.toNat ++ " - '".toList ++ t.2.1
    ++ "' failed on stage ".toList ++ Spec.decimal t.2.2.toNat ++ "\n".toList)

/-- Run the body of a test function. -/
def runBody : TestBody → M TestModule Bool
  | .done ok => pure ok
  | .raise => M.throw .outOfRange
  | .startTest name next => do
    startTest name
    runBody next
  | .endStage next => do
    endStage
    runBody next
  | .push m next => do
    pushMessage m
    runBody next
  | .pop next => do
    let m ← popMessage
    runBody (next m)
  | .clear next => do
    clearMessageQueue
    runBody next
  | .count next => do
    let n ← getMessageCount
    runBody (next n)
  | .log text next => do
    print text
    runBody next

/-- `run_tests` (`noexcept`), `test_module.ipp` 139-169.  The result is a mathematical integer
instead of an `int`. -/
def runTests (tests : List TestBody) : M TestModule Nat := M.noexcept do
  let _ ← M.runList (fun t => do
    let ok ← runBody t
    endTest ok) tests
  let s ← M.get
  print ("Successful tests: ".toList ++ Spec.decimal s.successes.toNat ++ "\n".toList)
  print ("Failed tests: ".toList ++ Spec.decimal s.failed.length ++ "\n".toList)
  print "\n".toList
  let _ ← M.runList reportFailedTest s.failed
  pure s.failed.length

/-- The operations of the message queue as a step of a history. -/
def messageStep : Spec.MessageOp → M TestModule Spec.MessageObs
  | .push m => do
    pushMessage m
    pure .done
  | .pop => do
    let m ← popMessage
    pure (.message m)
  | .clear => do
    clearMessageQueue
    pure .done
  | .count => do
    let n ← getMessageCount
    pure (.count n)

end TestModule

end Cmp
