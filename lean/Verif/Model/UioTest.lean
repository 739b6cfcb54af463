import Verif.Model.StdioExample
import Verif.Model.TestModule
import Verif.Model.Float

/-
Model of `tests/manual/test_uio.cpp`, the test of the standard streams that is carried out by hand.
-/

namespace Cmp

open InStream OutStream

/-- A `std::basic_string` made from a literal: the code units in front of the null. -/
def textObject (e : Enc) (text : String) : Str e := (literal e text).dropLast

/-- What the program works with: `uin` and `uout`; `uerr`, `uio.cpp` 10, which is an output stream like
`uout` on a resource of its own (`unix_like_uout.cpp` 53-56, `windows_uout.cpp` 58-61) and is modelled as
the output half of another pair; and the test module.  `std::cout` is separate from `uout`: how what is
written through the two is mixed on the terminal is not modelled. -/
structure UioTest where
  console : Console
  err : Console
  module : TestModule

namespace UioTest

variable {α : Type}

/-- Using `uin` and `uout`. -/
def onConsole (x : M Console α) : M UioTest α := fun t =>
  let y := x t.console
  (y.1, { t with console := y.2 })

/-- Using `uerr`. -/
def onErr (x : M (OutStream (Tied Sys)) α) : M UioTest α := fun t =>
  let y := Console.uout x t.err
  (y.1, { t with err := y.2 })

/-- Using the functions of the test module. -/
def onModule (x : M TestModule α) : M UioTest α := fun t =>
  let y := x t.module
  (y.1, { t with module := y.2 })

/-- Writing to `uout`. -/
def put (x : M (OutStream (Tied Sys)) α) : M UioTest α := onConsole (Console.uout x)

/-- Three lines to a stream and a flush, `test_uio.cpp` 36-43 and 47-50. -/
def threeLines (p : StdPlatform) (native : Endian) (send : M (OutStream (Tied Sys)) Unit → M UioTest Unit) :
    M UioTest Unit := do
  send (writeString native p.stdout .char8 (textObject .char8 "¯\\_(ツ)_/¯1"))
  send (writeArray native p.stdout .char8 (literal .char8 ".\n"))
  send (writeString native p.stdout .char16 (textObject .char16 "¯\\_(ツ)_/¯2"))
  send (writeArray native p.stdout .char16 (literal .char16 ".\n"))
  send (writeString native p.stdout .char32 (textObject .char32 "¯\\_(ツ)_/¯3"))
  send (writeArray native p.stdout .char32 (literal .char32 ".\n"))
  send (OutStream.flush p.stdout)

/-- `test_output` (`noexcept`), `test_uio.cpp` 30-55. -/
def testOutput (p : StdPlatform) (native : Endian) : M UioTest Bool := M.noexcept do
  onModule (TestModule.startTest "test_output".toList)
  threeLines p native put
  onModule TestModule.endStage
  threeLines p native onErr
  onModule TestModule.endStage
  pure true

/-- `uin.read_line(input)` into the empty local string, `test_uio.cpp` 64-65. -/
def readLocalLine (native : Endian) (R : Reader (Tied Sys)) (fuel : Nat) :
    M (InStream (Tied Sys)) (Str .char8) := fun s =>
  match readLineTo native R .char8 fuel (s, []) with
  | (.ok (), s') => (.ok s'.2, s'.1)
  | (.throw x, s') => (.throw x, s'.1)
  | (.terminate, s') => (.terminate, s'.1)
  | (.ub, s') => (.ub, s'.1)
  | (.hang, s') => (.hang, s'.1)

/-- `test_input` (`noexcept`), `test_uio.cpp` 57-78.  `fuel` bounds the number of characters read. -/
def testInput (p : StdPlatform) (native : Endian) (fuel : Nat) : M UioTest Bool := M.noexcept do
  onModule (TestModule.startTest "test_input".toList)
  put (writeArray native p.stdout .char8 (literal .char8 "Enter ツ: "))
  let input ← onConsole (Console.uin (readLocalLine native p.stdin fuel))
  put (writeArray native p.stdout .narrow (literal .narrow "Entered line: "))
  put (writeString native p.stdout .char8 input)
  put (writeChar native p.stdout 10#8)
  put (OutStream.flush p.stdout)
  if input ≠ textObject .char8 "ツ" then do
    onModule (TestModule.print "The input does not match the expected content.\n".toList)
    pure false
  else do
    onModule TestModule.endStage
    pure true

/-- What is printed when a value is not the one asked for, `test_uio.cpp` 94-95 and 107-108. -/
def mismatch : List Char := "The parsed input does not match the expected value.\n".toList

/-- `test_parsing_and_formatting` (`noexcept`), `test_uio.cpp` 80-116.  `rnd` is the rounding of the
machine, `fuel` bounds the numbers of characters read, and `places` the number of places written.  The
variables read into are not initialised; nothing depends on what is in them (C116). -/
def testParsing (p : StdPlatform) (native : Endian) (rnd : ℚ → ℚ) (fuel places : Nat) :
    M UioTest Bool := M.noexcept do
  onModule (TestModule.startTest "test_parsing_and_formatting".toList)
  put (writeArray native p.stdout .char8 (literal .char8 "Enter 5.5: "))
  let word1 ← onConsole (Console.uin (readLocalWord native p.stdin fuel))
  let input1 ← M.lift (parseFloat .char8 rnd word1 FloatFormat.default)
  put (writeArray native p.stdout .narrow (literal .narrow "Entered value: "))
  put (writeFloat native p.stdout rnd places input1)
  put (writeChar native p.stdout 10#8)
  put (OutStream.flush p.stdout)
  if input1 ≠ 11 / 2 then do
    onModule (TestModule.print mismatch)
    pure false
  else do
    onModule TestModule.endStage
    put (writeArray native p.stdout .char8 (literal .char8 "Enter -75: "))
    let word2 ← onConsole (Console.uin (readLocalWord native p.stdin fuel))
    let input2 ← M.lift (parseInteger .char8 .int word2 IntegerFormat.default)
    put (writeArray native p.stdout .narrow (literal .narrow "Entered value: "))
    put (writeInteger native p.stdout .int input2)
    put (writeChar native p.stdout 10#8)
    put (OutStream.flush p.stdout)
    if input2 ≠ -75 then do
      onModule (TestModule.print mismatch)
      pure false
    else do
      onModule TestModule.endStage
      pure true

/-- What `run_tests` does when all test functions have returned, `test_module.ipp` 152-168. -/
def reportAll : M TestModule Nat := do
  let s ← M.get
  TestModule.print ("Successful tests: ".toList ++ Spec.decimal s.successes.toNat ++ "\n".toList)
  TestModule.print ("Failed tests: ".toList ++ Spec.decimal s.failed.length ++ "\n".toList)
  TestModule.print "\n".toList
  let _ ← M.runList TestModule.reportFailedTest s.failed
  pure s.failed.length

/-- `run_tests` (`noexcept`), `test_module.ipp` 139-169, with test functions that use the streams. -/
def runTests (tests : List (M UioTest Bool)) : M UioTest Nat := M.noexcept do
  let _ ← M.runList (fun t => do
    let ok ← t
    onModule (TestModule.endTest ok)) tests
  onModule reportAll

/-- `main`, `test_uio.cpp` 121-125, with the list of `test_uio.cpp` 14-23, and the end of the process:
the destructors of `uerr` and `uout` flush (`output_stream.ipp` 25-31, `uio.cpp` 8-10 in reverse). -/
def main (p : StdPlatform) (native : Endian) (rnd : ℚ → ℚ) (fuel places : Nat) : M UioTest Nat := do
  let n ← runTests [testOutput p native, testInput p native fuel, testParsing p native rnd fuel places]
  M.noexcept (onErr (OutStream.flush p.stdout))
  M.noexcept (put (OutStream.flush p.stdout))
  pure n

/-- The state at the start of `main`: the system supplies `sys`, and `err` is where standard error
goes. -/
def start (p : StdPlatform) (native : Endian) (capIn capOut capErr : Nat) (sys err : Sys) : UioTest :=
  ⟨Console.make p native capIn capOut sys, Console.make p native 0 capErr err, TestModule.make 3⟩

end UioTest

end Cmp
