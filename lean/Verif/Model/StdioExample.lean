import Verif.Model.Console
import Verif.Model.Target
import Verif.Spec.Unicode

/-
Model of `examples/unicode_stdio_example/src/main.cpp`, a program that talks through `uin` and `uout`.
-/

namespace Cmp

open InStream OutStream

/-- The code units of a string literal with the null at its end.  The compiler encodes it in the form
of its type; the literals of type `char` in the examples are ASCII. -/
def literal (e : Enc) (text : String) : Str e :=
  let codes := text.toList.map Char.toNat
  let units := match e with
    | .narrow | .char8 => codes.flatMap Spec.utf8
    | .char16 | .wide2 => codes.flatMap Spec.utf16
    | .char32 | .wide4 => codes
  units.map (BitVec.ofNat e.width) ++ [0]

namespace StdioExample

/-- What the program writes at first, `main.cpp` 11-12.  Line 10 writes to `std::cout` and does not
involve the library: it is left out. -/
def ask (p : StdPlatform) (native : Endian) : M Console Unit := do
  Console.uout (writeArray native p.stdout .char8 (literal .char8 "I dunno, try it ¯\\_(ツ)_/¯\n"))
  Console.uout (writeArray native p.stdout .char16
    (literal .char16 "Huh, let me see. Say something in Unicode: "))

/-- What it writes in the end, `main.cpp` 15-16. -/
def answer (p : StdPlatform) (native : Endian) (input : Str .char8) : M Console Unit := do
  Console.uout (writeArray native p.stdout .char32 (literal .char32 "You said: "))
  Console.uout (writeString native p.stdout .char8 input)
  Console.uout (writeChar native p.stdout 10#8)
  Console.uout (writeArray native p.stdout .narrow (literal .narrow "Cool.\n"))

/-- `main`, `main.cpp` 7-19, and the end of the process: an exception that leaves `main` calls
`std::terminate`, otherwise the destructor of `uout` flushes (`output_stream.ipp` 25-31, `uio.cpp` 9).
`fuel` bounds the number of characters read. -/
def main (p : StdPlatform) (native : Endian) (fuel : Nat) : M Console Int := do
  M.noexcept (do
    ask p native
    let input ← Console.uin (readLocalWord native p.stdin fuel)
    answer p native input)
  M.noexcept (Console.uout (OutStream.flush p.stdout))
  pure 0

end StdioExample

end Cmp
