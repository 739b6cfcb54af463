import Verif.Spec.Recover

/-
What the example program for the standard streams does with what it is given.  It does not refer to
the model of the library.
-/

namespace Spec

/-- The code points of a text. -/
def codes (text : String) : List Nat := text.toList.map Char.toNat

/-- What a `std::u8string` takes: scalar values whose low 16 bits are not a surrogate. -/
def takes8 (v : Nat) : Option (List Nat) :=
  if IsScalar v ∧ ¬ (0xD800 ≤ v % 0x10000 ∧ v % 0x10000 ≤ 0xDFFF) then some [v] else none

/-- Whether a character is whitespace. -/
def space (v : Nat) : Bool := decide (∃ r ∈ whiteSpaceRanges, r.1 ≤ v ∧ v ≤ r.2)

/-- The first word, how reading it ends and what is left. -/
def firstWord (is : List Item) : List Nat × Ending × List Item :=
  gather false space takes8 (skipChars space is)

/-- What the program asks. -/
def asks : List Nat :=
  codes "I dunno, try it ¯\\_(ツ)_/¯\nHuh, let me see. Say something in Unicode: "

/-- What it answers to a word. -/
def answers (word : List Nat) : List Nat := codes "You said: " ++ word ++ codes "\nCool.\n"

end Spec
