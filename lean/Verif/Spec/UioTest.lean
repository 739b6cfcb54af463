import Verif.Spec.StdioExample

/-
What the manual test of the standard streams shows and reads.  It does not refer to the model of the
library.
-/

namespace Spec

/-- The first line, how reading it ends and what is left. -/
def firstLine (is : List Item) : List Nat × Ending × List Item :=
  gather false (fun v => decide (v = 10)) takes8 is

/-- The three lines that are written to both streams. -/
def threeLines : List Nat := codes "¯\\_(ツ)_/¯1.\n¯\\_(ツ)_/¯2.\n¯\\_(ツ)_/¯3.\n"

/-- What standard output shows when the line is asked for. -/
def askLine : List Nat := threeLines ++ codes "Enter ツ: "

/-- What it shows when the first number is asked for. -/
def askReal : List Nat := askLine ++ codes "Entered line: ツ\nEnter 5.5: "

/-- What it shows when the second number is asked for. -/
def askInteger : List Nat := askReal ++ codes "Entered value: 5.5\nEnter -75: "

/-- What it shows in the end. -/
def wholeTalk : List Nat := askInteger ++ codes "Entered value: -75\n"

end Spec
