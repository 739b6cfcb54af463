import Verif.Spec.Numeral

/-
Specification of the usual decimal notation of integers.  It does not refer to the model of the
library.
-/

namespace Spec

/-- The decimal digits of a natural number as ASCII characters. -/
def decimalDigits (n : Nat) : List Nat :=
  if n < 10 then [48 + n] else decimalDigits (n / 10) ++ [48 + n % 10]

/-- The decimal notation of an integer. -/
def decimal (v : Int) : List Nat := (if v < 0 then [45] else []) ++ decimalDigits v.natAbs

end Spec
