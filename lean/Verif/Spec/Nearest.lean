import Verif.Spec.Real

/-
Specification of rounding to nearest in a binary floating-point format, on rational numbers.  It
does not refer to the model of the library.
-/

namespace Spec

/-- `q` is between two values of the format. -/
def BinFmt.Within (F : BinFmt) (q : ℚ) : Prop := ∃ p, F.Has p ∧ |q| ≤ p

/-- `rnd` rounds to a nearest value of the format, as IEEE arithmetic does by default: the result is
a value of the format and no other value is nearer.  Ties may be broken in any way, and nothing is
said of numbers beyond the greatest value of the format. -/
def BinFmt.Nearest (F : BinFmt) (rnd : ℚ → ℚ) : Prop :=
  ∀ q, F.Within q → F.Has (rnd q) ∧ ∀ p, F.Has p → |rnd q - q| ≤ |p - q|

/-- `q` has at most `k` binary places. -/
def BinaryPlaces (k : Nat) (q : ℚ) : Prop := ∃ z : Int, q = z / 2 ^ k

end Spec
