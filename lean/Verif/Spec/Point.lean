import Verif.Spec.Numeral
import Mathlib.Data.Rat.Floor

/-
Specification: digits after a radix character when every operation is rounded.
-/

namespace Spec

/-- The digits `ds` after the radix character added to `whole` one after the other: each is divided
by its place value; the place value, the quotient and the sum are rounded by `rnd`. -/
def addPlaces (rnd : ℚ → ℚ) (r : Nat) : ℚ → ℚ → List Nat → ℚ
  | _, whole, [] => whole
  | place, whole, d :: ds =>
    addPlaces rnd r (rnd (place * r)) (rnd (whole + rnd (d / rnd (place * r)))) ds

/-- What is left of the fraction `q` after `n` digits in radix `r` were taken off, each by multiplying
with the radix, rounded by `rnd`, and removing the integral part. -/
def remainderAfter (rnd : ℚ → ℚ) (r : Nat) : Nat → ℚ → ℚ
  | 0, q => q
  | n + 1, q => remainderAfter rnd r n (Int.fract (rnd (q * r)))

end Spec
