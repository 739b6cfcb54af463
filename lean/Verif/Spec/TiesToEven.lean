import Verif.Spec.Nearest

/-
Specification of the default rounding of IEEE arithmetic: to nearest, ties to even.  It does not
refer to the model of the library.
-/

namespace Spec

/-- The exponent of the power of two at or below `|q|`, for `q` other than zero: with `a` and `b`
the binary logarithms of the numerator and the denominator it is `a - b` or one less. -/
def exponent (q : ℚ) : Int :=
  let e : Int := (Nat.log2 q.num.natAbs : Int) - Nat.log2 q.den
  if (2 : ℚ) ^ e ≤ |q| then e else e - 1

/-- The nearest integer, and the even one of two that are equally near. -/
def evenInteger (x : ℚ) : Int :=
  if x - ⌊x⌋ < 1 / 2 then ⌊x⌋
  else if 1 / 2 < x - ⌊x⌋ then ⌊x⌋ + 1
  else if ⌊x⌋ % 2 = 0 then ⌊x⌋ else ⌊x⌋ + 1

/-- The exponent of the last place of the values of the format about `q`. -/
def BinFmt.lastPlace (F : BinFmt) (q : ℚ) : Int := max (exponent q - (F.prec - 1)) F.emin

/-- Rounding to nearest, ties to even, of numbers between two values of the format. -/
def BinFmt.tiesToEven (F : BinFmt) (q : ℚ) : ℚ :=
  if q = 0 then 0
  else evenInteger (q / (2 : ℚ) ^ F.lastPlace q) * (2 : ℚ) ^ F.lastPlace q

end Spec
