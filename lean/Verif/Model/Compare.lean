import Verif.Model.Float

/-
Model of the comparison of floating-point numbers, `api/src/cmp/core/general.ipp`, with the values that
`Model/Float.lean` leaves out: infinities and what is not a number.
-/

namespace Cmp

/-- The values of a floating-point type; both zeros are `fin 0`, which no function here tells apart. -/
inductive FloatValue
  | fin (q : ℚ)
  | inf (negative : Bool)
  | nan
  deriving DecidableEq

namespace FloatValue

/-- The product in a type whose rounding, which may overflow, is `rnd`. -/
def mul (rnd : ℚ → FloatValue) : FloatValue → FloatValue → FloatValue
  | fin a, fin b => rnd (a * b)
  | fin a, inf s => if a = 0 then nan else inf (s ^^ decide (a < 0))
  | inf s, fin b => if b = 0 then nan else inf (s ^^ decide (b < 0))
  | inf s, inf t => inf (s ^^ t)
  | _, _ => nan

/-- `std::floor`. -/
def floor : FloatValue → FloatValue
  | fin q => fin ⌊q⌋
  | x => x

/-- The operator `==`: what is not a number is not equal to anything. -/
def eq : FloatValue → FloatValue → Bool
  | fin a, fin b => decide (a = b)
  | inf s, inf t => s == t
  | _, _ => false

end FloatValue

open FloatValue in
/-- `cmp_equal` (`noexcept`), `core/general.ipp` 10-24.  `power` is `std::pow(10,
relevant_decimal_places)` as a `double`.  `rnd1` and `rnd2` are the roundings of the products, which are
those of `double` unless the value is a `long double`. -/
def cmpEqualValues (rnd1 rnd2 : ℚ → FloatValue) (power value1 value2 : FloatValue) : Bool :=
  eq (floor (mul rnd1 value1 power)) (floor (mul rnd2 value2 power))

end Cmp
