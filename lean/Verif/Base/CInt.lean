import Verif.Base.Outcome

/-
C++ integer types and their arithmetic: fixed-width two's complement, integral promotion, the
usual arithmetic conversions, signed overflow as undefined behaviour.  `int` has 32 bits, as on
every platform the library supports.  `bool` is not covered.
-/

namespace Cmp

/-- An integer type: its width and signedness. -/
structure IntTy where
  bits : Nat
  signed : Bool
deriving DecidableEq, Repr

namespace IntTy

def int8 : IntTy := ⟨8, true⟩
def uint8 : IntTy := ⟨8, false⟩
def int16 : IntTy := ⟨16, true⟩
def uint16 : IntTy := ⟨16, false⟩
def int : IntTy := ⟨32, true⟩
def uint : IntTy := ⟨32, false⟩
def llong : IntTy := ⟨64, true⟩
def ullong : IntTy := ⟨64, false⟩

/-- The widths of the standard integer types. -/
def Std (T : IntTy) : Prop := T.bits = 8 ∨ T.bits = 16 ∨ T.bits = 32 ∨ T.bits = 64

instance (T : IntTy) : Decidable T.Std := by unfold Std; infer_instance

/-- The least value. -/
def min (T : IntTy) : Int := if T.signed then -(2 ^ (T.bits - 1)) else 0

/-- The greatest value. -/
def max (T : IntTy) : Int := if T.signed then 2 ^ (T.bits - 1) - 1 else 2 ^ T.bits - 1

/-- `x` is a value of the type. -/
def Has (T : IntTy) (x : Int) : Prop := T.min ≤ x ∧ x ≤ T.max

instance (T : IntTy) (x : Int) : Decidable (T.Has x) := by unfold Has; infer_instance

/-- Conversion to the type (modulo `2^bits`, [conv.integral]). -/
def wrap (T : IntTy) (x : Int) : Int :=
  if T.signed then x.bmod (2 ^ T.bits) else x % (2 ^ T.bits : Nat)

/-- Integral promotion, [conv.prom]. -/
def promote (T : IntTy) : IntTy := if T.bits < 32 then int else T

/-- The usual arithmetic conversions, [expr.arith.conv]. -/
def common (T U : IntTy) : IntTy :=
  let T := T.promote
  let U := U.promote
  if T.signed = U.signed then (if T.bits < U.bits then U else T)
  else
    let S := if T.signed then T else U
    let V := if T.signed then U else T
    if S.bits ≤ V.bits then V else S

/-- The value of an arithmetic operation in type `T` whose mathematical result is `x`: signed
overflow is undefined, unsigned arithmetic is modular, [expr.pre], [basic.fundamental]. -/
def arith (T : IntTy) (x : Int) : Outcome Int :=
  if T.signed then (if T.Has x then .ok x else .ub) else .ok (T.wrap x)

/-- Division in type `T`; division by zero is undefined. -/
def div (T : IntTy) (x y : Int) : Outcome Int :=
  if y = 0 then .ub else T.arith (x.tdiv y)

/-- Remainder in type `T`. -/
def rem (T : IntTy) (x y : Int) : Outcome Int :=
  if y = 0 then .ub else if T.Has (x.tdiv y) then .ok (x.tmod y) else .ub

end IntTy

end Cmp
