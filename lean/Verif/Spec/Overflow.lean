import Verif.Spec.Nearest
import Verif.Model.Compare

/-
Specification of the arithmetic of a binary floating-point format with overflow.  It uses the values of
`Model/Compare.lean` (finite numbers, infinities and what is not a number) and nothing else of the model.
-/

namespace Cmp.Spec

open _root_.Spec (BinFmt)

/-- Numbers of at least this size become infinite when they are rounded: half a unit in the last place
above the greatest value of the format. -/
def overflowsAt (F : BinFmt) : ℚ := 2 ^ F.emax - 2 ^ (F.emax - F.prec - 1)

/-- `rnd` rounds as IEEE arithmetic does by default: to a nearest value of the format, ties being broken
in any way, and to an infinity beyond the greatest value. -/
structure Rounds (F : BinFmt) (rnd : ℚ → FloatValue) : Prop where
  near : ∀ q, |q| < overflowsAt F →
    ∃ r, rnd q = .fin r ∧ F.Has r ∧ ∀ p, F.Has p → |r - q| ≤ |p - q|
  over : ∀ q, overflowsAt F ≤ |q| → rnd q = .inf (decide (q < 0))

/-- The value is one of the format. -/
def IsValue (F : BinFmt) : FloatValue → Prop
  | .fin q => F.Has q
  | _ => True

end Cmp.Spec
