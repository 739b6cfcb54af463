import Mathlib.Data.Nat.Basic

/-
Specification: a content cut into pages of equal size.
-/

namespace Cmp.Spec

/-- Where the page begins that holds the bytes before byte `p`: pages have `cap` bytes. -/
def pageStart (cap p : Nat) : Nat := cap * (max 1 ((p + cap - 1) / cap) - 1)

/-- How much of that page comes after byte `p`. -/
def restOfPage (cap len p : Nat) : Nat := min (pageStart cap p + cap) len - p

/-- Reads none of which needs more than the rest of a page and the page behind it. -/
def WithinPages (cap len p : Nat) : List Nat → Prop
  | [] => True
  | n :: ns => n ≤ restOfPage cap len p + cap ∧ WithinPages cap len (min (p + n) len) ns

instance decidableWithinPages (cap len : Nat) : (p : Nat) → (ns : List Nat) →
    Decidable (WithinPages cap len p ns)
  | _, [] => .isTrue trivial
  | p, n :: ns =>
    have := decidableWithinPages cap len (min (p + n) len) ns
    inferInstanceAs (Decidable (_ ∧ _))

end Cmp.Spec
