import Mathlib.Data.Nat.Basic

/-
Specification: reading through a buffer that holds one page at a time, from any byte on.
-/

namespace Cmp.Spec

/-- Reading `n` bytes from byte `p` on, while the page that begins at byte `b` is at hand: the byte
after the last one read, and the start of the page then at hand. -/
def turn (cap len : Nat) (s : Nat × Nat) (n : Nat) : Nat × Nat :=
  if s.1 + n ≤ min (s.2 + cap) len then (s.1 + n, s.2)
  else (min (s.1 + n) len, min (s.2 + cap) len)

/-- The same for several reads. -/
def turns (cap len : Nat) (s : Nat × Nat) (ns : List Nat) : Nat × Nat := ns.foldl (turn cap len) s

/-- How many bytes the page that begins at byte `b` has. -/
def pageSize (cap len b : Nat) : Nat := min cap (len - b)

/-- How many of them come after byte `p`. -/
def pageRest (cap len : Nat) (s : Nat × Nat) : Nat := s.2 + pageSize cap len s.2 - s.1

/-- Reads none of which needs more than the rest of the page at hand and the page behind it. -/
def PagesSuffice (cap len : Nat) : Nat × Nat → List Nat → Prop
  | _, [] => True
  | s, n :: ns => n ≤ pageRest cap len s + cap ∧ PagesSuffice cap len (turn cap len s n) ns

instance decidablePagesSuffice (cap len : Nat) : (s : Nat × Nat) → (ns : List Nat) →
    Decidable (PagesSuffice cap len s ns)
  | _, [] => .isTrue trivial
  | s, n :: ns =>
    have := decidablePagesSuffice cap len (turn cap len s n) ns
    inferInstanceAs (Decidable (_ ∧ _))

end Cmp.Spec
