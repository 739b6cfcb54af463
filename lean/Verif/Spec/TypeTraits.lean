/-
What a C++ type has to do with text, said without the traits of the library.
-/
import Verif.Model.TypeTraits

namespace Cmp.Spec

open Types

/-- How a type holds text: a class that owns its characters, a class that looks at those of another, a
pointer to characters, or an array of characters. -/
inductive TextForm
  | owner | view | pointer | array
  deriving DecidableEq, Repr

/-- Text as a type gives access to it: how, of which characters, and whether they may be changed. -/
structure TextType where
  form : TextForm
  unit : CodeUnit
  writable : Bool
  deriving DecidableEq, Repr

/-- The text that a type holds. -/
def textType : CType → Option TextType
  | .object const _ (.string c) => some ⟨.owner, c, !const⟩
  | .object _ _ (.view c) => some ⟨.view, c, false⟩
  | .pointer _ _ (.object const _ (.unit c)) => some ⟨.pointer, c, !const⟩
  | .array _ (.object const _ (.unit c)) => some ⟨.array, c, !const⟩
  | .unbounded (.object const _ (.unit c)) => some ⟨.array, c, !const⟩
  | _ => none

/-- The type holds text of which this is true. -/
def holds (T : CType) (p : TextType → Bool) : Bool := (textType T).any p

/-- A type the language knows: arrays have elements, and these have a size of their own; there are no
pointers or references to references. -/
def Valid : CType → Prop
  | .object _ _ _ => True
  | .pointer _ _ t => Valid t ∧ ∀ r u, t ≠ .reference r u
  | .array n e => 0 < n ∧ Valid e ∧ (∀ r u, e ≠ .reference r u) ∧ (∀ u, e ≠ .unbounded u) ∧
      (∀ k, e ≠ .function k) ∧ ∀ a b, e ≠ .object a b .void
  | .unbounded e => Valid e ∧ (∀ r u, e ≠ .reference r u) ∧ (∀ u, e ≠ .unbounded u) ∧
      (∀ k, e ≠ .function k) ∧ ∀ a b, e ≠ .object a b .void
  | .reference _ t => Valid t ∧ ∀ r u, t ≠ .reference r u
  | .function _ => True

/-- A pointer that is itself `volatile`, whatever it points to. -/
def volatilePointer : CType → Bool
  | .pointer _ volatile _ => volatile
  | _ => false

/-- The type has a size that the compiler knows. -/
def Sized (L : Layout) (T : CType) : Prop := (T.sizeof L).isSome

end Cmp.Spec
