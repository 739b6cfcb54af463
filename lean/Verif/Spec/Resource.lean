import Verif.Model.Stream
import Verif.Spec.Wire

/-
What the streams need from the resources below them.  The theorems on streams hold for every
resource with these properties; that containers, files and standard input have them is proved in
`Verif.Props.Stream`.
-/

namespace Cmp

/-- An input resource that delivers bytes in order: `left bs r` says that `bs` are still to come.
A read of an admissible size gives as many of them as there are.  At the end of the bytes
`is_at_end` says so, or (standard input) never does. -/
structure Reader.Delivers {ρ : Type} (R : Reader ρ) (sizes : Nat → Prop) (tells : Bool)
    (left : List Byte → ρ → Prop) : Prop where
  read : ∀ bs r n, sizes n → left bs r →
    ∃ r', R.read n r = (.ok ⟨bs.take n, (bs.take n).length⟩, r') ∧ left (bs.drop n) r'
  isAtEnd : ∀ bs r, left bs r → R.isAtEnd r = .ok (tells && bs.isEmpty)

/-- An output resource that takes bytes in order, as long as what it was given altogether `fits`:
`got w r` says that it was given `w`, and `out w r` that `w` has arrived. -/
structure Writer.Collects {ρ : Type} (W : Writer ρ) (fits : List Byte → Prop)
    (got out : List Byte → ρ → Prop) : Prop where
  shorter : ∀ w bytes, fits (w ++ bytes) → fits w
  write : ∀ w r bytes, fits (w ++ bytes) → got w r →
    ∃ n r', W.write bytes r = (.ok n, r') ∧ got (w ++ bytes) r'
  flush : ∀ w r, got w r → ∃ r', W.flush r = (.ok (), r') ∧ out w r'

/-- The specification's name of a byte order. -/
def Endian.order : Endian → Spec.ByteOrder
  | .big => .big
  | .little => .little

/-- The specification's name of an encoding form. -/
def EncodingForm.form : EncodingForm → Spec.Form
  | .utf8 => .utf8
  | .utf16 => .utf16
  | .utf32 => .utf32

/-- Numbers below 256 as bytes. -/
def asBytes (l : List Nat) : List Byte := l.map (BitVec.ofNat 8)

/-- A text as bytes in an encoding form and byte order. -/
def textBytes (f : EncodingForm) (o : Endian) (cs : List Nat) : List Byte :=
  asBytes (f.form.serialize o.order cs)

end Cmp
