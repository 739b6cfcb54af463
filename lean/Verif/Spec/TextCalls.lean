/-
What a program may pass as text, said without the traits and the templates of the library.
-/
import Verif.Spec.TypeTraits
import Verif.Model.TextCalls

namespace Cmp.Spec

open Types

/-- What holds text is `volatile`: the class, or the characters that a pointer or an array gives access to.
The language lets nobody make a view of it. -/
def volatileText : CType → Bool
  | .object _ volatile _ => volatile
  | .pointer _ _ (.object _ volatile _) => volatile
  | .array _ (.object _ volatile _) => volatile
  | .unbounded (.object _ volatile _) => volatile
  | _ => false

/-- The characters that can be read from an argument: those of the text it holds, unless that is
`volatile`. -/
def readable (A : CType) : Option CodeUnit :=
  if volatileText A then none else (textType A).map (·.unit)

/-- The type of an argument: known to the language, and no reference, since an expression has none. -/
def Argument (A : CType) : Prop := Valid A ∧ ∀ r t, A ≠ .reference r t

/-- How characters are encoded: those of `wchar_t` as their size says. -/
def writingOf (L : Layout) : CodeUnit → Writing
  | .char => .char
  | .char8 => .utf8
  | .char16 => .utf16
  | .char32 => .utf32
  | .wide => if L.wide = 2 then .utf16 else .utf32

/-- What is wanted of a call that reads an argument: it compiles and reads the characters that can be read,
and is refused if there are none. -/
def wanted (A : CType) : Use CodeUnit :=
  match readable A with
  | some c => .compiled c
  | none => .refused

/-- What is wanted of a call that writes to an argument: it compiles and writes the encoding of the string, and
is refused unless there is a string that may be changed. -/
def wantedWriting (L : Layout) (T : CType) : Use (Option Writing) :=
  match textType T with
  | some ⟨.owner, c, true⟩ => if volatileText T then .refused else .compiled (some (writingOf L c))
  | _ => .refused

/-- What becomes of an argument that is given by reference: nothing that has no size can be given, no
`volatile` pointer is admitted, and of other `volatile` text the library finds out too late. -/
def byReference (L : Layout) (A : CType) : Use CodeUnit :=
  if (A.sizeof L).isNone then .broken
  else if volatilePointer A then .refused
  else match textType A with
    | none => .refused
    | some t => if volatileText A then .broken else .compiled t.unit

end Cmp.Spec
