/-
Model of `api/include/cmp/unicode/type_traits.hpp`, `api/include/cmp/unicode/concepts.hpp` and of the part of
`api/include/cmp/core/type_traits.hpp` they rest on: which C++ types the library takes for text.

The types of a program are values here.  A trait gives `none` where the program that asks does not compile.
-/

namespace Cmp.Types

/-- The five character types that `unicode/type_traits.hpp` names. -/
inductive CodeUnit
  | char | char8 | char16 | char32 | wide
  deriving DecidableEq, Repr

/-- A type that has no parts: a character, the string or view class of a character type, `void`, or another
(a number, an enumeration, another class), told apart by a number.  Used by `unicode/type_traits.hpp` 16-173. -/
inductive Kind
  | unit (c : CodeUnit) | string (c : CodeUnit) | view (c : CodeUnit) | void | other (n : Nat)
  deriving DecidableEq, Repr

/-- A C++ type, as the traits of `unicode/type_traits.hpp` 16-265 are asked about.  An array is `const` or
`volatile` exactly if its elements are ([basic.type.qualifier]), so only what is no array says whether it is.
Left out: pointers to members, which are an `other` type. -/
inductive CType
  | object (const volatile : Bool) (kind : Kind)
  | pointer (const volatile : Bool) (pointee : CType)
  | array (size : Nat) (element : CType)
  | unbounded (element : CType)
  | reference (rvalue : Bool) (referee : CType)
  | function (n : Nat)
  deriving DecidableEq, Repr

namespace CType

/-- A character with its qualifiers, as in `unicode/type_traits.hpp` 22-27. -/
abbrev unit (const volatile : Bool) (c : CodeUnit) : CType := .object const volatile (.unit c)

/-- The string class, as in `unicode/type_traits.hpp` 21. -/
abbrev string (c : CodeUnit) : CType := .object false false (.string c)

/-- The view class, as in `unicode/type_traits.hpp` 97. -/
abbrev view (c : CodeUnit) : CType := .object false false (.view c)

/-- `std::remove_volatile_t`, used by `unicode/type_traits.hpp` 21. -/
def removeVolatile : CType → CType
  | .object k _ b => .object k false b
  | .pointer k _ t => .pointer k false t
  | .array n e => .array n e.removeVolatile
  | .unbounded e => .unbounded e.removeVolatile
  | t => t

/-- `std::remove_const_t`, of which `remove_cv_t` is made. -/
def removeConst : CType → CType
  | .object _ v b => .object false v b
  | .pointer _ v t => .pointer false v t
  | .array n e => .array n e.removeConst
  | .unbounded e => .unbounded e.removeConst
  | t => t

/-- `std::remove_cv_t`, used by `unicode/type_traits.hpp` 97. -/
def removeCv (t : CType) : CType := t.removeVolatile.removeConst

/-- `std::remove_reference_t`, of which `decay_t` is made. -/
def removeReference : CType → CType
  | .reference _ t => t
  | t => t

/-- `std::decay_t`, used by `unicode/type_traits.hpp` 212. -/
def decay (t : CType) : CType :=
  match t.removeReference with
  | .array _ e => .pointer false false e
  | .unbounded e => .pointer false false e
  | .function n => .pointer false false (.function n)
  | u => u.removeCv

/-- `std::is_pointer_v`, used by `unicode/type_traits.hpp` 212. -/
def isPointer : CType → Bool
  | .pointer _ _ _ => true
  | _ => false

end CType

/-- `std::is_same_v`, used by `unicode/type_traits.hpp` 21-27. -/
def isSame (a b : CType) : Bool := decide (a = b)

/-- What the platform settles: how many bytes `wchar_t`, pointers, the string and view classes and the other
types occupy.  A class that is only declared occupies `none`. -/
structure Layout where
  wide : Nat
  wide_pos : 0 < wide
  pointer : Nat
  string : CodeUnit → Nat
  view : CodeUnit → Nat
  other : Nat → Option Nat

/-- `sizeof` of the character types, as in `unicode/type_traits.hpp` 18, 33, 48, 63 and 78.  Simplified:
bytes have eight bits, as everywhere in the model. -/
def Layout.unit (L : Layout) : CodeUnit → Nat
  | .char => 1
  | .char8 => 1
  | .char16 => 2
  | .char32 => 4
  | .wide => L.wide

/-- `sizeof`, as in `unicode/type_traits.hpp` 18; `none` where the language forbids to ask ([expr.sizeof]). -/
def CType.sizeof (L : Layout) : CType → Option Nat
  | .object _ _ (.unit c) => some (L.unit c)
  | .object _ _ (.string c) => some (L.string c)
  | .object _ _ (.view c) => some (L.view c)
  | .object _ _ .void => none
  | .object _ _ (.other n) => L.other n
  | .pointer _ _ _ => some L.pointer
  | .array n e => (e.sizeof L).map (n * ·)
  | .unbounded _ => none
  | .reference _ t => t.sizeof L
  | .function _ => none

/-- `core/type_traits.hpp` 11-40 and 78-88, `constant_max_v`: the specialisation is picked by the comparison. -/
def constantMax (argument1 argument2 : Nat) : Nat :=
  match decide (argument1 > argument2) with
  | true => argument1
  | false => argument2

/-- The default of the parameter `Size` of the traits (`unicode/type_traits.hpp` 17-18, 32-33, 47-48, 62-63,
77-78, 92-93, 109-110, 126-127, 143-144 and 160-161). -/
def arraySize (L : Layout) (T : CType) (c : CodeUnit) : Option Nat :=
  (T.sizeof L).map fun n => constantMax 1 (n / L.unit c)

/-- `unicode/type_traits.hpp` 15-28, `is_writable_char_string_v`. -/
def isWritableCharString (L : Layout) (T : CType) : Option Bool := do
  let size ← arraySize L T .char
  pure (isSame T.removeVolatile (.string .char)
    || isSame T (.pointer false false (.unit false false .char))
    || isSame T (.pointer true false (.unit false false .char))
    || isSame T (.pointer false false (.unit false true .char))
    || isSame T (.pointer true false (.unit false true .char))
    || isSame T (.array size (.unit false false .char))
    || isSame T (.array size (.unit false true .char)))

/-- `unicode/type_traits.hpp` 30-43, `is_writable_utf8_string_v`. -/
def isWritableUtf8String (L : Layout) (T : CType) : Option Bool := do
  let size ← arraySize L T .char8
  pure (isSame T.removeVolatile (.string .char8)
    || isSame T (.pointer false false (.unit false false .char8))
    || isSame T (.pointer true false (.unit false false .char8))
    || isSame T (.pointer false false (.unit false true .char8))
    || isSame T (.pointer true false (.unit false true .char8))
    || isSame T (.array size (.unit false false .char8))
    || isSame T (.array size (.unit false true .char8)))

/-- `unicode/type_traits.hpp` 45-58, `is_writable_utf16_string_v`. -/
def isWritableUtf16String (L : Layout) (T : CType) : Option Bool := do
  let size ← arraySize L T .char16
  pure (isSame T.removeVolatile (.string .char16)
    || isSame T (.pointer false false (.unit false false .char16))
    || isSame T (.pointer true false (.unit false false .char16))
    || isSame T (.pointer false false (.unit false true .char16))
    || isSame T (.pointer true false (.unit false true .char16))
    || isSame T (.array size (.unit false false .char16))
    || isSame T (.array size (.unit false true .char16)))

/-- `unicode/type_traits.hpp` 60-73, `is_writable_utf32_string_v`. -/
def isWritableUtf32String (L : Layout) (T : CType) : Option Bool := do
  let size ← arraySize L T .char32
  pure (isSame T.removeVolatile (.string .char32)
    || isSame T (.pointer false false (.unit false false .char32))
    || isSame T (.pointer true false (.unit false false .char32))
    || isSame T (.pointer false false (.unit false true .char32))
    || isSame T (.pointer true false (.unit false true .char32))
    || isSame T (.array size (.unit false false .char32))
    || isSame T (.array size (.unit false true .char32)))

/-- `unicode/type_traits.hpp` 75-88, `is_writable_wide_string_v`. -/
def isWritableWideString (L : Layout) (T : CType) : Option Bool := do
  let size ← arraySize L T .wide
  pure (isSame T.removeVolatile (.string .wide)
    || isSame T (.pointer false false (.unit false false .wide))
    || isSame T (.pointer true false (.unit false false .wide))
    || isSame T (.pointer false false (.unit false true .wide))
    || isSame T (.pointer true false (.unit false true .wide))
    || isSame T (.array size (.unit false false .wide))
    || isSame T (.array size (.unit false true .wide)))

/-- `unicode/type_traits.hpp` 90-105, `is_char_string_v`. -/
def isCharString (L : Layout) (T : CType) : Option Bool := do
  let size ← arraySize L T .char
  let writable ← isWritableCharString L T
  pure (writable
    || isSame T.removeCv (.view .char)
    || isSame T.removeVolatile (.object true false (.string .char))
    || isSame T (.pointer false false (.unit true false .char))
    || isSame T (.pointer true false (.unit true false .char))
    || isSame T (.pointer false false (.unit true true .char))
    || isSame T (.pointer true false (.unit true true .char))
    || isSame T (.array size (.unit true false .char))
    || isSame T (.array size (.unit true true .char)))

/-- `unicode/type_traits.hpp` 107-122, `is_utf8_string_v`. -/
def isUtf8String (L : Layout) (T : CType) : Option Bool := do
  let size ← arraySize L T .char8
  let writable ← isWritableUtf8String L T
  pure (writable
    || isSame T.removeCv (.view .char8)
    || isSame T.removeVolatile (.object true false (.string .char8))
    || isSame T (.pointer false false (.unit true false .char8))
    || isSame T (.pointer true false (.unit true false .char8))
    || isSame T (.pointer false false (.unit true true .char8))
    || isSame T (.pointer true false (.unit true true .char8))
    || isSame T (.array size (.unit true false .char8))
    || isSame T (.array size (.unit true true .char8)))

/-- `unicode/type_traits.hpp` 124-139, `is_utf16_string_v`. -/
def isUtf16String (L : Layout) (T : CType) : Option Bool := do
  let size ← arraySize L T .char16
  let writable ← isWritableUtf16String L T
  pure (writable
    || isSame T.removeCv (.view .char16)
    || isSame T.removeVolatile (.object true false (.string .char16))
    || isSame T (.pointer false false (.unit true false .char16))
    || isSame T (.pointer true false (.unit true false .char16))
    || isSame T (.pointer false false (.unit true true .char16))
    || isSame T (.pointer true false (.unit true true .char16))
    || isSame T (.array size (.unit true false .char16))
    || isSame T (.array size (.unit true true .char16)))

/-- `unicode/type_traits.hpp` 141-156, `is_utf32_string_v`. -/
def isUtf32String (L : Layout) (T : CType) : Option Bool := do
  let size ← arraySize L T .char32
  let writable ← isWritableUtf32String L T
  pure (writable
    || isSame T.removeCv (.view .char32)
    || isSame T.removeVolatile (.object true false (.string .char32))
    || isSame T (.pointer false false (.unit true false .char32))
    || isSame T (.pointer true false (.unit true false .char32))
    || isSame T (.pointer false false (.unit true true .char32))
    || isSame T (.pointer true false (.unit true true .char32))
    || isSame T (.array size (.unit true false .char32))
    || isSame T (.array size (.unit true true .char32)))

/-- `unicode/type_traits.hpp` 158-173, `is_wide_string_v`. -/
def isWideString (L : Layout) (T : CType) : Option Bool := do
  let size ← arraySize L T .wide
  let writable ← isWritableWideString L T
  pure (writable
    || isSame T.removeCv (.view .wide)
    || isSame T.removeVolatile (.object true false (.string .wide))
    || isSame T (.pointer false false (.unit true false .wide))
    || isSame T (.pointer true false (.unit true false .wide))
    || isSame T (.pointer false false (.unit true true .wide))
    || isSame T (.pointer true false (.unit true true .wide))
    || isSame T (.array size (.unit true false .wide))
    || isSame T (.array size (.unit true true .wide)))

/-- `unicode/type_traits.hpp` 177-185, `is_writable_unicode_text_object_v`. -/
def isWritableUnicodeTextObject (L : Layout) (T : CType) : Option Bool := do
  let a ← isWritableUtf8String L T
  let b ← isWritableUtf16String L T
  let c ← isWritableUtf32String L T
  let d ← isWritableWideString L T
  pure (a || b || c || d)

/-- `unicode/type_traits.hpp` 187-195, `is_unicode_text_object_v`. -/
def isUnicodeTextObject (L : Layout) (T : CType) : Option Bool := do
  let a ← isUtf8String L T
  let b ← isUtf16String L T
  let c ← isUtf32String L T
  let d ← isWideString L T
  pure (a || b || c || d)

/-- `unicode/type_traits.hpp` 197-205, `is_unicode_text_object_view_v`. -/
def isUnicodeTextObjectView (T : CType) : Bool :=
  isSame T.removeCv (.view .char8) || isSame T.removeCv (.view .char16)
    || isSame T.removeCv (.view .char32) || isSame T.removeCv (.view .wide)

/-- `unicode/type_traits.hpp` 207-213, `is_writable_raii_unicode_text_object_v`. -/
def isWritableRaiiUnicodeTextObject (L : Layout) (T : CType) : Option Bool := do
  let a ← isWritableUnicodeTextObject L T
  pure (a && !T.decay.isPointer)

/-- `unicode/type_traits.hpp` 215-222, `is_raii_unicode_text_object_v`. -/
def isRaiiUnicodeTextObject (L : Layout) (T : CType) : Option Bool := do
  let a ← isUnicodeTextObject L T
  pure (a && !isUnicodeTextObjectView T && !T.decay.isPointer)

/-- `unicode/type_traits.hpp` 226-232, `is_writable_text_object_v`. -/
def isWritableTextObject (L : Layout) (T : CType) : Option Bool := do
  let a ← isWritableUnicodeTextObject L T
  let b ← isWritableCharString L T
  pure (a || b)

/-- `unicode/type_traits.hpp` 234-240, `is_text_object_v`. -/
def isTextObject (L : Layout) (T : CType) : Option Bool := do
  let a ← isUnicodeTextObject L T
  let b ← isCharString L T
  pure (a || b)

/-- `unicode/type_traits.hpp` 242-248, `is_text_object_view_v`. -/
def isTextObjectView (T : CType) : Bool :=
  isUnicodeTextObjectView T || isSame T.removeCv (.view .char)

/-- `unicode/type_traits.hpp` 250-256, `is_writable_raii_text_object_v`. -/
def isWritableRaiiTextObject (L : Layout) (T : CType) : Option Bool := do
  let a ← isWritableTextObject L T
  pure (a && !T.decay.isPointer)

/-- `unicode/type_traits.hpp` 258-265, `is_raii_text_object_v`. -/
def isRaiiTextObject (L : Layout) (T : CType) : Option Bool := do
  let a ← isTextObject L T
  pure (a && !isTextObjectView T && !T.decay.isPointer)

end Cmp.Types
