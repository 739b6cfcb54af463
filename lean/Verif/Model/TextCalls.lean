/-
Model of what a compiler makes of the calls of the function templates of `api/src/cmp/unicode/algorithms.ipp`,
`api/src/cmp/unicode/parsers.ipp`, `api/src/cmp/unicode/formatters.ipp` and `api/src/cmp/io/text_input_stream.ipp`
that take or fill text: which argument types they admit, and for which of those
their bodies compile.

An argument is an lvalue, of a type that is no reference.  What a body does with the characters once it has
got at them is modelled elsewhere, and compiles for each of the five character types.
-/
import Verif.Model.TypeTraits

namespace Cmp.Types

/-- What a compiler makes of a call: there is no matching function, there is one but it does not compile, or
it compiles, and this is what is known of it.  Used for `algorithms.ipp` 10-299 and `parsers.ipp` 14-298. -/
inductive Use (α : Type)
  | refused
  | broken
  | compiled (a : α)
  deriving DecidableEq, Repr

/-- One part of a call after another, as in `algorithms.ipp` 218-223. -/
def Use.bind {α β : Type} : Use α → (α → Use β) → Use β
  | .refused, _ => .refused
  | .broken, _ => .broken
  | .compiled a, f => f a

instance : Monad Use where
  pure := .compiled
  bind := Use.bind

/-- A part of the body of a function, as in `parsers.ipp` 23: what finds no match there is an error in it. -/
def Use.inside {α : Type} : Use α → Use α
  | .refused => .broken
  | u => u

/-- A constraint (`unicode/concepts.hpp` 14-55) in front of a function, as in `algorithms.ipp` 10-13.  Where
the trait does not compile, neither does the call: the error is in the initialiser of the trait, and not in
the declaration of the function. -/
def constrained {α : Type} (c : Option Bool) (rest : Use α) : Use α :=
  match c with
  | none => .broken
  | some false => .refused
  | some true => rest

namespace CType

/-- `std::add_const_t`: the type of the lvalue that a parameter `const Input&` is, as in `parsers.ipp` 20. -/
def addConst : CType → CType
  | .object _ v k => .object true v k
  | .pointer _ v t => .pointer true v t
  | .array n e => .array n e.addConst
  | .unbounded e => .unbounded e.addConst
  | t => t

/-- What is deduced for `Input` when a parameter `const Input&` (`algorithms.ipp` 16, `parsers.ipp` 282) is
given an lvalue of a type ([temp.deduct.call]). -/
def deducedByReference (A : CType) : CType := A.removeConst

/-- What is deduced for `Input` when a parameter `Input` (`parsers.ipp` 243) is given an lvalue of a type. -/
def deducedByValue (A : CType) : CType := A.decay

end CType

/-- The character types, in the order of the deduction guides (`by_code_point.hpp` 1961-1965). -/
def CodeUnit.all : List CodeUnit := [.char, .char8, .char16, .char32, .wide]

/-- Whether the standard library lets an lvalue of a type be taken for the view of a character type: the
constructors of `std::basic_string_view` and the conversion of `std::basic_string`, none of which takes what
is `volatile`.  Needed by the deduction guides (`by_code_point.hpp` 1961-1965).  Left out: other classes with
a conversion of their own, which are no text objects. -/
def convertsToView : CType → CodeUnit → Bool
  | .object _ volatile (.string d), c => !volatile && c = d
  | .object _ volatile (.view d), c => !volatile && c = d
  | .pointer _ _ (.object _ volatile (.unit d)), c => !volatile && c = d
  | .array _ (.object _ volatile (.unit d)), c => !volatile && c = d
  | .unbounded (.object _ volatile (.unit d)), c => !volatile && c = d
  | _, _ => false

/-- `by_code_point{s}` in a body, for an lvalue of a type: exactly one of the deduction guides
(`by_code_point.hpp` 1961-1965) must be able to take it. -/
def byCodePoint (A : CType) : Use CodeUnit :=
  match CodeUnit.all.filter (convertsToView A) with
  | [c] => .compiled c
  | _ => .broken

/-- `string_size(s)` in a body: for each character type there is one for the string class, one for the view
and one for pointers (`algorithms.hpp` 71-301). -/
def stringSize (A : CType) : Use CodeUnit :=
  let takes (c : CodeUnit) : Bool :=
    match A with
    | .object _ volatile (.string d) => !volatile && c = d
    | .object _ volatile (.view d) => !volatile && c = d
    | .pointer _ _ (.object _ volatile (.unit d)) => !volatile && c = d
    | .array _ (.object _ volatile (.unit d)) => !volatile && c = d
    | .unbounded (.object _ volatile (.unit d)) => !volatile && c = d
    | _ => false
  match CodeUnit.all.filter takes with
  | [c] => .compiled c
  | _ => .broken

/-- `algorithms.ipp` 10-34, `starts_with`; known of the call is what the two arguments are read as. -/
def startsWith (L : Layout) (A B : CType) : Use (CodeUnit × CodeUnit) :=
  constrained (isTextObject L A.deducedByReference) <|
  constrained (isTextObject L B.deducedByReference) do
    let c ← byCodePoint A.deducedByReference.addConst
    let d ← byCodePoint B.deducedByReference.addConst
    pure (c, d)

/-- `algorithms.ipp` 36-60, `ends_with`. -/
def endsWith (L : Layout) (A B : CType) : Use (CodeUnit × CodeUnit) :=
  constrained (isTextObject L A.deducedByReference) <|
  constrained (isTextObject L B.deducedByReference) do
    let c ← byCodePoint A.deducedByReference.addConst
    let d ← byCodePoint B.deducedByReference.addConst
    pure (c, d)

/-- How a code point is written into a string: the branches of `insert_code_point` (`algorithms.ipp` 71,
73, 141-147 and 177-183). -/
inductive Writing
  | char | utf8 | utf16 | utf32
  deriving DecidableEq, Repr

/-- `typename TargetString::size_type` (`algorithms.ipp` 69), which only the classes have. -/
def hasSizeType : CType → Bool
  | .object _ _ (.string _) => true
  | .object _ _ (.view _) => true
  | _ => false

/-- `algorithms.ipp` 62-186, `insert_code_point`; known of the call is how it writes, and `none` means that
none of the branches is compiled and the call does nothing. -/
def insertCodePoint (L : Layout) (T : CType) : Use (Option Writing) :=
  constrained (isWritableRaiiTextObject L T) <|
  if !hasSizeType T then .refused else
  if isSame T (.string .char) then pure (some .char)
  else if isSame T (.string .char8) then pure (some .utf8)
  else if isSame T (.string .char16) || (isSame T (.string .wide) && L.wide == 2) then pure (some .utf16)
  else if isSame T (.string .char32) || (isSame T (.string .wide) && L.wide == 4) then pure (some .utf32)
  else pure none

/-- A call of a member function of a string class (`algorithms.ipp` 196 and 219): they are not for what is
`volatile`. -/
def stringMember : CType → Use Unit
  | .object _ false (.string _) => pure ()
  | _ => .broken

/-- `algorithms.ipp` 188-197, `append_code_point`. -/
def appendCodePoint (L : Layout) (T : CType) : Use (Option Writing) :=
  constrained (isWritableRaiiTextObject L T) do
    stringMember T
    (insertCodePoint L T).inside

/-- `algorithms.ipp` 199-208, `prepend_code_point`. -/
def prependCodePoint (L : Layout) (T : CType) : Use (Option Writing) :=
  constrained (isWritableRaiiTextObject L T) (insertCodePoint L T).inside

/-- `algorithms.ipp` 210-224, `convert_string`; known of the call is what is read and how it is written. -/
def convertString (L : Layout) (Out A : CType) : Use (CodeUnit × Option Writing) :=
  constrained (isWritableRaiiTextObject L Out) <|
  constrained (isTextObject L A.deducedByReference) do
    stringMember Out
    let _ ← stringSize A.deducedByReference.addConst
    let c ← byCodePoint A.deducedByReference.addConst
    let w ← (appendCodePoint L Out).inside
    pure (c, w)

/-- `algorithms.ipp` 226-274: `to_string`, `to_u8string`, `to_u16string`, `to_u32string` and `to_wstring`,
for the five character types. -/
def toStringOf (L : Layout) (u : CodeUnit) (A : CType) : Use (CodeUnit × Option Writing) :=
  constrained (isTextObject L A.deducedByReference)
    (convertString L (.string u) A.deducedByReference.addConst).inside

/-- `core/type_traits.hpp` 52-56, `value_type_t`: what `std::begin` gives, where there is one. -/
def valueType : CType → Option CType
  | .object const false (.string c) => some (.unit const false c)
  | .object _ false (.view c) => some (.unit true false c)
  | .array _ e => some e
  | _ => none

/-- `typename by_code_point<T>::const_iterator` (`algorithms.ipp` 279): only the specialisations for the
character types themselves (`by_code_point.hpp` 22-1959) have one, the empty class (16-20) has none. -/
def hasIterator : CType → Option CodeUnit
  | .object false false (.unit c) => some c
  | _ => none

/-- `algorithms.ipp` 276-299, `validate_string`; known of the call is what is read. -/
def validateString (L : Layout) (A : CType) : Use CodeUnit :=
  constrained (isTextObject L A.deducedByReference) <|
  match (valueType A.deducedByReference).bind hasIterator with
  | none => .refused
  | some c => do
    let d ← byCodePoint A.deducedByReference.addConst
    if d = c then pure d else .broken

/-- The parameter `Input input` (`parsers.ipp` 243) as a copy of an lvalue: classes are not copied from what
is `volatile`. -/
def copied : CType → Bool
  | .object _ volatile (.string _) => !volatile
  | .object _ volatile (.view _) => !volatile
  | _ => true

/-- `parsers.ipp` 238-274, `parse_bool`; known of the call is what is read. -/
def parseBool (L : Layout) (A : CType) : Use CodeUnit :=
  constrained (isTextObject L A.deducedByValue) <|
  if !copied A then .refused else do
    let c ← stringSize A.deducedByValue
    match isUtf8String L A.deducedByValue with
    | none => .broken
    | some true => pure c
    | some false => do
      let _ ← (toStringOf L .char8 A.deducedByValue).inside
      pure c

/-- `parsers.ipp` 14-35, the beginning of `number_parser::parse_integer`. -/
def numberParserInteger (L : Layout) (A : CType) : Use CodeUnit :=
  constrained (isTextObject L A.deducedByReference) do
    let _ ← stringSize A.deducedByReference.addConst
    byCodePoint A.deducedByReference.addConst

/-- `parsers.ipp` 276-286, `parse_integer`. -/
def parseInteger (L : Layout) (A : CType) : Use CodeUnit :=
  constrained (isTextObject L A.deducedByReference)
    (numberParserInteger L A.deducedByReference.addConst).inside

/-- `parsers.ipp` 110-119, the beginning of `number_parser::parse_floating_point`. -/
def numberParserFloatingPoint (L : Layout) (A : CType) : Use CodeUnit :=
  constrained (isTextObject L A.deducedByReference) do
    let r ← (toStringOf L .char32 A.deducedByReference.addConst).inside
    pure r.1

/-- `parsers.ipp` 288-298, `parse_floating_point`. -/
def parseFloatingPoint (L : Layout) (A : CType) : Use CodeUnit :=
  constrained (isTextObject L A.deducedByReference)
    (numberParserFloatingPoint L A.deducedByReference.addConst).inside

/-! ### Functions that make or fill strings -/

/-- `formatters.ipp` 151-162, `format_bool`, which converts a `std::u8string`. -/
def formatBool (L : Layout) (Out : CType) : Use (Option Writing) :=
  constrained (isWritableRaiiTextObject L Out) do
    let r ← (convertString L Out (.string .char8)).inside
    pure r.2

/-- `formatters.ipp` 14-70, `number_formatter::format_integer`: the local string is appended and prepended
to. -/
def numberFormatterInteger (L : Layout) (Out : CType) : Use (Option Writing) :=
  constrained (isWritableRaiiTextObject L Out) do
    let _ ← (appendCodePoint L Out).inside
    (prependCodePoint L Out).inside

/-- `formatters.ipp` 164-175, `format_integer`. -/
def formatInteger (L : Layout) (Out : CType) : Use (Option Writing) :=
  constrained (isWritableRaiiTextObject L Out) (numberFormatterInteger L Out).inside

/-- `formatters.ipp` 72-143, `number_formatter::format_floating_point`. -/
def numberFormatterFloatingPoint (L : Layout) (Out : CType) : Use (Option Writing) :=
  constrained (isWritableRaiiTextObject L Out) do
    let _ ← (numberFormatterInteger L Out).inside
    (appendCodePoint L Out).inside

/-- `formatters.ipp` 176-190, `format_floating_point`. -/
def formatFloatingPoint (L : Layout) (Out : CType) : Use (Option Writing) :=
  constrained (isWritableRaiiTextObject L Out) (numberFormatterFloatingPoint L Out).inside

/-- `text_input_stream.ipp` 66-84, `append_line`. -/
def appendLine (L : Layout) (T : CType) : Use (Option Writing) :=
  constrained (isWritableRaiiTextObject L T) (appendCodePoint L T).inside

/-- `text_input_stream.ipp` 86-98, `read_line`, which calls `clear` first. -/
def readLine (L : Layout) (T : CType) : Use (Option Writing) :=
  constrained (isWritableRaiiTextObject L T) do
    stringMember T
    (appendLine L T).inside

/-- `text_input_stream.ipp` 100-113, `append_all`. -/
def appendAll (L : Layout) (T : CType) : Use (Option Writing) :=
  constrained (isWritableRaiiTextObject L T) (appendCodePoint L T).inside

/-- `text_input_stream.ipp` 115-127, `read_all`. -/
def readAll (L : Layout) (T : CType) : Use (Option Writing) :=
  constrained (isWritableRaiiTextObject L T) do
    stringMember T
    (appendAll L T).inside

/-- `text_input_stream.ipp` 412-468, `operator >>` for strings. -/
def extractWord (L : Layout) (T : CType) : Use (Option Writing) :=
  constrained (isWritableRaiiTextObject L T) do
    stringMember T
    (appendCodePoint L T).inside

end Cmp.Types
