import Verif.Base.Outcome

/-
Model of the exception classes of the library and of the places that throw them:
`api/include/cmp/unicode/exceptions.hpp`, `api/src/cmp/unicode/exceptions.cpp`,
`api/include/cmp/io/exceptions.hpp`, `api/src/cmp/io/exceptions.cpp`, `invalid_radix` of `formats.hpp`
and `formats.cpp`, `parse_failed` of `parsers.hpp` and `parsers.cpp`, and the `throw` of
`windows_desktop_gui_application.cpp`.

The room for the thrown object itself is always found (the implementations keep a reserve for it); the
copy of the explanation that `std::invalid_argument` keeps has to be asked for.
-/

namespace Cmp.Exceptions

/-- Types of thrown objects and of handlers. -/
inductive Class
  | stdException | stdLogicError | stdInvalidArgument | stdBadAlloc
  | invalidCodePoint | invalidUnicodeEncoding | iteratedPastEnd
  | readPastEnd | invalidAccessMode
  | invalidRadix | parseFailed
  | charPointer
  deriving DecidableEq

/-- The public base class.  `unicode/exceptions.hpp` 18-19, 122-123 and 227-228, `io/exceptions.hpp`
20-21 and 126-127, `formats.hpp` 19-20, `parsers.hpp` 131-132, and the standard for its own classes.
A pointer has none. -/
def Class.base : Class → Option Class
  | .stdException => none
  | .stdLogicError => some .stdException
  | .stdInvalidArgument => some .stdLogicError
  | .stdBadAlloc => some .stdException
  | .invalidCodePoint => some .stdException
  | .invalidUnicodeEncoding => some .stdException
  | .iteratedPastEnd => some .stdException
  | .readPastEnd => some .stdException
  | .invalidAccessMode => some .stdException
  | .invalidRadix => some .stdInvalidArgument
  | .parseFailed => some .stdInvalidArgument
  | .charPointer => none

/-- An object that was thrown: its type, what `what()` returns (or the characters pointed to), and
what `parse_failed::get_type` (`parsers.cpp` 133-138) returns. -/
structure Thrown where
  type : Class
  what : String
  failure : Option ParseFailure
  deriving DecidableEq

/-- The places that throw, those together that make the same object. -/
inductive Site
  /-- `algorithms.ipp` 75 -/
  | codePoint
  /-- `by_code_point.cpp` 281, 474, 501, 661, 849, 870, 1251, 1439 and 1460, `impl.cpp` 30 and 44,
  `text_input_stream.ipp` 191 and 213 -/
  | encoding
  /-- `by_code_point.cpp` 29, 277, 311, 470, 497, 657, 691, 845, 866, 1000, 1247, 1281, 1435 and 1456 -/
  | pastEnd
  /-- `text_input_stream.ipp` 188-361 and `data_input_stream.ipp` 54 -/
  | readPastEnd
  /-- `file.cpp` 64 and 75 -/
  | accessMode
  /-- `formats.cpp` 96 and 181 -/
  | radix
  /-- `parsers.ipp` 25 and 247 -/
  | empty
  /-- `parsers.ipp` 100 -/
  | negative
  /-- `parsers.ipp` 160 -/
  | noPlaces
  /-- `parsers.ipp` 176 -/
  | badPlace
  /-- `parsers.ipp` 268 -/
  | neither
  /-- `parsers.cpp` 36 -/
  | noDigit
  /-- `parsers.cpp` 76 -/
  | signs
  /-- `parsers.cpp` 107 -/
  | separator
  /-- `windows_desktop_gui_application.cpp` 36 -/
  | windowClass
  deriving DecidableEq

/-- The constructor of `parse_failed`, `parsers.cpp` 121-129, if it completes. -/
def parseFailed (message : String) (t : ParseFailure) : Thrown := ⟨.parseFailed, message, some t⟩

/-- The object that a place throws: `unicode/exceptions.cpp` 12-41, `io/exceptions.cpp` 12-30,
`formats.cpp` 12-18, and the lines named above. -/
def Site.thrown : Site → Thrown
  | .codePoint => ⟨.invalidCodePoint, "Invalid code point.", none⟩
  | .encoding => ⟨.invalidUnicodeEncoding, "The data read from the stream or string is not valid \
      UTF-8 or UTF-16. UTF-32 is not affected because it is not a variable length encoding.", none⟩
  | .pastEnd => ⟨.iteratedPastEnd, "An attempt was made to iterate past the end of a string.", none⟩
  | .readPastEnd => ⟨.readPastEnd, "An attempt was made to read past the end of a stream.", none⟩
  | .accessMode => ⟨.invalidAccessMode, "The IO operation attempted is not permitted under the access \
      mode used. For example, trying to write to a file that was opened as read-only.", none⟩
  | .radix => ⟨.invalidRadix, "The supplied radix was less than 2 or greater than 36.", none⟩
  | .empty => parseFailed "The input string is empty, there is nothing to parse." .emptyInput
  | .negative => parseFailed "The input string contains a negative sign but the output type is \
      unsigned." .negativeUnsigned
  | .noPlaces => parseFailed "The input string had insufficient places after the radix point."
      .wrongPlaceLimit
  | .badPlace => parseFailed "The input string didn't have enough places after the radix point."
      .wrongPlaceLimit
  | .neither => parseFailed "The input string did not match the format provided. Specifically, the \
      input string matches neither the true string nor the false string of the bool format."
      .neitherBoolean
  | .noDigit => parseFailed "The input string contains a non-digit character where a digit character \
      was expected." .digitCharacterExpected
  | .signs => parseFailed "The input string contains multiple signs but only one is allowed."
      .multipleSigns
  | .separator => parseFailed "The input string did not have a thousands separator where one was \
      expected." .thousandsSeparatorMissing
  | .windowClass => ⟨.charPointer, "Window class registration failed.", none⟩

/-- Which exception of the other models a place stands for; they do not have that of the constructor of
the Windows application. -/
def Site.exn : Site → Option Exn
  | .codePoint => some .invalidCodePoint
  | .encoding => some .invalidUnicodeEncoding
  | .pastEnd => some .iteratedPastEnd
  | .readPastEnd => some .readPastEnd
  | .accessMode => some .invalidAccessMode
  | .radix => some .invalidRadix
  | .empty => some (.parseFailed .emptyInput)
  | .negative => some (.parseFailed .negativeUnsigned)
  | .noPlaces => some (.parseFailed .wrongPlaceLimit)
  | .badPlace => some (.parseFailed .wrongPlaceLimit)
  | .neither => some (.parseFailed .neitherBoolean)
  | .noDigit => some (.parseFailed .digitCharacterExpected)
  | .signs => some (.parseFailed .multipleSigns)
  | .separator => some (.parseFailed .thousandsSeparatorMissing)
  | .windowClass => none

/-- What leaves a `throw`. -/
inductive Raised
  | exception (t : Thrown)
  | terminate
  deriving DecidableEq

/-- `std::bad_alloc`, as thrown by `operator new`. -/
def badAlloc : Thrown := ⟨.stdBadAlloc, "std::bad_alloc", none⟩

/-- The constructor of `std::invalid_argument`: it copies the explanation, for which it needs memory;
`memory` says whether there is any. -/
def invalidArgument (memory : Bool) (t : Thrown) : Raised :=
  if memory then .exception t else .exception badAlloc

/-- Leaving a constructor that is `noexcept`. -/
def noexcept (constructed : Thrown) (r : Raised) : Raised :=
  if r = .exception constructed then r else .terminate

/-- Evaluate the operand of a `throw` and throw it.  The constructors of `invalid_radix`
(`formats.cpp` 12-18) and `parse_failed` (`parsers.cpp` 121-129) are `noexcept`. -/
def Site.raise (memory : Bool) (s : Site) : Raised :=
  match s.thrown.type with
  | .invalidRadix => noexcept s.thrown (invalidArgument memory s.thrown)
  | .parseFailed => noexcept s.thrown (invalidArgument memory s.thrown)
  | _ => .exception s.thrown

/-- Does a handler for (a reference to) `h` catch an object of type `c`?  The type itself or one of its
bases; `fuel` bounds the height of the hierarchy. -/
def isA : Nat → Class → Class → Bool
  | 0, h, c => h == c
  | fuel + 1, h, c => h == c || match c.base with
    | none => false
    | some b => isA fuel h b

/-- The handlers of a `try` block are tried in order: the number of the one that is entered. -/
def entered (hs : List Class) (t : Thrown) : Option Nat :=
  hs.findIdx? (fun h => isA 12 h t.type)

/-- How a call looks to its caller of it. -/
inductive Seen (α : Type)
  | value (a : α)
  | raised (r : Raised)
  | undefined
  | hang
  deriving DecidableEq

/-- Run a modelled call: exceptions are constructed as at the given places. -/
def see {α : Type} (memory : Bool) (place : Exn → Site) : Outcome α → Seen α
  | .ok a => .value a
  | .throw x => .raised ((place x).raise memory)
  | .terminate => .raised .terminate
  | .ub => .undefined
  | .hang => .hang

end Cmp.Exceptions
