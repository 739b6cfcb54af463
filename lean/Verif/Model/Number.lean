import Verif.Base.CInt
import Verif.Model.Unicode

/-
Model of the number formats, formatters and parsers:
`api/src/cmp/unicode/formats.cpp`, `formatters.ipp`, `parsers.cpp`, `parsers.ipp`, and of
`api/src/cmp/core/general.ipp`.  Line numbers refer to the file named.
-/

namespace Cmp

/-! ### Formats -/

/-- `sign_status`, `include/cmp/unicode/formats.hpp`. -/
inductive SignStatus | alwaysShow | onlyWhenNegative
deriving DecidableEq, Repr

/-- `thousands_separator`, `formats.hpp`. -/
inductive Separator | none | comma | period
deriving DecidableEq, Repr

/-- `radix_character`, `formats.hpp`. -/
inductive RadixCharacter | comma | period
deriving DecidableEq, Repr

/-- `radix_place_limit`, `formats.hpp`. -/
inductive PlaceLimit | none | exactlyEqual | upTo
deriving DecidableEq, Repr

/-- `bool_format`; the strings are `std::u8string`s.  `formats.cpp` 12-75. -/
structure BoolFormat where
  trueString : Str .char8
  falseString : Str .char8

/-- `bool_format::bool_format()`, `formats.cpp` 17-23: `"1"` and `"0"`. -/
def BoolFormat.default : BoolFormat := ⟨[49#8], [48#8]⟩

/-- `integer_format`; `radix` is an `unsigned int`.  `formats.cpp` 77-150. -/
structure IntegerFormat where
  radix : Nat
  sign : SignStatus
  separator : Separator
deriving DecidableEq

/-- `integer_format::integer_format()`, `formats.cpp` 78-84. -/
def IntegerFormat.default : IntegerFormat := ⟨10, .onlyWhenNegative, .none⟩

/-- `integer_format::integer_format(radix, sign, separator)`, `formats.cpp` 86-98. -/
def IntegerFormat.make (radix : Nat) (sign : SignStatus) (separator : Separator) :
    Outcome IntegerFormat :=
  if radix < 2 || radix > 36 then .throw .invalidRadix else .ok ⟨radix, sign, separator⟩

/-- `integer_format::set_radix` (`noexcept`), `formats.cpp` 109-116. -/
def IntegerFormat.setRadix (f : IntegerFormat) (radix : Nat) : Outcome IntegerFormat :=
  .ok { f with radix := radix }

/-- `integer_format::set_sign_status`, `formats.cpp` 125-133. -/
def IntegerFormat.setSign (f : IntegerFormat) (s : SignStatus) : Outcome IntegerFormat :=
  .ok { f with sign := s }

/-- `integer_format::set_thousands_separator`, `formats.cpp` 142-150. -/
def IntegerFormat.setSeparator (f : IntegerFormat) (s : Separator) : Outcome IntegerFormat :=
  .ok { f with separator := s }

/-- `floating_point_format`, `formats.cpp` 152-281. -/
structure FloatFormat where
  radix : Nat
  sign : SignStatus
  separator : Separator
  radixCharacter : RadixCharacter
  placeLimit : PlaceLimit
  placeCount : Nat
deriving DecidableEq

/-- `floating_point_format::floating_point_format()`, `formats.cpp` 154-163. -/
def FloatFormat.default : FloatFormat := ⟨10, .onlyWhenNegative, .none, .period, .none, 0⟩

/-- `floating_point_format::floating_point_format(...)`, `formats.cpp` 165-183. -/
def FloatFormat.make (radix : Nat) (sign : SignStatus) (separator : Separator)
    (rc : RadixCharacter) (limit : PlaceLimit) (count : Nat) : Outcome FloatFormat :=
  if radix < 2 || radix > 36 then .throw .invalidRadix
  else .ok ⟨radix, sign, separator, rc, limit, count⟩

/-- `floating_point_format::set_radix` (`noexcept`), `formats.cpp` 194-201. -/
def FloatFormat.setRadix (f : FloatFormat) (radix : Nat) : Outcome FloatFormat :=
  .ok { f with radix := radix }

/-- The other setters of `floating_point_format`, `formats.cpp` 203-281. -/
def FloatFormat.setSign (f : FloatFormat) (s : SignStatus) : Outcome FloatFormat :=
  .ok { f with sign := s }

@[inherit_doc FloatFormat.setSign]
def FloatFormat.setSeparator (f : FloatFormat) (s : Separator) : Outcome FloatFormat :=
  .ok { f with separator := s }

@[inherit_doc FloatFormat.setSign]
def FloatFormat.setRadixCharacter (f : FloatFormat) (c : RadixCharacter) : Outcome FloatFormat :=
  .ok { f with radixCharacter := c }

@[inherit_doc FloatFormat.setSign]
def FloatFormat.setPlaceLimit (f : FloatFormat) (l : PlaceLimit) : Outcome FloatFormat :=
  .ok { f with placeLimit := l }

@[inherit_doc FloatFormat.setSign]
def FloatFormat.setPlaceCount (f : FloatFormat) (n : Nat) : Outcome FloatFormat :=
  .ok { f with placeCount := n }

/-! ### Formatting integers -/

/-- `prepend_code_point` on a local string whose content is lost when an exception is thrown. -/
def prependCP (e : Enc) (s : Str e) (c : Char32) : Outcome (Str e) :=
  match prependCodePoint e c s with
  | (.ok (), s') => .ok s'
  | (.throw x, _) => .throw x
  | (.terminate, _) => .terminate
  | (.ub, _) => .ub
  | (.hang, _) => .hang

/-- `char character{static_cast<char>(x)}` followed by the adjustment to a digit character,
`formatters.ipp` 40-45 and 103-109; the result converted to `char32_t`.  `char` is signed. -/
def formatDigit (x : Int) : Char32 :=
  let ch := IntTy.int8.wrap x
  BitVec.ofInt 32 (IntTy.int8.wrap (if ch ≤ 9 then ch + 48 else ch + (65 - 10)))

/-- The loop of `format_integer`, `formatters.ipp` 39-63.  `input % format_radix` and
`input /= format_radix` are computed in the common type of `Input` and `unsigned int`. -/
def formatLoop (e : Enc) (T : IntTy) (radix : Nat) (sep : Separator) :
    Nat → Int → Nat → Str e → Outcome (Str e)
  | 0, _, _, _ => .hang
  | fuel + 1, input, counted, out =>
    if input = 0 then .ok out
    else do
      let C := T.common .uint
      let x := C.wrap input
      let r := C.wrap radix
      let d ← C.rem x r
      let out ← prependCP e out (formatDigit d)
      let q ← C.div x r
      let input := T.wrap q
      let counted := counted + 1
      if counted = 3 then
        if input ≠ 0 then
          match sep with
          | .comma => do
            let out ← prependCP e out 44#32
            formatLoop e T radix sep fuel input 0 out
          | .period => do
            let out ← prependCP e out 46#32
            formatLoop e T radix sep fuel input 0 out
          | .none => formatLoop e T radix sep fuel input 0 out
        else formatLoop e T radix sep fuel input 0 out
      else formatLoop e T radix sep fuel input counted out

/-- `input = std::abs(input)`, `formatters.ipp` 36-38: for types narrower than `int` the
overload for `int` is called and the result converted back. -/
def absAssign (T : IntTy) (input : Int) : Outcome Int :=
  if T.signed then do
    let a ← T.promote.arith input.natAbs
    .ok (T.wrap a)
  else .ok input

/-- `number_formatter::format_integer`, `formatters.ipp` 14-70 (and the wrapper 164-175).  The
loop is bounded by the number of values of `Input`: a longer run would repeat a value and so
never end. -/
def formatInteger (e : Enc) (T : IntTy) (input : Int) (f : IntegerFormat) : Outcome (Str e) :=
  if input = 0 then appendCP e [] 48#32
  else do
    let sign : Char32 :=
      if input < 0 then 45#32 else if f.sign = .alwaysShow then 43#32 else 32#32
    let input ← absAssign T input
    let out ← formatLoop e T f.radix f.separator (2 ^ T.bits + 1) input 0 []
    if sign ≠ 32#32 then prependCP e out sign else .ok out

/-! ### Parsing integers -/

/-- `number_parser::digit_character_to_integer` (`noexcept`), `parsers.cpp` 14-31.  Flowing off
the end of the function is undefined. -/
def digitCharacterToInteger (c : Char32) (radix : Nat) : Outcome Int := do
  if !(← isRadixDigit c radix) then .ok (-1)
  else if 48#32 ≤ c && c ≤ 57#32 then .ok (c.toNat - 48)
  else if 97#32 ≤ c && c ≤ 122#32 then .ok (c.toNat - 97 + 10)
  else if 65#32 ≤ c && c ≤ 90#32 then .ok (c.toNat - 65 + 10)
  else .ub

/-- `number_parser::report_non_digit_character`, `parsers.cpp` 33-41. -/
def reportNonDigit {α : Type} : Outcome α := .throw (.parseFailed .digitCharacterExpected)

/-- `number_parser::get_next_digit`, `parsers.cpp` 43-56. -/
def getNextDigit (c : Char32) (radix : Nat) : Outcome Int := do
  let d ← digitCharacterToInteger c radix
  if d = -1 then reportNonDigit else .ok d

/-- `number_parser::is_sign_character`, `parsers.cpp` 58-65. -/
def isSignCharacter (c : Char32) : Bool := c == 45#32 || c == 43#32

/-- The local variables of `parse_integer`, `parsers.ipp` 35-49. -/
structure ParseState where
  output : Int
  power : Int
  counted : Nat
  signFound : Bool
  negate : Bool
deriving DecidableEq

/-- `number_parser::check_for_sign`, `parsers.cpp` 67-94; the reference parameters are returned
together with the result. -/
def checkForSign (c : Char32) (st : ParseState) (s : SignStatus) : Outcome (Bool × ParseState) :=
  if isSignCharacter c then
    if st.signFound then .throw (.parseFailed .multipleSigns)
    else if s = .alwaysShow || c == 45#32 then
      .ok (true, { st with signFound := true, negate := st.negate || c == 45#32 })
    else .ok (false, st)
  else .ok (false, st)

/-- `number_parser::check_for_thousands_separator`, `parsers.cpp` 96-113. -/
def checkForThousandsSeparator (c : Char32) (sep : Separator) : Outcome Unit :=
  if (sep = .comma && c != 44#32) || (sep = .period && c != 46#32) then
    .throw (.parseFailed .thousandsSeparatorMissing)
  else .ok ()

/-- `number_parser::prepend_digit`, `parsers.ipp` 198-214: `power *= radix` in the common type
of `Output` and `unsigned int`, `current_digit * power` in that of `int` and `Output`,
`output += ...` in that of `Output` and the product. -/
def prependDigit (T : IntTy) (radix : Nat) (digit : Int) (st : ParseState) :
    Outcome ParseState := do
  let C := T.common .uint
  let p ← C.arith (C.wrap st.power * C.wrap radix)
  let power := T.wrap p
  let D := IntTy.int.common T
  let m ← D.arith (D.wrap digit * D.wrap power)
  let D' := T.common D
  let s ← D'.arith (D'.wrap st.output + D'.wrap m)
  .ok { st with output := T.wrap s, power := power, counted := st.counted + 1 }

/-- The body of the loop of `parse_integer`, `parsers.ipp` 52-93. -/
def parseStep (T : IntTy) (f : IntegerFormat) (st : ParseState) (c : Char32) :
    Outcome ParseState :=
  if st.counted = 3 && f.separator ≠ .none then do
    let (b, st) ← checkForSign c { st with counted := 0 } f.sign
    if b then .ok st
    else do
      checkForThousandsSeparator c f.separator
      .ok st
  else do
    let (b, st) ← checkForSign c st f.sign
    if b then .ok st
    else if !(← isRadixDigit c f.radix) then reportNonDigit
    else do
      let d ← getNextDigit c f.radix
      prependDigit T f.radix d st

/-- The end of `parse_integer`, `parsers.ipp` 94-107. -/
def parseFinish (T : IntTy) (st : ParseState) : Outcome Int :=
  if st.negate then
    if T.signed then do
      let n ← T.promote.arith (-st.output)
      .ok (T.wrap n)
    else .throw (.parseFailed .negativeUnsigned)
  else .ok st.output

/-- `number_parser::parse_integer`, `parsers.ipp` 14-108 (and the wrapper 276-286), for input
given as a string or string view. -/
def parseInteger (e : Enc) (T : IntTy) (s : Str e) (f : IntegerFormat) : Outcome Int :=
  if s.length = 0 then .throw (.parseFailed .emptyInput)
  else do
    let c ← rderef e s s.length
    let d ← getNextDigit c f.radix
    let output := T.wrap d
    let i ← retreat e s s.length
    if i = 0 then .ok output
    else do
      let st ← rforEachFrom e s (parseStep T f) (s.length + 1) i
        { output := output, power := 1, counted := 1, signFound := false, negate := false }
      parseFinish T st

/-! ### Booleans -/

/-- `format_bool`, `formatters.ipp` 151-162. -/
def formatBool (e : Enc) (b : Bool) (f : BoolFormat) : Outcome (Str e) :=
  convertString .char8 e (if b then f.trueString else f.falseString)

/-- `parse_bool`, `parsers.ipp` 238-274: UTF-8 input is compared directly, other input is
converted to a `std::u8string` first. -/
def parseBool (e : Enc) (s : Str e) (f : BoolFormat) : Outcome Bool :=
  if s.length = 0 then .throw (.parseFailed .emptyInput)
  else
    match e, s with
    | .char8, s => compare s
    | .narrow, s => do compare (← convertString .narrow .char8 s)
    | .char16, s => do compare (← convertString .char16 .char8 s)
    | .char32, s => do compare (← convertString .char32 .char8 s)
    | .wide2, s => do compare (← convertString .wide2 .char8 s)
    | .wide4, s => do compare (← convertString .wide4 .char8 s)
where
  /-- The two comparisons, `parsers.ipp` 250-273. -/
  compare (s : Str .char8) : Outcome Bool :=
    if s = f.trueString then .ok true
    else if s = f.falseString then .ok false
    else .throw (.parseFailed .neitherBoolean)

/-! ### Counting digits -/

/-- The loop of `count_digits`, `core/general.ipp` 52-56; `integer /= radix` is computed after
promotion. -/
def countDigitsLoop (T : IntTy) (radix : Int) : Nat → Int → Nat → Outcome Nat
  | 0, _, _ => .hang
  | fuel + 1, integer, count => do
    let q ← T.promote.div integer radix
    let integer := T.wrap q
    if integer ≠ 0 then countDigitsLoop T radix fuel integer (count + 1) else .ok (count + 1)

/-- `count_digits` (`noexcept`), `core/general.ipp` 41-57.  The counter is an `unsigned int`;
it cannot overflow as integers have at most 64 digits. -/
def countDigits (T : IntTy) (integer radix : Int) : Outcome Nat :=
  countDigitsLoop T radix (2 ^ T.bits + 1) integer 0

end Cmp
