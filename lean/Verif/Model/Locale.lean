import Verif.Model.Float

/-
Model of the examiner and the parsers that call `std::tolower`, in programs that have chosen a locale
(`std::setlocale`): `api/src/cmp/unicode/examiners.ipp` 130-152, `parsers.cpp`, `parsers.ipp`.  The
other models have the locale "C", which programs have that do not choose one.
-/

namespace Cmp

/-- What `std::tolower` does with the values of `unsigned char` in a locale; `EOF` stays `EOF`. -/
abbrev Locale := BitVec 8 → BitVec 8

/-- The locale "C". -/
def Locale.c : Locale := fun b => if 65 ≤ b.toNat ∧ b.toNat ≤ 90 then b + 32 else b

/-- `std::tolower` on `static_cast<int>(character)`: undefined unless the argument is representable as
`unsigned char` or is `EOF` (-1). -/
def tolowerIn (low : Locale) (c : Char32) : Outcome Char32 :=
  if c.toNat ≤ 255 then .ok ((low (c.setWidth 8)).setWidth 32)
  else if c = 0xFFFFFFFF#32 then .ok c
  else .ub

/-- `is_radix_digit`, `examiners.ipp` 130-152. -/
def isRadixDigitIn (low : Locale) (c : Char32) (radix : Nat) : Outcome Bool :=
  if radix < 10 then
    .ok (48 ≤ c.toNat && c.toNat < 48 + radix)
  else do
    let lower ← tolowerIn low c
    .ok ((48 ≤ c.toNat && c.toNat ≤ 57)
      || (97 ≤ lower.toNat && lower.toNat < (97 + radix - 10) % 2 ^ 32))

/-- `number_parser::digit_character_to_integer` (`noexcept`), `parsers.cpp` 14-31. -/
def digitCharacterToIntegerIn (low : Locale) (c : Char32) (radix : Nat) : Outcome Int := do
  if !(← isRadixDigitIn low c radix) then .ok (-1)
  else if 48#32 ≤ c && c ≤ 57#32 then .ok (c.toNat - 48)
  else if 97#32 ≤ c && c ≤ 122#32 then .ok (c.toNat - 97 + 10)
  else if 65#32 ≤ c && c ≤ 90#32 then .ok (c.toNat - 65 + 10)
  else .ub

/-- `number_parser::get_next_digit`, `parsers.cpp` 43-56. -/
def getNextDigitIn (low : Locale) (c : Char32) (radix : Nat) : Outcome Int := do
  let d ← digitCharacterToIntegerIn low c radix
  if d = -1 then reportNonDigit else .ok d

/-- The body of the loop of `parse_integer`, `parsers.ipp` 52-93. -/
def parseStepIn (low : Locale) (T : IntTy) (f : IntegerFormat) (st : ParseState) (c : Char32) :
    Outcome ParseState :=
  if st.counted = 3 && f.separator ≠ .none then do
    let (b, st) ← checkForSign c { st with counted := 0 } f.sign
    if b then .ok st
    else do
      checkForThousandsSeparator c f.separator
      .ok st
  else do
    let (b, st) ← checkForSign c st f.sign
    if b then .ok st
    else if !(← isRadixDigitIn low c f.radix) then reportNonDigit
    else do
      let d ← getNextDigitIn low c f.radix
      prependDigit T f.radix d st

/-- `parse_integer`, `parsers.ipp` 14-108 and 276-286. -/
def parseIntegerIn (low : Locale) (e : Enc) (T : IntTy) (s : Str e) (f : IntegerFormat) : Outcome Int :=
  if s.length = 0 then .throw (.parseFailed .emptyInput)
  else do
    let c ← rderef e s s.length
    let d ← getNextDigitIn low c f.radix
    let output := T.wrap d
    let i ← retreat e s s.length
    if i = 0 then .ok output
    else do
      let st ← rforEachFrom e s (parseStepIn low T f) (s.length + 1) i
        { output := output, power := 1, counted := 1, signFound := false, negate := false }
      parseFinish T st

/-- The body of the loop over the fraction part, `parsers.ipp` 171-192. -/
def parseFractionStepIn (low : Locale) (rnd : ℚ → ℚ) (radix : Nat) (st : ℚ × ℚ) (c : Char32) :
    Outcome (ℚ × ℚ) := do
  let d ← digitCharacterToIntegerIn low c radix
  if d = -1 then .throw (.parseFailed .wrongPlaceLimit) else appendDigit rnd radix st d

/-- `parse_floating_point`, `parsers.ipp` 110-194. -/
def parseFloatIn (low : Locale) (e : Enc) (rnd : ℚ → ℚ) (s : Str e) (f : FloatFormat) : Outcome ℚ := do
  let u ← convertString e .char32 s
  let equivalent ← IntegerFormat.make f.radix f.sign f.separator
  match u.findIdx? (· == BitVec.ofNat 32 f.radixCharacter.char) with
  | none => do
    let v ← parseIntegerIn low .char32 .llong u equivalent
    .ok (rnd v)
  | some i => do
    let v ← parseIntegerIn low .char32 .llong (u.take i) equivalent
    let output := rnd v
    let rest := u.drop (i + 1)
    if rest.length = 0 ∧ f.placeLimit = .none then .ok output
    else if rest.length = 0 ∧ f.placeCount > 0 then .throw (.parseFailed .wrongPlaceLimit)
    else do
      let st ← rest.foldlM (parseFractionStepIn low rnd f.radix) (1, output)
      .ok st.2

end Cmp
