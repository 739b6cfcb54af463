import Verif.Model.Compare

/-
Model of the formatting and parsing of floating-point numbers, `api/src/cmp/unicode/formatters.ipp` and
`parsers.ipp`, for all the values of a floating-point type.  `Model/Float.lean` has the same functions for
finite numbers; here the arithmetic may overflow, and infinities and what is not a number are values that
a program can pass or the parser can compute with.
-/

namespace Cmp

namespace FloatValue

/-- The sum in a type whose rounding, which may overflow, is `rnd`. -/
def add (rnd : ℚ → FloatValue) : FloatValue → FloatValue → FloatValue
  | fin a, fin b => rnd (a + b)
  | fin _, inf t => inf t
  | inf s, fin _ => inf s
  | inf s, inf t => if s = t then inf s else nan
  | _, _ => nan

/-- The negation. -/
def neg : FloatValue → FloatValue
  | fin a => fin (-a)
  | inf s => inf !s
  | nan => nan

/-- The quotient.  A quotient by zero is taken as one by the positive zero: the values here do not tell
the zeros apart. -/
def div (rnd : ℚ → FloatValue) : FloatValue → FloatValue → FloatValue
  | fin a, fin b => if b = 0 then (if a = 0 then nan else inf (decide (a < 0))) else rnd (a / b)
  | fin _, inf _ => fin 0
  | inf s, fin b => inf (s ^^ decide (b < 0))
  | _, _ => nan

/-- The comparison `< 0`. -/
def negative : FloatValue → Bool
  | fin a => decide (a < 0)
  | inf s => s
  | nan => false

/-- `static_cast` to an integer type of a value that `std::floor` gave: undefined if the integer type
does not have the value, in particular for infinities and what is not a number. -/
def toInteger (T : IntTy) : FloatValue → Outcome Int
  | fin q => if T.Has ⌊q⌋ then .ok ⌊q⌋ else .ub
  | _ => .ub

end FloatValue

open FloatValue

/-- The loop that produces the digits after the radix character, `formatters.ipp` 100-131, as
`formatFractionLoop`. -/
def formatFractionValues (e : Enc) (rnd : ℚ → FloatValue) (f : FloatFormat) :
    Nat → FloatValue → Nat → Nat → Str e → Outcome (Str e × Nat)
  | 0, _, _, _, _ => .hang
  | fuel + 1, frac, counted, places, out =>
    if eq frac (fin 0) then .ok (out, places)
    else do
      let product := mul rnd frac (fin f.radix)
      let digit ← toInteger .int8 (floor product)
      let frac := add rnd product (neg (floor product))
      if f.placeLimit ≠ .none ∧ places = f.placeCount then .ok (out, places + 1)
      else do
        let places := if f.placeLimit ≠ .none then places + 1 else places
        let out ← appendCP e out (formatDigit digit)
        let counted := counted + 1
        if counted = 3 then
          match f.separator with
          | .comma => do
            let out ← appendCP e out 44#32
            formatFractionValues e rnd f fuel frac 0 places out
          | .period => do
            let out ← appendCP e out 46#32
            formatFractionValues e rnd f fuel frac 0 places out
          | .none => formatFractionValues e rnd f fuel frac 0 places out
        else formatFractionValues e rnd f fuel frac counted places out

/-- `number_formatter::format_floating_point`, `formatters.ipp` 72-145, for any value of the type.
`fuel` bounds the digit loop. -/
def formatFloatValue (e : Enc) (rnd : ℚ → FloatValue) (fuel : Nat) (input : FloatValue)
    (f : FloatFormat) : Outcome (Str e) := do
  let equivalent ← IntegerFormat.make f.radix f.sign f.separator
  let integral ← toInteger .llong (floor input)
  let output ← formatInteger e .llong integral equivalent
  let input := if negative input then neg input else input
  let fractional := add rnd input (neg (floor input))
  if eq fractional (fin 0) then .ok output
  else do
    let (fraction, places) ← formatFractionValues e rnd f fuel fractional 0 0 []
    let fraction ←
      if f.placeLimit = .exactlyEqual then padZeros e (f.placeCount - places) fraction
      else .ok fraction
    let output ← appendCP e output (BitVec.ofNat 32 f.radixCharacter.char)
    .ok (output ++ fraction)

/-- `number_parser::append_digit` (`noexcept`), `parsers.ipp` 216-232, on `root` and `output`. -/
def appendDigitValue (rnd : ℚ → FloatValue) (radix : Nat) (st : FloatValue × FloatValue) (digit : Int) :
    FloatValue × FloatValue :=
  let root := mul rnd st.1 (fin radix)
  (root, add rnd st.2 (div rnd (fin digit) root))

/-- The body of the loop over the fraction part, `parsers.ipp` 171-192. -/
def parseFractionValue (rnd : ℚ → FloatValue) (radix : Nat) (st : FloatValue × FloatValue)
    (c : Char32) : Outcome (FloatValue × FloatValue) := do
  let d ← digitCharacterToInteger c radix
  if d = -1 then .throw (.parseFailed .wrongPlaceLimit) else .ok (appendDigitValue rnd radix st d)

/-- `number_parser::parse_floating_point`, `parsers.ipp` 110-194; the conversion of a `long long` to the
floating-point type rounds. -/
def parseFloatValue (e : Enc) (rnd : ℚ → FloatValue) (s : Str e) (f : FloatFormat) :
    Outcome FloatValue := do
  let u ← convertString e .char32 s
  let equivalent ← IntegerFormat.make f.radix f.sign f.separator
  match u.findIdx? (· == BitVec.ofNat 32 f.radixCharacter.char) with
  | none => do
    let v ← parseInteger .char32 .llong u equivalent
    .ok (rnd v)
  | some i => do
    let v ← parseInteger .char32 .llong (u.take i) equivalent
    let output := rnd v
    let rest := u.drop (i + 1)
    if rest.length = 0 ∧ f.placeLimit = .none then .ok output
    else if rest.length = 0 ∧ f.placeCount > 0 then .throw (.parseFailed .wrongPlaceLimit)
    else do
      let st ← rest.foldlM (parseFractionValue rnd f.radix) (fin 1, output)
      .ok st.2

end Cmp
