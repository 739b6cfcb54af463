import Verif.Model.Number
import Mathlib.Data.Rat.Floor

/-
Model of the formatting, parsing and comparison of floating-point numbers:
`api/src/cmp/unicode/formatters.ipp`, `parsers.ipp`, and `api/src/cmp/core/general.ipp`.

A finite floating-point value is the rational number it stands for; both zeros are 0, and
infinities and NaNs are not modelled.  Every arithmetic operation computes the exact result and
then applies the parameter `rnd`, which stands for the rounding of the machine.  What is assumed
of `rnd` is stated in each theorem.
-/

namespace Cmp

/-- `static_cast<long long>(std::floor(x))`: undefined if the value does not fit. -/
def floorToLongLong (x : ℚ) : Outcome Int :=
  if IntTy.llong.Has ⌊x⌋ then .ok ⌊x⌋ else .ub

/-- The loop that produces the digits after the radix character, `formatters.ipp` 100-131; the
result is the string and `radix_places_counted`.  The two counters are natural numbers instead
of `unsigned int`s.  `static_cast<char>` of a value outside the range of `char` is undefined. -/
def formatFractionLoop (e : Enc) (rnd : ℚ → ℚ) (f : FloatFormat) :
    Nat → ℚ → Nat → Nat → Str e → Outcome (Str e × Nat)
  | 0, _, _, _, _ => .hang
  | fuel + 1, frac, counted, places, out =>
    if frac = 0 then .ok (out, places)
    else
      let product := rnd (frac * f.radix)
      if ¬ IntTy.int8.Has ⌊product⌋ then .ub
      else
        let frac := rnd (product - ⌊product⌋)
        if f.placeLimit ≠ .none ∧ places = f.placeCount then .ok (out, places + 1)
        else do
          let places := if f.placeLimit ≠ .none then places + 1 else places
          let out ← appendCP e out (formatDigit ⌊product⌋)
          let counted := counted + 1
          if counted = 3 then
            match f.separator with
            | .comma => do
              let out ← appendCP e out 44#32
              formatFractionLoop e rnd f fuel frac 0 places out
            | .period => do
              let out ← appendCP e out 46#32
              formatFractionLoop e rnd f fuel frac 0 places out
            | .none => formatFractionLoop e rnd f fuel frac 0 places out
          else formatFractionLoop e rnd f fuel frac counted places out

/-- The padding loop, `formatters.ipp` 132-136, as the number of zeros still to append. -/
def padZeros (e : Enc) : Nat → Str e → Outcome (Str e)
  | 0, out => .ok out
  | n + 1, out => do
    let out ← appendCP e out 48#32
    padZeros e n out

/-- The character of a radix character setting, `formatters.ipp` 139 and `parsers.ipp` 126-128. -/
def RadixCharacter.char : RadixCharacter → Nat
  | .period => 46
  | .comma => 44

/-- `number_formatter::format_floating_point`, `formatters.ipp` 72-145.  `fuel` bounds the
digit loop. -/
def formatFloat (e : Enc) (rnd : ℚ → ℚ) (fuel : Nat) (input : ℚ) (f : FloatFormat) :
    Outcome (Str e) := do
  let equivalent ← IntegerFormat.make f.radix f.sign f.separator
  let integral ← floorToLongLong input
  let output ← formatInteger e .llong integral equivalent
  let input := if input < 0 then -input else input
  let fractional := rnd (input - ⌊input⌋)
  if fractional = 0 then .ok output
  else do
    let (fraction, places) ← formatFractionLoop e rnd f fuel fractional 0 0 []
    let fraction ←
      if f.placeLimit = .exactlyEqual then padZeros e (f.placeCount - places) fraction
      else .ok fraction
    let output ← appendCP e output (BitVec.ofNat 32 f.radixCharacter.char)
    .ok (output ++ fraction)

/-- `number_parser::append_digit`, `parsers.ipp` 216-232, on `root` and `output`.  A quotient by
zero would be an infinity, which is not modelled. -/
def appendDigit (rnd : ℚ → ℚ) (radix : Nat) (st : ℚ × ℚ) (digit : Int) : Outcome (ℚ × ℚ) :=
  let root := rnd (st.1 * radix)
  if root = 0 then .ub else .ok (root, rnd (st.2 + rnd (digit / root)))

/-- The body of the loop over the fraction part, `parsers.ipp` 171-192. -/
def parseFractionStep (rnd : ℚ → ℚ) (radix : Nat) (st : ℚ × ℚ) (c : Char32) :
    Outcome (ℚ × ℚ) := do
  let d ← digitCharacterToInteger c radix
  if d = -1 then .throw (.parseFailed .wrongPlaceLimit) else appendDigit rnd radix st d

/-- `number_parser::parse_floating_point`, `parsers.ipp` 110-194. -/
def parseFloat (e : Enc) (rnd : ℚ → ℚ) (s : Str e) (f : FloatFormat) : Outcome ℚ := do
  let u ← convertString e .char32 s
  let equivalent ← IntegerFormat.make f.radix f.sign f.separator
  match u.findIdx? (· == BitVec.ofNat 32 f.radixCharacter.char) with
  | none => do
    let v ← parseInteger .char32 .llong u equivalent
    .ok (rnd v)
  | some i => do
    let v ← parseInteger .char32 .llong (u.take i) equivalent
    let output := rnd v
    let rest := u.drop (i + 1)
    if rest.length = 0 ∧ f.placeLimit = .none then .ok output
    else if rest.length = 0 ∧ f.placeCount > 0 then .throw (.parseFailed .wrongPlaceLimit)
    else do
      let st ← rest.foldlM (parseFractionStep rnd f.radix) (1, output)
      .ok st.2

/-- `cmp_equal` (`noexcept`), `core/general.ipp` 10-24.  `power` is the value of
`std::pow(10, relevant_decimal_places)`; `rnd` is the rounding of the products. -/
def cmpEqual (rnd : ℚ → ℚ) (power value1 value2 : ℚ) : Bool :=
  ⌊rnd (value1 * power)⌋ == ⌊rnd (value2 * power)⌋

/-- `cmp_not_equal` (`noexcept`), `core/general.ipp` 26-39. -/
def cmpNotEqual (rnd : ℚ → ℚ) (power value1 value2 : ℚ) : Bool :=
  !cmpEqual rnd power value1 value2

end Cmp
