import Verif.Model.Number

/-
Model of `format_integer` and `parse_integer` for `bool`, which is a `std::integral` type:
`api/src/cmp/unicode/formatters.ipp` and `api/src/cmp/unicode/parsers.ipp`.  The values are kept as the
integers 0 and 1 they are promoted to.
-/

namespace Cmp

/-- Conversion of an integer to `bool`, [conv.bool], wherever `parsers.ipp` 36, 208-209 and
`formatters.ipp` 47 assign to a `bool`. -/
def truth (x : Int) : Int := if x = 0 then 0 else 1

/-- The loop of `format_integer<Output, bool>`, `formatters.ipp` 39-63: `input % format_radix` and
`input / format_radix` are computed as `unsigned int`.  There are two values, a third turn would
repeat one. -/
def formatLoopTruth (e : Enc) (radix : Nat) (sep : Separator) :
    Nat → Int → Nat → Str e → Outcome (Str e)
  | 0, _, _, _ => .hang
  | fuel + 1, input, counted, out =>
    if input = 0 then .ok out
    else do
      let x := IntTy.uint.wrap input
      let r := IntTy.uint.wrap radix
      let d ← IntTy.uint.rem x r
      let out ← prependCP e out (formatDigit d)
      let q ← IntTy.uint.div x r
      let input := truth q
      let counted := counted + 1
      if counted = 3 then
        if input ≠ 0 then
          match sep with
          | .comma => do
            let out ← prependCP e out 44#32
            formatLoopTruth e radix sep fuel input 0 out
          | .period => do
            let out ← prependCP e out 46#32
            formatLoopTruth e radix sep fuel input 0 out
          | .none => formatLoopTruth e radix sep fuel input 0 out
        else formatLoopTruth e radix sep fuel input 0 out
      else formatLoopTruth e radix sep fuel input counted out

/-- `format_integer<Output, bool>`, `formatters.ipp` 14-70 and 164-175.  A `bool` is never negative, and
`std::abs` is not called for it (36-38). -/
def formatTruth (e : Enc) (input : Bool) (f : IntegerFormat) : Outcome (Str e) :=
  if input.toInt = 0 then appendCP e [] 48#32
  else do
    let sign : Char32 :=
      if input.toInt < 0 then 45#32 else if f.sign = .alwaysShow then 43#32 else 32#32
    let out ← formatLoopTruth e f.radix f.separator 3 input.toInt 0 []
    if sign ≠ 32#32 then prependCP e out sign else .ok out

/-- `number_parser::prepend_digit<bool>`, `parsers.ipp` 198-214: `power *= radix` as `unsigned int`,
the rest as `int`, and both results converted to `bool`. -/
def prependDigitTruth (radix : Nat) (digit : Int) (st : ParseState) : Outcome ParseState := do
  let p ← IntTy.uint.arith (IntTy.uint.wrap st.power * IntTy.uint.wrap radix)
  let power := truth p
  let m ← IntTy.int.arith (digit * power)
  let s ← IntTy.int.arith (st.output + m)
  .ok { st with output := truth s, power := power, counted := st.counted + 1 }

/-- The body of the loop of `parse_integer<bool>`, `parsers.ipp` 52-93. -/
def parseStepTruth (f : IntegerFormat) (st : ParseState) (c : Char32) : Outcome ParseState :=
  if st.counted = 3 && f.separator ≠ .none then do
    let (b, st) ← checkForSign c { st with counted := 0 } f.sign
    if b then .ok st
    else do
      checkForThousandsSeparator c f.separator
      .ok st
  else do
    let (b, st) ← checkForSign c st f.sign
    if b then .ok st
    else if !(← isRadixDigit c f.radix) then reportNonDigit
    else do
      let d ← getNextDigit c f.radix
      prependDigitTruth f.radix d st

/-- The end of `parse_integer<bool>`, `parsers.ipp` 94-107: `bool` is not signed. -/
def parseFinishTruth (st : ParseState) : Outcome Bool :=
  if st.negate then .throw (.parseFailed .negativeUnsigned)
  else .ok (decide (st.output ≠ 0))

/-- `parse_integer<bool>`, `parsers.ipp` 14-108 and 276-286. -/
def parseTruth (e : Enc) (s : Str e) (f : IntegerFormat) : Outcome Bool :=
  if s.length = 0 then .throw (.parseFailed .emptyInput)
  else do
    let c ← rderef e s s.length
    let d ← getNextDigit c f.radix
    let output := truth d
    let i ← retreat e s s.length
    if i = 0 then .ok (decide (output ≠ 0))
    else do
      let st ← rforEachFrom e s (parseStepTruth f) (s.length + 1) i
        { output := output, power := 1, counted := 1, signFound := false, negate := false }
      parseFinishTruth st

end Cmp
