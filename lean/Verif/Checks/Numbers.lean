import Verif.Checks.Literal
import Verif.Model.Float
import Verif.Proofs.TiesToEven

/-
The tests of `tests/automated/unicode/test_formatters.cpp`, `test_parsers.cpp` and
`tests/automated/core/test_core_general.cpp`, carried out on the model.  `double` is IEEE binary64,
and the machine rounds to nearest, ties to even.

These are tests: they compare the model with what the authors of the library expect of it, case by
case, and prove no property.
-/

namespace Cmp.Checks

open Spec (binary64)

/-- The rounding of `double`; `rnd 95.124` is the value of the constant `95.124`. -/
def rnd : ℚ → ℚ := binary64.tiesToEven

/-- It is one of the roundings the theorems on floating-point numbers are about. -/
example : binary64.Nearest rnd ∧ binary64.Rounding rnd :=
  ⟨Spec.BinFmt.tiesToEven_nearest (.inr rfl),
    (Spec.BinFmt.tiesToEven_nearest (.inr rfl)).rounding (.inr rfl)⟩

/-! ### `test_formatters.cpp` -/

/-- `test_format_bool`. -/
example : formatBool .char8 true { BoolFormat.default with trueString := u8 "yes" }
      = .ok (u8 "yes")
    ∧ formatBool .char8 false { BoolFormat.default with falseString := u8 "no" }
      = .ok (u8 "no") := by
  decide +kernel

/-- `test_format_integer`. -/
example : formatInteger .char8 .int 9 ⟨8, .alwaysShow, .comma⟩ = .ok (u8 "+11")
    ∧ formatInteger .char8 .int (-1231) ⟨8, .alwaysShow, .comma⟩ = .ok (u8 "-2,317")
    ∧ formatInteger .char8 .int 138 ⟨16, .onlyWhenNegative, .comma⟩ = .ok (u8 "8A")
    ∧ formatInteger .char8 .int (-36) ⟨36, .onlyWhenNegative, .comma⟩ = .ok (u8 "-10")
    ∧ formatInteger .char8 .int (-100) ⟨10, .onlyWhenNegative, .comma⟩ = .ok (u8 "-100")
    ∧ formatInteger .char8 .uint 97 ⟨10, .onlyWhenNegative, .comma⟩ = .ok (u8 "97") := by
  decide +kernel

/-- `test_format_floating_point`. -/
example :
    formatFloat .char8 rnd 99 9 ⟨8, .alwaysShow, .comma, .period, .none, 0⟩ = .ok (u8 "+11")
    ∧ formatFloat .char8 rnd 99 (-1231) ⟨8, .alwaysShow, .comma, .period, .none, 0⟩
      = .ok (u8 "-2,317")
    ∧ formatFloat .char8 rnd 99 138 ⟨16, .onlyWhenNegative, .comma, .period, .none, 0⟩
      = .ok (u8 "8A")
    ∧ formatFloat .char8 rnd 99 (-36) ⟨36, .onlyWhenNegative, .comma, .period, .none, 0⟩
      = .ok (u8 "-10")
    ∧ formatFloat .char8 rnd 99 (-100) ⟨10, .onlyWhenNegative, .comma, .period, .none, 0⟩
      = .ok (u8 "-100")
    ∧ formatFloat .char8 rnd 99 41.5 ⟨10, .onlyWhenNegative, .comma, .period, .none, 0⟩
      = .ok (u8 "41.5")
    ∧ formatFloat .char8 rnd 99 95.125 ⟨10, .onlyWhenNegative, .none, .period, .none, 0⟩
      = .ok (u8 "95.125")
    ∧ formatFloat .char8 rnd 99 33.0625 ⟨10, .alwaysShow, .none, .period, .none, 0⟩
      = .ok (u8 "+33.0625")
    ∧ formatFloat .char8 rnd 99 33.0625 ⟨10, .alwaysShow, .none, .period, .upTo, 2⟩
      = .ok (u8 "+33.06")
    ∧ formatFloat .char8 rnd 99 33.0625 ⟨10, .alwaysShow, .none, .period, .exactlyEqual, 5⟩
      = .ok (u8 "+33.06250")
    ∧ formatFloat .char8 rnd 99 16.5 ⟨16, .onlyWhenNegative, .none, .period, .none, 0⟩
      = .ok (u8 "10.8") := by
  decide +kernel

/-! ### `test_parsers.cpp` -/

/-- `test_parse_bool`. -/
example : parseBool .char8 (u8 "yes") ⟨u8 "yes", u8 "no"⟩ = .ok true
    ∧ parseBool .char8 (u8 "no") ⟨u8 "yes", u8 "no"⟩ = .ok false
    ∧ parseBool .char8 (u8 "1") ⟨u8 "true", u8 "false"⟩
      = .throw (.parseFailed .neitherBoolean) := by
  decide +kernel

/-- `test_parse_integer`. -/
example : parseInteger .char8 .int (u8 "+11") ⟨8, .alwaysShow, .none⟩ = .ok 9
    ∧ parseInteger .char8 .int (u8 "-2,317") ⟨8, .alwaysShow, .comma⟩ = .ok (-1231)
    ∧ parseInteger .char8 .int (u8 "8A") ⟨16, .onlyWhenNegative, .comma⟩ = .ok 138
    ∧ parseInteger .char8 .int (u8 "-10") ⟨36, .onlyWhenNegative, .comma⟩ = .ok (-36)
    ∧ parseInteger .char8 .int (u8 "-100") ⟨10, .onlyWhenNegative, .comma⟩ = .ok (-100)
    ∧ parseInteger .char8 .int (u8 "97") ⟨10, .onlyWhenNegative, .comma⟩ = .ok 97
    ∧ parseInteger .char8 .uint (u8 "-1000") ⟨10, .onlyWhenNegative, .none⟩
      = .throw (.parseFailed .negativeUnsigned)
    ∧ parseInteger .char8 .uint (u8 "+101") ⟨16, .alwaysShow, .comma⟩ = .ok 257
    ∧ parseInteger .char8 .uint (u8 "+") ⟨20, .alwaysShow, .period⟩
      = .throw (.parseFailed .digitCharacterExpected)
    ∧ parseInteger .char8 .uint (u8 "59") ⟨8, .onlyWhenNegative, .period⟩
      = .throw (.parseFailed .digitCharacterExpected) := by
  decide +kernel

/-- `expect_successful_floating_point_parse_approximated`. -/
def parsesAbout (text : Str .char8) (f : FloatFormat) (expected : ℚ) (places : Nat) :
    Outcome Bool := do
  let result ← parseFloat .char8 rnd text f
  .ok (cmpEqual rnd (10 ^ places) result expected)

/-- `test_parse_floating_point`. -/
example :
    parseFloat .char8 rnd (u8 "+11") ⟨8, .alwaysShow, .comma, .period, .none, 0⟩ = .ok 9
    ∧ parseFloat .char8 rnd (u8 "-2,317") ⟨8, .alwaysShow, .comma, .period, .none, 0⟩
      = .ok (-1231)
    ∧ parseFloat .char8 rnd (u8 "8A") ⟨16, .onlyWhenNegative, .comma, .period, .none, 0⟩
      = .ok 138
    ∧ parseFloat .char8 rnd (u8 "-10") ⟨36, .onlyWhenNegative, .comma, .period, .none, 0⟩
      = .ok (-36)
    ∧ parseFloat .char8 rnd (u8 "-100") ⟨10, .onlyWhenNegative, .comma, .period, .none, 0⟩
      = .ok (-100)
    ∧ parseFloat .char8 rnd (u8 "41.5") ⟨10, .onlyWhenNegative, .comma, .period, .none, 0⟩
      = .ok 41.5
    ∧ parsesAbout (u8 "95.124") ⟨10, .onlyWhenNegative, .none, .period, .none, 0⟩
      (rnd 95.124) 3 = .ok true
    ∧ parsesAbout (u8 "+33.0625") ⟨10, .alwaysShow, .none, .period, .none, 0⟩ 33.0625 4
      = .ok true
    ∧ parsesAbout (u8 "+33.06") ⟨10, .alwaysShow, .none, .period, .upTo, 2⟩ (rnd 33.06) 2
      = .ok true
    ∧ parsesAbout (u8 "+33.06250") ⟨10, .alwaysShow, .none, .period, .exactlyEqual, 5⟩ 33.0625 4
      = .ok true
    ∧ parsesAbout (u8 "10.8") ⟨16, .onlyWhenNegative, .none, .period, .none, 0⟩ 16.5 1 = .ok true
    ∧ parseFloat .char8 rnd (u8 "59.8") ⟨8, .onlyWhenNegative, .period, .period, .none, 0⟩
      = .throw (.parseFailed .digitCharacterExpected) := by
  decide +kernel

/-! ### `test_core_general.cpp` -/

/-- `test_cmp_equal`. -/
example : cmpEqual rnd (10 ^ 2) (rnd 1.123) (rnd 1.124) = true
    ∧ cmpEqual rnd (10 ^ 3) (rnd 1.1234) (rnd 1.1235) = true
    ∧ cmpEqual rnd (10 ^ 2) (rnd 1.12) (rnd 1.14) = false
    ∧ cmpEqual rnd (10 ^ 3) (rnd 1.123) (rnd 1.124) = false := by
  decide +kernel

/-- `test_count_decimal_digits` and `test_count_hexadecimal_digits`. -/
example : countDigits .int 0 10 = .ok 1 ∧ countDigits .int 9 10 = .ok 1
    ∧ countDigits .int 15 10 = .ok 2 ∧ countDigits .int (-15) 10 = .ok 2
    ∧ countDigits .int 1024 10 = .ok 4
    ∧ countDigits .int 0x0 16 = .ok 1 ∧ countDigits .int 0xC 16 = .ok 1
    ∧ countDigits .int 0x21 16 = .ok 2 ∧ countDigits .int (-0x21) 16 = .ok 2
    ∧ countDigits .int 0xCAFE 16 = .ok 4 := by
  decide +kernel

end Cmp.Checks
