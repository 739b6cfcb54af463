import Verif.Checks.Literal
import Verif.Model.Number

/-
The tests of `tests/automated/unicode/test_examiners.cpp`, `test_algorithms.cpp` and
`test_by_code_point.cpp`, carried out on the model.

These are tests: they compare the model with what the authors of the library expect of it, case by
case, and prove no property.
-/

namespace Cmp.Checks

/-! ### `test_examiners.cpp` -/

/-- `test_fits_in_7_bits`. -/
example : fitsIn7Bits 0b10000001#32 = false ∧ fitsIn7Bits 0b01000000#32 = true := by
  decide +kernel

/-- `test_is_standalone_byte`. -/
example : isStandaloneByte 0b10000001#8 = false ∧ isStandaloneByte 0b01000000#8 = true := by
  decide +kernel

/-- `test_is_leading_byte`. -/
example : isLeadingByte 0b00000000#8 = false ∧ isLeadingByte 0b10000000#8 = false
    ∧ isLeadingByte 0b11000000#8 = true ∧ isLeadingByte 0b11100000#8 = true
    ∧ isLeadingByte 0b11110000#8 = true := by
  decide +kernel

/-- `test_is_trailing_byte`. -/
example : isTrailingByte 0b00000000#8 = false ∧ isTrailingByte 0b01000000#8 = false
    ∧ isTrailingByte 0b11000000#8 = false ∧ isTrailingByte 0b10000000#8 = true
    ∧ isTrailingByte 0b10000001#8 = true := by
  decide +kernel

/-- `test_is_radix_digit`. -/
example : isRadixDigit (ch '0') 8 = .ok true ∧ isRadixDigit (ch '0') 10 = .ok true
    ∧ isRadixDigit (ch '0') 12 = .ok true ∧ isRadixDigit (ch '9') 8 = .ok false
    ∧ isRadixDigit (ch '9') 10 = .ok true ∧ isRadixDigit (ch 'a') 10 = .ok false
    ∧ isRadixDigit (ch 'C') 16 = .ok true ∧ isRadixDigit (ch 'p') 26 = .ok true
    ∧ isRadixDigit (ch 'Q') 26 = .ok false := by
  decide +kernel

/-! ### `test_algorithms.cpp` -/

/-- `test_starts_with`. -/
example : startsWith .char8 .char8 (u8 "starts with") (u8 "starts") = .ok true
    ∧ startsWith .char8 .char8 (u8 "starts with") (u8 "with") = .ok false
    ∧ startsWith .char8 .char8 (u8 "starts with") (u8 "starts with") = .ok true
    ∧ startsWith .char8 .char8 (u8 "starts with") (u8 "starts with!!!") = .ok false
    ∧ startsWith .char8 .char8 (u8 "") (u8 "something") = .ok false
    ∧ startsWith .char8 .char8 (u8 "something") (u8 "") = .ok true := by
  decide +kernel

/-- `test_ends_with`. -/
example : endsWith .char8 .char8 (u8 "ends with") (u8 "with") = .ok true
    ∧ endsWith .char8 .char8 (u8 "ends with") (u8 "ends") = .ok false
    ∧ endsWith .char8 .char8 (u8 "ends with") (u8 "ends with") = .ok true
    ∧ endsWith .char8 .char8 (u8 "ends with") (u8 "!!!ends with") = .ok false
    ∧ endsWith .char8 .char8 (u8 "") (u8 "something") = .ok false
    ∧ endsWith .char8 .char8 (u8 "something") (u8 "") = .ok true := by
  decide +kernel

/-- `test_append_code_point`. -/
example :
    (do let s ← appendCP .char8 [] (ch 'c'); appendCP .char8 s 0x1F600#32) = .ok (u8 "c😀")
    ∧ (do let s ← appendCP .char16 [] (ch 'c'); appendCP .char16 s 0x1F600#32) = .ok (u16 "c😀")
    ∧ (do let s ← appendCP .char32 [] (ch 'c'); appendCP .char32 s 0x1F600#32)
      = .ok (u32 "c😀") := by
  decide +kernel

/-- `test_prepend_code_point`. -/
example :
    (do let s ← prependCP .char8 [] 0x1F600#32; prependCP .char8 s (ch 'c')) = .ok (u8 "c😀")
    ∧ (do let s ← prependCP .char16 [] 0x1F600#32; prependCP .char16 s (ch 'c')) = .ok (u16 "c😀")
    ∧ (do let s ← prependCP .char32 [] 0x1F600#32; prependCP .char32 s (ch 'c'))
      = .ok (u32 "c😀") := by
  decide +kernel

/-- `validate_string(s) == by_code_point{s}.cend()`. -/
def valid (e : Enc) (s : Str e) : Outcome Bool := do
  let i ← validateString e s
  .ok (i == s.length)

/-- `test_validate_string`. -/
example : valid .char8 (u8 "abc\nxyz") = .ok true
    ∧ valid .char8 (u8 "valid portion" ++ [0b10000000#8]) = .ok false
    ∧ valid .char16 (u16 "abc\nxyz") = .ok true
    ∧ valid .char16 (u16 "valid portion" ++ [0xD83D#16]) = .ok false
    ∧ valid .char16 (u16 "valid portion" ++ [0xDC69#16]) = .ok false
    ∧ valid .char32 (u32 "abc\nxyz") = .ok true
    ∧ valid .char32 (u32 "valid portion" ++ [maximumCodePoint + 1]) = .ok false := by
  decide +kernel

/-! ### `test_by_code_point.cpp` -/

/-- `test_by_code_point_generic`: the character is found in both directions. -/
def found (e : Enc) (s : Str e) : Outcome Bool := do
  let forwards ← codePoints e s
  let backwards ← rcodePoints e s
  .ok (forwards.contains (ch 's') && backwards.contains (ch 's'))

/-- `test_by_code_point_char`, `_utf8`, `_utf16`, `_utf32` and `_wchar`. -/
example : found .narrow (u8 "test\nxyz") = .ok true
    ∧ found .char8 (u8 "test\n¯\\_(ツ)_/¯") = .ok true
    ∧ found .char16 (u16 "test\n¯\\_(ツ)_/¯") = .ok true
    ∧ found .char32 (u32 "test\n¯\\_(ツ)_/¯") = .ok true
    ∧ found .wide2 (u16 "test\n¯\\_(ツ)_/¯") = .ok true
    ∧ found .wide4 (u32 "test\n¯\\_(ツ)_/¯") = .ok true := by
  decide +kernel

end Cmp.Checks
