import Verif.Props.TypeTraits

/-
The tests of `tests/automated/unicode/test_type_traits.cpp`, carried out on the model, in the order in which
they are written.

These are tests: they compare the model with what the authors of the library expect of it, case by
case, and prove no property.
-/

namespace Cmp.Checks

open Types

/-- `test_is_unicode_text_object_v`, the types for which the answer has to be yes. -/
example : ∀ T ∈ ([
    (.object false false (.string .char8)),
    (.object true false (.string .char8)),
    (.object false true (.string .char8)),
    (.object true true (.string .char8)),
    (.object false false (.string .char16)),
    (.object true false (.string .char16)),
    (.object false true (.string .char16)),
    (.object true true (.string .char16)),
    (.object false false (.string .char32)),
    (.object true false (.string .char32)),
    (.object false true (.string .char32)),
    (.object true true (.string .char32)),
    (.object false false (.view .char8)),
    (.object true false (.view .char8)),
    (.object false true (.view .char8)),
    (.object true true (.view .char8)),
    (.object false false (.view .char16)),
    (.object true false (.view .char16)),
    (.object false true (.view .char16)),
    (.object true true (.view .char16)),
    (.object false false (.view .char32)),
    (.object true false (.view .char32)),
    (.object false true (.view .char32)),
    (.object true true (.view .char32)),
    (.pointer false false (.object false false (.unit .char8))),
    (.pointer false false (.object true false (.unit .char8))),
    (.pointer false false (.object false true (.unit .char8))),
    (.pointer false false (.object true true (.unit .char8))),
    (.pointer true false (.object false false (.unit .char8))),
    (.pointer true false (.object true false (.unit .char8))),
    (.pointer true false (.object false true (.unit .char8))),
    (.pointer true false (.object true true (.unit .char8))),
    (.pointer false false (.object false false (.unit .char16))),
    (.pointer false false (.object true false (.unit .char16))),
    (.pointer false false (.object false true (.unit .char16))),
    (.pointer false false (.object true true (.unit .char16))),
    (.pointer true false (.object false false (.unit .char16))),
    (.pointer true false (.object true false (.unit .char16))),
    (.pointer true false (.object false true (.unit .char16))),
    (.pointer true false (.object true true (.unit .char16))),
    (.pointer false false (.object false false (.unit .char32))),
    (.pointer false false (.object true false (.unit .char32))),
    (.pointer false false (.object false true (.unit .char32))),
    (.pointer false false (.object true true (.unit .char32))),
    (.pointer true false (.object false false (.unit .char32))),
    (.pointer true false (.object true false (.unit .char32))),
    (.pointer true false (.object false true (.unit .char32))),
    (.pointer true false (.object true true (.unit .char32)))] : List CType),
    isUnicodeTextObject platform64 T = some true := by decide

/-- `test_is_unicode_text_object_v`, the types for which the answer has to be no. -/
example : ∀ T ∈ ([
    (.object false false (.string .char)),
    (.object false false (.unit .char)),
    (.object false false (.other 0)),
    (.object false false (.other 1))] : List CType),
    isUnicodeTextObject platform64 T = some false := by decide

/-- `test_is_raii_unicode_text_object_v`, the types for which the answer has to be yes. -/
example : ∀ T ∈ ([
    (.object false false (.string .char8)),
    (.object true false (.string .char8)),
    (.object false false (.string .char16)),
    (.object true false (.string .char16)),
    (.object false false (.string .char32)),
    (.object true false (.string .char32))] : List CType),
    isRaiiUnicodeTextObject platform64 T = some true := by decide

/-- `test_is_raii_unicode_text_object_v`, the types for which the answer has to be no. -/
example : ∀ T ∈ ([
    (.object false false (.view .char8)),
    (.object true false (.view .char8)),
    (.object false false (.view .char16)),
    (.object true false (.view .char16)),
    (.object false false (.view .char32)),
    (.object true false (.view .char32)),
    (.array 3 (.object false false (.unit .char8))),
    (.array 3 (.object true false (.unit .char8))),
    (.pointer false false (.object false false (.unit .char8))),
    (.pointer false false (.object true false (.unit .char8))),
    (.pointer true false (.object false false (.unit .char8))),
    (.pointer true false (.object true false (.unit .char8))),
    (.object false false (.string .char)),
    (.object false false (.unit .char)),
    (.object false false (.other 0)),
    (.object false false (.other 1))] : List CType),
    isRaiiUnicodeTextObject platform64 T = some false := by decide

/-- `test_is_writable_raii_unicode_text_object_v`, the types for which the answer has to be yes. -/
example : ∀ T ∈ ([
    (.object false false (.string .char8)),
    (.object false false (.string .char16)),
    (.object false false (.string .char32))] : List CType),
    isWritableRaiiUnicodeTextObject platform64 T = some true := by decide

/-- `test_is_writable_raii_unicode_text_object_v`, the types for which the answer has to be no. -/
example : ∀ T ∈ ([
    (.object true false (.string .char8)),
    (.object true false (.string .char16)),
    (.object true false (.string .char32)),
    (.object false false (.view .char8)),
    (.object true false (.view .char8)),
    (.object false false (.view .char16)),
    (.object true false (.view .char16)),
    (.object false false (.view .char32)),
    (.object true false (.view .char32)),
    (.array 3 (.object false false (.unit .char8))),
    (.array 3 (.object true false (.unit .char8))),
    (.pointer false false (.object false false (.unit .char8))),
    (.pointer false false (.object true false (.unit .char8))),
    (.pointer true false (.object false false (.unit .char8))),
    (.pointer true false (.object true false (.unit .char8))),
    (.object false false (.string .char)),
    (.object false false (.unit .char)),
    (.object false false (.other 0)),
    (.object false false (.other 1))] : List CType),
    isWritableRaiiUnicodeTextObject platform64 T = some false := by decide

end Cmp.Checks
