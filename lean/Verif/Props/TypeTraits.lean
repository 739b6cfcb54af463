/-
C140: which types the library takes for text.
-/
import Verif.Spec.TypeTraits
import Verif.Proofs.TypeTraits

namespace Cmp

open Spec Types

/-- What the traits are to answer: about a character type, about text in any of the Unicode encodings, and
about text of any kind. -/
structure TextAnswers (L : Layout) (T : CType) (answer : (TextType → Bool) → Option Bool) : Prop where
  char : isCharString L T = answer (·.unit = .char)
  utf8 : isUtf8String L T = answer (·.unit = .char8)
  utf16 : isUtf16String L T = answer (·.unit = .char16)
  utf32 : isUtf32String L T = answer (·.unit = .char32)
  wide : isWideString L T = answer (·.unit = .wide)
  writableChar : isWritableCharString L T = answer (fun t => t.unit = .char ∧ t.writable)
  writableUtf8 : isWritableUtf8String L T = answer (fun t => t.unit = .char8 ∧ t.writable)
  writableUtf16 : isWritableUtf16String L T = answer (fun t => t.unit = .char16 ∧ t.writable)
  writableUtf32 : isWritableUtf32String L T = answer (fun t => t.unit = .char32 ∧ t.writable)
  writableWide : isWritableWideString L T = answer (fun t => t.unit = .wide ∧ t.writable)
  unicode : isUnicodeTextObject L T = answer (fun t => t.unit ≠ .char)
  writableUnicode : isWritableUnicodeTextObject L T = answer (fun t => t.unit ≠ .char ∧ t.writable)
  owningUnicode : isRaiiUnicodeTextObject L T = answer (fun t => t.unit ≠ .char ∧ t.form = .owner)
  writableOwningUnicode : isWritableRaiiUnicodeTextObject L T =
    answer (fun t => t.unit ≠ .char ∧ t.form = .owner ∧ t.writable)
  text : isTextObject L T = answer (fun _ => true)
  writable : isWritableTextObject L T = answer (·.writable)
  owning : isRaiiTextObject L T = answer (·.form = .owner)
  writableOwning : isWritableRaiiTextObject L T = answer (fun t => t.form = .owner ∧ t.writable)

/-- The views are known for what they are, whatever type is asked about. -/
theorem C140_exact_view (T : CType) :
    isTextObjectView T = holds T (fun t => t.form = .view) ∧
    isUnicodeTextObjectView T = holds T (fun t => t.form = .view ∧ t.unit ≠ .char) := by
  unfold isTextObjectView isUnicodeTextObjectView
  simp only [view_eq, holds]
  cases textType T with
  | none => exact ⟨rfl, rfl⟩
  | some t => obtain ⟨f, u, w⟩ := t; cases f <;> cases u <;> exact ⟨rfl, rfl⟩

/-- A pointer that is `volatile` itself holds no text for the traits; about everything else with a size they
say what is the case. -/
theorem C140_exact {L : Layout} {T : CType} (hv : Valid T) (hs : Sized L T) :
    TextAnswers L T (fun p => some (holds T p && !volatilePointer T)) := by
  obtain ⟨n1, n2, n3, n4, n5⟩ := names L T
  obtain ⟨w1, w2, w3, w4, w5⟩ := writableNames L T
  have hw := isWritableString_eq hv hs
  have hn := isString_eq hv hs
  obtain ⟨v1, v2⟩ := C140_exact_view T
  constructor <;>
    simp only [isUnicodeTextObject, isWritableUnicodeTextObject, isTextObject, isWritableTextObject,
      isRaiiTextObject, isWritableRaiiTextObject, isRaiiUnicodeTextObject, isWritableRaiiUnicodeTextObject,
      n1, n2, n3, n4, n5, w1, w2, w3, w4, w5, hw, hn, v1, v2] <;>
    first
      | rfl
      | (generalize volatilePointer T = x
         cases ht : textType T with
         | none => simp [holds, ht]
         | some t =>
           have hd := decays ht
           have hr := view_read ht
           obtain ⟨f, u, w⟩ := t
           cases f <;> cases u <;> cases w <;> cases x <;> simp [holds, ht, hd] at hr ⊢)

/-- Nobody can ask about a type without a size. -/
theorem C140_exact_unsized {L : Layout} {T : CType} (hs : ¬ Sized L T) :
    TextAnswers L T (fun _ => none) := by
  have hw := isWritableString_none hs
  have hn := isString_none hs
  obtain ⟨n1, n2, n3, n4, n5⟩ := names L T
  obtain ⟨w1, w2, w3, w4, w5⟩ := writableNames L T
  constructor <;>
    simp [isUnicodeTextObject, isWritableUnicodeTextObject, isTextObject, isWritableTextObject,
      isRaiiTextObject, isWritableRaiiTextObject, isRaiiUnicodeTextObject, isWritableRaiiUnicodeTextObject,
      n1, n2, n3, n4, n5, w1, w2, w3, w4, w5, hw, hn]

/-- **C140**, in part: about every type that has a size and is no `volatile` pointer, every trait says what is
the case.  Missing: the other types, for which `C140_exact` and `C140_exact_unsized` say what happens. -/
theorem C140_partial {L : Layout} {T : CType} (hv : Valid T) (hs : Sized L T)
    (hp : volatilePointer T = false) : TextAnswers L T (fun p => some (holds T p)) := by
  have := C140_exact hv hs
  rw [hp] at this
  simpa using this

/-- **C140** does not hold: `char8_t* volatile` points to characters that may be read and written, and is no
text object; whoever asks about `char8_t[]` cannot compile. -/
theorem C140_violated : ∃ T U : CType, Valid T ∧ Valid U ∧ ∀ L,
    textType T = some ⟨.pointer, .char8, true⟩ ∧ Sized L T ∧
      isTextObject L T = some false ∧ isWritableUtf8String L T = some false ∧
    textType U = some ⟨.array, .char8, true⟩ ∧ isTextObject L U = none := by
  refine ⟨.pointer false true (.unit false false .char8), .unbounded (.unit false false .char8),
    by simp [Valid], by simp [Valid], fun L => ⟨rfl, rfl, ?_, ?_, rfl, ?_⟩⟩
  · exact (C140_exact (L := L) (T := .pointer false true (.unit false false .char8))
      (by simp [Valid]) rfl).text
  · exact (C140_exact (L := L) (T := .pointer false true (.unit false false .char8))
      (by simp [Valid]) rfl).writableUtf8
  · exact (C140_exact_unsized (L := L) (by simp [Sized, CType.sizeof])).text

/-- No type is text of two encodings: of the five traits at most one says yes. -/
theorem C140_exact_one {L : Layout} {T : CType} (hv : Valid T) (hs : Sized L T) :
    ∃ answers : CodeUnit → Bool, (∀ a b, answers a → answers b → a = b) ∧
      isCharString L T = some (answers .char) ∧ isUtf8String L T = some (answers .char8) ∧
      isUtf16String L T = some (answers .char16) ∧ isUtf32String L T = some (answers .char32) ∧
      isWideString L T = some (answers .wide) := by
  have h := C140_exact hv hs
  refine ⟨fun u => holds T (·.unit = u) && !volatilePointer T, ?_, h.char, h.utf8, h.utf16, h.utf32, h.wide⟩
  intro a b ha hb
  cases ht : textType T with
  | none => simp [holds, ht] at ha
  | some t =>
    simp [holds, ht] at ha hb
    exact ha.1.symm.trans hb.1

/-- `core/type_traits.hpp` gives the larger of two numbers. -/
theorem C140_exact_max (a b : Nat) : constantMax a b = max a b := by
  unfold constantMax
  by_cases h : a > b
  · simp [h]; omega
  · simp [h]; omega

/-- A platform like the one the library is written for. -/
def platform64 : Layout := ⟨4, by decide, 8, fun _ => 32, fun _ => 16, fun _ => some 4⟩

/- A literal, an array of `wchar_t` that may be changed and a pointer to a pointer meet the hypotheses. -/
example : Valid (.array 6 (.unit true false .char8)) ∧ Sized platform64 (.array 6 (.unit true false .char8)) ∧
    volatilePointer (.array 6 (.unit true false .char8)) = false := ⟨by simp [Valid], rfl, rfl⟩
example : isTextObject platform64 (.array 6 (.unit true false .char8)) = some true ∧
    isWritableTextObject platform64 (.array 6 (.unit true false .char8)) = some false ∧
    isWritableWideString platform64 (.array 3 (.unit false false .wide)) = some true ∧
    isTextObject platform64 (.array 3 (.array 2 (.unit false false .wide))) = some false ∧
    isTextObject platform64 (.pointer false false (.pointer false false (.unit false false .char)))
      = some false := by decide
example : ¬ Sized platform64 (.object false false .void) := by simp [Sized, CType.sizeof]

end Cmp
