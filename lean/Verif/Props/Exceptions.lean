import Verif.Model.Exceptions
import Verif.Model.Float

/-
Properties of the exceptions that the library throws.
-/

namespace Cmp.Exceptions

/-- The types whose handlers have to catch what a place throws, for each exception of the models: the class
named in the documentation, and what the documentation says it is derived from. -/
def wanted : Exn → List Class
  | .invalidUnicodeEncoding => [.invalidUnicodeEncoding, .stdException]
  | .iteratedPastEnd => [.iteratedPastEnd, .stdException]
  | .invalidCodePoint => [.invalidCodePoint, .stdException]
  | .parseFailed _ => [.parseFailed, .stdInvalidArgument, .stdLogicError, .stdException]
  | .invalidRadix => [.invalidRadix, .stdInvalidArgument, .stdLogicError, .stdException]
  | .readPastEnd => [.readPastEnd, .stdException]
  | .invalidAccessMode => [.invalidAccessMode, .stdException]
  | .outOfRange => []

/-- Is it an exception whose explanation is kept by `std::invalid_argument`? -/
def keeps : Exn → Bool
  | .parseFailed _ => true
  | .invalidRadix => true
  | _ => false

/-- Words that an explanation of an exception has to have. -/
def subject : Exn → String
  | .invalidUnicodeEncoding => "not valid UTF-8 or UTF-16"
  | .iteratedPastEnd => "past the end of a string"
  | .invalidCodePoint => "code point"
  | .parseFailed .emptyInput => "empty"
  | .parseFailed .neitherBoolean => "neither the true string nor the false string"
  | .parseFailed .multipleSigns => "multiple signs"
  | .parseFailed .thousandsSeparatorMissing => "thousands separator"
  | .parseFailed .digitCharacterExpected => "non-digit character"
  | .parseFailed .negativeUnsigned => "unsigned"
  | .parseFailed .wrongPlaceLimit => "places after the radix point"
  | .invalidRadix => "less than 2 or greater than 36"
  | .readPastEnd => "past the end of a stream"
  | .invalidAccessMode => "access mode"
  | .outOfRange => ""

theorem isA_wanted (s : Site) (x : Exn) (h : s.exn = some x) (c : Class) :
    isA 12 c s.thrown.type = true ↔ c ∈ wanted x := by
  cases s <;> simp only [Site.exn, Option.some.injEq, reduceCtorEq] at h <;> subst h <;>
    cases c <;> decide

theorem noexcept_invalidArgument (t : Thrown) (ht : t.type ≠ .stdBadAlloc) (memory : Bool) :
    noexcept t (invalidArgument memory t) = if memory then .exception t else .terminate := by
  cases memory
  · have : badAlloc ≠ t := fun h => ht (by rw [← h]; rfl)
    simp [noexcept, invalidArgument, this]
  · simp [noexcept, invalidArgument]

theorem raise_of (s : Site) (x : Exn) (h : s.exn = some x) (memory : Bool) :
    s.raise memory = if keeps x && !memory then .terminate else .exception s.thrown := by
  have key : s.raise memory = if s.thrown.type = .invalidRadix ∨ s.thrown.type = .parseFailed then
      (if memory then .exception s.thrown else .terminate) else .exception s.thrown := by
    unfold Site.raise
    generalize s.thrown = t
    obtain ⟨c, w, k⟩ := t
    cases c <;> simp [noexcept_invalidArgument]
  rw [key]
  have hk : (s.thrown.type = .invalidRadix ∨ s.thrown.type = .parseFailed) ↔ keeps x = true := by
    cases s <;> simp only [Site.exn, Option.some.injEq, reduceCtorEq] at h <;> subst h <;>
      simp [Site.thrown, parseFailed, keeps]
  simp only [hk]
  cases memory <;> cases keeps x <;> simp

/-- C143 fails: the places throw nothing that a handler for `std::exception` catches if memory is
exhausted and a text cannot be parsed or a radix is refused, as the program is ended, nor if Windows
refuses the window class. -/
theorem C143_violated :
    (¬ ∀ (memory : Bool) (place : Exn → Site) (s : Str .char8) (f : IntegerFormat),
      (∀ x, (place x).exn = some x ∨ x = .outOfRange) →
      see memory place (parseInteger .char8 .int s f) ≠ .raised .terminate) ∧
    (¬ ∀ (memory : Bool) (place : Exn → Site) (radix : Nat),
      (∀ x, (place x).exn = some x ∨ x = .outOfRange) →
      see memory place (IntegerFormat.make radix .alwaysShow .none) ≠ .raised .terminate) ∧
    ¬ ∀ (s : Site) (t : Thrown), s.raise true = .exception t → entered [.stdException] t = some 0 := by
  have hp : ∃ place : Exn → Site, ∀ x, (place x).exn = some x ∨ x = .outOfRange := by
    refine ⟨fun x => match x with
      | .invalidUnicodeEncoding => .encoding
      | .iteratedPastEnd => .pastEnd
      | .invalidCodePoint => .codePoint
      | .parseFailed .emptyInput => .empty
      | .parseFailed .neitherBoolean => .neither
      | .parseFailed .multipleSigns => .signs
      | .parseFailed .thousandsSeparatorMissing => .separator
      | .parseFailed .digitCharacterExpected => .noDigit
      | .parseFailed .negativeUnsigned => .negative
      | .parseFailed .wrongPlaceLimit => .noPlaces
      | .invalidRadix => .radix
      | .readPastEnd => .readPastEnd
      | .invalidAccessMode => .accessMode
      | .outOfRange => .empty, ?_⟩
    intro x
    cases x with
    | parseFailed t => cases t <;> exact Or.inl rfl
    | outOfRange => exact Or.inr rfl
    | _ => exact Or.inl rfl
  obtain ⟨place, hplace⟩ := hp
  have key : ∀ {α : Type} (x : Exn), keeps x = true → x ≠ .outOfRange →
      see (α := α) false place (.throw x) = .raised .terminate := by
    intro α x hk hx
    have := (hplace x).resolve_right hx
    simp [see, raise_of _ _ this, hk]
  refine ⟨fun h => ?_, fun h => ?_, fun h => ?_⟩
  · exact h false place [] ⟨10, .alwaysShow, .none⟩ hplace (key (.parseFailed .emptyInput) rfl nofun)
  · exact h false place 1 hplace (key .invalidRadix rfl nofun)
  · exact absurd (h .windowClass _ rfl) (by decide)

/-- C143, what happens at each place: the program is ended exactly if memory is exhausted and the
exception keeps its explanation in `std::invalid_argument`; otherwise, of the handlers of a `try` block
in any order, the first one is entered that is for the class or for one it is derived from, and one for
`std::exception` always is among them. -/
theorem C143_exact (s : Site) (x : Exn) (hs : s.exn = some x) (memory : Bool) :
    (s.raise memory = .terminate ↔ memory = false ∧ keeps x = true) ∧
    (∀ t, s.raise memory = .exception t →
      (∀ hs : List Class, entered hs t = hs.findIdx? (fun h => decide (h ∈ wanted x))) ∧
      .stdException ∈ wanted x ∧
      (∀ k, t.failure = some k ↔ x = .parseFailed k)) := by
  rw [raise_of s x hs]
  refine ⟨?_, ?_⟩
  · cases memory <;> cases hk : keeps x <;> simp
  · intro t ht
    have ht : t = s.thrown := by
      split at ht
      · cases ht
      · exact (Raised.exception.inj ht).symm
    subst ht
    refine ⟨fun hs' => ?_, ?_, ?_⟩
    · unfold entered
      congr 1
      funext h
      rw [Bool.eq_iff_iff, decide_eq_true_iff]
      exact isA_wanted s x hs h
    · cases s <;> simp only [Site.exn, Option.some.injEq, reduceCtorEq] at hs <;> subst hs <;> decide
    · intro k
      cases s <;> simp only [Site.exn, Option.some.injEq, reduceCtorEq] at hs <;> subst hs <;>
        simp [Site.thrown, parseFailed, eq_comm]

/-- C143, the explanations: they name what is wrong, none is empty, and the same explanation always means
the same class and the same kind of failure. -/
theorem C143_exact_what (s s' : Site) :
    (∀ x, s.exn = some x → (subject x).toList <:+: s.thrown.what.toList) ∧
    s.thrown.what ≠ "" ∧
    (s.thrown.what = s'.thrown.what → s.thrown = s'.thrown) := by
  refine ⟨fun x hs => ?_, ?_, ?_⟩
  · cases s <;> simp only [Site.exn, Option.some.injEq, reduceCtorEq] at hs <;> subst hs <;>
      decide +kernel
  · cases s <;> simp [Site.thrown, parseFailed]
  · cases s <;> cases s' <;> simp [Site.thrown, parseFailed]

/-- C143, what a caller sees of any call: values, undefined behaviour and endless loops as they are; the end of
the program if the call itself ends it, or throws an exception that keeps its explanation while memory is
exhausted; and every other exception. -/
theorem C143_exact_seen {α : Type} (memory : Bool) (place : Exn → Site) (o : Outcome α)
    (hplace : ∀ x, o = .throw x → (place x).exn = some x) :
    (∀ a, see memory place o = .value a ↔ o = .ok a) ∧
    (see memory place o = .undefined ↔ o = .ub) ∧
    (see memory place o = .hang ↔ o = .hang) ∧
    (see memory place o = .raised .terminate ↔
      o = .terminate ∨ memory = false ∧ ∃ x, o = .throw x ∧ keeps x = true) ∧
    (∀ t, see memory place o = .raised (.exception t) ↔
      ∃ x, o = .throw x ∧ (keeps x = true → memory = true) ∧ (place x).thrown = t) := by
  cases o with
  | throw x =>
    have h := hplace x rfl
    simp only [see, raise_of _ _ h]
    cases memory <;> cases hk : keeps x <;> simp [hk]
  | _ => simp [see]

/-- C143, part: as long as there is memory, what the parsers and the constructors of the formats throw
can be caught as the documented class, with the kind of failure, and as `std::exception`.
What is missing: memory that is exhausted, and the constructor of the application on Windows. -/
theorem C143_partial {α : Type} (o : Outcome α) (x : Exn) (h : o = .throw x) (hx : x ≠ .outOfRange)
    (place : Exn → Site) (hplace : ∀ x, (place x).exn = some x ∨ x = .outOfRange) :
    ∃ t, see true place o = .raised (.exception t) ∧
      entered [.stdException] t = some 0 ∧
      (∀ k, x = .parseFailed k →
        entered [.parseFailed] t = some 0 ∧ t.failure = some k) ∧
      (∀ c, c ≠ .stdException → c ≠ .stdLogicError → c ≠ .stdInvalidArgument →
        (entered [c] t = some 0 ↔ c = t.type)) := by
  subst h
  have hs := (hplace x).resolve_right hx
  obtain ⟨-, h2⟩ := C143_exact (place x) x hs true
  have hr : (place x).raise true = .exception (place x).thrown := by simp [raise_of _ _ hs]
  obtain ⟨h3, h4, h5⟩ := h2 _ hr
  refine ⟨(place x).thrown, by simp [see, hr], ?_, ?_, ?_⟩
  · simp [h3, h4]
  · rintro k rfl
    exact ⟨by simp [h3, wanted], (h5 k).2 rfl⟩
  · intro c c1 c2 c3
    generalize place x = s at *
    cases s <;> simp only [Site.exn, Option.some.injEq, reduceCtorEq] at hs <;> subst hs <;>
      cases c <;> first | exact absurd rfl c1 | exact absurd rfl c2 | exact absurd rfl c3 | decide

/-- An empty text, with and without memory. -/
example : see true (fun _ => .empty) (parseInteger .char8 .int [] ⟨10, .alwaysShow, .none⟩)
      = .raised (.exception (Site.thrown .empty))
    ∧ see false (fun _ => .empty) (parseInteger .char8 .int [] ⟨10, .alwaysShow, .none⟩) = .raised .terminate := by
  have h : parseInteger .char8 .int [] ⟨10, .alwaysShow, .none⟩ = .throw (.parseFailed .emptyInput) := rfl
  simp [h, see, raise_of .empty _ rfl, keeps]

example : Site.raise true .separator = .exception (Site.thrown .separator)
    ∧ Site.raise false .separator = .terminate
    ∧ Site.raise false .encoding = .exception (Site.thrown .encoding)
    ∧ entered [.readPastEnd, .stdInvalidArgument, .parseFailed, .stdException] (Site.thrown .separator)
      = some 1
    ∧ entered [.invalidUnicodeEncoding, .iteratedPastEnd] (Site.thrown .codePoint) = none := by
  refine ⟨?_, ?_, ?_, by decide, by decide⟩
  · simp [raise_of .separator _ rfl]
  · simp [raise_of .separator _ rfl, keeps]
  · simp [raise_of .encoding _ rfl, keeps]

end Cmp.Exceptions
