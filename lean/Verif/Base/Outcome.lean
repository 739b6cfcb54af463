/-
Outcomes of C++ evaluations and a small state monad that keeps the state an
exception leaves behind.  Nothing in this file models library code; it only
fixes what "the result of running a piece of C++" means in the model.
-/

namespace Cmp

/-- `parse_failed::type`, `api/include/cmp/unicode/parsers.hpp`. -/
inductive ParseFailure
  | emptyInput
  | neitherBoolean
  | multipleSigns
  | thousandsSeparatorMissing
  | digitCharacterExpected
  | negativeUnsigned
  | wrongPlaceLimit
  deriving DecidableEq, Repr

/-- The exceptions the modelled code throws: `api/include/cmp/unicode/exceptions.hpp`,
`parsers.hpp`, `formats.hpp`, `api/include/cmp/io/exceptions.hpp`, and
`std::out_of_range` from `std::basic_string::insert`. -/
inductive Exn
  | invalidUnicodeEncoding
  | iteratedPastEnd
  | invalidCodePoint
  | parseFailed (t : ParseFailure)
  | invalidRadix
  | readPastEnd
  | invalidAccessMode
  | outOfRange
  deriving DecidableEq, Repr

/-- How a C++ evaluation ends. -/
inductive Outcome (α : Type)
  /-- normal completion -/
  | ok (a : α)
  /-- an exception leaves the evaluated function -/
  | throw (e : Exn)
  /-- an exception leaves a `noexcept` function: `std::terminate` -/
  | terminate
  /-- undefined behaviour -/
  | ub
  /-- a loop exceeded the iteration bound given to it in the model -/
  | hang
  deriving DecidableEq, Repr

namespace Outcome

variable {α β γ : Type}

/-- Sequencing: anything but normal completion is final. -/
protected def bind : Outcome α → (α → Outcome β) → Outcome β
  | ok a, f => f a
  | throw e, _ => throw e
  | terminate, _ => terminate
  | ub, _ => ub
  | hang, _ => hang

instance : Monad Outcome where
  pure := ok
  bind := Outcome.bind

@[simp] theorem pure_eq (a : α) : (pure a : Outcome α) = ok a := rfl
@[simp] theorem ok_bind (a : α) (f : α → Outcome β) : (ok a >>= f) = f a := rfl
@[simp] theorem throw_bind (e : Exn) (f : α → Outcome β) : (throw e >>= f) = throw e := rfl
@[simp] theorem terminate_bind (f : α → Outcome β) : (terminate >>= f) = terminate := rfl
@[simp] theorem ub_bind (f : α → Outcome β) : (ub >>= f) = ub := rfl
@[simp] theorem hang_bind (f : α → Outcome β) : (hang >>= f) = hang := rfl

theorem bind_eq_ok {x : Outcome α} {f : α → Outcome β} {b : β} :
    (x >>= f) = ok b ↔ ∃ a, x = ok a ∧ f a = ok b := by
  cases x <;> simp

/-- Leaving a `noexcept` function. -/
def noexcept : Outcome α → Outcome α
  | throw _ => terminate
  | o => o

@[simp] theorem noexcept_ok (a : α) : (ok a).noexcept = ok a := rfl
@[simp] theorem noexcept_throw (e : Exn) : (throw e : Outcome α).noexcept = terminate := rfl
@[simp] theorem noexcept_terminate : (terminate : Outcome α).noexcept = terminate := rfl
@[simp] theorem noexcept_ub : (ub : Outcome α).noexcept = ub := rfl
@[simp] theorem noexcept_hang : (hang : Outcome α).noexcept = hang := rfl

/-- The evaluation is free of undefined behaviour and of unbounded looping. -/
def Defined (o : Outcome α) : Prop := o ≠ ub ∧ o ≠ hang

end Outcome

/-- Computations on a state `σ` that may end in any outcome; the state reached is
kept whatever the outcome (it has no meaning after `ub`). -/
def M (σ α : Type) : Type := σ → Outcome α × σ

namespace M

variable {σ α β : Type}

/-- Sequencing. -/
protected def bind (x : M σ α) (f : α → M σ β) : M σ β := fun s =>
  match x s with
  | (.ok a, s') => f a s'
  | (.throw e, s') => (.throw e, s')
  | (.terminate, s') => (.terminate, s')
  | (.ub, s') => (.ub, s')
  | (.hang, s') => (.hang, s')

instance : Monad (M σ) where
  pure a := fun s => (.ok a, s)
  bind := M.bind

/-- Run a computation. -/
def run (x : M σ α) (s : σ) : Outcome α × σ := x s

/-- Raise an outcome without touching the state. -/
def lift (o : Outcome α) : M σ α := fun s => (o, s)

/-- Read the state. -/
def get : M σ σ := fun s => (.ok s, s)

/-- Replace the state. -/
def set (s : σ) : M σ Unit := fun _ => (.ok (), s)

/-- Update the state. -/
def modify (f : σ → σ) : M σ Unit := fun s => (.ok (), f s)

/-- Throw an exception. -/
def throw (e : Exn) : M σ α := fun s => (.throw e, s)

/-- Undefined behaviour. -/
def ub : M σ α := fun s => (.ub, s)

/-- Iteration bound exceeded. -/
def hang : M σ α := fun s => (.hang, s)

/-- Leaving a `noexcept` function. -/
def noexcept (x : M σ α) : M σ α := fun s => ((x s).1.noexcept, (x s).2)

@[simp] theorem pure_apply (a : α) (s : σ) : (pure a : M σ α) s = (.ok a, s) := rfl
@[simp] theorem lift_apply (o : Outcome α) (s : σ) : (lift o : M σ α) s = (o, s) := rfl
@[simp] theorem get_apply (s : σ) : (get : M σ σ) s = (.ok s, s) := rfl
@[simp] theorem set_apply (s s' : σ) : (set s' : M σ Unit) s = (.ok (), s') := rfl
@[simp] theorem modify_apply (f : σ → σ) (s : σ) : (modify f : M σ Unit) s = (.ok (), f s) := rfl
@[simp] theorem throw_apply (e : Exn) (s : σ) : (throw e : M σ α) s = (.throw e, s) := rfl
@[simp] theorem ub_apply (s : σ) : (ub : M σ α) s = (.ub, s) := rfl
@[simp] theorem hang_apply (s : σ) : (hang : M σ α) s = (.hang, s) := rfl
@[simp] theorem noexcept_apply (x : M σ α) (s : σ) :
    (noexcept x) s = ((x s).1.noexcept, (x s).2) := rfl

theorem bind_apply (x : M σ α) (f : α → M σ β) (s : σ) :
    (x >>= f) s = match x s with
      | (.ok a, s') => f a s'
      | (.throw e, s') => (.throw e, s')
      | (.terminate, s') => (.terminate, s')
      | (.ub, s') => (.ub, s')
      | (.hang, s') => (.hang, s') := rfl

theorem bind_ok {x : M σ α} {f : α → M σ β} {s s' : σ} {a : α}
    (h : x s = (.ok a, s')) : (x >>= f) s = f a s' := by
  simp [bind_apply, h]

theorem bind_throw {x : M σ α} {f : α → M σ β} {s s' : σ} {e : Exn}
    (h : x s = (.throw e, s')) : (x >>= f) s = (.throw e, s') := by
  simp [bind_apply, h]

theorem bind_ub {x : M σ α} {f : α → M σ β} {s s' : σ}
    (h : x s = (.ub, s')) : (x >>= f) s = (.ub, s') := by
  simp [bind_apply, h]

end M

end Cmp
