/-
The ten traits of the character types are two, taken at each of them.
-/
import Verif.Model.TypeTraits
import Verif.Spec.TypeTraits

namespace Cmp.Types

open Spec

/-- The writable traits, at any character type. -/
def isWritableString (L : Layout) (T : CType) (u : CodeUnit) : Option Bool := do
  let size ← arraySize L T u
  pure (isSame T.removeVolatile (.string u)
    || isSame T (.pointer false false (.unit false false u))
    || isSame T (.pointer true false (.unit false false u))
    || isSame T (.pointer false false (.unit false true u))
    || isSame T (.pointer true false (.unit false true u))
    || isSame T (.array size (.unit false false u))
    || isSame T (.array size (.unit false true u)))

/-- The other traits, at any character type. -/
def isString (L : Layout) (T : CType) (u : CodeUnit) : Option Bool := do
  let size ← arraySize L T u
  let writable ← isWritableString L T u
  pure (writable
    || isSame T.removeCv (.view u)
    || isSame T.removeVolatile (.object true false (.string u))
    || isSame T (.pointer false false (.unit true false u))
    || isSame T (.pointer true false (.unit true false u))
    || isSame T (.pointer false false (.unit true true u))
    || isSame T (.pointer true false (.unit true true u))
    || isSame T (.array size (.unit true false u))
    || isSame T (.array size (.unit true true u)))

theorem unit_pos (L : Layout) (u : CodeUnit) : 0 < L.unit u := by
  cases u <;> first | exact L.wide_pos | exact Nat.succ_pos _

theorem arraySize_array (L : Layout) {n : Nat} (h : 0 < n) (a b u) :
    arraySize L (.array n (.unit a b u)) u = some n := by
  have h1 : n * L.unit u / L.unit u = n := Nat.mul_div_cancel _ (unit_pos L u)
  simp only [arraySize, CType.sizeof, Option.map_some, h1, constantMax]
  by_cases h2 : 1 > n
  · omega
  · simp [h2]

/-- What the writable traits answer: they miss the pointers that are `volatile` themselves. -/
theorem isWritableString_eq {L : Layout} {T : CType} (hv : Valid T) (hs : Sized L T) (u : CodeUnit) :
    isWritableString L T u =
      some (holds T (fun t => t.unit = u ∧ t.writable) && !volatilePointer T) := by
  obtain ⟨s, hs⟩ := Option.isSome_iff_exists.1 hs
  cases T with
  | object a b k =>
    have h1 : ∃ m, arraySize L (.object a b k) u = some m := ⟨_, by rw [arraySize, hs]; rfl⟩
    obtain ⟨m, h1⟩ := h1
    cases k <;> cases a <;>
      simp [isWritableString, h1, isSame, CType.removeVolatile, holds, textType, volatilePointer]
  | pointer a b t =>
    obtain ⟨m, h1⟩ : ∃ m, arraySize L (.pointer a b t) u = some m := ⟨_, by rw [arraySize, hs]; rfl⟩
    cases t with
    | object c d k =>
      cases k <;> cases a <;> cases b <;> cases c <;> cases d <;>
        simp [isWritableString, h1, isSame, CType.removeVolatile, holds, textType, volatilePointer]
    | _ => simp [isWritableString, h1, isSame, CType.removeVolatile, holds, textType, volatilePointer]
  | array n e =>
    cases e with
    | object c d k =>
      by_cases hk : k = .unit u
      · subst hk
        cases c <;> cases d <;>
        simp [isWritableString, arraySize_array L hv.1, isSame, CType.removeVolatile, holds, textType,
          volatilePointer]
      · obtain ⟨m, h1⟩ : ∃ m, arraySize L (.array n (.object c d k)) u = some m :=
          ⟨_, by rw [arraySize, hs]; rfl⟩
        cases k <;> cases c <;> cases d <;>
          simp_all [isWritableString, isSame, CType.removeVolatile, holds, textType, volatilePointer]
    | function k => cases hs
    | _ =>
      obtain ⟨m, h1⟩ : ∃ m, arraySize L (.array n _) u = some m := ⟨_, by rw [arraySize, hs]; rfl⟩
      simp [isWritableString, h1, isSame, CType.removeVolatile, holds, textType, volatilePointer]
  | unbounded e => cases hs
  | reference r t =>
    obtain ⟨m, h1⟩ : ∃ m, arraySize L (.reference r t) u = some m := ⟨_, by rw [arraySize, hs]; rfl⟩
    simp [isWritableString, h1, isSame, CType.removeVolatile, holds, textType]
  | function n => cases hs

/-- What the other traits answer. -/
theorem isString_eq {L : Layout} {T : CType} (hv : Valid T) (hs : Sized L T) (u : CodeUnit) :
    isString L T u = some (holds T (fun t => t.unit = u) && !volatilePointer T) := by
  have hw := isWritableString_eq hv hs u
  obtain ⟨s, hs⟩ := Option.isSome_iff_exists.1 hs
  cases T with
  | object a b k =>
    obtain ⟨m, h1⟩ : ∃ m, arraySize L (.object a b k) u = some m := ⟨_, by rw [arraySize, hs]; rfl⟩
    cases k <;> cases a <;>
      simp [isString, hw, h1, isSame, CType.removeVolatile, CType.removeCv, CType.removeConst, holds,
        textType, volatilePointer]
  | pointer a b t =>
    obtain ⟨m, h1⟩ : ∃ m, arraySize L (.pointer a b t) u = some m := ⟨_, by rw [arraySize, hs]; rfl⟩
    cases t with
    | object c d k =>
      cases k <;> cases a <;> cases b <;> cases c <;> cases d <;>
        simp [isString, hw, h1, isSame, CType.removeVolatile, CType.removeCv, CType.removeConst, holds,
          textType, volatilePointer]
    | _ => simp [isString, hw, h1, isSame, CType.removeVolatile, CType.removeCv, CType.removeConst, holds,
        textType, volatilePointer]
  | array n e =>
    cases e with
    | object c d k =>
      by_cases hk : k = .unit u
      · subst hk
        cases c <;> cases d <;>
        simp [isString, hw, arraySize_array L hv.1, isSame, CType.removeVolatile, CType.removeCv,
          CType.removeConst, holds, textType, volatilePointer]
      · obtain ⟨m, h1⟩ : ∃ m, arraySize L (.array n (.object c d k)) u = some m :=
          ⟨_, by rw [arraySize, hs]; rfl⟩
        cases k <;> cases c <;> cases d <;>
          simp_all [isString, isSame, CType.removeVolatile, CType.removeCv, CType.removeConst, holds,
            textType, volatilePointer]
    | function k => cases hs
    | _ =>
      obtain ⟨m, h1⟩ : ∃ m, arraySize L (.array n _) u = some m := ⟨_, by rw [arraySize, hs]; rfl⟩
      simp [isString, hw, h1, isSame, CType.removeVolatile, CType.removeCv, CType.removeConst, holds,
        textType, volatilePointer]
  | unbounded e => cases hs
  | reference r t =>
    obtain ⟨m, h1⟩ : ∃ m, arraySize L (.reference r t) u = some m := ⟨_, by rw [arraySize, hs]; rfl⟩
    simp [isString, hw, h1, isSame, CType.removeVolatile, CType.removeCv, CType.removeConst, holds, textType]
  | function n => cases hs

/-- Without a size there is no answer. -/
theorem isWritableString_none {L : Layout} {T : CType} (hs : ¬ Sized L T) (u : CodeUnit) :
    isWritableString L T u = none := by
  have h : T.sizeof L = none := by simpa [Sized] using hs
  simp [isWritableString, arraySize, h]

theorem isString_none {L : Layout} {T : CType} (hs : ¬ Sized L T) (u : CodeUnit) :
    isString L T u = none := by
  have h : T.sizeof L = none := by simpa [Sized] using hs
  simp [isString, arraySize, h]

theorem writableNames (L : Layout) (T : CType) :
    isWritableCharString L T = isWritableString L T .char ∧
    isWritableUtf8String L T = isWritableString L T .char8 ∧
    isWritableUtf16String L T = isWritableString L T .char16 ∧
    isWritableUtf32String L T = isWritableString L T .char32 ∧
    isWritableWideString L T = isWritableString L T .wide := ⟨rfl, rfl, rfl, rfl, rfl⟩

theorem names (L : Layout) (T : CType) :
    isCharString L T = isString L T .char ∧
    isUtf8String L T = isString L T .char8 ∧
    isUtf16String L T = isString L T .char16 ∧
    isUtf32String L T = isString L T .char32 ∧
    isWideString L T = isString L T .wide := ⟨rfl, rfl, rfl, rfl, rfl⟩

/-- The view traits answer for every type. -/
theorem view_eq (T : CType) (u : CodeUnit) :
    isSame T.removeCv (.view u) = holds T (fun t => t.form = .view ∧ t.unit = u) := by
  cases T with
  | object a b k => cases k <;>
      simp [isSame, CType.removeVolatile, CType.removeCv, CType.removeConst, holds, textType]
  | pointer a b t =>
    cases t with
    | object c d k => cases k <;>
      simp [isSame, CType.removeVolatile, CType.removeCv, CType.removeConst, holds, textType]
    | _ => simp [isSame, CType.removeVolatile, CType.removeCv, CType.removeConst, holds, textType]
  | array n e =>
    cases e with
    | object c d k => cases k <;>
      simp [isSame, CType.removeVolatile, CType.removeCv, CType.removeConst, holds, textType]
    | _ => simp [isSame, CType.removeVolatile, CType.removeCv, CType.removeConst, holds, textType]
  | unbounded e =>
    cases e with
    | object c d k => cases k <;>
      simp [isSame, CType.removeVolatile, CType.removeCv, CType.removeConst, holds, textType]
    | _ => simp [isSame, CType.removeVolatile, CType.removeCv, CType.removeConst, holds, textType]
  | reference r t =>
    simp [isSame, CType.removeVolatile, CType.removeCv, CType.removeConst, holds, textType]
  | function n =>
    simp [isSame, CType.removeVolatile, CType.removeCv, CType.removeConst, holds, textType]

/-- Text is held by what decays to a pointer or by a class. -/
theorem decays {T : CType} {t : TextType} (h : textType T = some t) :
    T.decay.isPointer = (t.form = .pointer ∨ t.form = .array : Bool) := by
  unfold textType at h
  split at h <;> simp_all <;> subst h <;>
    simp [CType.decay, CType.removeReference, CType.isPointer, CType.removeCv, CType.removeVolatile,
      CType.removeConst]

/-- Nothing is changed through a view. -/
theorem view_read {T : CType} {t : TextType} (h : textType T = some t) (hf : t.form = .view) :
    t.writable = false := by
  unfold textType at h
  split at h <;> simp_all <;> subst h <;> simp_all

end Cmp.Types
