/-
What is deduced from an argument keeps everything the calls depend on.
-/
import Verif.Spec.TextCalls
import Verif.Props.TypeTraits

namespace Cmp.Types

open Spec

section Const

theorem removeConst_valid : ∀ {A : CType}, Valid A → Valid A.removeConst
  | .object _ _ _, _ => trivial
  | .pointer _ _ _, h => h
  | .array n e, ⟨h1, h2, h3, h4, h5, h6⟩ => by
    refine ⟨h1, removeConst_valid h2, ?_, ?_, ?_, ?_⟩ <;> cases e <;> simp_all [CType.removeConst]
  | .unbounded e, ⟨h2, h3, h4, h5, h6⟩ => by
    refine ⟨removeConst_valid h2, ?_, ?_, ?_, ?_⟩ <;> cases e <;> simp_all [CType.removeConst]
  | .reference _ _, h => h
  | .function _, h => h

theorem removeConst_sizeof (L : Layout) : ∀ A : CType, A.removeConst.sizeof L = A.sizeof L
  | .object _ _ k => by cases k <;> rfl
  | .pointer _ _ _ => rfl
  | .array n e => by simp [CType.removeConst, CType.sizeof, removeConst_sizeof L e]
  | .unbounded _ => rfl
  | .reference _ _ => rfl
  | .function _ => rfl

theorem removeConst_addConst : ∀ A : CType, A.addConst.removeConst = A.removeConst
  | .object _ _ _ => rfl
  | .pointer _ _ _ => rfl
  | .array n e => by simp [CType.removeConst, CType.addConst, removeConst_addConst e]
  | .unbounded e => by simp [CType.removeConst, CType.addConst, removeConst_addConst e]
  | .reference _ _ => rfl
  | .function _ => rfl

theorem removeConst_twice : ∀ A : CType, A.removeConst.removeConst = A.removeConst
  | .object _ _ _ => rfl
  | .pointer _ _ _ => rfl
  | .array n e => by simp [CType.removeConst, removeConst_twice e]
  | .unbounded e => by simp [CType.removeConst, removeConst_twice e]
  | .reference _ _ => rfl
  | .function _ => rfl

theorem deduced_again (A : CType) :
    A.deducedByReference.addConst.deducedByReference = A.deducedByReference := by
  rw [CType.deducedByReference, CType.deducedByReference, removeConst_addConst, removeConst_twice]

theorem deduced_twice (A : CType) : A.deducedByReference.deducedByReference = A.deducedByReference :=
  removeConst_twice A

/-- A property of text that does not depend on whether it may be changed. -/
theorem removeConst_text (A : CType) (p : TextType → Bool) (hp : ∀ f u a b, p ⟨f, u, a⟩ = p ⟨f, u, b⟩) :
    holds A.removeConst p = holds A p := by
  cases A with
  | object a b k => cases k <;> simp [holds, CType.removeConst, textType, hp _ _ _ true]
  | pointer a b t =>
    cases t with
    | object c d k => cases k <;> simp [holds, CType.removeConst, textType]
    | _ => rfl
  | array n e =>
    cases e with
    | object c d k => cases k <;> simp [holds, CType.removeConst, textType, hp _ _ _ true]
    | _ => rfl
  | unbounded e =>
    cases e with
    | object c d k => cases k <;> simp [holds, CType.removeConst, textType, hp _ _ _ true]
    | _ => rfl
  | _ => rfl

theorem removeConst_volatilePointer (A : CType) : volatilePointer A.removeConst = volatilePointer A := by
  cases A <;> rfl

end Const

/-- Whether an argument given by reference meets the constraint. -/
theorem text_deduced (L : Layout) {A : CType} (hv : Valid A) :
    isTextObject L A.deducedByReference =
      if (A.sizeof L).isSome then some ((textType A).isSome && !volatilePointer A) else none := by
  unfold CType.deducedByReference
  split
  · rename_i hs
    have hs' : Sized L A.removeConst := by rw [Sized, removeConst_sizeof]; exact hs
    rw [(C140_exact (removeConst_valid hv) hs').text, removeConst_volatilePointer,
      removeConst_text A _ (fun _ _ _ _ => rfl)]
    cases h : textType A <;> simp [holds, h]
  · rename_i hs
    have hs' : ¬ Sized L A.removeConst := by rw [Sized, removeConst_sizeof]; simpa using hs
    exact (C140_exact_unsized hs').text

theorem filter_unit (v : Bool) (d : CodeUnit) :
    CodeUnit.all.filter (fun c => !v && decide (c = d)) = if v then [] else [d] := by
  cases v <;> cases d <;> decide

/-- What a range of code points is made from. -/
theorem byCodePoint_eq (A : CType) :
    byCodePoint A = match readable A with | some c => .compiled c | none => .broken := by
  have key : CodeUnit.all.filter (convertsToView A) = (readable A).toList := by
    cases A with
    | object a b k => cases k <;> cases b <;> first | rfl | exact filter_unit false _
    | pointer a b t =>
      cases t with
      | object c d k => cases k <;> cases d <;> first | rfl | exact filter_unit false _
      | _ => rfl
    | array n t =>
      cases t with
      | object c d k => cases k <;> cases d <;> first | rfl | exact filter_unit false _
      | _ => rfl
    | unbounded t =>
      cases t with
      | object c d k => cases k <;> cases d <;> first | rfl | exact filter_unit false _
      | _ => rfl
    | _ => rfl
  unfold byCodePoint
  rw [key]
  cases readable A <;> rfl

theorem stringSize_eq (A : CType) : stringSize A = byCodePoint A := by
  unfold stringSize byCodePoint
  cases A with
  | pointer a b t => cases t with
    | object c d k => cases k <;> rfl
    | _ => rfl
  | array n t => cases t with
    | object c d k => cases k <;> rfl
    | _ => rfl
  | unbounded t => cases t with
    | object c d k => cases k <;> rfl
    | _ => rfl
  | object a b k => cases k <;> rfl
  | _ => rfl

theorem readable_deduced (A : CType) : readable A.deducedByReference.addConst = readable A := by
  unfold CType.deducedByReference
  cases A with
  | pointer a b t => cases t with
    | object c d k => cases k <;> rfl
    | _ => rfl
  | array n t => cases t with
    | object c d k => cases k <;> rfl
    | _ => rfl
  | unbounded t => cases t with
    | object c d k => cases k <;> rfl
    | _ => rfl
  | object a b k => cases k <;> rfl
  | _ => rfl

/-- An argument given by reference, in a body. -/
theorem body_eq (A : CType) : byCodePoint A.deducedByReference.addConst =
    match readable A with | some c => .compiled c | none => .broken := by
  rw [byCodePoint_eq, readable_deduced]

/-- What `insert_code_point` makes of a type. -/
theorem insert_eq {L : Layout} (hw : L.wide = 2 ∨ L.wide = 4) {T : CType} (hv : Valid T) (hs : Sized L T) :
    insertCodePoint L T = match (generalizing := false) T with
      | .object false volatile (.string c) =>
        .compiled (if volatile then none else some (writingOf L c))
      | _ => .refused := by
  unfold insertCodePoint
  rw [(C140_exact hv hs).writableOwning]
  cases T with
  | object a b k =>
    cases k <;> cases a <;> cases b <;>
      simp [constrained, holds, textType, volatilePointer, hasSizeType, isSame, pure]
    rename_i c
    cases c <;> simp [writingOf]
    rcases hw with h | h <;> simp [h]
  | pointer a b t =>
    cases t with
    | object c d k => cases k <;> simp [constrained, holds, textType]
    | _ => simp [constrained, holds, textType]
  | array n t =>
    cases t with
    | object c d k => cases k <;> simp [constrained, holds, textType]
    | _ => simp [constrained, holds, textType]
  | unbounded t =>
    cases t with
    | object c d k => cases k <;> simp [constrained, holds, textType]
    | _ => simp [constrained, holds, textType]
  | _ => simp [constrained, holds, textType]

end Cmp.Types
