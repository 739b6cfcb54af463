import Verif.Proofs.Untouched

/-
Property C59: opaque container resources are independent values.  The specification is a world in
which every object is a self-contained resource; copying copies it, moving takes it away.
-/

namespace Cmp

namespace Spec

/-- The objects that are alive; `some none` is one that was moved from. -/
abbrev Values : Type := Nat → Option (Option (Res Ctr))

def Values.put (w : Values) (i : Nat) (o : Option (Option (Res Ctr))) : Values := fun k =>
  if k = i then o else w k

/-- Value semantics.  Objects that were moved from can only be destroyed and assigned to; doing
other things with them is outside the specification, like doing things with objects that are not
alive. -/
def valueStep : OpaqueOp → M Values ResObs
  | .construct i elem cap content => fun w =>
    match w i with
    | some _ => (.ub, w)
    | none => (.ok .nothing, w.put i (some (some ⟨IoBuffer.make cap, Ctr.make elem content⟩)))
  | .copyConstruct i j => fun w =>
    match w i, w j with
    | none, some (some o) => (.ok .nothing, w.put i (some (some o)))
    | _, _ => (.ub, w)
  | .copyAssign i j => fun w =>
    match w i, w j with
    | some _, some (some o) => (.ok .nothing, w.put i (some (some o)))
    | _, _ => (.ub, w)
  | .moveConstruct i j => fun w =>
    match w i, w j with
    | none, some (some o) => (.ok .nothing, (w.put j (some none)).put i (some (some o)))
    | _, _ => (.ub, w)
  | .moveAssign i j _ => fun w =>
    match w i, w j with
    | some _, some (some o) => (.ok .nothing, (w.put j (some none)).put i (some (some o)))
    | _, _ => (.ub, w)
  | .destroy i => fun w =>
    match w i with
    | none => (.ub, w)
    | some _ => (.ok .nothing, w.put i none)
  | .use i op => fun w =>
    match w i with
    | some (some r) => ((op.run r).1, w.put i (some (some (op.run r).2)))
    | _ => (.ub, w)
  | .content i => fun w =>
    match w i with
    | some (some r) => (.ok (.bytes r.dev.content), w)
    | _ => (.ub, w)

end Spec

/-- What a history of a program that starts without objects returns, in the library and by value
semantics. -/
abbrev opaqueResults (ops : List OpaqueOp) : Outcome (List ResObs) :=
  (M.runList Opaques.step ops (fun _ => none)).1

abbrev valueResults (ops : List OpaqueOp) : Outcome (List ResObs) :=
  (M.runList Spec.valueStep ops (fun _ => none)).1

/-- The operation copies or moves an object. -/
def OpaqueOp.IsCopy : OpaqueOp → Prop
  | .copyConstruct .. => True
  | .copyAssign .. => True
  | .moveConstruct .. => True
  | .moveAssign .. => True
  | _ => False

instance (op : OpaqueOp) : Decidable op.IsCopy := by cases op <;> unfold OpaqueOp.IsCopy <;> infer_instance

/-- Write to a copy: the original has changed, and the copy has not; this fails with a moved object
too, and after the original is gone the behaviour is undefined. -/
theorem C59_violated :
    opaqueResults [.construct 0 1 0 [], .copyConstruct 1 0, .use 1 (.write [7#8]), .content 0,
        .content 1] =
      .ok [.nothing, .nothing, .number 1, .bytes [7#8], .bytes []]
    ∧ opaqueResults [.construct 0 1 0 [5#8], .moveConstruct 1 0, .use 1 (.read 1)] =
      .ok [.nothing, .nothing, .bytes []]
    ∧ opaqueResults [.construct 0 1 0 [], .copyConstruct 1 0, .destroy 0, .use 1 .atEnd] = .ub
    ∧ opaqueResults [.construct 0 1 0 [], .moveConstruct 1 0, .destroy 0, .use 1 .atEnd] = .ub
    ∧ ¬ ∀ ops results, valueResults ops = .ok results → opaqueResults ops = .ok results := by
  refine ⟨by decide +kernel, by decide +kernel, by decide +kernel, by decide +kernel, fun h => ?_⟩
  have h1 := h [.construct 0 1 0 [], .copyConstruct 1 0, .destroy 0, .use 1 .atEnd]
    [.nothing, .nothing, .nothing, .flag true] (by decide +kernel)
  revert h1
  decide +kernel

/-- The objects of the library and of the specification: each points to its own container. -/
def Opaques.Agree (w : Opaques) (v : Spec.Values) : Prop := ∀ i,
  match w i with
  | none => v i = none
  | some o => o.target = i ∧ v i = some (some ⟨o.buf, ⟨o.elem, o.content, o.position, o.lastFill⟩⟩)

theorem Opaques.Agree.put {w : Opaques} {v : Spec.Values} (h : Agree w v) (i : Nat)
    (o : Option Opaque) (r : Option (Option (Res Ctr)))
    (hr : match o with
      | none => r = none
      | some o => o.target = i ∧ r = some (some ⟨o.buf, ⟨o.elem, o.content, o.position, o.lastFill⟩⟩)) :
    Agree (w.put i o) (v.put i r) := by
  intro k
  by_cases hk : k = i
  · subst hk
    simp only [Opaques.put, Spec.Values.put, if_true]
    exact hr
  · simp only [Opaques.put, Spec.Values.put, if_neg hk]
    exact h k

/-- One operation that is no copy or move. -/
theorem Opaques.agree_step {w : Opaques} {v : Spec.Values} (h : Agree w v) (op : OpaqueOp)
    (hop : ¬ op.IsCopy) :
    (step op w).1 = (Spec.valueStep op v).1 ∧ Agree (step op w).2 (Spec.valueStep op v).2 := by
  cases op with
  | construct i elem cap content =>
    have hi := h i
    unfold step Spec.valueStep
    cases hw : w i with
    | none =>
      rw [hw] at hi
      simp only at hi
      simp only [hi, hw]
      exact ⟨trivial, h.put i (some _) _ ⟨rfl, rfl⟩⟩
    | some o =>
      rw [hw] at hi
      simp only at hi
      simp only [hi.2, hw]
      exact ⟨trivial, h⟩
  | copyConstruct i j => exact absurd trivial hop
  | copyAssign i j => exact absurd trivial hop
  | moveConstruct i j => exact absurd trivial hop
  | moveAssign i j again => exact absurd trivial hop
  | destroy i =>
    have hi := h i
    unfold step Spec.valueStep
    cases hw : w i with
    | none =>
      rw [hw] at hi
      simp only at hi
      simp only [hi, hw]
      exact ⟨trivial, h⟩
    | some o =>
      rw [hw] at hi
      simp only at hi
      simp only [hi.2, hw]
      exact ⟨trivial, h.put i none _ rfl⟩
  | content i =>
    have hi := h i
    unfold step Spec.valueStep
    cases hw : w i with
    | none =>
      rw [hw] at hi
      simp only at hi
      simp only [hi, hw]
      exact ⟨trivial, h⟩
    | some o =>
      rw [hw] at hi
      simp only at hi
      simp only [hi.2, hw]
      exact ⟨trivial, h⟩
  | use i op =>
    have hi := h i
    unfold step Spec.valueStep use
    cases hw : w i with
    | none =>
      rw [hw] at hi
      simp only at hi
      simp only [hi, hw]
      exact ⟨trivial, h⟩
    | some o =>
      rw [hw] at hi
      simp only at hi
      obtain ⟨ht, hv⟩ := hi
      have hk : ∀ q : Outcome ResObs × Res Ctr, q.2.dev.elem = o.elem →
          q.2 = ⟨q.2.buf, ⟨o.elem, q.2.dev.content, q.2.dev.position, q.2.dev.lastFill⟩⟩ := by
        rintro q hq
        rw [← hq]
      simp only [hv, ht, hw]
      simp only [Opaques.put, if_true]
      refine ⟨trivial, ?_⟩
      intro k
      by_cases hki : k = i
      · subst hki
        simp only [Opaques.put, Spec.Values.put, if_true]
        refine ⟨trivial, ?_⟩
        exact congrArg (fun r => some (some r)) (hk _ (op.run_keeps _))
      · simp only [Opaques.put, Spec.Values.put, if_neg hki]
        exact h k

/-- C59 for histories without copies and moves: every object is a resource of its own, whatever
happens to the others.  Missing: copies and moves, for which it fails. -/
theorem C59_partial (ops : List OpaqueOp) (h : ∀ op ∈ ops, ¬ op.IsCopy) :
    opaqueResults ops = valueResults ops := by
  suffices ∀ (w : Opaques) (v : Spec.Values), Opaques.Agree w v →
      (M.runList Opaques.step ops w).1 = (M.runList Spec.valueStep ops v).1 from
    this _ _ (fun _ => rfl)
  induction ops with
  | nil => intro w v _; rfl
  | cons op ops ih =>
    intro w v hw
    obtain ⟨h1, h2⟩ := Opaques.agree_step hw op (h op (by simp))
    simp only [M.runList, M.bind_apply]
    cases e1 : Opaques.step op w with
    | mk o1 w1 =>
      cases e2 : Spec.valueStep op v with
      | mk o2 v2 =>
        rw [e1, e2] at h1 h2
        simp only at h1 h2
        subst h1
        cases o1 with
        | ok a =>
          have h3 := ih (fun op hop => h op (by simp [hop])) w1 v2 h2
          simp only
          revert h3
          cases M.runList Opaques.step ops w1 with
          | mk a1 b1 =>
            cases M.runList Spec.valueStep ops v2 with
            | mk a2 b2 =>
              intro h3
              simp only at h3
              subst h3
              cases a1 <;> rfl
        | throw => rfl
        | terminate => rfl
        | ub => rfl
        | hang => rfl

example : ∀ op ∈ [OpaqueOp.construct 0 1 4 [1#8], .construct 1 1 0 [], .use 1 (.write [7#8]),
    .destroy 1, .use 0 (.read 1), .content 0], ¬ op.IsCopy := by decide

end Cmp
