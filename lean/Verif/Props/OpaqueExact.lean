import Verif.Props.Opaque

/-
C59 in full: what a copied or moved opaque container resource does.
-/

namespace Cmp

/-- The operation makes object `i` from object `j`, or assigns it. -/
def OpaqueOp.Makes (v : Spec.Values) (i j : Nat) (op : OpaqueOp) : Prop :=
  (v i = none ∧ (op = .copyConstruct i j ∨ op = .moveConstruct i j))
    ∨ (v i ≠ none ∧ (op = .copyAssign i j ∨ ∃ again, op = .moveAssign i j again))

/-- What the new object works on if the old one is `r`: after a copy the same as the old object, after
a move a container that was emptied, without a buffer if that was assigned twice. -/
def Spec.worksOn (r : Res Ctr) : OpaqueOp → Res Ctr
  | .moveConstruct .. => { r with dev := { r.dev with content := [] } }
  | .moveAssign _ _ again => ⟨if again then { r.buf with data := [] } else r.buf, { r.dev with content := [] }⟩
  | _ => r

namespace Opaques

theorem agree_runList (ops : List OpaqueOp) (h : ∀ op ∈ ops, ¬ op.IsCopy) {w : Opaques} {v v' : Spec.Values}
    (hw : Agree w v) {results : List ResObs} (hv : M.runList Spec.valueStep ops v = (.ok results, v')) :
    ∃ w', M.runList step ops w = (.ok results, w') ∧ Agree w' v' := by
  induction ops generalizing w v results with
  | nil =>
    cases hv
    exact ⟨w, rfl, hw⟩
  | cons op ops ih =>
    obtain ⟨h1, h2⟩ := agree_step hw op (h op (by simp))
    simp only [M.runList, M.bind_apply] at hv
    cases e1 : step op w with
    | mk o1 w1 =>
      cases e2 : Spec.valueStep op v with
      | mk o2 v2 =>
        rw [e1, e2] at h1 h2
        simp only at h1 h2
        subst h1
        rw [e2] at hv
        cases o1 with
        | ok a =>
          simp only at hv
          cases e3 : M.runList Spec.valueStep ops v2 with
          | mk o3 v3 =>
            rw [e3] at hv
            cases o3 with
            | ok as =>
              simp only [M.pure_apply, Prod.mk.injEq, Outcome.ok.injEq] at hv
              obtain ⟨rfl, rfl⟩ := hv
              obtain ⟨w', e4, h4⟩ := ih (fun op hop => h op (by simp [hop])) h2 e3
              exact ⟨w', M.runList_cons e1 e4, h4⟩
            | _ => simp at hv
        | _ => simp at hv

/-- Using an object whose container is that of another. -/
theorem uses_other {i j : Nat} (hij : i ≠ j) (us : List ResOp) {w : Opaques} {o t : Opaque}
    (hi : w i = some o) (ht : o.target = j) (hj : w j = some t) {rs : List ResObs} {r' : Res Ctr}
    (hrun : M.runList ResOp.run us ⟨o.buf, ⟨o.elem, t.content, o.position, o.lastFill⟩⟩
      = (.ok rs, r')) :
    ∃ w' o', M.runList step (us.map (.use i)) w = (.ok rs, w')
      ∧ w' i = some o' ∧ o'.target = j ∧ o'.content = o.content
      ∧ w' j = some { t with content := r'.dev.content } := by
  induction us generalizing w o t rs with
  | nil =>
    cases hrun
    exact ⟨w, o, rfl, hi, ht, rfl, hj⟩
  | cons u us ih =>
    simp only [M.runList, M.bind_apply] at hrun
    have hk := u.run_keeps ⟨o.buf, ⟨o.elem, t.content, o.position, o.lastFill⟩⟩
    cases e1 : u.run ⟨o.buf, ⟨o.elem, t.content, o.position, o.lastFill⟩⟩ with
    | mk o1 r1 =>
      rw [e1] at hrun hk
      simp only at hk
      cases o1 with
      | ok a =>
        simp only at hrun
        have es : step (.use i u) w = (.ok a, (w.put j (some { t with content := r1.dev.content })).put i
            (some { o with buf := r1.buf, position := r1.dev.position, lastFill := r1.dev.lastFill })) := by
          simp only [step, use, hi, ht, hj, e1]
          simp only [put, if_neg hij, hi]
          simp only [ht]
        have er : r1 = ⟨r1.buf, ⟨o.elem, r1.dev.content, r1.dev.position, r1.dev.lastFill⟩⟩ := by
          rw [← hk]
        cases e3 : M.runList ResOp.run us r1 with
        | mk o3 r3 =>
          rw [e3] at hrun
          cases o3 with
          | ok as =>
            simp only [M.pure_apply, Prod.mk.injEq, Outcome.ok.injEq] at hrun
            obtain ⟨rfl, rfl⟩ := hrun
            obtain ⟨w', o', e4, h1, h2, h3, h4⟩ := ih
              (w := (w.put j (some { t with content := r1.dev.content })).put i
                (some { o with buf := r1.buf, position := r1.dev.position, lastFill := r1.dev.lastFill }))
              (o := { o with buf := r1.buf, position := r1.dev.position, lastFill := r1.dev.lastFill })
              (t := { t with content := r1.dev.content })
              (by simp [put]) ht (by simp [put, hij.symm]) (by rw [← er]; exact e3)
            exact ⟨w', o', M.runList_cons es e4, h1, h2, h3, h4⟩
          | _ => simp at hrun
      | _ => simp at hrun

/-- What a copy or a move leads to. -/
theorem makes_step {w : Opaques} {v : Spec.Values} (h : Agree w v) {i j : Nat} (hij : i ≠ j)
    {op : OpaqueOp} (hop : op.Makes v i j) {r : Res Ctr} (hj : v j = some (some r)) :
    ∃ w' o t, step op w = (.ok .nothing, w') ∧ w' i = some o ∧ o.target = j ∧ w' j = some t
      ∧ o.content = r.dev.content
      ∧ (⟨o.buf, ⟨o.elem, t.content, o.position, o.lastFill⟩⟩ : Res Ctr) = Spec.worksOn r op := by
  have h1 := h j
  cases hw : w j with
  | none =>
    rw [hw] at h1
    simp only [hj] at h1
    cases h1
  | some o =>
    rw [hw] at h1
    simp only [hj, Option.some.injEq] at h1
    obtain ⟨ht, rfl⟩ := h1
    have h2 := h i
    have hji := hij.symm
    rcases hop with ⟨hi, hop⟩ | ⟨hi, hop⟩
    · have hwi : w i = none := by
        cases hwi : w i with
        | none => rfl
        | some =>
          rw [hwi] at h2
          simp only [hi] at h2
          exact absurd h2.2 (by simp)
      rcases hop with rfl | rfl
      · exact ⟨_, o, o, by simp only [step, hwi, hw]; rfl, by simp [put], ht, by simp [put, hji, hw],
          rfl, rfl⟩
      · exact ⟨_, o, movedFrom o, by simp only [step, hwi, hw]; rfl, by simp [put], ht,
          by simp [put, hji], rfl, rfl⟩
    · obtain ⟨a, hwi⟩ : ∃ a, w i = some a := by
        cases hwi : w i with
        | none =>
          rw [hwi] at h2
          exact absurd h2 hi
        | some a => exact ⟨a, rfl⟩
      rcases hop with rfl | ⟨again, rfl⟩
      · exact ⟨_, o, o, by simp only [step, hwi, hw]; rfl, by simp [put], ht, by simp [put, hji, hw],
          rfl, rfl⟩
      · refine ⟨_, if again then { o with buf := { o.buf with data := [] } } else o, movedFrom o,
          by simp only [step, hwi, hw]; rfl, by simp [put], ?_, by simp [put, hji], ?_, ?_⟩
        · cases again <;> exact ht
        · cases again <;> rfl
        · cases again <;> rfl

end Opaques

/-- C59 in full: after a copy or a move from `j` to `i`, in any program that did not copy or move
before, everything done with `i` is done to the container of `j`, which a move has emptied; the
container of `i` stays what it was; and once `j` is gone everything is undefined. -/
theorem C59_exact (ops : List OpaqueOp) (hops : ∀ op ∈ ops, ¬ op.IsCopy) (results : List ResObs)
    (v : Spec.Values) (hv : M.runList Spec.valueStep ops (fun _ => none) = (.ok results, v))
    (i j : Nat) (hij : i ≠ j) (op : OpaqueOp) (hop : op.Makes v i j) (r : Res Ctr)
    (hj : v j = some (some r)) :
    (∀ (us : List ResOp) (rs : List ResObs) (r' : Res Ctr),
      M.runList ResOp.run us (Spec.worksOn r op) = (.ok rs, r') →
      opaqueResults (ops ++ op :: (us.map (.use i) ++ [.content j, .content i])) =
        .ok (results ++ .nothing :: (rs ++ [.bytes r'.dev.content, .bytes r.dev.content])))
    ∧ ∀ u, opaqueResults (ops ++ [op, .destroy j, .use i u]) = .ub := by
  obtain ⟨w, e1, hw⟩ := Opaques.agree_runList ops hops (w := fun _ => none) (fun _ => rfl) hv
  obtain ⟨w', o, t, e2, hi, ht, hj', hc, hr⟩ := Opaques.makes_step hw hij hop hj
  constructor
  · intro us rs r' hrun
    rw [← hr] at hrun
    obtain ⟨w'', o', e3, h1, h2, h3, h4⟩ := Opaques.uses_other hij us hi ht hj' hrun
    have e4 : M.runList Opaques.step [.content j, .content i] w'' =
        (.ok [.bytes r'.dev.content, .bytes r.dev.content], w'') := by
      refine M.runList_cons (a := ResObs.bytes r'.dev.content) (s' := w'') ?_ (M.runList_cons
        (a := ResObs.bytes r.dev.content) (s' := w'') ?_ (M.runList_nil _ _))
      · simp only [Opaques.step, h4]
      · simp only [Opaques.step, h1, h3, hc]
    exact congrArg Prod.fst (M.runList_append e1 (M.runList_cons e2 (M.runList_append e3 e4)))
  · intro u
    have h1 : Opaques.step (.destroy j) w' = (.ok .nothing, w'.put j none) := by
      simp only [Opaques.step, hj']
    have h2 : (Opaques.step (.use i u) (w'.put j none)).1 = .ub := by
      simp only [Opaques.step, Opaques.use, Opaques.put, if_neg hij, hi, ht, if_true]
    have key : ∀ (ops : List OpaqueOp) (w₀ w : Opaques) (results : List ResObs),
        M.runList Opaques.step ops w₀ = (.ok results, w) →
        ∀ ops', (M.runList Opaques.step ops' w).1 = .ub →
        (M.runList Opaques.step (ops ++ ops') w₀).1 = .ub := by
      intro ops
      induction ops with
      | nil =>
        intro w₀ w results e ops' h
        cases e
        exact h
      | cons op ops ih =>
        intro w₀ w results e ops' h
        simp only [M.runList, M.bind_apply, List.cons_append] at e ⊢
        cases e1 : Opaques.step op w₀ with
        | mk o1 w1 =>
          rw [e1] at e
          cases o1 with
          | ok a =>
            simp only at e ⊢
            cases e2 : M.runList Opaques.step ops w1 with
            | mk o2 w2 =>
              rw [e2] at e
              cases o2 with
              | ok as =>
                simp only [M.pure_apply, Prod.mk.injEq, Outcome.ok.injEq] at e
                obtain ⟨-, rfl⟩ := e
                have := ih w1 w2 as e2 ops' h
                cases e3 : M.runList Opaques.step (ops ++ ops') w1 with
                | mk o3 w3 =>
                  rw [e3] at this
                  simp only at this
                  subst this
                  rfl
              | _ => simp at e
          | _ => simp at e
    refine key ops _ w results e1 _ ?_
    refine key [op] w w' [.nothing] (M.runList_cons e2 (M.runList_nil _ _)) _ ?_
    refine key [.destroy j] w' _ [.nothing] (M.runList_cons h1 (M.runList_nil _ _)) [.use i u] ?_
    simp only [M.runList, M.bind_apply]
    cases e : Opaques.step (.use i u) (w'.put j none) with
    | mk a b =>
      rw [e] at h2
      simp only at h2
      subst h2
      rfl

/-- A copy is made and appended to; and a full object is moved. -/
example : ∃ v r r', M.runList Spec.valueStep [.construct 0 1 4 [5#8]] (fun _ => none) =
      (.ok [.nothing], v) ∧ v 0 = some (some r)
    ∧ OpaqueOp.Makes v 1 0 (.copyConstruct 1 0) ∧ OpaqueOp.Makes v 1 0 (.moveConstruct 1 0)
    ∧ M.runList ResOp.run [.read 1, .write [7#8], .flush] (Spec.worksOn r (.copyConstruct 1 0)) =
      (.ok [.bytes [5#8], .number 1, .nothing], r') :=
  ⟨_, _, _, rfl, rfl, .inl ⟨rfl, .inl rfl⟩, .inl ⟨rfl, .inr rfl⟩, rfl⟩

end Cmp
