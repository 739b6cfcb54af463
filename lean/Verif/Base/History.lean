import Verif.Base.Outcome

/-
Histories: running a list of operations one after the other.
-/

namespace Cmp

namespace M

variable {σ ι ρ : Type}

/-- Run the operations in order and collect their results; stop at the first that does not
complete. -/
def runList (step : ι → M σ ρ) : List ι → M σ (List ρ)
  | [] => pure []
  | i :: is => do
    let a ← step i
    let as ← runList step is
    pure (a :: as)

/-- The state after the operations, for a caller who catches every exception and carries on. -/
def stateAfter (step : ι → M σ ρ) (s : σ) (ops : List ι) : σ :=
  ops.foldl (fun s i => (step i s).2) s

theorem runList_nil (step : ι → M σ ρ) (s : σ) : runList step [] s = (.ok [], s) := rfl

theorem runList_cons {step : ι → M σ ρ} {i : ι} {is : List ι} {s s' s'' : σ} {a : ρ} {as : List ρ}
    (h : step i s = (.ok a, s')) (hs : runList step is s' = (.ok as, s'')) :
    runList step (i :: is) s = (.ok (a :: as), s'') := by
  simp only [runList]
  rw [bind_ok h, bind_ok hs]
  rfl

theorem runList_append {step : ι → M σ ρ} {is js : List ι} {s s' s'' : σ} {as bs : List ρ}
    (h : runList step is s = (.ok as, s')) (hs : runList step js s' = (.ok bs, s'')) :
    runList step (is ++ js) s = (.ok (as ++ bs), s'') := by
  induction is generalizing s as with
  | nil =>
    simp only [runList_nil, Prod.mk.injEq, Outcome.ok.injEq] at h
    obtain ⟨rfl, rfl⟩ := h
    exact hs
  | cons i is ih =>
    simp only [runList] at h
    rw [bind_apply] at h
    cases e : step i s with
    | mk o t =>
      rw [e] at h
      cases o with
      | ok a =>
        simp only at h
        rw [bind_apply] at h
        cases e' : runList step is t with
        | mk o' t' =>
          rw [e'] at h
          cases o' with
          | ok cs =>
            simp only [pure_apply, Prod.mk.injEq, Outcome.ok.injEq] at h
            obtain ⟨rfl, rfl⟩ := h
            exact runList_cons e (ih e')
          | throw => simp at h
          | terminate => simp at h
          | ub => simp at h
          | hang => simp at h
      | throw => simp at h
      | terminate => simp at h
      | ub => simp at h
      | hang => simp at h

end M

end Cmp
