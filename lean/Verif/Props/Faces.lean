import Verif.Model.Faces

/-
Property C119: the content of a container I/O resource is the same through every class it can be used
as.
-/

namespace Cmp

/-! ### C119 -/

namespace Spec

/-- A resource that has one content, whichever class it is used as. -/
def oneContent : FaceOp → M (Res Ctr) ResObs
  | .use op => op.run
  | .grab _ => fun r => (.ok (.bytes r.dev.content), r)
  | .assign content => fun r => (.ok .nothing, { r with dev := { r.dev with content := content } })
  | .assignOutput content => fun r => (.ok .nothing, { r with dev := { r.dev with content := content } })

/-- The content is used through the I/O class, or not at all. -/
def Own : FaceOp → Bool
  | .use _ => true
  | .grab f => f = .io
  | .assign _ => true
  | .assignOutput _ => false

/-- What is assigned through the output class after a step, having been `last`. -/
def assigned (last : List Byte) : FaceOp → List Byte
  | .assignOutput content => content
  | _ => last

/-- What was last assigned through the output class. -/
def lastOutput (ops : List FaceOp) : List Byte := ops.foldl assigned []

/-- The results of the steps that are chosen. -/
def chosen (p : FaceOp → Bool) : List FaceOp → List ResObs → List ResObs
  | op :: ops, x :: xs => if p op then x :: chosen p ops xs else chosen p ops xs
  | _, _ => []

end Spec

/-- What the steps give that a program performs on a container I/O resource, opaque or transparent. -/
def facesResults (owns : Bool) (elem cap : Nat) (content : List Byte) (ops : List FaceOp) :
    Outcome (List ResObs) :=
  (M.runList Faces.step ops (Faces.make owns elem cap content)).1

/-- What they would give if there was one content. -/
def oneResults (elem cap : Nat) (content : List Byte) (ops : List FaceOp) : Outcome (List ResObs) :=
  (M.runList Spec.oneContent ops ⟨IoBuffer.make cap, Ctr.make elem content⟩).1

/-- C119 fails for opaque resources: a function that takes the I/O resource as an output resource does
not find in it what it writes to it. -/
theorem C119_violated : ¬ ∀ (owns : Bool) (elem cap : Nat) (content : List Byte) (ops : List FaceOp),
    facesResults owns elem cap content ops = oneResults elem cap content ops := by
  intro h
  have := h true 1 0 [1] [.use (.write [7, 8]), .grab .output, .grab .input]
  revert this
  decide +kernel

/-- The steps agree if nothing is done through the base classes of an opaque resource. -/
theorem faces_step {s : Faces} (op : FaceOp) (h : s.owns = false ∨ Spec.Own op = true) :
    (Faces.step op s).1 = (Spec.oneContent op s.res).1
    ∧ (Faces.step op s).2.res = (Spec.oneContent op s.res).2
    ∧ (Faces.step op s).2.owns = s.owns := by
  obtain ⟨o, r, a, b⟩ := s
  cases op with
  | use op => exact ⟨rfl, rfl, rfl⟩
  | grab f =>
    refine ⟨?_, rfl, rfl⟩
    cases o with
    | false => rfl
    | true =>
      rcases h with h | h
      · cases h
      · have : f = .io := by simpa [Spec.Own] using h
        subst this
        rfl
  | assign content => exact ⟨rfl, rfl, rfl⟩
  | assignOutput content =>
    cases o with
    | false => exact ⟨rfl, rfl, rfl⟩
    | true =>
      rcases h with h | h
      · cases h
      · cases h

/-- C119 as far as it holds: for transparent I/O resources, and for opaque ones whose content is looked
at and changed only through the I/O class.  Missing are opaque resources whose content is used through
a base class (`C119_exact`). -/
theorem C119_partial (owns : Bool) (elem cap : Nat) (content : List Byte) (ops : List FaceOp)
    (h : owns = false ∨ ∀ op ∈ ops, Spec.Own op = true) :
    facesResults owns elem cap content ops = oneResults elem cap content ops := by
  unfold facesResults oneResults
  have key : ∀ (s : Faces), (s.owns = false ∨ ∀ op ∈ ops, Spec.Own op = true) →
      (M.runList Faces.step ops s).1 = (M.runList Spec.oneContent ops s.res).1 := by
    clear h
    induction ops with
    | nil => intro s _; rfl
    | cons op ops ih =>
      intro s h
      obtain ⟨h1, h2, h3⟩ := faces_step (s := s) op (h.imp id fun h => h op (by simp))
      rw [M.runList, M.runList, M.bind_apply, M.bind_apply]
      rcases hx : Faces.step op s with ⟨y, s'⟩
      rcases hz : Spec.oneContent op s.res with ⟨z, r'⟩
      rw [hx, hz] at h1 h2
      rw [hx] at h3
      simp only at h1 h2 h3
      subst h1 h2
      cases y with
      | ok x =>
        have e := ih s' (h.imp (fun h => h3.trans h) fun h op hop => h op (by simp [hop]))
        simp only [M.bind_apply]
        rcases ha : M.runList Faces.step ops s' with ⟨p, s''⟩
        rcases hb : M.runList Spec.oneContent ops s'.res with ⟨q, r''⟩
        rw [ha, hb] at e
        simp only at e
        subst e
        cases p <;> rfl
      | _ => rfl
  exact key _ h

/-- An opaque resource whose content is used through the I/O class, and a transparent one whose
content is changed through the output class. -/
example : oneResults 1 2 [1, 2, 3] [.use (.read 1), .assign [7, 8, 9], .use (.read 2), .grab .io]
      = .ok [.bytes [1], .nothing, .bytes [2, 9], .bytes [7, 8, 9]]
    ∧ oneResults 1 0 [] [.assignOutput [5], .grab .input, .use (.read 3)]
      = .ok [.nothing, .bytes [5], .bytes [5]] := by
  refine ⟨?_, ?_⟩ <;> decide +kernel

/-- What the steps leave in the containers of an opaque resource. -/
theorem faces_all (ops : List FaceOp) (s : Faces) (h : s.owns = true) :
    (∀ results s', M.runList Faces.step ops s = (.ok results, s') →
      s'.owns = true ∧ s'.inputs = s.inputs
      ∧ s'.outputs = ops.foldl Spec.assigned s.outputs
      ∧ M.runList Spec.oneContent (ops.filter Spec.Own) s.res
        = (.ok (Spec.chosen Spec.Own ops results), s'.res))
    ∧ ((∀ results, (M.runList Faces.step ops s).1 ≠ .ok results) →
      (M.runList Faces.step ops s).1 = (M.runList Spec.oneContent (ops.filter Spec.Own) s.res).1) := by
  induction ops generalizing s with
  | nil =>
    refine ⟨fun results s' e => ?_, fun hn => absurd rfl (hn [])⟩
    simp only [M.runList, M.pure_apply, Prod.mk.injEq, Outcome.ok.injEq] at e
    obtain ⟨rfl, rfl⟩ := e
    exact ⟨h, rfl, rfl, rfl⟩
  | cons op ops ih =>
    obtain ⟨o, r, a, b⟩ := s
    simp only at h
    subst h
    by_cases hown : Spec.Own op = true
    · obtain ⟨h1, h2, h3⟩ := faces_step (s := ⟨true, r, a, b⟩) op (.inr hown)
      have hin : (Faces.step op ⟨true, r, a, b⟩).2.inputs = a := by
        cases op <;> first | rfl | cases hown
      have hout : (Faces.step op ⟨true, r, a, b⟩).2.outputs = b := by
        cases op <;> first | rfl | cases hown
      have hfold : Spec.assigned b op = b := by
        cases op <;> first | rfl | cases hown
      rw [List.filter_cons_of_pos hown, List.foldl_cons]
      rw [M.runList, M.runList, M.bind_apply, M.bind_apply]
      rcases hx : Faces.step op ⟨true, r, a, b⟩ with ⟨y, s1⟩
      rcases hz : Spec.oneContent op r with ⟨z, r1⟩
      simp only [hx, hz] at h1 h2 h3 hin hout
      subst h1 h2
      cases y with
      | ok x =>
        obtain ⟨i1, i2⟩ := ih s1 h3
        simp only [M.bind_apply]
        rcases ha : M.runList Faces.step ops s1 with ⟨p, s2⟩
        rcases hb : M.runList Spec.oneContent (ops.filter Spec.Own) s1.res with ⟨q, r2⟩
        cases p with
        | ok xs =>
          obtain ⟨j1, j2, j3, j4⟩ := i1 xs s2 ha
          rw [hb] at j4
          simp only [Prod.mk.injEq] at j4
          obtain ⟨rfl, rfl⟩ := j4
          refine ⟨fun results s' e => ?_, fun hn => absurd rfl (hn (x :: xs))⟩
          simp only [M.pure_apply, Prod.mk.injEq, Outcome.ok.injEq] at e
          obtain ⟨rfl, rfl⟩ := e
          refine ⟨j1, j2.trans hin, ?_, ?_⟩
          · rw [j3, hout, hfold]
          · simp only [M.pure_apply, Spec.chosen, hown, if_true]
        | _ =>
          refine ⟨fun results s' e => by simp at e, fun _ => ?_⟩
          have := i2 (fun results => by rw [ha]; simp)
          rw [ha, hb] at this
          simp only at this
          subst this
          rfl
      | _ => exact ⟨fun results s' e => by simp at e, fun _ => rfl⟩
    · have hs : ∃ x, Faces.step op ⟨true, r, a, b⟩ = (.ok x, ⟨true, r, a, Spec.assigned b op⟩) := by
        cases op with
        | use op => exact absurd rfl hown
        | grab f => exact ⟨_, rfl⟩
        | assign content => exact absurd rfl hown
        | assignOutput content => exact ⟨_, rfl⟩
      obtain ⟨x, hs⟩ := hs
      rw [List.filter_cons_of_neg hown, List.foldl_cons, M.runList, M.bind_ok hs]
      generalize Spec.assigned b op = b'
      obtain ⟨i1, i2⟩ := ih ⟨true, r, a, b'⟩ rfl
      rw [M.bind_apply]
      rcases ha : M.runList Faces.step ops ⟨true, r, a, b'⟩ with ⟨p, s2⟩
      cases p with
      | ok xs =>
        obtain ⟨j1, j2, j3, j4⟩ := i1 xs s2 ha
        refine ⟨fun results s' e => ?_, fun hn => absurd rfl (hn (x :: xs))⟩
        simp only [M.pure_apply, Prod.mk.injEq, Outcome.ok.injEq] at e
        obtain ⟨rfl, rfl⟩ := e
        refine ⟨j1, j2, j3, ?_⟩
        rw [j4, Spec.chosen, if_neg hown]
      | _ =>
        refine ⟨fun results s' e => by simp at e, fun _ => ?_⟩
        have := i2 (fun results => by rw [ha]; simp)
        rw [ha] at this
        exact this

/-- C119 in full for opaque resources.  However it was used: the content seen through the input class
is empty; that seen through the output class is what was last assigned through that class; and all
steps that are not on the content through these classes give what they give if the others are left
out and there is one content. -/
theorem C119_exact (elem cap : Nat) (content : List Byte) (ops : List FaceOp) :
    (∀ results, facesResults true elem cap content ops = .ok results →
      facesResults true elem cap content (ops ++ [.grab .input, .grab .output])
        = .ok (results ++ [.bytes [], .bytes (Spec.lastOutput ops)])
      ∧ oneResults elem cap content (ops.filter Spec.Own) = .ok (Spec.chosen Spec.Own ops results))
    ∧ ((∀ results, facesResults true elem cap content ops ≠ .ok results) →
      facesResults true elem cap content ops = oneResults elem cap content (ops.filter Spec.Own)) := by
  obtain ⟨h1, h2⟩ := faces_all ops (Faces.make true elem cap content) rfl
  refine ⟨fun results e => ?_, h2⟩
  rcases hx : M.runList Faces.step ops (Faces.make true elem cap content) with ⟨y, s'⟩
  have hy : y = .ok results := by
    rw [facesResults, hx] at e
    exact e
  subst hy
  obtain ⟨j1, j2, j3, j4⟩ := h1 results s' hx
  constructor
  · have hlast : M.runList Faces.step [.grab .input, .grab .output] s'
        = (.ok [.bytes [], .bytes (Spec.lastOutput ops)], s') := by
      obtain ⟨o, r, a, b⟩ := s'
      simp only at j1 j2 j3
      subst j1 j2 j3
      rfl
    rw [facesResults, M.runList_append hx hlast]
  · show (M.runList Spec.oneContent (ops.filter Spec.Own) (Faces.make true elem cap content).res).1 = _
    rw [j4]

/-- What is written and assigned through the different classes, side by side. -/
example : facesResults true 1 0 [1] [.use (.write [7, 8]), .assignOutput [9], .grab .io, .grab .input,
      .grab .output, .use (.seek 0 .begin), .use (.read 5)]
    = .ok [.number 2, .nothing, .bytes [7, 8, 0], .bytes [], .bytes [9], .nothing, .bytes [7, 8, 0]] := by
  decide +kernel

end Cmp
