import Verif.Model.Application

/-
Properties C69 and C76: the application accessor, and what application objects carry with them.  The
specification reads everything off the history of a program, latest operation first.
-/

namespace Cmp

namespace Spec

/-- The arguments the object at `i` goes back to; `none` if there is no object. -/
def arguments : List AppOp → Nat → Option (Int × Nat)
  | [], _ => none
  | .construct k argc argv :: h, i => if i = k then some (argc, argv) else arguments h i
  | .moveConstruct k j _ :: h, i => if i = k then arguments h j else arguments h i
  | .moveAssign k j _ :: h, i => if i = k then arguments h j else arguments h i
  | .destroy k :: h, i => if i = k then none else arguments h i
  | _ :: h, i => arguments h i

/-- The notice the object at `i` has. -/
def notice : List AppOp → Nat → List (BitVec 8)
  | [], _ => []
  | .construct k _ _ :: h, i => if i = k then [] else notice h i
  | .moveConstruct k j left :: h, i => if i = j then left else if i = k then notice h j else notice h i
  | .moveAssign k j left :: h, i => if i = j then left else if i = k then notice h j else notice h i
  | .setNotice k t :: h, i => if i = k then t else notice h i
  | _ :: h, i => notice h i

/-- The object constructed last, in whatever way. -/
def newest : List AppOp → Option Nat
  | [] => none
  | .construct k _ _ :: _ => some k
  | .moveConstruct k _ _ :: _ => some k
  | _ :: h => newest h

/-- The object constructed last from a command line. -/
def newestFromArguments : List AppOp → Option Nat
  | [] => none
  | .construct k _ _ :: _ => some k
  | _ :: h => newestFromArguments h

/-- What a program may do: construct where there is nothing, use what there is.  No object is moved
into itself while it is being constructed, which construction at a free address already excludes. -/
def appLegal (h : List AppOp) : AppOp → Bool
  | .construct i _ _ => (arguments h i).isNone
  | .moveConstruct i j _ => (arguments h i).isNone && (arguments h j).isSome
  | .moveAssign i j _ => (arguments h i).isSome && (arguments h j).isSome
  | .destroy i | .setNotice i _ | .getArgc i | .getArgv i | .getNotice i => (arguments h i).isSome
  | .app => true

/-- What an operation shows. -/
def appResult (theApp : List AppOp → Option Nat) (h : List AppOp) : AppOp → AppObs
  | .getArgc i => .int ((arguments h i).getD (0, 0)).1
  | .getArgv i => .address (some ((arguments h i).getD (0, 0)).2)
  | .getNotice i => .text (notice h i)
  | .app => .address (theApp h)
  | _ => .nothing

/-- Every operation of a program is allowed when it comes. -/
def appLegalFrom (h : List AppOp) : List AppOp → Bool
  | [] => true
  | op :: ops => appLegal h op && appLegalFrom (op :: h) ops

/-- What a whole program sees. -/
def appResultsFrom (theApp : List AppOp → Option Nat) (h : List AppOp) : List AppOp → List AppObs
  | [] => []
  | op :: ops => appResult theApp h op :: appResultsFrom theApp (op :: h) ops

end Spec

/-- The state of the model that a history stands for. -/
structure Apps.Stands (h : List AppOp) (s : Apps) : Prop where
  objs : ∀ i, s.objs i = (Spec.arguments h i).map fun a => ⟨a.1, a.2, Spec.notice h i⟩
  inst : s.instance? = Spec.newestFromArguments h

theorem Apps.stands_empty : Apps.Stands [] Apps.empty := ⟨fun _ => rfl, rfl⟩

theorem appStep_spec {h : List AppOp} {s : Apps} (hs : Apps.Stands h s) (op : AppOp)
    (hl : Spec.appLegal h op = true) :
    ∃ s', appStep op s = (.ok (Spec.appResult Spec.newestFromArguments h op), s') ∧
      Apps.Stands (op :: h) s' := by
  have ho := hs.objs
  cases op with
  | construct i argc argv =>
    simp only [Spec.appLegal, Option.isNone_iff_eq_none] at hl
    refine ⟨{ s.put i (some ⟨argc, argv, []⟩) with instance? := some i }, ?_, ?_, ?_⟩
    · simp only [appStep, ho, hl, Option.map_none]
      rfl
    · intro k
      simp only [Apps.put, Spec.arguments, Spec.notice, ho]
      by_cases hk : k = i <;> simp [hk]
    · rfl
  | moveConstruct i j left =>
    simp only [Spec.appLegal, Bool.and_eq_true, Option.isNone_iff_eq_none,
      Option.isSome_iff_exists] at hl
    obtain ⟨h1, a, h2⟩ := hl
    refine ⟨(s.put i (some ⟨a.1, a.2, Spec.notice h j⟩)).put j (some ⟨a.1, a.2, left⟩), ?_, ?_, ?_⟩
    · simp only [appStep, ho, h1, h2, Option.map_none, Option.map_some]
      rfl
    · intro k
      have hne : i ≠ j := by rintro rfl; rw [h1] at h2; simp at h2
      simp only [Apps.put, Spec.arguments, Spec.notice, ho]
      by_cases hk : k = j
      · subst hk
        simp [Ne.symm hne, h2]
      · by_cases hk' : k = i <;> simp [hk, hk', h2, hne]
    · exact hs.inst
  | moveAssign i j left =>
    simp only [Spec.appLegal, Bool.and_eq_true, Option.isSome_iff_exists] at hl
    obtain ⟨⟨b, h1⟩, a, h2⟩ := hl
    refine ⟨(s.put i (some ⟨a.1, a.2, Spec.notice h j⟩)).put j (some ⟨a.1, a.2, left⟩), ?_, ?_, ?_⟩
    · simp only [appStep, ho, h1, h2, Option.map_some]
      rfl
    · intro k
      simp only [Apps.put, Spec.arguments, Spec.notice, ho]
      by_cases hk : k = j
      · subst hk
        by_cases hki : k = i <;> simp [hki, h2]
        subst hki
        simp [h2]
      · by_cases hk' : k = i <;> simp [hk, hk', h2]
        subst hk'
        simp [hk]
    · exact hs.inst
  | destroy i =>
    simp only [Spec.appLegal, Option.isSome_iff_exists] at hl
    obtain ⟨a, h1⟩ := hl
    refine ⟨s.put i none, ?_, ?_, ?_⟩
    · simp only [appStep, ho, h1, Option.map_some]
      rfl
    · intro k
      simp only [Apps.put, Spec.arguments, Spec.notice, ho]
      by_cases hk : k = i <;> simp [hk]
    · exact hs.inst
  | setNotice i t =>
    simp only [Spec.appLegal, Option.isSome_iff_exists] at hl
    obtain ⟨a, h1⟩ := hl
    refine ⟨s.put i (some ⟨a.1, a.2, t⟩), ?_, ?_, ?_⟩
    · simp only [appStep, ho, h1, Option.map_some]
      rfl
    · intro k
      simp only [Apps.put, Spec.arguments, Spec.notice, ho]
      by_cases hk : k = i <;> simp [hk, h1]
    · exact hs.inst
  | getArgc i =>
    simp only [Spec.appLegal, Option.isSome_iff_exists] at hl
    obtain ⟨a, h1⟩ := hl
    exact ⟨s, by simp [appStep, ho, h1, Spec.appResult], ho, hs.inst⟩
  | getArgv i =>
    simp only [Spec.appLegal, Option.isSome_iff_exists] at hl
    obtain ⟨a, h1⟩ := hl
    exact ⟨s, by simp [appStep, ho, h1, Spec.appResult], ho, hs.inst⟩
  | getNotice i =>
    simp only [Spec.appLegal, Option.isSome_iff_exists] at hl
    obtain ⟨a, h1⟩ := hl
    exact ⟨s, by simp [appStep, ho, h1, Spec.appResult], ho, hs.inst⟩
  | app => exact ⟨s, by simp [appStep, Spec.appResult, hs.inst], ho, hs.inst⟩

theorem apps_run {h : List AppOp} {s : Apps} (hs : Apps.Stands h s) (ops : List AppOp)
    (hl : Spec.appLegalFrom h ops = true) :
    ∃ s', M.runList appStep ops s =
        (.ok (Spec.appResultsFrom Spec.newestFromArguments h ops), s') ∧
      Apps.Stands (ops.reverse ++ h) s' := by
  induction ops generalizing h s with
  | nil => exact ⟨s, rfl, hs⟩
  | cons op ops ih =>
    simp only [Spec.appLegalFrom, Bool.and_eq_true] at hl
    obtain ⟨s1, e1, hs1⟩ := appStep_spec hs op hl.1
    obtain ⟨s2, e2, hs2⟩ := ih hs1 hl.2
    refine ⟨s2, M.runList_cons e1 e2, ?_⟩
    simpa using hs2

/-- C76: what programs see of their application objects, for every history of construction, moves,
destruction and notices. -/
theorem C76_values (ops : List AppOp) (hl : Spec.appLegalFrom [] ops = true)
    (happ : ∀ op ∈ ops, op ≠ .app) :
    (M.runList appStep ops Apps.empty).1 = .ok (Spec.appResultsFrom Spec.newest [] ops) := by
  obtain ⟨s', e, -⟩ := apps_run Apps.stands_empty ops hl
  rw [e]
  have : ∀ h, Spec.appResultsFrom Spec.newestFromArguments h ops =
      Spec.appResultsFrom Spec.newest h ops := by
    clear hl e
    intro h
    induction ops generalizing h with
    | nil => rfl
    | cons op ops ih =>
      simp only [Spec.appResultsFrom]
      rw [ih fun o ho => happ o (by simp [ho])]
      have hop := happ op (by simp)
      cases op <;> first | rfl | exact absurd rfl hop
  rw [this]

/-- C69 fails: after an application was moved into a new object, `app()` still is the old one, also
when that has been destroyed. -/
theorem C69_violated :
    ¬ ∀ ops : List AppOp, Spec.appLegalFrom [] ops = true →
      (M.runList appStep ops Apps.empty).1 = .ok (Spec.appResultsFrom Spec.newest [] ops) := by
  intro h
  have := h [.construct 0 1 100, .moveConstruct 1 0 [], .destroy 0, .app] (by decide +kernel)
  revert this
  decide +kernel

/-- C69, what holds: in every history without move construction `app()` is the object constructed
last.  Missing: histories in which an application is moved into a new object. -/
theorem C69_partial (ops : List AppOp) (hl : Spec.appLegalFrom [] ops = true)
    (hm : ∀ i j left, AppOp.moveConstruct i j left ∉ ops) :
    (M.runList appStep ops Apps.empty).1 = .ok (Spec.appResultsFrom Spec.newest [] ops) := by
  obtain ⟨s', e, -⟩ := apps_run Apps.stands_empty ops hl
  rw [e]
  have : ∀ h, Spec.newestFromArguments h = Spec.newest h →
      Spec.appResultsFrom Spec.newestFromArguments h ops =
        Spec.appResultsFrom Spec.newest h ops := by
    clear hl e
    intro h hh
    induction ops generalizing h with
    | nil => rfl
    | cons op ops ih =>
      simp only [Spec.appResultsFrom]
      rw [ih (fun i j l hmem => hm i j l (by simp [hmem])) (op :: h)
        (by cases op with
            | moveConstruct i j l => exact absurd (by simp) (hm i j l)
            | construct i c v => rfl
            | _ => exact hh)]
      cases op <;> simp only [Spec.appResult, hh]
  rw [this [] rfl]

/-- C69, what holds with moves: `app()` always is the object constructed last from a command line,
wherever its content has gone.  Missing: the object that content was moved into. -/
theorem C69_partial_moved (ops : List AppOp) (hl : Spec.appLegalFrom [] ops = true) :
    (M.runList appStep ops Apps.empty).1 =
      .ok (Spec.appResultsFrom Spec.newestFromArguments [] ops) := by
  obtain ⟨s', e, -⟩ := apps_run Apps.stands_empty ops hl
  rw [e]

/-- C69: the object `app()` returns is alive unless it was destroyed. -/
theorem C69_partial_alive (before after : List AppOp) (i : Nat) (argc : Int) (argv : Nat)
    (hl : Spec.appLegalFrom [] (before ++ .construct i argc argv :: after) = true)
    (hc : ∀ k c v, AppOp.construct k c v ∉ after) (hd : AppOp.destroy i ∉ after) :
    ∃ s o, M.stateAfter appStep Apps.empty (before ++ .construct i argc argv :: after) = s ∧
      (appStep .app s).1 = .ok (.address (some i)) ∧ s.objs i = some o := by
  obtain ⟨s', e, hs⟩ := apps_run Apps.stands_empty _ hl
  have hstate : M.stateAfter appStep Apps.empty (before ++ .construct i argc argv :: after) = s' := by
    clear hs hl hc hd
    generalize before ++ .construct i argc argv :: after = ops at e
    revert e
    generalize Spec.appResultsFrom Spec.newestFromArguments [] ops = rs
    generalize Apps.empty = s
    induction ops generalizing s rs with
    | nil =>
      intro e
      simp only [M.runList_nil, Prod.mk.injEq] at e
      exact e.2
    | cons op ops ih =>
      intro e
      simp only [M.runList] at e
      rw [M.bind_apply] at e
      cases e1 : appStep op s with
      | mk o t =>
        rw [e1] at e
        cases o with
        | ok a =>
          simp only at e
          rw [M.bind_apply] at e
          cases e2 : M.runList appStep ops t with
          | mk o' t' =>
            rw [e2] at e
            cases o' with
            | ok cs =>
              simp only [M.pure_apply, Prod.mk.injEq] at e
              obtain ⟨-, rfl⟩ := e
              have := ih cs t e2
              simpa [M.stateAfter, e1] using this
            | throw => simp at e
            | terminate => simp at e
            | ub => simp at e
            | hang => simp at e
        | throw => simp at e
        | terminate => simp at e
        | ub => simp at e
        | hang => simp at e
  have hnew : ∀ l : List AppOp, (∀ k c v, AppOp.construct k c v ∉ l) → ∀ h,
      Spec.newestFromArguments (l ++ h) = Spec.newestFromArguments h := by
    intro l hl h
    induction l with
    | nil => rfl
    | cons op l ih =>
      cases op with
      | construct k c v => exact absurd (by simp) (hl k c v)
      | _ => exact ih fun k c v hm => hl k c v (by simp [hm])
  have hargs : ∀ l : List AppOp, (∀ k c v, AppOp.construct k c v ∉ l) → AppOp.destroy i ∉ l → ∀ h,
      Spec.appLegalFrom h l.reverse = true →
      (Spec.arguments h i).isSome → (Spec.arguments (l ++ h) i).isSome := by
    intro l hl hd h hleg hsome
    induction l with
    | nil => exact hsome
    | cons op l ih =>
      have hsplit : ∀ (xs : List AppOp) (h : List AppOp) (o : AppOp),
          Spec.appLegalFrom h (xs ++ [o]) = true →
            Spec.appLegalFrom h xs = true ∧ Spec.appLegal (xs.reverse ++ h) o = true := by
        intro xs
        induction xs with
        | nil => intro h o ho; simpa [Spec.appLegalFrom] using ho
        | cons x xs ihx =>
          intro h o ho
          simp only [List.cons_append, Spec.appLegalFrom, Bool.and_eq_true] at ho
          have := ihx (x :: h) o ho.2
          refine ⟨by simp [Spec.appLegalFrom, ho.1, this.1], ?_⟩
          simpa using this.2
      rw [List.reverse_cons] at hleg
      obtain ⟨hl1, hl2⟩ := hsplit _ _ _ hleg
      rw [List.reverse_reverse] at hl2
      have ih' := ih (fun k c v hm => hl k c v (by simp [hm])) (fun hm => hd (by simp [hm])) hl1
      cases op with
      | construct k c v => exact absurd (by simp) (hl k c v)
      | moveConstruct k j left =>
        simp only [Spec.appLegal, Bool.and_eq_true] at hl2
        simp only [List.cons_append, Spec.arguments]
        by_cases hk : i = k
        · rw [if_pos hk]; exact hl2.2
        · rw [if_neg hk]; exact ih'
      | moveAssign k j left =>
        simp only [Spec.appLegal, Bool.and_eq_true] at hl2
        simp only [List.cons_append, Spec.arguments]
        by_cases hk : i = k
        · rw [if_pos hk]; exact hl2.2
        · rw [if_neg hk]; exact ih'
      | destroy k =>
        simp only [List.cons_append, Spec.arguments]
        by_cases hk : i = k
        · exact absurd (by simp [hk]) hd
        · rw [if_neg hk]; exact ih'
      | _ => exact ih'
  have hsplit2 : ∀ (xs ys : List AppOp) (h : List AppOp),
      Spec.appLegalFrom h (xs ++ ys) = true → Spec.appLegalFrom (xs.reverse ++ h) ys = true := by
    intro xs
    induction xs with
    | nil => intro ys h hh; simpa using hh
    | cons x xs ihx =>
      intro ys h hh
      simp only [List.cons_append, Spec.appLegalFrom, Bool.and_eq_true] at hh
      simpa using ihx ys (x :: h) hh.2
  have hl' := hsplit2 before _ _ hl
  simp only [Spec.appLegalFrom, Bool.and_eq_true] at hl'
  have hrev : (before ++ AppOp.construct i argc argv :: after).reverse ++ [] =
      after.reverse ++ (AppOp.construct i argc argv :: (before.reverse ++ [])) := by simp
  rw [hrev] at hs
  have hsome := hargs after.reverse (by simpa using hc) (by simpa using hd)
    (AppOp.construct i argc argv :: (before.reverse ++ [])) (by simpa using hl'.2)
    (by simp [Spec.arguments])
  obtain ⟨a, ha⟩ := Option.isSome_iff_exists.mp hsome
  refine ⟨s', _, hstate, ?_, by rw [hs.objs i, ha]; rfl⟩
  · simp only [appStep, hs.inst]
    rw [hnew _ (by simpa using hc)]
    rfl

/-- A program with two applications, a notice and a move assignment, which the hypotheses admit. -/
example :
    let ops : List AppOp := [.construct 0 1 100, .setNotice 0 [65], .construct 1 2 200,
      .moveAssign 1 0 [], .getNotice 1, .getArgc 1, .app, .destroy 0, .app]
    Spec.appLegalFrom [] ops = true ∧ (∀ i j left, AppOp.moveConstruct i j left ∉ ops) ∧
      (M.runList appStep ops Apps.empty).1 = .ok [.nothing, .nothing, .nothing, .nothing,
        .text [65], .int 1, .address (some 1), .nothing, .address (some 1)] := by
  refine ⟨by decide +kernel, ?_, by decide +kernel⟩
  intro i j left
  simp

end Cmp
