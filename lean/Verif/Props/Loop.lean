import Verif.Proofs.Loop
import Verif.Props.Desk

/-
Properties C92 and C93: the loop of desktop programs returns when the last window is gone, and
handlers may use the library.
-/

namespace Cmp

open Cmp.Spec (GuiWorld Shown DeskWorld Face)

namespace Desk

theorem kept_turns {valid : Str .char8 → Bool}
    (hv : ∀ s, Spec.WellFormed .utf8 (units s) → valid s = true) {t : Toolkit} {keyOf : Nat → Key}
    {sec : Int → ℚ} {w : DeskWorld} {xs : List GuiTurn}
    (hl : Spec.turnsLegal t (Spec.Title t) keyOf sec w xs) :
    Spec.turnsLegal t (Kept valid t) keyOf sec w xs := by
  induction xs generalizing w with
  | nil => trivial
  | cons x xs ih =>
    refine ⟨?_, ih hl.2⟩
    have ha := hl.1
    cases x with
    | keyDown h code acts => exact ⟨ha.1, kept_legal hv ha.2⟩
    | keyUp h code acts => exact ⟨ha.1, kept_legal hv ha.2⟩
    | resize h acts => exact ⟨ha.1, kept_legal hv ha.2⟩
    | closeRequest h r title mode => exact ⟨ha.1, fun hb => kept hv (ha.2 hb)⟩
    | idle clock acts =>
      intro h i hi a hm
      have := ha h i hi a hm
      cases a with
      | op o => exact this
      | look l =>
        cases l with
        | setTitle s => exact kept hv this
        | «show» => exact this
        | hide => exact this

end Desk

open Desk

/-- C92, for all programs: `run` only returns 0, and only when no window is associated with an object
any more. -/
theorem C92_return (t : Toolkit) (valid : Str .char8 → Bool) (sec : Int → ℚ) (xs : List GuiTurn)
    (d d' : Desk) (n : Int) (h : Desk.run valid t sec xs d = (.ok n, d')) :
    n = 0 ∧ d'.gui.assoc = [] := by
  have hdone : ∀ d : Desk, d.gui.assoc.isEmpty = true → (Outcome.ok (0 : Int), d) = (.ok n, d') →
      n = 0 ∧ d'.gui.assoc = [] := by
    intro d he e
    simp only [Prod.mk.injEq, Outcome.ok.injEq] at e
    obtain ⟨rfl, rfl⟩ := e
    exact ⟨rfl, List.isEmpty_iff.mp he⟩
  induction xs generalizing d with
  | nil =>
    simp only [Desk.run] at h
    by_cases he : d.gui.assoc.isEmpty = true
    · rw [if_pos he] at h
      exact hdone d he h
    · rw [if_neg he] at h
      have := congrArg Prod.fst h
      cases this
  | cons x xs ih =>
    simp only [Desk.run] at h
    by_cases he : d.gui.assoc.isEmpty = true
    · rw [if_pos he] at h
      exact hdone d he h
    · rw [if_neg he, M.bind_apply] at h
      rcases ht : turn valid t sec x d with ⟨o, d1⟩
      rw [ht] at h
      cases o with
      | ok u => exact ih d1 h
      | throw x => have := congrArg Prod.fst h; cases this
      | terminate => have := congrArg Prod.fst h; cases this
      | ub => have := congrArg Prod.fst h; cases this
      | hang => have := congrArg Prod.fst h; cases this

/-- C92, what holds: for all programs as in C90, whose handlers of events may do what programs may do,
and whose update handlers may change the title of their own window and show and hide it, `run` returns
0 after the first turn that leaves no window, whatever the environment has in store after it, and
until then every object was told what happened to its window.  Missing: what C64 misses, and update
handlers that open or close windows. -/
theorem C92_partial (t : Toolkit) (valid : Str .char8 → Bool)
    (hv : ∀ s, Spec.WellFormed .utf8 (units s) → valid s = true) (sec : Int → ℚ) (ops : List DeskOp)
    (hl : Spec.deskLegal t (Spec.Title t) (Spec.keyOf t) sec .start ops) (w : DeskWorld)
    (hw : w = Spec.deskAfter (Spec.keyOf t) sec .start ops) (xs ys : List GuiTurn)
    (hx : Spec.turnsLegal t (Spec.Title t) (Spec.keyOf t) sec w xs)
    (hbusy : ∀ p q, xs = p ++ q → q ≠ [] →
      Spec.AnyWindow (Spec.turnsAfter (Spec.keyOf t) sec w p))
    (hdone : ¬ Spec.AnyWindow (Spec.turnsAfter (Spec.keyOf t) sec w xs)) :
    ∃ rs d d', M.runList (Desk.step valid t sec) ops Desk.empty = (.ok rs, d) ∧
      Desk.run valid t sec (xs ++ ys) d = (.ok 0, d') ∧
      ∀ i, heard d'.gui i = (Spec.turnsAfter (Spec.keyOf t) sec w xs).gui.told i := by
  subst hw
  rw [← Gui.keyOf_eq] at *
  obtain ⟨d, e, hs⟩ := run_spec (stands_start False t) sec ops (kept_legal hv hl) (fun h => h.elim)
  obtain ⟨d', e', hs'⟩ := run_turns (valid := valid) hs sec xs ys (kept_turns hv hx) hbusy
  refine ⟨_, d, d', e, ?_, hs'.gui.told⟩
  have hemp : d'.gui.assoc.isEmpty = true := by
    by_contra hne
    exact hdone ((any_iff hs').mp (by simpa using hne))
  rw [e']
  cases ys <;> simp [Desk.run, hemp]

/-- C92 as long as there are windows: `run` does not return, every object was told what happened to
its window, and the windows have the titles and the visibility their handlers gave them. -/
theorem C92_partial_runs (t : Toolkit) (valid : Str .char8 → Bool)
    (hv : ∀ s, Spec.WellFormed .utf8 (units s) → valid s = true) (sec : Int → ℚ) (ops : List DeskOp)
    (hl : Spec.deskLegal t (Spec.Title t) (Spec.keyOf t) sec .start ops) (w : DeskWorld)
    (hw : w = Spec.deskAfter (Spec.keyOf t) sec .start ops) (xs : List GuiTurn)
    (hx : Spec.turnsLegal t (Spec.Title t) (Spec.keyOf t) sec w xs)
    (hbusy : ∀ p q, xs = p ++ q → Spec.AnyWindow (Spec.turnsAfter (Spec.keyOf t) sec w p)) :
    ∃ rs d d', M.runList (Desk.step valid t sec) ops Desk.empty = (.ok rs, d) ∧
      Desk.run valid t sec xs d = (.hang, d') ∧
      (∀ i, heard d'.gui i = (Spec.turnsAfter (Spec.keyOf t) sec w xs).gui.told i) ∧
      ∀ h i, (Spec.turnsAfter (Spec.keyOf t) sec w xs).gui.shows h i = true →
        ∃ n, d'.native h = some n ∧
          n.visible = ((Spec.turnsAfter (Spec.keyOf t) sec w xs).face h).visible ∧
          Desk.getTitle t i d' =
            (.ok ((Spec.turnsAfter (Spec.keyOf t) sec w xs).face h).title, d') := by
  subst hw
  rw [← Gui.keyOf_eq] at *
  obtain ⟨d, e, hs⟩ := run_spec (stands_start False t) sec ops (kept_legal hv hl) (fun h => h.elim)
  obtain ⟨d', e', hs'⟩ := run_turns (valid := valid) hs sec xs [] (kept_turns hv hx)
    (fun p q e _ => hbusy p q e)
  refine ⟨_, d, d', e, ?_, hs'.gui.told, fun h i hi => ?_⟩
  · have hne := (any_iff hs').mpr (hbusy xs [] (by simp))
    rw [List.append_nil] at e'
    rw [e']
    simp [Desk.run, hne]
  · obtain ⟨n, hn, hl⟩ := hs'.native h i hi
    obtain ⟨r, hr⟩ := Gui.shows_iff.mp hi
    obtain ⟨x, hxo, hxh, -⟩ := hs'.gui.showing hr
    refine ⟨n, hn, hl.visible, ?_⟩
    simp only [Desk.getTitle, hxo, hxh, hn, hl.title]

/-- C92 fails for programs in which an object with a window is destroyed: the window stays, and the
loop uses the object. -/
theorem C92_violated :
    ¬ ∀ (t : Toolkit) (ops : List DeskOp) (xs : List GuiTurn) (rs : List DeskResult) (d : Desk),
      M.runList (Desk.step (fun _ => true) t fun n => n) ops Desk.empty = (.ok rs, d) →
      (Desk.run (fun _ => true) t (fun n => n) xs d).1 ≠ .ub := by
  intro h
  let ops : List DeskOp :=
    [.gui (.construct 0 (some 10) 0) [] .standard, .show 0, .gui (.destroy 0) [] .standard]
  have hr : (M.runList (Desk.step (fun _ => true) .gtk fun n => n) ops Desk.empty).1 =
      .ok [.opened none, .nothing, .opened none] := by decide +kernel
  refine h .gtk ops [.idle (fun _ => 0) fun _ => []] [.opened none, .nothing, .opened none]
    (M.runList (Desk.step (fun _ => true) .gtk fun n => n) ops Desk.empty).2 ?_ ?_
  · rw [← hr]
  · decide +kernel

/-- C93, what holds: what a handler of a key or resize event does has the effect it has after the
event, for everything programs may do then: closing the window of the object included, opening others,
moving and destroying objects.  Missing: update handlers. -/
theorem C93_partial (t : Toolkit) (valid : Str .char8 → Bool)
    (hv : ∀ s, Spec.WellFormed .utf8 (units s) → valid s = true) (sec : Int → ℚ) (ops : List DeskOp)
    (hl : Spec.deskLegal t (Spec.Title t) (Spec.keyOf t) sec .start ops) (h i : Nat)
    (hi : (Spec.deskAfter (Spec.keyOf t) sec .start ops).gui.shows h i = true) (acts : List DeskOp)
    (event : GuiOp) (x : GuiTurn)
    (hx : (∃ code, event = .keyDown h code ∧ x = .keyDown h code acts) ∨
      (∃ code, event = .keyUp h code ∧ x = .keyUp h code acts) ∨
      (event = .resize h ∧ x = .resize h acts))
    (ha : Spec.deskLegal t (Spec.Title t) (Spec.keyOf t) sec
      (Spec.deskAfter (Spec.keyOf t) sec .start ops) (.gui event [] .standard :: acts)) :
    ∃ rs d rs' d1 d2, M.runList (Desk.step valid t sec) ops Desk.empty = (.ok rs, d) ∧
      Desk.turn valid t sec x d = (.ok (), d1) ∧
      M.runList (Desk.step valid t sec) (.gui event [] .standard :: acts) d = (.ok rs', d2) ∧
      ∀ k, heard d1.gui k = heard d2.gui k ∧
        (d1.gui.assoc.any fun a => a.2 = k) = (d2.gui.assoc.any fun a => a.2 = k) ∧
        ((d1.gui.assoc.any fun a => a.2 = k) = true →
          ∃ title, Desk.getTitle t k d1 = (.ok title, d1) ∧ Desk.getTitle t k d2 = (.ok title, d2)) := by
  rw [← Gui.keyOf_eq] at *
  obtain ⟨d, e, hs⟩ := run_spec (stands_start False t) sec ops (kept_legal hv hl) (fun h => h.elim)
  have hk := kept_legal hv ha
  obtain ⟨d2, e2, hs2⟩ := run_spec hs sec _ hk (fun h => h.elim)
  have hturn : Spec.turnAllowed t (Kept valid t) (Gui.keyOf t) sec
      (Spec.deskAfter (Gui.keyOf t) sec .start ops) x ∧
      Spec.turnNext (Gui.keyOf t) sec (Spec.deskAfter (Gui.keyOf t) sec .start ops) x =
        Spec.deskAfter (Gui.keyOf t) sec (Spec.deskAfter (Gui.keyOf t) sec .start ops)
          (.gui event [] .standard :: acts) := by
    rcases hx with ⟨code, rfl, rfl⟩ | ⟨code, rfl, rfl⟩ | ⟨rfl, rfl⟩
    · exact ⟨⟨⟨i, hi⟩, hk⟩, rfl⟩
    · exact ⟨⟨⟨i, hi⟩, hk⟩, rfl⟩
    · exact ⟨⟨⟨i, hi⟩, hk⟩, rfl⟩
  obtain ⟨d1, e1, hs1⟩ := turn_spec hs sec x hturn.1
  rw [hturn.2] at hs1
  refine ⟨_, d, _, d1, d2, e, e1, e2, fun k => ⟨?_, ?_, ?_⟩⟩
  · exact (hs1.gui.told k).trans (hs2.gui.told k).symm
  · rw [Bool.eq_iff_iff]
    simp only [List.any_eq_true, decide_eq_true_eq]
    constructor
    · rintro ⟨⟨a, b⟩, hm, rfl⟩
      exact ⟨(a, b), (hs2.gui.owned _ _).mpr ((hs1.gui.owned _ _).mp hm), rfl⟩
    · rintro ⟨⟨a, b⟩, hm, rfl⟩
      exact ⟨(a, b), (hs1.gui.owned _ _).mpr ((hs2.gui.owned _ _).mp hm), rfl⟩
  · intro hany
    simp only [List.any_eq_true, decide_eq_true_eq] at hany
    obtain ⟨⟨a, b⟩, hm, rfl⟩ := hany
    have hsh := (hs1.gui.owned _ _).mp hm
    have htitle : ∀ d', Stands False t (Spec.deskAfter (Gui.keyOf t) sec
        (Spec.deskAfter (Gui.keyOf t) sec .start ops) (.gui event [] .standard :: acts)) d' →
        Desk.getTitle t b d' = (.ok ((Spec.deskAfter (Gui.keyOf t) sec
          (Spec.deskAfter (Gui.keyOf t) sec .start ops) (.gui event [] .standard :: acts)).face a).title,
          d') := by
      intro d' hs'
      obtain ⟨n, hn, hl⟩ := hs'.native a b hsh
      obtain ⟨r, hr⟩ := Gui.shows_iff.mp hsh
      obtain ⟨x, hxo, hxh, -⟩ := hs'.gui.showing hr
      simp only [Desk.getTitle, hxo, hxh, hn, hl.title]
    exact ⟨_, htitle d1 hs1, htitle d2 hs2⟩

/-- C93 fails for update handlers: one that closes its own window, which programs may do at any time,
invalidates the iterators of the loop. -/
theorem C93_violated :
    ¬ ∀ (t : Toolkit) (ops acts : List DeskOp) (clock : Nat → Int),
      Spec.deskLegal t (Spec.Title t) (Spec.keyOf t) (fun n => n) .start
        (ops ++ .gui (.idle clock) [] .standard :: acts) →
      ∀ rs d, M.runList (Desk.step (fun _ => true) t fun n => n) ops Desk.empty = (.ok rs, d) →
        (Desk.turn (fun _ => true) t (fun n => n) (.idle clock fun _ => acts.map .op) d).1 ≠ .ub := by
  intro h
  let ops : List DeskOp := [.gui (.construct 0 (some 10) 0) [] .standard, .show 0]
  have hr : (M.runList (Desk.step (fun _ => true) .gtk fun n => n) ops Desk.empty).1 =
      .ok [.opened none, .nothing] := by decide +kernel
  refine h .gtk ops [.gui (.close 0 { accept := true }) [] .standard] (fun _ => 5) ?_
    [.opened none, .nothing]
    (M.runList (Desk.step (fun _ => true) .gtk fun n => n) ops Desk.empty).2 ?_ ?_
  · have ht : Spec.Title .gtk [] := ⟨[], ⟨by unfold Spec.IsText; decide, rfl⟩, by simp, by simp⟩
    exact ⟨⟨⟨rfl, fun _ => rfl⟩, fun _ => ht⟩, .inr ⟨10, [0], rfl⟩, ⟨trivial, fun hb => absurd rfl hb⟩,
      ⟨trivial, fun hb => absurd rfl hb⟩, trivial⟩
  · rw [← hr]
  · decide +kernel

/-- A program the theorems speak about, in the manner of the example of the library: a window counts
in its title, a key opens a second window and closes the first, and `run` returns when the user closes
the second. -/
example :
    let ops : List DeskOp := [.gui (.construct 0 (some 10) 0) [0x44#8] .standard, .show 0]
    let xs : List GuiTurn :=
      [.idle (fun _ => 3) (fun _ => [.look (.setTitle [0x33#8])]),
        .keyDown 10 0x20 [.gui (.construct 1 (some 11) 4) [0x45#8] .standard,
          .gui (.close 0 { accept := true }) [] .standard],
        .closeRequest 11 { accept := true } [] .standard]
    let w := Spec.deskAfter (Spec.keyOf .gtk) (fun n => n) .start ops
    Spec.deskLegal .gtk (Spec.Title .gtk) (Spec.keyOf .gtk) (fun n => n) .start ops ∧
    Spec.turnsLegal .gtk (Spec.Title .gtk) (Spec.keyOf .gtk) (fun n => n) w xs ∧
    (∀ p q, xs = p ++ q → q ≠ [] →
      Spec.AnyWindow (Spec.turnsAfter (Spec.keyOf .gtk) (fun n => n) w p)) ∧
    ¬ Spec.AnyWindow (Spec.turnsAfter (Spec.keyOf .gtk) (fun n => n) w xs) ∧
    (Spec.turnsAfter (Spec.keyOf .gtk) (fun n => n) w xs).gui.told 0 =
      [.update 3 3, .keyDown .spaceBar, .closeRequest] ∧
    (Spec.turnsAfter (Spec.keyOf .gtk) (fun n => n) w xs).gui.told 1 = [.closeRequest] := by
  intro ops xs w
  have title : ∀ (b : BitVec 8) (n : Nat), b.toNat = n → 0 < n → n < 128 → Spec.Title .gtk [b] := by
    intro b n hb h0 h1
    refine ⟨[n], ⟨?_, ?_⟩, ?_, fun h => by cases h⟩
    · intro c hc
      simp only [List.mem_singleton] at hc
      subst hc
      exact ⟨by omega, by omega⟩
    · simp [units, hb, Spec.Form.encode, Spec.Form.encode1, Spec.utf8, h1]
    · simp; omega
  refine ⟨⟨⟨⟨rfl, fun _ => rfl⟩, fun _ => title _ 0x44 rfl (by decide) (by decide)⟩,
    .inr ⟨10, [0], rfl⟩, trivial⟩, ⟨?_, ⟨⟨0, rfl⟩, ⟨trivial, fun hb => absurd rfl hb⟩, ⟨⟨rfl, ?_⟩, fun _ =>
      title _ 0x45 rfl (by decide) (by decide)⟩, ⟨trivial, fun hb => absurd rfl hb⟩, trivial⟩,
      ⟨⟨⟨1, rfl⟩, trivial⟩, fun hb => absurd rfl hb⟩, trivial⟩, ?_, ?_, by decide +kernel,
      by decide +kernel⟩
  · intro h i _ a ha
    simp only [List.mem_singleton] at ha
    subst ha
    exact title _ 0x33 rfl (by decide) (by decide)
  · intro i
    by_cases h0 : i = 0
    · subst h0; rfl
    · show Shown.is 11 _ = false
      simp [w, ops, Spec.deskAfter, Spec.deskNext, Spec.guiNext, GuiWorld.opened, GuiWorld.put, Shown.is,
        DeskWorld.start, GuiWorld.start, Spec.turnNext, GuiWorld.tell, GuiWorld.shows, h0,
        DeskWorld.change, DeskWorld.window]
  · intro p q e hq
    rcases p with _ | ⟨a, _ | ⟨b, _ | ⟨c, p⟩⟩⟩
    · exact ⟨10, 0, rfl⟩
    · simp only [xs, List.cons_append, List.nil_append, List.cons.injEq] at e
      obtain ⟨rfl, -⟩ := e
      exact ⟨10, 0, rfl⟩
    · simp only [xs, List.cons_append, List.nil_append, List.cons.injEq] at e
      obtain ⟨rfl, rfl, -⟩ := e
      exact ⟨11, 1, rfl⟩
    · simp only [xs, List.cons_append, List.cons.injEq] at e
      obtain ⟨-, -, -, e⟩ := e
      exact absurd (List.append_eq_nil_iff.mp e.symm).2 hq
  · rintro ⟨h, i, hi⟩
    by_cases h0 : i = 0
    · subst h0
      cases hi
    · by_cases h1 : i = 1
      · subst h1
        cases hi
      · have : (Spec.turnsAfter (Spec.keyOf .gtk) (fun n => n) w xs).gui.objs i = none := by
          simp [w, ops, xs, Spec.turnsAfter, Spec.turnNext, Spec.deskAfter, Spec.deskNext, Spec.guiNext,
            GuiWorld.opened, GuiWorld.put, Shown.is, DeskWorld.start, GuiWorld.start, GuiWorld.tell,
            GuiWorld.shows, GuiWorld.request, GuiWorld.vanish, h0, h1, DeskWorld.change,
            DeskWorld.window]
        rw [GuiWorld.shows, this] at hi
        cases hi

end Cmp
