import Mathlib.Tactic.Linarith
import Mathlib.Tactic.FieldSimp
import Verif.Spec.Real
import Verif.Proofs.Gui
import Verif.Props.Key

/-
Properties C64, C65, C66 and C68: events reach the window objects they are meant for, closing,
opening again, and the times passed to updates.
-/

namespace Cmp

namespace Spec

/-- The key a code of a toolkit denotes; codes have 32, 16 and 64 bits. -/
def keyOf : Toolkit → Nat → Key
  | .gtk, code => gtkKey (code % 2 ^ 32)
  | .macos, code => macosKey (code % 2 ^ 16)
  | .windows, code => windowsKey (code % 2 ^ 64)

/-- Something a toolkit reports for the window `h`, and what the object with that window is told. -/
inductive Input (t : Toolkit) (h : Nat) : GuiOp → GuiEvent → Prop
  | keyDown (code : Nat) : Input t h (.keyDown h code) (.keyDown (keyOf t code))
  | keyUp (code : Nat) : Input t h (.keyUp h code) (.keyUp (keyOf t code))
  | resize : Input t h (.resize h) .resize

end Spec

open Cmp.Spec (GuiWorld Shown)

/-- What the object at `i` was told. -/
def heard (s : Gui) (i : Nat) : List GuiEvent := (s.log.filter fun p => p.1 = i).map (·.2)

namespace Gui

theorem keyOf_eq (t : Toolkit) : keyOf t = Spec.keyOf t := by
  funext code
  cases t with
  | gtk =>
    simp only [keyOf, Spec.keyOf]
    rw [C67_gtk, BitVec.toNat_ofNat]
  | macos =>
    simp only [keyOf, Spec.keyOf]
    rw [C67_macos, BitVec.toNat_ofNat]
  | windows =>
    simp only [keyOf, Spec.keyOf]
    rw [C67_windows, BitVec.toNat_ofNat]

theorem legal_append {t : Toolkit} {keyOf : Nat → Key} {sec : Int → ℚ} {w : GuiWorld}
    {xs ys : List GuiOp} : Spec.guiLegal t keyOf sec w (xs ++ ys) ↔
      Spec.guiLegal t keyOf sec w xs ∧
        Spec.guiLegal t keyOf sec (Spec.guiAfter keyOf sec w xs) ys := by
  induction xs generalizing w with
  | nil => simp [Spec.guiLegal, Spec.guiAfter]
  | cons x xs ih =>
    simp only [List.cons_append, Spec.guiLegal, ih, and_assoc]
    rfl

theorem after_append {keyOf : Nat → Key} {sec : Int → ℚ} {w : GuiWorld} {xs ys : List GuiOp} :
    Spec.guiAfter keyOf sec w (xs ++ ys) =
      Spec.guiAfter keyOf sec (Spec.guiAfter keyOf sec w xs) ys := by
  simp [Spec.guiAfter]

theorem results_append {keyOf : Nat → Key} {sec : Int → ℚ} {w : GuiWorld} {xs ys : List GuiOp} :
    Spec.guiResults keyOf sec w (xs ++ ys) =
      Spec.guiResults keyOf sec w xs ++
        Spec.guiResults keyOf sec (Spec.guiAfter keyOf sec w xs) ys := by
  induction xs generalizing w with
  | nil => rfl
  | cons x xs ih =>
    simp only [List.cons_append, Spec.guiResults, ih]
    rfl

/-- At most one object of a reachable world shows a window. -/
theorem unique_after {t : Toolkit} {sec : Int → ℚ} {ops : List GuiOp}
    (hl : Spec.guiLegal t (Spec.keyOf t) sec .start ops) {h i j : Nat}
    (hi : (Spec.guiAfter (Spec.keyOf t) sec .start ops).shows h i = true)
    (hj : (Spec.guiAfter (Spec.keyOf t) sec .start ops).shows h j = true) : i = j := by
  rw [← keyOf_eq] at hl hi hj
  obtain ⟨s, -, hs⟩ := run_spec stands_start sec ops hl
  exact hs.unique hi hj

end Gui

open Gui

/-- C64, what holds: in every history in which objects whose window was closed are not moved,
assigned to or closed again, objects with a window are not destroyed, and assignments to an object
with a window are not vetoed, every object is told exactly what happens to the window it owns, for
all toolkits, and nothing is undefined.  Missing: the histories ruled out, in which the library
misdelivers or has undefined behaviour. -/
theorem C64_partial (t : Toolkit) (sec : Int → ℚ) (ops : List GuiOp)
    (hl : Spec.guiLegal t (Spec.keyOf t) sec .start ops) :
    ∃ s, M.runList (Gui.step t sec) ops Gui.empty =
        (.ok (Spec.guiResults (Spec.keyOf t) sec .start ops), s) ∧
      ∀ i, heard s i = (Spec.guiAfter (Spec.keyOf t) sec .start ops).told i := by
  rw [← keyOf_eq] at hl ⊢
  obtain ⟨s, e, hs⟩ := run_spec stands_start sec ops hl
  exact ⟨s, e, hs.told⟩

/-- C64 for one more event: it is delivered to the owner of the window, and to no other object. -/
theorem C64_partial_owner (t : Toolkit) (sec : Int → ℚ) (ops : List GuiOp)
    (hl : Spec.guiLegal t (Spec.keyOf t) sec .start ops) (h i : Nat)
    (hi : (Spec.guiAfter (Spec.keyOf t) sec .start ops).shows h i = true)
    (op : GuiOp) (e : GuiEvent) (hop : Spec.Input t h op e) :
    ∃ rs s s', M.runList (Gui.step t sec) ops Gui.empty = (.ok rs, s) ∧
      Gui.step t sec op s = (.ok none, s') ∧ heard s' i = heard s i ++ [e] ∧
      ∀ k, k ≠ i → heard s' k = heard s k := by
  have hu := fun k hk => unique_after (j := k) hl hi hk
  rw [← keyOf_eq] at hl hi hu
  obtain ⟨s, e1, hs⟩ := run_spec stands_start sec ops hl
  have hal : Spec.guiAllowed t (Spec.guiAfter (keyOf t) sec .start ops) op := by
    cases hop <;> trivial
  obtain ⟨s', e2, hs'⟩ := step_spec hs sec op hal
  have hnext : Spec.guiNext (keyOf t) sec (Spec.guiAfter (keyOf t) sec .start ops) op =
      (Spec.guiAfter (keyOf t) sec .start ops).tell h e := by
    rw [keyOf_eq]
    cases hop <;> rfl
  rw [hnext] at hs'
  refine ⟨_, s, s', e1, ?_, ?_, ?_⟩
  · rw [e2]
    cases hop <;> rfl
  · have h1 := hs'.told i
    have h2 := hs.told i
    simp only [GuiWorld.tell, hi, if_true] at h1
    unfold heard
    rw [h1, h2]
  · intro k hk
    have h1 := hs'.told k
    have h2 := hs.told k
    have hne : ¬ (Spec.guiAfter (keyOf t) sec .start ops).shows h k = true := by
      intro hc
      exact hk (hu k hc).symm
    simp only [GuiWorld.tell, hne] at h1
    unfold heard
    rw [h1, h2]
    simp

/-- C64 fails: after an assignment whose close request is vetoed, an object is told what happens to
a window it no longer owns. -/
theorem C64_violated :
    ¬ ∀ (t : Toolkit) (ops : List GuiOp) (rs : List (Option Bool)) (s s' : Gui) (h i : Nat) (x : Win),
      M.runList (Gui.step t fun n => n) ops Gui.empty = (.ok rs, s) →
      Gui.step t (fun n => n) (.resize h) s = (.ok none, s') → heard s' i ≠ heard s i →
      s.objs i = some x → x.handle = some h := by
  intro hall
  let ops : List GuiOp := [.construct 0 (some 10) 0, .construct 1 (some 11) 0,
    .moveAssign 0 1 { accept := false }]
  have h := hall .gtk ops [none, none, none] (M.runList (Gui.step .gtk fun n => n) ops Gui.empty).2
    (M.runList (Gui.step .gtk fun n => n) (ops ++ [.resize 10]) Gui.empty).2 10 0
    ⟨some 11, 0, 0⟩ (Prod.ext (by decide +kernel) rfl) (Prod.ext (by decide +kernel) rfl)
    (by decide +kernel) (by decide +kernel)
  exact absurd h (by decide)

/-- C64 fails: moving an object whose window was closed is undefined behaviour, on all toolkits. -/
theorem C64_violated_closed (t : Toolkit) (sec : Int → ℚ) :
    (M.runList (Gui.step t sec) [.construct 0 (some 10) 0, .close 0 { accept := true },
      .moveConstruct 1 0] Gui.empty).1 = .ub := by
  cases t <;> rfl

theorem Gui.run_inputs {t : Toolkit} {sec : Int → ℚ} {h : Nat} {w : GuiWorld} {s : Gui}
    (hs : Stands w s) (ps : List (GuiOp × GuiEvent)) (hp : ∀ p ∈ ps, Spec.Input t h p.1 p.2) :
    ∃ rs s', M.runList (Gui.step t sec) (ps.map (·.1)) s = (.ok rs, s') ∧
      ∀ k, heard s' k = if w.shows h k then heard s k ++ ps.map (·.2) else heard s k := by
  induction ps generalizing w s with
  | nil => exact ⟨[], s, rfl, fun k => by simp⟩
  | cons p ps ih =>
    obtain ⟨op, ev⟩ := p
    have hp1 := hp (op, ev) (by simp)
    dsimp only at hp1
    have hal : Spec.guiAllowed t w op := by cases hp1 <;> trivial
    obtain ⟨s1, e1, hs1⟩ := step_spec hs sec op hal
    have hnext : Spec.guiNext (keyOf t) sec w op = w.tell h ev := by
      rw [keyOf_eq]
      cases hp1 <;> rfl
    rw [hnext] at hs1
    obtain ⟨rs, s', e2, h2⟩ := ih hs1 fun q hq => hp q (by simp [hq])
    refine ⟨_, s', M.runList_cons e1 e2, ?_⟩
    intro k
    rw [h2 k, tell_shows]
    have h3 : heard s1 k = if w.shows h k then heard s k ++ [ev] else heard s k := by
      have a := hs1.told k
      have b := hs.told k
      unfold heard
      rw [a, b]
      rfl
    rw [h3]
    by_cases hk : w.shows h k = true <;> simp [hk]

/-- C65, what holds: after every such history and a request to close the window `h` of the object
`i`, the handler of `i` is asked, and then whatever is reported for `h` is told to `i` if it vetoed
and to nobody if it did not.  The handler may construct another window before it answers, provided
the memory of the list of windows is not outgrown by that when the window is to close.  Missing: that
case, and handlers that do other things to windows. -/
theorem C65_partial (t : Toolkit) (sec : Int → ℚ) (ops : List GuiOp)
    (hl : Spec.guiLegal t (Spec.keyOf t) sec .start ops) (h i : Nat)
    (hi : (Spec.guiAfter (Spec.keyOf t) sec .start ops).shows h i = true) (r : CloseReply)
    (hr : Spec.replyAllowed (Spec.guiAfter (Spec.keyOf t) sec .start ops) r)
    (ps : List (GuiOp × GuiEvent)) (hp : ∀ p ∈ ps, Spec.Input t h p.1 p.2) :
    ∃ rs s rs' s', M.runList (Gui.step t sec) ops Gui.empty = (.ok rs, s) ∧
      M.runList (Gui.step t sec) (.closeRequest h r :: ps.map (·.1)) s = (.ok rs', s') ∧
      heard s' i = heard s i ++ [.closeRequest] ++ (if r.accept then [] else ps.map (·.2)) ∧
      ∀ k, k ≠ i → heard s' k = heard s k := by
  have hu := fun k hk => unique_after (j := k) hl hi hk
  rw [← keyOf_eq] at hl hi hu hr
  obtain ⟨s, e1, hs⟩ := run_spec stands_start sec ops hl
  generalize Spec.guiAfter (keyOf t) sec .start ops = w at *
  obtain ⟨s1, e2, hs1⟩ := step_spec hs sec (.closeRequest h r) ⟨⟨i, hi⟩, hr⟩
  obtain ⟨rs, s', e3, h3⟩ := Gui.run_inputs (sec := sec) hs1 ps hp
  have htold : ∀ k, (w.request h r).told k =
      if w.shows h k then w.told k ++ [.closeRequest] else w.told k := by
    intro k
    unfold GuiWorld.request
    cases r.dialog with
    | none => cases r.accept <;> rfl
    | some d => cases r.accept <;> rfl
  have hheard : ∀ k, heard s1 k =
      if w.shows h k then heard s k ++ [.closeRequest] else heard s k := by
    intro k
    unfold heard
    rw [hs1.told k, hs.told k]
    exact htold k
  have hshows : ∀ k, (w.request h r).shows h k =
      (if r.accept then false else w.shows h k) := by
    intro k
    have hrep : (replied w h r).shows h k = w.shows h k := by
      unfold replied
      unfold Spec.replyAllowed at hr
      cases hd : r.dialog with
      | none => rfl
      | some d =>
        obtain ⟨k', h', now, grows⟩ := d
        rw [hd] at hr
        obtain ⟨hk', hf, -⟩ := hr
        dsimp only
        rw [shows_put]
        by_cases hkk : k = k'
        · subst hkk
          rw [if_pos rfl, shows_none hk', is_showing]
          have : h' ≠ h := by
            rintro rfl
            rw [hf i] at hi
            exact absurd hi (by simp)
          simp [this]
        · rw [if_neg hkk]
          rfl
    rw [request_eq]
    cases r.accept with
    | false =>
      simp only [Bool.false_eq_true, if_false]
      exact hrep
    | true =>
      simp only [if_true]
      change Shown.is h (if (replied w h r).shows h k = true then some .closed else _) = false
      by_cases hk : (replied w h r).shows h k = true
      · rw [if_pos hk]
        rfl
      · rw [if_neg hk]
        exact Bool.eq_false_iff.mpr hk
  have hshows' : ∀ k, (Spec.guiNext (keyOf t) sec w (.closeRequest h r)).shows h k =
      (if r.accept then false else w.shows h k) := hshows
  refine ⟨_, s, _, s', e1, M.runList_cons e2 e3, ?_, ?_⟩
  · rw [h3 i, hheard i]
    simp only [hshows', hi]
    cases r.accept <;> simp
  · intro k hk
    have hne : w.shows h k = false := by
      by_contra hc
      exact hk (hu k (by simpa using hc)).symm
    rw [h3 k, hheard k]
    simp only [hshows', hne]
    cases r.accept <;> simp

/-- C65 fails: a handler that constructs another window and then lets its own close makes the library
erase through an invalid iterator when the list of windows has to grow. -/
theorem C65_violated (t : Toolkit) (sec : Int → ℚ) :
    (M.runList (Gui.step t sec) [.construct 0 (some 10) 0,
      .closeRequest 10 { accept := true, dialog := some (1, 11, 0, true) }] Gui.empty).1 = .ub := by
  cases t <;> rfl

/-- C66 fails, always: whatever happened before, opening an object whose window was closed returns
`false` and opens nothing. -/
theorem C66_violated (t : Toolkit) (sec : Int → ℚ) (ops : List GuiOp)
    (hl : Spec.guiLegal t (Spec.keyOf t) sec .start ops) (i h : Nat) (now : Int)
    (hi : (Spec.guiAfter (Spec.keyOf t) sec .start ops).objs i = some .closed) :
    ∃ rs s, M.runList (Gui.step t sec) ops Gui.empty = (.ok rs, s) ∧
      Gui.step t sec (.open i (some h) now) s = (.ok (some false), s) := by
  rw [← keyOf_eq] at hl hi
  obtain ⟨s, e1, hs⟩ := run_spec stands_start sec ops hl
  obtain ⟨x, hx⟩ := hs.alive (i := i) (by rw [hi]; simp)
  have hf := hs.objs i
  rw [hi, hx] at hf
  obtain ⟨h', hh⟩ := hf
  refine ⟨_, s, e1, ?_⟩
  have : Gui.open t i (some h) now s = (.ok false, s) := by simp [Gui.open, hx, hh]
  simp only [Gui.step]
  rw [M.bind_ok this]
  rfl

/-- The case C66 is about: an object is constructed, its window closes, it is opened again. -/
theorem C66_violated_example (t : Toolkit) (sec : Int → ℚ) :
    (M.runList (Gui.step t sec) [.construct 0 (some 10) 0, .close 0 { accept := true },
      .open 0 (some 11) 1] Gui.empty).1 = .ok [none, none, some false] := by
  cases t <;> rfl

/-- C66, what holds: an object whose window was moved away can be opened again, and is told what is
reported for its new window.  Missing: objects whose window was closed. -/
theorem C66_partial (t : Toolkit) (sec : Int → ℚ) (ops : List GuiOp) (i k h : Nat) (now : Int)
    (hl : Spec.guiLegal t (Spec.keyOf t) sec .start (ops ++ [.moveConstruct k i]))
    (hf : (Spec.guiAfter (Spec.keyOf t) sec .start (ops ++ [.moveConstruct k i])).Fresh h)
    (ps : List (GuiOp × GuiEvent)) (hp : ∀ p ∈ ps, Spec.Input t h p.1 p.2) :
    ∃ rs s s1 rs' s', M.runList (Gui.step t sec) (ops ++ [.moveConstruct k i]) Gui.empty =
        (.ok rs, s) ∧
      Gui.step t sec (.open i (some h) now) s = (.ok (some true), s1) ∧
      M.runList (Gui.step t sec) (ps.map (·.1)) s1 = (.ok rs', s') ∧
      heard s' i = heard s i ++ ps.map (·.2) := by
  rw [← keyOf_eq] at hl hf
  obtain ⟨s, e1, hs⟩ := run_spec stands_start sec _ hl
  have hobj : (Spec.guiAfter (keyOf t) sec .start (ops ++ [.moveConstruct k i])).objs i =
      some .empty := by
    rw [after_append]
    simp [Spec.guiAfter, Spec.guiNext, GuiWorld.put]
  obtain ⟨s1, e2, hs1⟩ := step_spec (t := t) hs sec (.open i (some h) now)
    ⟨by rw [hobj]; simp, hf⟩
  generalize Spec.guiAfter (keyOf t) sec .start (ops ++ [.moveConstruct k i]) = w at *
  obtain ⟨rs', s', e3, h3⟩ := Gui.run_inputs (sec := sec) hs1 ps hp
  refine ⟨_, s, s1, rs', s', e1, ?_, e3, ?_⟩
  · rw [e2]
    simp [Spec.guiResult, hobj]
  · have hsh : (Spec.guiNext (keyOf t) sec w (.open i (some h) now)).shows h i = true := by
      simp only [Spec.guiNext, GuiWorld.opened, hobj, if_true]
      rw [shows_put]
      simp
    rw [h3 i, hsh, if_pos rfl]
    congr 1
    unfold heard
    rw [hs1.told i, hs.told i]
    simp only [Spec.guiNext, GuiWorld.opened, hobj, if_true]
    rfl

/-- C66: opening an object that has a window returns `false` and changes nothing. -/
theorem C66_partial_open (t : Toolkit) (sec : Int → ℚ) (ops : List GuiOp)
    (hl : Spec.guiLegal t (Spec.keyOf t) sec .start ops) (i h h' : Nat) (now : Int)
    (hi : (Spec.guiAfter (Spec.keyOf t) sec .start ops).shows h' i = true) :
    ∃ rs s, M.runList (Gui.step t sec) ops Gui.empty = (.ok rs, s) ∧
      Gui.step t sec (.open i (some h) now) s = (.ok (some false), s) := by
  rw [← keyOf_eq] at hl hi
  obtain ⟨s, e1, hs⟩ := run_spec stands_start sec ops hl
  obtain ⟨r, hr⟩ := shows_iff.mp hi
  obtain ⟨x, hx, hh, -⟩ := hs.showing hr
  refine ⟨_, s, e1, ?_⟩
  have : Gui.open t i (some h) now s = (.ok false, s) := by simp [Gui.open, hx, hh]
  simp only [Gui.step]
  rw [M.bind_ok this]
  rfl

namespace Spec

/-- The updates a window sees at the times `ts`: `prev` is the previous reading, `sum` the sum of the
differences so far. -/
def frames (sec : Int → ℚ) (prev sum : Int) : List Int → List GuiEvent
  | [] => []
  | t :: ts => .update (sec (t - prev)) (sec (sum + (t - prev))) :: frames sec t (sum + (t - prev)) ts

/-- The times in updates. -/
def GuiEvent.delta : GuiEvent → ℚ
  | .update d _ => d
  | _ => 0

def GuiEvent.total : GuiEvent → ℚ
  | .update _ t => t
  | _ => 0

end Spec

theorem Gui.run_idle {t : Toolkit} {sec : Int → ℚ} {w : GuiWorld} {s : Gui} {i h : Nat}
    (hs : Stands w s) {readings : List Int} {prev : Int}
    (hi : w.objs i = some (.showing h readings)) (hprev : readings.head? = some prev)
    (ts : List Int) :
    ∃ rs s', M.runList (Gui.step t sec) (ts.map fun t => .idle fun _ => t) s = (.ok rs, s') ∧
      heard s' i = heard s i ++ Spec.frames sec prev (Spec.elapsed readings) ts := by
  induction ts generalizing w s readings prev with
  | nil => exact ⟨[], s, rfl, by simp [Spec.frames]⟩
  | cons t0 ts ih =>
    obtain ⟨s1, e1, hs1⟩ := step_spec (t := t) hs sec (.idle fun _ => t0) trivial
    have hi1 : (Spec.guiNext (keyOf t) sec w (.idle fun _ => t0)).objs i =
        some (.showing h (t0 :: readings)) := by
      simp only [Spec.guiNext, hi]
    obtain ⟨rs, s', e2, h2⟩ := ih hs1 hi1 rfl
    refine ⟨_, s', M.runList_cons e1 e2, ?_⟩
    cases readings with
    | nil => simp at hprev
    | cons p rest =>
      simp only [List.head?_cons, Option.some.injEq] at hprev
      subst hprev
      have hel : Spec.elapsed (t0 :: p :: rest) = Spec.elapsed (p :: rest) + (t0 - p) := by
        simp only [Spec.elapsed]
        omega
      rw [h2, hel]
      have h3 : heard s1 i = heard s i ++
          [.update (sec (t0 - p)) (sec (Spec.elapsed (p :: rest) + (t0 - p)))] := by
        unfold heard
        rw [hs1.told i, hs.told i]
        simp only [Spec.guiNext, hi, Spec.updateEvent, List.take_succ_cons, List.take_zero]
        rw [hel]
        simp [Spec.elapsed]
      rw [h3, List.append_assoc]
      rfl

/-- C68, what holds: in ticks of the clock.  After every history the updates of a window that was
just opened get the differences of consecutive readings and the sum of all differences since the
opening, each converted to seconds once.  `C64_partial` says the same of updates that are interspersed
with other events, and of windows that are moved.  Missing: the sum of the converted differences. -/
theorem C68_partial (t : Toolkit) (sec : Int → ℚ) (ops : List GuiOp) (i h : Nat) (t0 : Int)
    (hl : Spec.guiLegal t (Spec.keyOf t) sec .start (ops ++ [.construct i (some h) t0]))
    (ts : List Int) :
    ∃ rs s rs' s', M.runList (Gui.step t sec) (ops ++ [.construct i (some h) t0]) Gui.empty =
        (.ok rs, s) ∧
      M.runList (Gui.step t sec) (ts.map fun t => .idle fun _ => t) s = (.ok rs', s') ∧
      heard s' i = heard s i ++ Spec.frames sec t0 0 ts := by
  rw [← keyOf_eq] at hl
  obtain ⟨s, e1, hs⟩ := run_spec stands_start sec _ hl
  have hobj : (Spec.guiAfter (keyOf t) sec .start (ops ++ [.construct i (some h) t0])).objs i =
      some (.showing h [t0]) := by
    rw [after_append]
    generalize Spec.guiAfter (keyOf t) sec .start ops = w
    change ((w.put i (some .empty)).opened i (some h) t0).objs i = _
    rw [opened_put]
    simp [GuiWorld.put]
  obtain ⟨rs', s', e2, h2⟩ := Gui.run_idle (t := t) (sec := sec) hs hobj rfl ts
  exact ⟨_, s, rs', s', e1, e2, h2⟩

/-- C68, when the conversion to seconds does not round: the total of every update is the sum of all
deltas up to it. -/
theorem C68_partial_exact (sec : Int → ℚ) (hsec : ∀ a b, sec (a + b) = sec a + sec b)
    (prev : Int) (ts : List Int) (n : Nat) (hn : n < (Spec.frames sec prev 0 ts).length) :
    Spec.GuiEvent.total ((Spec.frames sec prev 0 ts)[n]) =
      (((Spec.frames sec prev 0 ts).take (n + 1)).map Spec.GuiEvent.delta).sum := by
  have h0 : sec 0 = 0 := by
    have := hsec 0 0
    simp only [add_zero] at this
    linarith
  have key : ∀ (ts : List Int) (prev sum : Int) (n : Nat)
      (hn : n < (Spec.frames sec prev sum ts).length),
      Spec.GuiEvent.total ((Spec.frames sec prev sum ts)[n]) =
        sec sum + (((Spec.frames sec prev sum ts).take (n + 1)).map Spec.GuiEvent.delta).sum := by
    intro ts
    induction ts with
    | nil => intro prev sum n hn; simp [Spec.frames] at hn
    | cons t ts ih =>
      intro prev sum n hn
      cases n with
      | zero => simp [Spec.frames, Spec.GuiEvent.total, Spec.GuiEvent.delta, hsec]
      | succ n =>
        simp only [Spec.frames, List.length_cons, Nat.add_lt_add_iff_right] at hn
        simp only [Spec.frames, List.getElem_cons_succ, List.take_succ_cons, List.map_cons,
          List.sum_cons]
        rw [ih t _ n hn, hsec]
        simp only [Spec.GuiEvent.delta]
        ring
  have := key ts prev 0 n hn
  rw [h0, zero_add] at this
  exact this

theorem binary64_not_tenth : ¬ Spec.binary64.Has (1 / 10) := by
  rintro ⟨m, e, -, -, he⟩
  have h1 : (1 : ℚ) = 10 * m * (2 : ℚ) ^ e := by
    rw [mul_assoc, ← he]
    norm_num
  by_cases hneg : e < 0
  · obtain ⟨k, rfl⟩ : ∃ k : Nat, e = -(k : Int) := ⟨(-e).toNat, by omega⟩
    rw [zpow_neg, zpow_natCast] at h1
    have h2 : ((2 ^ k : Int) : ℚ) = ((10 * m : Int) : ℚ) := by
      have hp : ((2 : ℚ) ^ k) ≠ 0 := by positivity
      field_simp at h1
      push_cast
      linarith
    have h3 : (2 ^ k : Int) = 10 * m := by exact_mod_cast h2
    have h5 : (5 : Int) ∣ 2 ^ k := ⟨2 * m, by rw [h3]; ring⟩
    have hmod : ∀ k : Nat, (2 ^ k : Int) % 5 ≠ 0 := by
      intro k
      induction k with
      | zero => decide
      | succ k ih => rw [pow_succ]; omega
    exact hmod k (Int.emod_eq_zero_of_dvd h5)
  · obtain ⟨k, rfl⟩ : ∃ k : Nat, e = (k : Int) := ⟨e.toNat, by omega⟩
    rw [zpow_natCast] at h1
    have h3 : (1 : Int) = 10 * m * 2 ^ k := by exact_mod_cast h1
    have : (10 : Int) ∣ 1 := ⟨m * 2 ^ k, by rw [h3]; ring⟩
    omega

/-- C68 fails for every conversion of nanoseconds to values of `double` that turns 10^9 ns into 1:
ten updates 0.1 s apart get deltas whose sum is not the total of the last. -/
theorem C68_violated (t : Toolkit) (sec : Int → ℚ) (hsec : ∀ n, Spec.binary64.Has (sec n))
    (hone : sec 1000000000 = 1) :
    ¬ ∀ (t0 : Int) (ts : List Int) (s : Gui) (rs : List (Option Bool)) (e : GuiEvent),
      M.runList (Gui.step t sec)
        (.construct 0 (some 10) t0 :: ts.map fun t => .idle fun _ => t) Gui.empty = (.ok rs, s) →
      (heard s 0).getLast? = some e →
      Spec.GuiEvent.total e = ((heard s 0).map Spec.GuiEvent.delta).sum := by
  intro hall
  obtain ⟨rs, s, rs', s', e1, e2, h2⟩ := C68_partial t sec [] 0 10 0
    ⟨⟨rfl, fun _ => rfl⟩, trivial⟩ [100000000, 200000000, 300000000, 400000000, 500000000, 600000000,
      700000000, 800000000, 900000000, 1000000000]
  have hrun := M.runList_append e1 e2
  have hs0 : heard s 0 = [] := by
    have : s = (M.runList (Gui.step t sec) ([] ++ [.construct 0 (some 10) 0]) Gui.empty).2 := by
      rw [e1]
    rw [this]
    cases t <;> rfl
  rw [hs0, List.nil_append] at h2
  have h := hall 0 _ s' _ (.update (sec 100000000) (sec 1000000000)) hrun (by
    rw [h2]
    simp [Spec.frames])
  rw [h2] at h
  simp only [Spec.frames, Spec.GuiEvent.total, Spec.GuiEvent.delta, List.map_cons, List.map_nil,
    List.sum_cons, List.sum_nil] at h
  norm_num at h
  rw [hone] at h
  apply binary64_not_tenth
  have h10 : sec 100000000 = 1 / 10 := by linarith
  rw [← h10]
  exact hsec _

/-- A conversion the hypotheses of `C68_violated` admit. -/
example : ∃ sec : Int → ℚ, (∀ n, Spec.binary64.Has (sec n)) ∧ sec 1000000000 = 1 ∧
    sec 500000000 = 1 / 2 := by
  refine ⟨fun n => if (n / 500000000).natAbs < 2 ^ 53 then (n / 500000000 : Int) / 2 else 0, ?_, ?_,
    ?_⟩
  · intro n
    by_cases h : (n / 500000000).natAbs < 2 ^ 53
    · refine ⟨n / 500000000, -1, h, by decide, ?_⟩
      simp only [if_pos h]
      rw [zpow_neg, zpow_one]
      ring
    · exact ⟨0, 0, by decide, by decide, by simp only [if_neg h]; simp⟩
  · norm_num
  · norm_num

/-- A history with two windows, a move, a vetoed and an accepted request, updates in between. -/
def exampleHistory : List GuiOp :=
  [.construct 0 (some 10) 0, .construct 1 (some 11) 5, .keyDown 10 0x71, .moveConstruct 2 0,
    .idle fun h => h, .resize 10, .closeRequest 10 { accept := false }, .keyUp 10 0x71,
    .open 0 (some 12) 20, .moveAssign 2 1 { accept := true }, .resize 11, .resize 10]

example : Spec.guiLegal .gtk (Spec.keyOf .gtk) (fun n => n) .start exampleHistory := by
  refine ⟨⟨rfl, fun _ => rfl⟩, ⟨rfl, ?_⟩, trivial, ⟨rfl, by decide +kernel, by decide +kernel⟩, trivial,
    trivial, ⟨⟨2, rfl⟩, trivial⟩, trivial, ⟨by decide +kernel, ?_⟩,
    ⟨by decide +kernel, by decide +kernel, trivial, rfl⟩, trivial, trivial, trivial⟩
  · rintro (_ | _ | _ | k) <;> rfl
  · rintro (_ | _ | _ | k) <;> rfl

/-- What its objects are told. -/
example : (M.runList (Gui.step .gtk fun n => n) exampleHistory Gui.empty).1 =
      .ok [none, none, none, none, none, none, none, none, some true, none, none, none] ∧
    (let s := (M.runList (Gui.step .gtk fun n => n) exampleHistory Gui.empty).2
     heard s 0 = [.keyDown (.letter 16)] ∧ heard s 1 = [.update 6 6] ∧
      heard s 2 = [.update 10 10, .resize, .closeRequest, .keyUp (.letter 16), .closeRequest,
        .resize]) := by
  refine ⟨by decide +kernel, by decide +kernel, by decide +kernel, by decide +kernel⟩

end Cmp
