import Verif.Model.Loop
import Verif.Proofs.Desk

/-
The loop of the model does what the abstract world says.
-/

namespace Cmp

open Cmp.Spec (GuiWorld Shown DeskWorld Face)

namespace Desk

variable {modes : Prop} {valid : Str .char8 → Bool} {t : Toolkit} {w : DeskWorld} {d : Desk}

theorem acting_spec (hs : Stands False t w d) (sec : Int → ℚ) (ops : List DeskOp)
    (ha : Spec.deskLegal t (Kept valid t) (Gui.keyOf t) sec w ops) :
    ∃ b d', acting valid t sec ops d = (.ok b, d') ∧
      Stands False t (Spec.deskAfter (Gui.keyOf t) sec w ops) d' := by
  induction ops generalizing w d with
  | nil => exact ⟨false, d, rfl, hs⟩
  | cons op ops ih =>
    obtain ⟨d1, e1, hs1⟩ := step_spec hs sec op ha.1 (fun q => q.elim)
    obtain ⟨b, d2, e2, hs2⟩ := ih hs1 ha.2
    refine ⟨b || handles d1 ≠ handles d, d2, ?_, hs2⟩
    simp only [acting]
    rw [M.bind_ok e1, M.bind_ok (M.get_apply _), M.bind_ok e2]
    rfl

/-- Events that are forwarded. -/
theorem forward_spec (hs : Stands False t w d) (sec : Int → ℚ) {h : Nat} (op : GuiOp) (e : GuiEvent)
    (hop : Gui.step t sec op = (do Gui.forward h e; pure none)) (hb : Spec.born w.gui op = none)
    (hi : ∃ i, w.gui.shows h i = true) (acts : List DeskOp)
    (ha : Spec.deskLegal t (Kept valid t) (Gui.keyOf t) sec w (.gui op [] .standard :: acts)) :
    ∃ d', forwardActing valid t sec h e acts d = (.ok (), d') ∧
      Stands False t (Spec.deskAfter (Gui.keyOf t) sec w (.gui op [] .standard :: acts)) d' := by
  obtain ⟨s', e1, hs1⟩ := Gui.step_spec hs.gui sec op ha.1.1
  obtain ⟨i, hi⟩ := hi
  have hmem := (hs.gui.owned h i).mpr hi
  cases hf : d.gui.assoc.find? fun a => a.1 = h with
  | none => exact absurd hmem (fun hm => by simpa using List.find?_eq_none.mp hf _ hm)
  | some a =>
    have hcall : Gui.call a.2 e d.gui = (.ok (), s') := by
      rw [hop] at e1
      have hfw : Gui.forward h e d.gui = Gui.call a.2 e d.gui := by
        simp only [Gui.forward, hf]
      rcases hc : Gui.call a.2 e d.gui with ⟨o, s⟩
      rw [hc] at hfw
      rw [M.bind_apply, hfw] at e1
      cases o with
      | ok u =>
        have hss : s = s' := congrArg Prod.snd e1
        rw [hss]
      | throw x => have := congrArg Prod.fst e1; cases this
      | terminate => have := congrArg Prod.fst e1; cases this
      | ub => have := congrArg Prod.fst e1; cases this
      | hang => have := congrArg Prod.fst e1; cases this
    have hgui : onlyGui (Gui.call a.2 e) d = (.ok (), { d with gui := s' }) := by
      simp only [onlyGui, hcall]
    have hs2 : Stands False t (Spec.deskNext (Gui.keyOf t) sec w (.gui op [] .standard))
        { d with gui := s' } := by
      refine ⟨hs1, fun k j hj => ?_⟩
      rcases Spec.shows_next hj with hk | ⟨j', hj'⟩
      · rw [hb] at hk
        cases hk
      · obtain ⟨n, hn, hl⟩ := hs.native k j' hj'
        refine ⟨n, hn, ?_⟩
        simp only [Spec.deskNext, hb]
        exact hl
    obtain ⟨b, d', e2, hs3⟩ := acting_spec hs2 sec acts ha.2
    refine ⟨d', ?_, hs3⟩
    simp only [forwardActing, hf]
    rw [M.bind_ok hgui, M.bind_ok e2]
    rfl

/-- The looks of one window, after its handler acted. -/
theorem own_looks (sec : Int → ℚ) {i h : Nat} {x : Win} (acts : List Act)
    (hok : ∀ a ∈ acts, Spec.OwnLook (Kept valid t) a) {d : Desk} (hx : d.gui.objs i = some x)
    (hxh : x.handle = some h) {f : Face} {n : Native} (hn : d.native h = some n)
    (hl : Looks False t f n) :
    ∃ n', acting valid t sec (acts.map (Act.on i)) d =
        (.ok false, { d with native := fun k => if k = h then some n' else d.native k }) ∧
      Looks False t (acts.foldl Spec.actFace f) n' := by
  induction acts generalizing d f n with
  | nil =>
    refine ⟨n, ?_, hl⟩
    have : (fun k => if k = h then some n else d.native k) = d.native := by
      funext k
      by_cases hk : k = h
      · rw [if_pos hk, hk, hn]
      · rw [if_neg hk]
    rw [this]
    rfl
  | cons a acts ih =>
    have hone : ∀ (g : Native → Native), onNative t i g d =
        (.ok (), { d with native := fun k => if k = h then some (g n) else d.native k }) := by
      intro g
      simp only [onNative, hx, hxh, hn]
    have key : ∃ n1, step valid t sec (a.on i) d = (.ok .nothing,
        { d with native := fun k => if k = h then some n1 else d.native k }) ∧
        Looks False t (Spec.actFace f a) n1 := by
      have ha := hok a (by simp)
      cases a with
      | op o => exact ha.elim
      | look l =>
        cases l with
        | setTitle s =>
          obtain ⟨y, hy, hfy⟩ := ha
          refine ⟨{ n with title := y }, ?_, hfy, hl.visible, fun q => q.elim⟩
          have e' : setTitle valid t i s d = (.ok (), { d with
              native := fun k => if k = h then some { n with title := y } else d.native k }) := by
            unfold setTitle
            rw [hy, M.bind_ok (M.lift_apply _ _)]
            exact hone _
          simp only [Act.on, Look.on, step]
          rw [M.bind_ok e']
          rfl
        | «show» =>
          refine ⟨appear t n, ?_, ?_, ?_, fun q => q.elim⟩
          · simp only [Act.on, Look.on, step, «show»]
            rw [M.bind_ok (hone _)]
            rfl
          · unfold appear
            split_ifs <;> exact hl.title
          · unfold appear
            split_ifs with h1
            · simpa [Spec.actFace, Spec.lookFace] using h1
            · rfl
            · rfl
        | hide =>
          refine ⟨{ n with visible := false }, ?_, hl.title, rfl, fun q => q.elim⟩
          simp only [Act.on, Look.on, step, hide]
          rw [M.bind_ok (hone _)]
          rfl
    obtain ⟨n1, e1, hl1⟩ := key
    obtain ⟨n', e2, hl2⟩ := ih (fun b hb => hok b (by simp [hb]))
      (d := { d with native := fun k => if k = h then some n1 else d.native k }) hx (n := n1) (by simp) hl1
    refine ⟨n', ?_, hl2⟩
    simp only [List.map_cons, acting]
    rw [M.bind_ok e1, M.bind_ok (M.get_apply _), M.bind_ok e2]
    have hnat : (fun k => if k = h then some n' else if k = h then some n1 else d.native k) =
        fun k => if k = h then some n' else d.native k := by
      funext k
      by_cases hk : k = h <;> simp [hk]
    simp only [hnat, handles]
    simp

/-- The idle branch with handlers that change the looks of their own windows. -/
theorem updateEach_spec (sec : Int → ℚ) (clock : Nat → Int) (acts : Nat → List Act)
    (l pre : List (Nat × Nat)) (hnodup : (l.map (·.1)).Nodup) (d : Desk) (s' : Gui)
    (hassoc : d.gui.assoc = pre ++ l)
    (hupd : Gui.updateAll sec clock l d.gui = (.ok (), s')) (face : Nat → Face)
    (hobj : ∀ a ∈ l, ∃ x, d.gui.objs a.2 = some x ∧ x.handle = some a.1)
    (hnat : ∀ a ∈ l, ∃ n, d.native a.1 = some n ∧ Looks False t (face a.1) n)
    (hok : ∀ a ∈ l, ∀ b ∈ acts a.1, Spec.OwnLook (Kept valid t) b) :
    ∃ native', updateEach valid t sec clock acts pre.length l.length d = (.ok (), ⟨s', native'⟩) ∧
      (∀ a ∈ l, ∃ n, native' a.1 = some n ∧ Looks False t ((acts a.1).foldl Spec.actFace (face a.1)) n)
      ∧ ∀ h, h ∉ l.map (·.1) → native' h = d.native h := by
  induction l generalizing pre d with
  | nil =>
    have : s' = d.gui := by
      have := congrArg Prod.snd hupd
      exact this.symm
    subst this
    exact ⟨d.native, rfl, by simp, fun _ _ => rfl⟩
  | cons a l ih =>
    obtain ⟨h, i⟩ := a
    obtain ⟨x, hx, hxh⟩ := hobj (h, i) (by simp)
    obtain ⟨n, hn, hl⟩ := hnat (h, i) (by simp)
    dsimp only at hx hxh hn hl
    let s1 : Gui := { d.gui.put i (some { x with last := clock h }) with
      log := d.gui.log ++ [(i, .update (sec (clock h - x.last)) (sec (clock h - x.start)))] }
    have e1 : Gui.updateWindow sec i (clock h) d.gui = (.ok (), s1) := by
      simp only [Gui.updateWindow, hx, Gui.call, Gui.put, if_true]
      rfl
    have hupd' : Gui.updateAll sec clock l s1 = (.ok (), s') := by
      simp only [Gui.updateAll] at hupd
      rw [M.bind_ok e1] at hupd
      exact hupd
    have ho1 : onlyGui (Gui.updateWindow sec i (clock h)) d = (.ok (), { d with gui := s1 }) := by
      simp only [onlyGui, e1]
    have hx1 : s1.objs i = some { x with last := clock h } := by simp [s1, Gui.put]
    obtain ⟨n', e2, hl'⟩ := own_looks (valid := valid) sec (acts h) (hok (h, i) (by simp))
      (d := { d with gui := s1 }) hx1 hxh hn hl
    simp only [List.map_cons, List.nodup_cons] at hnodup
    have hne : ∀ a ∈ l, a.1 ≠ h := fun a ha e => hnodup.1 (e ▸ List.mem_map_of_mem (f := (·.1)) ha)
    obtain ⟨native', e3, h1, h2⟩ := ih (pre ++ [(h, i)]) hnodup.2
      { gui := s1, native := fun k => if k = h then some n' else d.native k }
      (by
        have : s1.assoc = d.gui.assoc := rfl
        simp only
        rw [this, hassoc]
        simp)
      hupd'
      (by
        intro a ha
        obtain ⟨y, hy, hyh⟩ := hobj a (by simp [ha])
        by_cases hk : a.2 = i
        · rw [hk] at hy ⊢
          rw [hx] at hy
          cases hy
          exact ⟨_, hx1, hyh⟩
        · exact ⟨y, by simpa [s1, Gui.put, hk] using hy, hyh⟩)
      (by
        intro a ha
        obtain ⟨m, hm, hlm⟩ := hnat a (by simp [ha])
        exact ⟨m, by simp [hne a ha, hm], hlm⟩)
      (fun a ha => hok a (by simp [ha]))
    refine ⟨native', ?_, ?_, ?_⟩
    · have hget : d.gui.assoc[pre.length]? = some (h, i) := by
        rw [hassoc]
        simp
      simp only [List.length_cons, updateEach, hget]
      rw [M.bind_ok ho1, M.bind_ok e2]
      simp only [Bool.false_eq_true, if_false]
      rw [← e3]
      simp
    · intro a ha
      rcases List.mem_cons.mp ha with rfl | ha
      · have := h2 h hnodup.1
        simp only [if_true] at this
        exact ⟨n', this, hl'⟩
      · exact h1 a ha
    · intro k hk
      simp only [List.map_cons, List.mem_cons, not_or] at hk
      rw [h2 k hk.2]
      simp [hk.1]

theorem turn_spec (hs : Stands False t w d) (sec : Int → ℚ) (x : GuiTurn)
    (ha : Spec.turnAllowed t (Kept valid t) (Gui.keyOf t) sec w x) :
    ∃ d', turn valid t sec x d = (.ok (), d') ∧
      Stands False t (Spec.turnNext (Gui.keyOf t) sec w x) d' := by
  cases x with
  | keyDown h code acts => exact forward_spec hs sec (.keyDown h code) _ rfl rfl ha.1 acts ha.2
  | keyUp h code acts => exact forward_spec hs sec (.keyUp h code) _ rfl rfl ha.1 acts ha.2
  | resize h acts => exact forward_spec hs sec (.resize h) _ rfl rfl ha.1 acts ha.2
  | closeRequest h r title mode =>
    obtain ⟨d', e, hs'⟩ := step_spec hs sec
      (.gui (.closeRequest h r) title mode) ha (fun q => q.elim)
    refine ⟨d', ?_, hs'⟩
    simp only [turn]
    rw [M.bind_ok e]
    rfl
  | idle clock acts =>
    obtain ⟨s', e, hs'⟩ := Gui.idle_spec hs.gui (Gui.keyOf t) sec clock
    obtain ⟨native', e', h1, -⟩ := updateEach_spec (valid := valid) (t := t) sec clock acts d.gui.assoc []
      hs.gui.nodup d s' rfl e w.face
      (by
        rintro ⟨h, i⟩ hm
        obtain ⟨r, hr⟩ := Gui.shows_iff.mp ((hs.gui.owned h i).mp hm)
        obtain ⟨x, hx, hxh, -⟩ := hs.gui.showing hr
        exact ⟨x, hx, hxh⟩)
      (by
        rintro ⟨h, i⟩ hm
        exact hs.native h i ((hs.gui.owned h i).mp hm))
      (by
        rintro ⟨h, i⟩ hm
        exact ha h i ((hs.gui.owned h i).mp hm))
    refine ⟨⟨s', native'⟩, e', hs', fun h i hi => ?_⟩
    have hold : ∃ j, w.gui.shows h j = true := by
      rcases Spec.shows_next (keyOf := Gui.keyOf t) (sec := sec) (op := .idle clock) hi with hb | hb
      · cases hb
      · exact hb
    obtain ⟨j, hj⟩ := hold
    exact h1 (h, j) ((hs.gui.owned h j).mpr hj)

theorem any_iff (hs : Stands modes t w d) : d.gui.assoc.isEmpty = false ↔ Spec.AnyWindow w := by
  constructor
  · intro he
    cases ha : d.gui.assoc with
    | nil => simp [ha] at he
    | cons a l =>
      exact ⟨a.1, a.2, (hs.gui.owned a.1 a.2).mp (by rw [ha]; simp)⟩
  · rintro ⟨h, i, hi⟩
    have := (hs.gui.owned h i).mpr hi
    cases ha : d.gui.assoc with
    | nil => rw [ha] at this; simp at this
    | cons a l => rfl

/-- While there are windows, the loop takes the turns. -/
theorem run_turns (hs : Stands False t w d) (sec : Int → ℚ) (xs ys : List GuiTurn)
    (ha : Spec.turnsLegal t (Kept valid t) (Gui.keyOf t) sec w xs)
    (hw : ∀ p q, xs = p ++ q → q ≠ [] → Spec.AnyWindow (Spec.turnsAfter (Gui.keyOf t) sec w p)) :
    ∃ d', run valid t sec (xs ++ ys) d = run valid t sec ys d' ∧
      Stands False t (Spec.turnsAfter (Gui.keyOf t) sec w xs) d' := by
  induction xs generalizing w d with
  | nil => exact ⟨d, rfl, hs⟩
  | cons x xs ih =>
    obtain ⟨d1, e1, hs1⟩ := turn_spec hs sec x ha.1
    obtain ⟨d2, e2, hs2⟩ := ih hs1 ha.2 (fun p q e hq => hw (x :: p) q (by rw [e]; rfl) hq)
    refine ⟨d2, ?_, hs2⟩
    have hany := (any_iff hs).mpr (hw [] (x :: xs) rfl (by simp))
    rw [List.cons_append]
    simp only [run, hany, Bool.false_eq_true, if_false]
    rw [M.bind_ok e1]
    exact e2

end Desk

end Cmp
