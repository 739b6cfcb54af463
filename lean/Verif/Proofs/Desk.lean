import Verif.Model.Desk
import Verif.Proofs.Gui
import Verif.Proofs.UnicodeText

/-
The looks of the windows of the model are those of the abstract world.
-/

namespace Cmp

open Cmp.Spec (GuiWorld Shown DeskWorld Face)

/-! ### Which windows are new -/

namespace Spec

theorem shows_after_put {w : GuiWorld} {h i k : Nat} {o : Option Shown}
    (hk : (w.put i o).shows h k = true) : (k = i ∧ Shown.is h o = true) ∨ w.shows h k = true := by
  rw [Gui.shows_put] at hk
  by_cases e : k = i
  · rw [if_pos e] at hk
    exact .inl ⟨e, hk⟩
  · rw [if_neg e] at hk
    exact .inr hk

theorem request_born {w : GuiWorld} {h h' k : Nat} {r : CloseReply}
    (hk : (w.request h r).shows h' k = true) : replyBorn r = some h' ∨ w.shows h' k = true := by
  have step : ∀ w' : GuiWorld, (w'.vanish h).shows h' k = true → w'.shows h' k = true := by
    intro w' hw
    by_cases e : w'.shows h k = true
    · have : (w'.vanish h).shows h' k = Shown.is h' (some .closed) := by
        simp only [GuiWorld.shows, GuiWorld.vanish] at e ⊢
        simp [e]
      rw [this] at hw
      cases hw
    · have : (w'.vanish h).shows h' k = w'.shows h' k := by
        simp only [GuiWorld.shows, GuiWorld.vanish] at e ⊢
        simp [e]
      rwa [this] at hw
  have key : ∀ w' : GuiWorld, w'.shows h' k = true →
      w' = (match r.dialog with
        | none => w.tell h .closeRequest
        | some (k, h', now, _) => (w.tell h .closeRequest).put k (some (.showing h' [now]))) →
      replyBorn r = some h' ∨ w.shows h' k = true := by
    intro w' hw e
    subst e
    cases hd : r.dialog with
    | none =>
      rw [hd] at hw
      exact .inr hw
    | some d =>
      obtain ⟨k', h'', now, g⟩ := d
      rw [hd] at hw
      rcases shows_after_put hw with ⟨-, hs⟩ | hs
      · simp only [Gui.is_showing, decide_eq_true_eq] at hs
        exact .inl (by simp [replyBorn, hd, hs])
      · exact .inr hs
  unfold GuiWorld.request at hk
  by_cases ha : r.accept = true
  · simp only [ha, if_true] at hk
    exact key _ (step _ hk) rfl
  · simp only [ha] at hk
    exact key _ hk rfl

/-- Every window that is shown after an operation was shown before or was opened by it. -/
theorem shows_next {keyOf : Nat → Key} {sec : Int → ℚ} {w : GuiWorld} {op : GuiOp} {h k : Nat}
    (hk : (guiNext keyOf sec w op).shows h k = true) :
    born w op = some h ∨ ∃ i, w.shows h i = true := by
  have hopen : ∀ (w : GuiWorld) (i : Nat) (x : Option Nat) (now : Int),
      (w.opened i x now).shows h k = true →
      (w.objs i = some .empty ∧ x = some h) ∨ w.shows h k = true := by
    intro w i x now hw
    cases x with
    | none => exact .inr hw
    | some x =>
      simp only [GuiWorld.opened] at hw
      by_cases e : w.objs i = some .empty
      · rw [if_pos e] at hw
        rcases shows_after_put hw with ⟨-, hs⟩ | hs
        · simp only [Gui.is_showing, decide_eq_true_eq] at hs
          exact .inl ⟨e, by rw [hs]⟩
        · exact .inr hs
      · rw [if_neg e] at hw
        exact .inr hw
  cases op with
  | construct i x now =>
    rcases hopen _ _ _ _ hk with ⟨-, e⟩ | hs
    · exact .inl e
    · rcases shows_after_put hs with ⟨-, hs⟩ | hs
      · exact absurd hs (by simp)
      · exact .inr ⟨k, hs⟩
  | «open» i x now =>
    rcases hopen _ _ _ _ hk with ⟨e, e'⟩ | hs
    · exact .inl (by simp [born, e, e'])
    · exact .inr ⟨k, hs⟩
  | close i r =>
    simp only [guiNext] at hk
    simp only [born]
    cases ho : w.objs i with
    | none => rw [ho] at hk; exact .inr ⟨k, hk⟩
    | some o =>
      cases o with
      | showing h' rd =>
        rw [ho] at hk
        rcases request_born hk with e | e
        · exact .inl e
        · exact .inr ⟨k, e⟩
      | empty => rw [ho] at hk; exact .inr ⟨k, hk⟩
      | closed => rw [ho] at hk; exact .inr ⟨k, hk⟩
  | moveConstruct i j =>
    rcases shows_after_put hk with ⟨-, hs⟩ | hs
    · exact absurd hs (by simp)
    · rcases shows_after_put hs with ⟨-, hs⟩ | hs
      · exact .inr ⟨j, hs⟩
      · exact .inr ⟨k, hs⟩
  | moveAssign i j r =>
    simp only [guiNext] at hk
    by_cases hij : i = j
    · rw [if_pos hij] at hk
      exact .inr ⟨k, hk⟩
    · rw [if_neg hij] at hk
      simp only [born, if_neg hij]
      rcases shows_after_put hk with ⟨-, hs⟩ | hs
      · exact absurd hs (by simp)
      · rcases shows_after_put hs with ⟨-, hs⟩ | hs
        · exact .inr ⟨j, hs⟩
        · cases ho : w.objs i with
          | none => rw [ho] at hs; exact .inr ⟨k, hs⟩
          | some o =>
            cases o with
            | showing h' rd =>
              rw [ho] at hs
              rcases request_born hs with e | e
              · exact .inl e
              · exact .inr ⟨k, e⟩
            | empty => rw [ho] at hs; exact .inr ⟨k, hs⟩
            | closed => rw [ho] at hs; exact .inr ⟨k, hs⟩
  | destroy i =>
    rcases shows_after_put hk with ⟨-, hs⟩ | hs
    · exact absurd hs (by simp)
    · exact .inr ⟨k, hs⟩
  | closeRequest x r =>
    rcases request_born hk with e | e
    · exact .inl e
    · exact .inr ⟨k, e⟩
  | keyDown x code => exact .inr ⟨k, hk⟩
  | keyUp x code => exact .inr ⟨k, hk⟩
  | resize x => exact .inr ⟨k, hk⟩
  | idle clock =>
    refine .inr ⟨k, ?_⟩
    simp only [guiNext, GuiWorld.shows] at hk ⊢
    cases ho : w.objs k with
    | none => simp [ho] at hk
    | some o =>
      rw [ho] at hk
      cases o <;> exact hk

/-- A window that is opened was not shown before. -/
theorem born_fresh {t : Toolkit} {w : GuiWorld} {op : GuiOp} {h : Nat} (ha : guiAllowed t w op)
    (hb : born w op = some h) : w.Fresh h := by
  have hr : ∀ r, replyAllowed w r → replyBorn r = some h → w.Fresh h := by
    intro r hr hb
    unfold replyAllowed at hr
    cases hd : r.dialog with
    | none => simp [replyBorn, hd] at hb
    | some d =>
      obtain ⟨k, h', now, g⟩ := d
      rw [hd] at hr
      simp only [replyBorn, hd, Option.map_some, Option.some.injEq] at hb
      subst hb
      exact hr.2.1
  cases op with
  | construct i x now =>
    simp only [born] at hb
    subst hb
    exact ha.2
  | «open» i x now =>
    simp only [born] at hb
    by_cases e : w.objs i = some .empty
    · rw [if_pos e] at hb
      subst hb
      exact ha.2
    · simp [e] at hb
  | close i r =>
    simp only [born] at hb
    simp only [guiAllowed] at ha
    cases ho : w.objs i with
    | none => simp [ho] at hb
    | some o =>
      rw [ho] at hb ha
      cases o with
      | showing h' rd => exact hr r ha hb
      | empty => simp at hb
      | closed => simp at hb
  | moveAssign i j r =>
    simp only [born] at hb
    simp only [guiAllowed] at ha
    by_cases hij : i = j
    · simp [hij] at hb
    · rw [if_neg hij] at hb ha
      cases ho : w.objs i with
      | none => simp [ho] at hb
      | some o =>
        rw [ho] at hb ha
        cases o with
        | showing h' rd => exact hr r ha.2.2.1 hb
        | empty => simp at hb
        | closed => simp at hb
  | closeRequest x r => exact hr r ha.2 hb
  | moveConstruct i j => simp [born] at hb
  | destroy i => simp [born] at hb
  | keyDown x code => simp [born] at hb
  | keyUp x code => simp [born] at hb
  | resize x => simp [born] at hb
  | idle clock => simp [born] at hb

end Spec

namespace Desk

/-- A title the toolkit gives back. -/
def Kept (valid : Str .char8 → Bool) (t : Toolkit) (s : Str .char8) : Prop :=
  ∃ x, handOver valid t s = .ok x ∧ fetch x = .ok s

/-- The window looks as it should.  The mode only if `modes` holds; on Windows it is the one kept for
`show` as long as the window is not visible. -/
structure Looks (modes : Prop) (t : Toolkit) (f : Face) (n : Native) : Prop where
  title : fetch n.title = .ok f.title
  visible : n.visible = f.visible
  mode : modes → if t = .windows ∧ f.visible = false then n.command = f.mode else n.mode = f.mode

structure Stands (modes : Prop) (t : Toolkit) (w : DeskWorld) (d : Desk) : Prop where
  gui : Gui.Stands w.gui d.gui
  native : ∀ h i, w.gui.shows h i = true → ∃ n, d.native h = some n ∧ Looks modes t (w.face h) n

theorem stands_start (modes : Prop) (t : Toolkit) : Stands modes t .start empty :=
  ⟨Gui.stands_start, fun h i hi => by simp [DeskWorld.start, GuiWorld.start, GuiWorld.shows] at hi⟩

theorem has_iff {w : GuiWorld} {s : Gui} (hs : Gui.Stands w s) (h : Nat) :
    has s h = true ↔ ∃ i, w.shows h i = true := by
  simp only [has, List.any_eq_true, decide_eq_true_eq]
  constructor
  · rintro ⟨⟨a, i⟩, hm, rfl⟩
    exact ⟨i, (hs.owned _ _).mp hm⟩
  · rintro ⟨i, hi⟩
    exact ⟨(h, i), (hs.owned _ _).mpr hi, rfl⟩

variable {modes : Prop} {valid : Str .char8 → Bool} {t : Toolkit} {w : DeskWorld} {d : Desk}

theorem gui_spec (hs : Stands modes t w d) (sec : Int → ℚ) (op : GuiOp) (title : Str .char8)
    (mode : WindowMode) (ha : Spec.guiAllowed t w.gui op)
    (hk : Spec.born w.gui op ≠ none → Kept valid t title) :
    ∃ d', onGui valid t sec op title mode d = (.ok (.opened (Spec.guiResult w.gui op)), d') ∧
      Stands modes t (Spec.deskNext (Gui.keyOf t) sec w (.gui op title mode)) d' := by
  obtain ⟨s', e, hs'⟩ := Gui.step_spec hs.gui sec op ha
  have hnew : ∀ h i, (Spec.guiNext (Gui.keyOf t) sec w.gui op).shows h i = true →
      has d.gui h = false → Spec.born w.gui op = some h := by
    intro h i hi hh
    rcases Spec.shows_next hi with hb | hb
    · exact hb
    · rw [(has_iff hs.gui h).mpr hb] at hh
      cases hh
  have hold : ∀ h, has d.gui h = true → Spec.born w.gui op ≠ some h := by
    intro h hh hb
    obtain ⟨i, hi⟩ := (has_iff hs.gui h).mp hh
    rw [Spec.born_fresh ha hb i] at hi
    cases hi
  by_cases hall : (s'.assoc.all fun a => has d.gui a.1) = true
  · refine ⟨⟨s', fun h => if has s' h then d.native h else none⟩, ?_, hs', ?_⟩
    · simp only [onGui, e, settle]
      rw [if_pos hall]
    · intro h i hi
      have hh : has d.gui h = true := by
        obtain ⟨a, hm, ha⟩ := List.any_eq_true.mp ((has_iff hs' h).mpr ⟨i, hi⟩)
        simp only [decide_eq_true_eq] at ha
        rw [← ha]
        exact List.all_eq_true.mp hall a hm
      obtain ⟨j, hj⟩ := (has_iff hs.gui h).mp hh
      obtain ⟨n, hn, hl⟩ := hs.native h j hj
      refine ⟨n, ?_, ?_⟩
      · simp only [(has_iff hs' h).mpr ⟨i, hi⟩, if_true, hn]
      · simp only [Spec.deskNext, if_neg (hold h hh)]
        exact hl
  · have hb : Spec.born w.gui op ≠ none := by
      simp only [List.all_eq_true, not_forall] at hall
      obtain ⟨⟨h, i⟩, hm, hh⟩ := hall
      rw [hnew h i ((hs'.owned h i).mp hm) (by simpa using hh)]
      simp
    obtain ⟨x, hx, hf⟩ := hk hb
    refine ⟨⟨s', fun h => if has s' h then
      (if has d.gui h then d.native h else some (fresh t x mode)) else none⟩, ?_, hs', ?_⟩
    · simp only [onGui, e, settle]
      rw [if_neg hall, hx]
      rfl
    · intro h i hi
      have h' := (has_iff hs' h).mpr ⟨i, hi⟩
      cases hh : has d.gui h with
      | true =>
        obtain ⟨j, hj⟩ := (has_iff hs.gui h).mp hh
        obtain ⟨n, hn, hl⟩ := hs.native h j hj
        refine ⟨n, by simp only [h', if_true, hh, hn], ?_⟩
        simp only [Spec.deskNext, if_neg (hold h hh)]
        exact hl
      | false =>
        refine ⟨fresh t x mode, by simp [h', hh], ?_⟩
        simp only [Spec.deskNext, if_pos (hnew h i hi hh)]
        refine ⟨hf, rfl, fun _ => ?_⟩
        simp only [fresh, and_true]
        by_cases ht : t = .windows <;> simp [ht]

/-- The handle of an object that shows a window. -/
theorem window_showing {i h : Nat} {r : List Int} (ho : w.gui.objs i = some (.showing h r)) :
    w.window i = some h := by simp [DeskWorld.window, ho]

theorem native_spec (hs : Stands modes t w d) {i : Nat}
    (ha : w.gui.objs i = some .empty ∨ ∃ h r, w.gui.objs i = some (.showing h r))
    (f : Native → Native) (g : Face → Face)
    (hfg : ∀ h r n, w.gui.objs i = some (.showing h r) → Looks modes t (w.face h) n →
      Looks modes t (g (w.face h)) (f n)) :
    ∃ d', onNative t i f d = (.ok (), d') ∧ Stands modes t (w.change i g) d' := by
  rcases ha with ha | ⟨h, r, ha⟩
  · obtain ⟨x, hx, hh⟩ := hs.gui.empty ha
    refine ⟨d, by simp only [onNative, hx, hh], ?_⟩
    have : w.change i g = w := by simp [DeskWorld.change, DeskWorld.window, ha]
    rw [this]
    exact hs
  · obtain ⟨x, hx, hh, -⟩ := hs.gui.showing ha
    have hsh : w.gui.shows h i = true := Gui.shows_iff.mpr ⟨r, ha⟩
    obtain ⟨n, hn, hl⟩ := hs.native h i hsh
    refine ⟨{ d with native := fun k => if k = h then some (f n) else d.native k },
      by simp only [onNative, hx, hh, hn], ?_⟩
    have : w.change i g = { w with face := fun k => if k = h then g (w.face k) else w.face k } := by
      simp [DeskWorld.change, window_showing ha]
    rw [this]
    refine ⟨hs.gui, fun k j hj => ?_⟩
    by_cases hk : k = h
    · subst hk
      exact ⟨f n, by simp, by simpa using hfg k r n ha hl⟩
    · obtain ⟨m, hm, hl'⟩ := hs.native k j hj
      exact ⟨m, by simp [hk, hm], by simpa [hk] using hl'⟩

theorem step_spec (hs : Stands modes t w d) (sec : Int → ℚ) (op : DeskOp)
    (ha : Spec.deskAllowed t (Kept valid t) w op)
    (hm : modes → t = .windows → ∀ i, op ≠ .hide i) :
    ∃ d', step valid t sec op d = (.ok (Spec.deskResult w op), d') ∧
      Stands modes t (Spec.deskNext (Gui.keyOf t) sec w op) d' := by
  cases op with
  | gui op title mode => exact gui_spec hs sec op title mode ha.1 ha.2
  | setTitle i title =>
    obtain ⟨x, hx, hf⟩ := ha.1
    obtain ⟨d', e, hs'⟩ := native_spec hs ha.2 (fun n => { n with title := x })
      (fun f => { f with title := title }) (fun h r n _ hl => ⟨hf, hl.visible, hl.mode⟩)
    refine ⟨d', ?_, hs'⟩
    have e' : setTitle valid t i title d = (.ok (), d') := by
      unfold setTitle
      rw [hx, M.bind_ok (M.lift_apply _ _)]
      exact e
    simp only [step]
    rw [M.bind_ok e']
    rfl
  | getTitle i =>
    rcases ha with ⟨ht, ha⟩ | ⟨h, r, ha⟩
    · obtain ⟨x, hx, hh⟩ := hs.gui.empty ha
      have e : getTitle t i d = (.ok [], d) := by simp only [getTitle, hx, hh, if_neg ht]
      refine ⟨d, ?_, hs⟩
      simp only [step]
      rw [M.bind_ok e]
      simp only [Spec.deskResult, DeskWorld.window, ha]
      rfl
    · obtain ⟨x, hx, hh, -⟩ := hs.gui.showing ha
      obtain ⟨n, hn, hl⟩ := hs.native h i (Gui.shows_iff.mpr ⟨r, ha⟩)
      have e : getTitle t i d = (.ok (w.face h).title, d) := by
        simp only [getTitle, hx, hh, hn, hl.title]
      refine ⟨d, ?_, hs⟩
      simp only [step]
      rw [M.bind_ok e]
      simp only [Spec.deskResult, window_showing ha]
      rfl
  | «show» i =>
    obtain ⟨d', e, hs'⟩ := native_spec hs ha (appear t) (fun f => { f with visible := true })
      (fun h r n _ hl => by
        have hv := hl.visible
        have hmode := hl.mode
        unfold appear
        by_cases hvis : n.visible = true
        · rw [if_pos hvis]
          rw [hv] at hvis
          refine ⟨hl.title, by rw [hv, hvis], fun q => ?_⟩
          have := hmode q
          simpa [hvis] using this
        · rw [if_neg hvis]
          rw [hv] at hvis
          by_cases ht : t = .windows
          · rw [if_pos ht]
            refine ⟨hl.title, rfl, fun q => ?_⟩
            have := hmode q
            simpa [ht, hvis] using this
          · rw [if_neg ht]
            refine ⟨hl.title, rfl, fun q => ?_⟩
            have := hmode q
            simpa [ht] using this)
    refine ⟨d', ?_, hs'⟩
    simp only [step, «show»]
    rw [M.bind_ok e]
    rfl
  | hide i =>
    obtain ⟨d', e, hs'⟩ := native_spec hs ha (fun n => { n with visible := false })
      (fun f => { f with visible := false })
      (fun h r n _ hl => by
        refine ⟨hl.title, rfl, fun q => ?_⟩
        have ht : t ≠ .windows := fun ht => hm q ht i rfl
        have := hl.mode q
        simpa [ht] using this)
    refine ⟨d', ?_, hs'⟩
    simp only [step, hide]
    rw [M.bind_ok e]
    rfl
  | user h mode =>
    obtain ⟨⟨i, hi⟩, hvis⟩ := ha
    refine ⟨_, rfl, hs.gui, fun k j hj => ?_⟩
    obtain ⟨n, hn, hl⟩ := hs.native k j hj
    by_cases hk : k = h
    · subst hk
      refine ⟨{ n with mode := mode }, by simp [hn], ?_⟩
      simp only [Spec.deskNext, if_true]
      exact ⟨hl.title, hl.visible, fun _ => by simp [hvis]⟩
    · refine ⟨n, by simp [hk, hn], ?_⟩
      simpa [Spec.deskNext, hk] using hl

theorem run_spec (hs : Stands modes t w d) (sec : Int → ℚ) (ops : List DeskOp)
    (ha : Spec.deskLegal t (Kept valid t) (Gui.keyOf t) sec w ops)
    (hm : modes → t = .windows → ∀ i, .hide i ∉ ops) :
    ∃ d', M.runList (step valid t sec) ops d =
        (.ok (Spec.deskResults (Gui.keyOf t) sec w ops), d') ∧
      Stands modes t (Spec.deskAfter (Gui.keyOf t) sec w ops) d' := by
  induction ops generalizing w d with
  | nil => exact ⟨d, rfl, hs⟩
  | cons op ops ih =>
    obtain ⟨d1, e1, hs1⟩ := step_spec hs sec op ha.1
      (fun q ht i e => hm q ht i (by simp [e]))
    obtain ⟨d2, e2, hs2⟩ := ih hs1 ha.2 (fun q ht i hi => hm q ht i (by simp [hi]))
    exact ⟨d2, M.runList_cons e1 e2, hs2⟩

end Desk

end Cmp
