import Verif.Spec.LoopOrder
import Verif.Props.Loop

/-
Properties C92 and C93 in full: update handlers that do anything programs may do.
-/

namespace Cmp

open Cmp.Spec (GuiWorld Shown DeskWorld Face)

namespace Gui

/-- The handles of the associations. -/
def hands (s : Gui) : List Nat := s.assoc.map (·.1)

/-- The operation keeps the order of the windows, and at most opens some of `bs` behind them. -/
def Appends {α : Type} (bs : List Nat) (x : M Gui α) (s : Gui) : Prop :=
  ∀ a s', x s = (.ok a, s') → (hands s').Sublist (hands s ++ bs)

theorem Appends.of_eq {α : Type} {bs : List Nat} {x : M Gui α} {s : Gui}
    (h : ∀ a s', x s = (.ok a, s') → hands s' = hands s) : Appends bs x s := by
  intro a s' e
  rw [h a s' e]
  exact List.sublist_append_left _ _

theorem Appends.bind {α β : Type} {bs : List Nat} {x : M Gui α} {f : α → M Gui β} {s : Gui}
    (h : Appends bs x s) (hf : ∀ a s1, x s = (.ok a, s1) → ∀ b s', f a s1 = (.ok b, s') →
      (hands s').Sublist (hands s1)) : Appends bs (x >>= f) s := by
  intro b s' e
  rw [M.bind_apply] at e
  rcases hx : x s with ⟨o, s1⟩
  rw [hx] at e
  cases o with
  | ok a => exact (hf a s1 hx b s' e).trans (h a s1 hx)
  | throw x => have := congrArg Prod.fst e; cases this
  | terminate => have := congrArg Prod.fst e; cases this
  | ub => have := congrArg Prod.fst e; cases this
  | hang => have := congrArg Prod.fst e; cases this

theorem open_appends (t : Toolkit) (i : Nat) (h : Option Nat) (now : Int) (s : Gui) :
    Appends h.toList («open» t i h now) s := by
  intro b s' e
  unfold «open» at e
  cases ho : s.objs i with
  | none => rw [ho] at e; cases e
  | some x =>
    simp only [ho] at e
    cases hx : x.handle with
    | some k => simp only [hx] at e; cases e; exact List.sublist_append_left _ _
    | none =>
      simp only [hx] at e
      cases h with
      | none =>
        simp only at e
        split at e
        · cases e; exact List.sublist_append_left _ _
        · cases e
      | some k =>
        cases e
        simp [hands]

theorem hands_put (s : Gui) (i : Nat) (o : Option Win) : hands (s.put i o) = hands s := rfl

theorem call_hands {i : Nat} {e : GuiEvent} {s s' : Gui} {u : Unit} (h : call i e s = (.ok u, s')) :
    hands s' = hands s := by
  unfold call at h
  split at h
  · cases h
  · cases h; rfl

theorem construct_appends (t : Toolkit) (i : Nat) (h : Option Nat) (now : Int) (s : Gui) :
    Appends h.toList (construct t i h now) s := by
  intro u s' e
  unfold construct at e
  split at e
  · cases e
  · refine Appends.bind (open_appends t i h now (s.put i (some ⟨none, 0, 0⟩))) ?_ u s' e
    intro a s1 _ b s2 e2
    cases e2
    exact List.Sublist.refl _

theorem closeHandler_appends (t : Toolkit) (i : Nat) (r : CloseReply) (s : Gui) :
    Appends (Spec.replyBorn r).toList (closeHandler t i r) s := by
  intro u s' e
  unfold closeHandler at e
  rw [M.bind_apply] at e
  rcases hx : call i .closeRequest s with ⟨o, s1⟩
  rw [hx] at e
  cases o with
  | ok a =>
    simp only at e
    have h1 := call_hands hx
    unfold Spec.replyBorn
    cases hd : r.dialog with
    | none =>
      rw [hd] at e
      cases e
      rw [h1]
      exact List.sublist_append_left _ _
    | some d =>
      obtain ⟨k, h', now, g⟩ := d
      rw [hd] at e
      have := construct_appends t k (some h') now s1 u s' e
      rw [h1] at this
      exact this
  | throw x => have := congrArg Prod.fst e; cases this
  | terminate => have := congrArg Prod.fst e; cases this
  | ub => have := congrArg Prod.fst e; cases this
  | hang => have := congrArg Prod.fst e; cases this

theorem forwardClose_appends (t : Toolkit) (h : Nat) (r : CloseReply) (s : Gui) :
    Appends (Spec.replyBorn r).toList (forwardClose t h r) s := by
  intro u s' e
  unfold forwardClose at e
  split at e
  · cases e
  · refine Appends.bind (closeHandler_appends t _ r s) ?_ u s' e
    intro a s1 _ b s2 e2
    split at e2
    · split at e2
      · cases e2
      · cases e2
        exact (List.eraseIdx_sublist _ _).map _
    · cases e2
      exact List.Sublist.refl _

theorem take_hands {i j : Nat} {x : Win} {s s' : Gui} {u : Unit} (h : take i j x s = (.ok u, s')) :
    hands s' = hands s := by
  unfold take at h
  cases hx : x.handle with
  | none =>
    rw [hx] at h
    cases h
    rfl
  | some k =>
    rw [hx] at h
    simp only at h
    rw [M.bind_apply] at h
    unfold fixAssociation at h
    split at h
    · rename_i o s1 e1
      split at e1
      · cases e1
        cases h
        have : ∀ (l : List (Nat × Nat)) (n : Nat), (l.modify n fun a => (a.1, i)).map (·.1) = l.map (·.1) := by
          intro l
          induction l with
          | nil => intro n; simp
          | cons a l ih =>
            intro n
            cases n with
            | zero => simp
            | succ n => simpa using ih n
        exact this _ _
      · cases e1
    all_goals cases h

theorem step_hands {w : GuiWorld} {s s' : Gui} {t : Toolkit} {sec : Int → ℚ} {op : GuiOp}
    {o : Option Bool} (hs : Stands w s) (ha : Spec.guiAllowed t w op)
    (e : step t sec op s = (.ok o, s')) :
    (hands s').Sublist (hands s ++ (Spec.born w op).toList) := by
  have hpure : ∀ {α β : Type} {bs : List Nat} {x : M Gui α} {f : α → β} {b : β} {s'},
      Appends bs x s → (x >>= fun a => pure (f a)) s = (.ok b, s') → (hands s').Sublist (hands s ++ bs) := by
    intro α β bs x f b s' h e
    refine Appends.bind h ?_ b s' e
    intro a s1 _ b s2 e2
    cases e2
    exact List.Sublist.refl _
  cases op with
  | construct i h now => exact hpure (f := fun _ => none) (construct_appends t i h now s) e
  | «open» i h now =>
    simp only [Spec.born]
    cases ho : w.objs i with
    | none => exact absurd ho ha.1
    | some q =>
      cases q with
      | empty =>
        rw [if_pos rfl]
        exact hpure (f := fun b => some b) (open_appends t i h now s) e
      | showing k r =>
        obtain ⟨x, hx, hxh, -⟩ := hs.showing ho
        have e1 : «open» t i h now s = (.ok false, s) := by simp only [«open», hx, hxh]
        simp only [step] at e
        rw [M.bind_ok e1] at e
        cases e
        exact List.sublist_append_left _ _
      | closed =>
        have hf := hs.objs i
        rw [ho] at hf
        cases hx : s.objs i with
        | none => rw [hx] at hf; exact hf.elim
        | some x =>
          rw [hx] at hf
          obtain ⟨k, hk⟩ := hf
          have e1 : «open» t i h now s = (.ok false, s) := by simp only [«open», hx, hk]
          simp only [step] at e
          rw [M.bind_ok e1] at e
          cases e
          exact List.sublist_append_left _ _
  | close i r =>
    simp only [Spec.born]
    simp only [Spec.guiAllowed] at ha
    cases ho : w.objs i with
    | none => rw [ho] at ha; exact ha.elim
    | some q =>
      rw [ho] at ha
      cases q with
      | empty =>
        obtain ⟨x, hx, hh⟩ := hs.empty ho
        have e1 : close t i r s = (.ok (), s) := by simp only [close, hx, hh, if_neg ha]
        simp only [step] at e
        rw [M.bind_ok e1] at e
        cases e
        exact List.sublist_append_left _ _
      | showing k rs =>
        obtain ⟨x, hx, hxh, -⟩ := hs.showing ho
        have e1 : close t i r s = forwardClose t k r s := by simp only [close, hx, hxh]
        refine hpure (f := fun _ => none) (x := close t i r) ?_ e
        intro u s1 e2
        rw [e1] at e2
        exact forwardClose_appends t k r s u s1 e2
      | closed => exact ha.elim
  | moveConstruct i j =>
    refine hpure (f := fun _ => none) (.of_eq fun u s1 e1 => ?_) e
    unfold moveConstruct at e1
    split at e1
    · exact take_hands e1
    · cases e1
  | moveAssign i j r =>
    have htf : ∀ {s1 s2 : Gui} {u : Unit}, takeFrom i j s1 = (.ok u, s2) → hands s2 = hands s1 := by
      intro s1 s2 u e1
      unfold takeFrom at e1
      split at e1
      · exact take_hands e1
      · cases e1
    refine hpure (f := fun _ => none) (x := moveAssign t i j r) ?_ e
    simp only [Spec.born]
    simp only [Spec.guiAllowed] at ha
    intro u s1 e1
    unfold moveAssign at e1
    by_cases hij : i = j
    · split at e1
      · rw [if_pos hij] at e1
        cases e1
        exact List.sublist_append_left _ _
      · cases e1
    · rw [if_neg hij] at ha ⊢
      split at e1
      · rw [if_neg hij] at e1
        refine Appends.bind ?_ (fun a s2 _ b s3 e3 => by rw [htf e3]) u s1 e1
        cases ho : w.objs i with
        | none => rw [ho] at ha; exact ha.2.2.elim
        | some q =>
          rw [ho] at ha
          cases q with
          | empty =>
            obtain ⟨x, hx, hh⟩ := hs.empty ho
            have e1 : close t i r s = (.ok (), s) := by simp only [close, hx, hh, if_neg ha.2.2]
            refine .of_eq fun a s2 e2 => ?_
            rw [e1] at e2
            cases e2
            rfl
          | showing k rs =>
            obtain ⟨x, hx, hxh, -⟩ := hs.showing ho
            have e1 : close t i r s = forwardClose t k r s := by simp only [close, hx, hxh]
            intro u s1 e2
            rw [e1] at e2
            exact forwardClose_appends t k r s u s1 e2
          | closed => exact ha.2.2.elim
      · cases e1
  | destroy i =>
    refine hpure (f := fun _ => none) (.of_eq fun u s1 e1 => ?_) e
    unfold destroy at e1
    split at e1
    · cases e1
    · cases e1; rfl
  | closeRequest h r => exact hpure (f := fun _ => none) (forwardClose_appends t h r s) e
  | keyDown h code =>
    refine hpure (f := fun _ => none) (.of_eq fun u s1 e1 => ?_) e
    unfold forward at e1
    split at e1
    · cases e1; rfl
    · exact call_hands e1
  | keyUp h code =>
    refine hpure (f := fun _ => none) (.of_eq fun u s1 e1 => ?_) e
    unfold forward at e1
    split at e1
    · cases e1; rfl
    · exact call_hands e1
  | resize h =>
    refine hpure (f := fun _ => none) (.of_eq fun u s1 e1 => ?_) e
    unfold forward at e1
    split at e1
    · cases e1; rfl
    · exact call_hands e1
  | idle clock =>
    obtain ⟨s2, e2, -, -⟩ := idle_spec hs (keyOf t) sec clock
    simp only [step] at e
    rw [M.bind_ok e2] at e
    cases e
    have hdup : ∀ (l : List (Nat × Nat)) (s s' : Gui), updateAll sec clock l s = (.ok (), s') →
        hands s' = hands s := by
      intro l
      induction l with
      | nil => intro s s' e; cases e; rfl
      | cons a l ih =>
        intro s s' e
        simp only [updateAll] at e
        rw [M.bind_apply] at e
        rcases hx : updateWindow sec a.2 (clock a.1) s with ⟨o, s1⟩
        rw [hx] at e
        cases o with
        | ok u =>
          rw [ih s1 s' e]
          unfold updateWindow at hx
          split at hx
          · cases hx
          · rw [call_hands hx]; rfl
        | throw x => have := congrArg Prod.fst e; cases this
        | terminate => have := congrArg Prod.fst e; cases this
        | ub => have := congrArg Prod.fst e; cases this
        | hang => have := congrArg Prod.fst e; cases this
    rw [hdup _ _ _ e2]
    exact List.sublist_append_left _ _

end Gui

/-- Part of a list without repetitions is what is in it, in the order of the list. -/
theorem sublist_eq_filter {l' l : List Nat} (h : l'.Sublist l) (hd : l.Nodup) (p : Nat → Bool)
    (hp : ∀ x, x ∈ l' ↔ p x = true) : l' = l.filter p := by
  have : ∀ {l' l : List Nat}, l'.Sublist l → l.Nodup → l' = l.filter fun x => decide (x ∈ l') := by
    intro l' l h
    induction h with
    | slnil => intro _; rfl
    | cons a h ih =>
      intro hd
      rw [List.nodup_cons] at hd
      rw [List.filter_cons_of_neg (by simpa using fun hm => hd.1 (h.subset hm))]
      exact ih hd.2
    | @cons_cons l1 l2 a h ih =>
      intro hd
      rw [List.nodup_cons] at hd
      rw [List.filter_cons_of_pos (by simp)]
      congr 1
      conv => lhs; rw [ih hd.2]
      apply List.filter_congr
      intro x hx
      have : x ≠ a := fun e => hd.1 (e ▸ hx)
      simp [this]
  rw [this h hd]
  apply List.filter_congr
  intro x _
  rw [Bool.eq_iff_iff]
  simpa using hp x

namespace Desk

variable {valid : Str .char8 → Bool} {t : Toolkit} {w : DeskWorld} {d : Desk} {order : List Nat}

/-- The windows are as in the world, in the order given. -/
structure Lined (t : Toolkit) (w : DeskWorld) (order : List Nat) (d : Desk) : Prop where
  stands : Stands False t w d
  order : handles d = order

theorem Lined.mem (h : Lined t w order d) (k : Nat) : k ∈ order ↔ w.Open k := by
  rw [← h.order]
  simp only [handles, List.mem_map]
  constructor
  · rintro ⟨⟨a, i⟩, hm, rfl⟩
    exact ⟨i, (h.stands.gui.owned a i).mp hm⟩
  · rintro ⟨i, hi⟩
    exact ⟨(k, i), (h.stands.gui.owned k i).mpr hi, rfl⟩

theorem onNative_gui {i : Nat} {f : Native → Native} {d d' : Desk} {u : Unit}
    (h : onNative t i f d = (.ok u, d')) : d'.gui = d.gui := by
  unfold onNative at h
  split at h
  · cases h
  · split at h
    · cases h; rfl
    · split at h
      · cases h; rfl
      · split at h
        · cases h; rfl
        · cases h

theorem step_hands {sec : Int → ℚ} {op : DeskOp} {r : DeskResult} {d' : Desk}
    (hs : Stands False t w d) (ha : Spec.deskAllowed t (Kept valid t) w op)
    (e : step valid t sec op d = (.ok r, d')) :
    (handles d').Sublist (handles d ++ (Spec.deskBorn w op).toList) := by
  have heq : d'.gui = d.gui → (handles d').Sublist (handles d ++ (Spec.deskBorn w op).toList) := by
    intro h
    unfold handles
    rw [h]
    exact List.sublist_append_left _ _
  have hnat : ∀ {i : Nat} {f : Native → Native} {q : DeskResult},
      (onNative t i f >>= fun _ => pure q) d = (.ok r, d') → d'.gui = d.gui := by
    intro i f q e
    rw [M.bind_apply] at e
    rcases hx : onNative t i f d with ⟨o, d1⟩
    rw [hx] at e
    cases o with
    | ok u => cases e; exact onNative_gui hx
    | throw x => have := congrArg Prod.fst e; cases this
    | terminate => have := congrArg Prod.fst e; cases this
    | ub => have := congrArg Prod.fst e; cases this
    | hang => have := congrArg Prod.fst e; cases this
  cases op with
  | gui op title mode =>
    simp only [step, onGui] at e
    rcases hx : Gui.step t sec op d.gui with ⟨o, s'⟩
    rw [hx] at e
    cases o with
    | ok q =>
      simp only at e
      cases hc : settle valid t title mode d.gui s' d.native with
      | ok native =>
        rw [hc] at e
        cases e
        exact Gui.step_hands hs.gui ha.1 hx
      | throw x => rw [hc] at e; cases e
      | terminate => rw [hc] at e; cases e
      | ub => rw [hc] at e; cases e
      | hang => rw [hc] at e; cases e
    | throw x => cases e
    | terminate => cases e
    | ub => cases e
    | hang => cases e
  | setTitle i title =>
    simp only [step, setTitle] at e
    obtain ⟨y, hy, -⟩ := ha.1
    rw [hy, M.bind_apply, M.bind_ok (M.lift_apply _ _), ← M.bind_apply (f := fun _ => pure DeskResult.nothing)] at e
    exact heq (hnat e)
  | getTitle i =>
    simp only [step] at e
    refine heq ?_
    rw [M.bind_apply] at e
    rcases hx : getTitle t i d with ⟨o, d1⟩
    have hd : d1 = d := by
      unfold getTitle at hx
      split at hx
      · cases hx; rfl
      · split at hx
        · split at hx <;> cases hx <;> rfl
        · split at hx
          · cases hx; rfl
          · split at hx <;> cases hx <;> rfl
    rw [hx] at e
    cases o with
    | ok u => cases e; rw [hd]
    | throw x => have := congrArg Prod.fst e; cases this
    | terminate => have := congrArg Prod.fst e; cases this
    | ub => have := congrArg Prod.fst e; cases this
    | hang => have := congrArg Prod.fst e; cases this
  | «show» i => exact heq (hnat e)
  | hide i => exact heq (hnat e)
  | user h mode => cases e; exact heq rfl

theorem deskBorn_fresh {op : DeskOp} {h : Nat} {ok : List (BitVec 8) → Prop}
    (ha : Spec.deskAllowed t ok w op) (hb : Spec.deskBorn w op = some h) : ¬ w.Open h := by
  rintro ⟨i, hi⟩
  cases op with
  | gui op title mode =>
    have := Spec.born_fresh ha.1 hb i
    rw [this] at hi
    cases hi
  | _ => cases hb

theorem step_lined (hs : Lined t w order d) (sec : Int → ℚ) (op : DeskOp)
    (ha : Spec.deskAllowed t (Kept valid t) w op) :
    ∃ d', step valid t sec op d = (.ok (Spec.deskResult w op), d') ∧
      Lined t (Spec.deskNext (Gui.keyOf t) sec w op)
        (Spec.orderNext (Gui.keyOf t) sec w op order) d' ∧
      (handles d' = handles d ↔ ∀ h, (Spec.deskNext (Gui.keyOf t) sec w op).Open h ↔ w.Open h) := by
  obtain ⟨d', e, hs'⟩ := step_spec hs.stands sec op ha (fun q => q.elim)
  have hsub := step_hands hs.stands ha e
  have hl' : Lined t (Spec.deskNext (Gui.keyOf t) sec w op) (handles d') d' := ⟨hs', rfl⟩
  have hnd : (handles d).Nodup := hs.stands.gui.nodup
  have hl : Lined t w (handles d) d := ⟨hs.stands, rfl⟩
  refine ⟨d', e, ⟨hs', ?_⟩, ?_⟩
  · unfold Spec.orderNext
    rw [← hs.order]
    refine sublist_eq_filter hsub ?_ _ fun x => by simpa using hl'.mem x
    rw [List.nodup_append]
    refine ⟨hnd, ?_, ?_⟩
    · cases Spec.deskBorn w op <;> simp
    · intro a ha1 b hb hab
      subst hab
      cases hb' : Spec.deskBorn w op with
      | none => simp [hb'] at hb
      | some c =>
        have : a = c := by simpa [hb'] using hb
        subst this
        exact deskBorn_fresh ha hb' ((hl.mem a).mp ha1)
  · constructor
    · intro h k
      rw [← hl'.mem, ← hl.mem, h]
    · intro h
      have hsub' : (handles d').Sublist (handles d) := by
        cases hb : Spec.deskBorn w op with
        | none => simpa [hb] using hsub
        | some b =>
          rw [hb] at hsub
          have hnb : b ∉ handles d' := fun hm => deskBorn_fresh ha hb ((h b).mp ((hl'.mem b).mp hm))
          rw [List.sublist_append_iff] at hsub
          obtain ⟨l1, l2, e1, h1, h2⟩ := hsub
          have : l2 = [] := by
            cases l2 with
            | nil => rfl
            | cons c l2 =>
              have hc : c = b := by simpa using h2.subset (by simp : c ∈ c :: l2)
              exact absurd (by rw [e1]; simp [hc]) hnb
          rw [e1, this, List.append_nil]
          exact h1
      rw [sublist_eq_filter hsub' hnd (fun x => decide (x ∈ handles d)) (fun x => by
        rw [hl'.mem, h, ← hl.mem]; simp)]
      rw [List.filter_eq_self]
      simp

theorem acting_lined (hs : Lined t w order d) (sec : Int → ℚ) (ops : List DeskOp)
    (ha : Spec.deskLegal t (Kept valid t) (Gui.keyOf t) sec w ops) :
    ∃ b d', acting valid t sec ops d = (.ok b, d') ∧
      Lined t (Spec.deskAfter (Gui.keyOf t) sec w ops)
        (Spec.orderAfter (Gui.keyOf t) sec w order ops) d' ∧
      (b = false ↔ Spec.Steady (Gui.keyOf t) sec w ops) ∧ (b = false → handles d' = handles d) := by
  induction ops generalizing w d order with
  | nil => exact ⟨false, d, rfl, hs, by simp [Spec.Steady], fun _ => rfl⟩
  | cons op ops ih =>
    obtain ⟨d1, e1, hs1, hb1⟩ := step_lined hs sec op ha.1
    obtain ⟨b, d2, e2, hs2, hb2, hb3⟩ := ih hs1 ha.2
    refine ⟨b || handles d1 ≠ handles d, d2, ?_, hs2, ?_, ?_⟩
    · simp only [acting]
      rw [M.bind_ok e1, M.bind_ok (M.get_apply _), M.bind_ok e2]
      rfl
    · simp only [Spec.Steady, ← hb1, ← hb2]
      simp [and_comm]
    · intro h
      simp only [ne_eq, decide_not, Bool.or_eq_false_iff, Bool.not_eq_false', decide_eq_true_eq] at h
      rw [hb3 h.1, h.2]

theorem run_lined (hs : Lined t w order d) (sec : Int → ℚ) (ops : List DeskOp)
    (ha : Spec.deskLegal t (Kept valid t) (Gui.keyOf t) sec w ops) :
    ∃ d', M.runList (step valid t sec) ops d =
        (.ok (Spec.deskResults (Gui.keyOf t) sec w ops), d') ∧
      Lined t (Spec.deskAfter (Gui.keyOf t) sec w ops)
        (Spec.orderAfter (Gui.keyOf t) sec w order ops) d' := by
  induction ops generalizing w d order with
  | nil => exact ⟨d, rfl, hs⟩
  | cons op ops ih =>
    obtain ⟨d1, e1, hs1, -⟩ := step_lined hs sec op ha.1
    obtain ⟨d2, e2, hs2⟩ := ih hs1 ha.2
    exact ⟨d2, M.runList_cons e1 e2, hs2⟩

theorem shows_unique (hs : Gui.Stands w.gui d.gui) {h i k : Nat} (hi : w.gui.shows h i = true)
    (hk : w.gui.shows h k = true) : k = i := by
  have h1 := Gui.find_some hs.nodup ((hs.owned h i).mpr hi)
  have h2 := Gui.find_some hs.nodup ((hs.owned h k).mpr hk)
  rw [h1] at h2
  simp only [Option.some.injEq, Prod.mk.injEq, true_and] at h2
  exact h2.symm

/-- One window is updated. -/
theorem updated_lined (hs : Lined t w order d) (sec : Int → ℚ) (clock : Nat → Int) {h i : Nat}
    (hi : w.gui.shows h i = true) :
    ∃ d', onlyGui (Gui.updateWindow sec i (clock h)) d = (.ok (), d') ∧
      Lined t (w.updated sec clock h) order d' := by
  obtain ⟨r, hr⟩ := Gui.shows_iff.mp hi
  obtain ⟨x, hx, hxh, hhead, hlast⟩ := hs.stands.gui.showing hr
  let s1 : Gui := { d.gui.put i (some { x with last := clock h }) with
    log := d.gui.log ++ [(i, .update (sec (clock h - x.last)) (sec (clock h - x.start)))] }
  have e1 : Gui.updateWindow sec i (clock h) d.gui = (.ok (), s1) := by
    simp only [Gui.updateWindow, hx, Gui.call, Gui.put, if_true]
    rfl
  have hsh : ∀ k j, (w.updated sec clock h).gui.shows k j = w.gui.shows k j := by
    intro k j
    simp only [DeskWorld.updated, GuiWorld.shows]
    cases w.gui.objs j with
    | none => simp
    | some o => cases o <;> simp
  have hother : ∀ j, j ≠ i → ∀ r', w.gui.objs j ≠ some (.showing h r') := fun j hj r' hc =>
    hj (shows_unique hs.stands.gui hi (Gui.shows_iff.mpr ⟨r', hc⟩))
  refine ⟨{ d with gui := s1 }, by simp only [onlyGui, e1], ⟨⟨?_, hs.stands.gui.nodup, ?_, ?_⟩, ?_⟩, ?_⟩
  · intro j
    by_cases hj : j = i
    · subst hj
      have : s1.objs j = some { x with last := clock h } := by simp [s1, Gui.put]
      simp only [DeskWorld.updated, hr, this, if_true]
      refine ⟨hxh, rfl, ?_⟩
      cases r with
      | nil => simp at hhead
      | cons y r =>
        rw [List.getLast?_cons_cons]
        exact hlast
    · have : s1.objs j = d.gui.objs j := by simp [s1, Gui.put, hj]
      have h2 := hs.stands.gui.objs j
      simp only [DeskWorld.updated]
      rw [this]
      cases hw : w.gui.objs j with
      | none => rw [hw] at h2; exact h2
      | some o =>
        rw [hw] at h2
        cases o with
        | showing h' r' =>
          have hne : h' ≠ h := fun e => hother j hj r' (e ▸ hw)
          simp only [if_neg hne]
          exact h2
        | empty => exact h2
        | closed => exact h2
  · intro k j
    rw [hsh]
    exact hs.stands.gui.owned k j
  · intro j
    have h2 := hs.stands.gui.told j
    simp only [DeskWorld.updated, s1, List.filter_append, List.map_append, h2]
    by_cases hj : j = i
    · subst hj
      simp only [hr, if_true, decide_true, List.filter_cons_of_pos, List.filter_nil, List.map_cons, List.map_nil]
      congr 1
      unfold Spec.updateEvent
      cases r with
      | nil => simp at hhead
      | cons y r =>
        simp only [List.head?_cons, Option.some.injEq] at hhead
        subst hhead
        have h1 : Spec.elapsed (clock h :: (x.last :: r).take 1) = clock h - x.last :=
          Gui.elapsed_eq rfl (by simp)
        have h2 : Spec.elapsed (clock h :: x.last :: r) = clock h - x.start :=
          Gui.elapsed_eq rfl (by rw [List.getLast?_cons_cons]; exact hlast)
        rw [h1, h2]
    · have hij : ¬ i = j := fun e => hj e.symm
      simp only [hij, decide_false, Bool.false_eq_true, not_false_eq_true, List.filter_cons_of_neg,
        List.filter_nil, List.map_nil, List.append_nil]
      cases hw : w.gui.objs j with
      | none => rfl
      | some o =>
        cases o with
        | showing h' r' =>
          have hne : h' ≠ h := fun e => hother j hj r' (e ▸ hw)
          simp only [if_neg hne]
        | empty => rfl
        | closed => rfl
  · intro k j hj
    rw [hsh] at hj
    exact hs.stands.native k j hj
  · exact hs.order

theorem owner_eq (hs : Gui.Stands w.gui d.gui) {h i : Nat} (hi : w.gui.shows h i = true) :
    w.owner h = i := by
  have H : w.Open h := ⟨i, hi⟩
  unfold DeskWorld.owner
  rw [dif_pos H]
  exact shows_unique hs hi H.choose_spec

/-- The idle branch. -/
theorem updateEach_lined (sec : Int → ℚ) (clock : Nat → Int) (acts : Nat → List Act) (l pre : List Nat)
    (hs : Lined t w (pre ++ l) d)
    (ha : Spec.updatesLegal t (Kept valid t) (Gui.keyOf t) sec clock acts w l) :
    match Spec.updatesAfter (Gui.keyOf t) sec clock acts w l with
    | some w' => ∃ d', updateEach valid t sec clock acts pre.length l.length d = (.ok (), d') ∧
        Lined t w' (pre ++ l) d'
    | none => (updateEach valid t sec clock acts pre.length l.length d).1 = .ub := by
  induction l generalizing pre w d with
  | nil => exact ⟨d, rfl, hs⟩
  | cons h l ih =>
    have hget : ∃ i, d.gui.assoc[pre.length]? = some (h, i) := by
      have h1 : (handles d)[pre.length]? = some h := by rw [hs.order]; simp
      simp only [handles, List.getElem?_map] at h1
      cases hx : d.gui.assoc[pre.length]? with
      | none => rw [hx] at h1; simp at h1
      | some a =>
        rw [hx] at h1
        simp only [Option.map_some, Option.some.injEq] at h1
        exact ⟨a.2, by rw [← h1]⟩
    obtain ⟨i, hget⟩ := hget
    have hi : w.gui.shows h i = true := (hs.stands.gui.owned h i).mp (List.mem_of_getElem? hget)
    obtain ⟨d1, e1, hs1⟩ := updated_lined hs sec clock hi
    have ho : Spec.handlerOps w acts h = (acts h).map (Act.on i) := by
      rw [Spec.handlerOps, owner_eq hs.stands.gui hi]
    obtain ⟨hleg, hrest⟩ := ha
    rw [Spec.updatesAfter]
    rw [ho] at hleg hrest ⊢
    obtain ⟨b, d2, e2, hs2, hb, hh⟩ := acting_lined hs1 sec _ hleg
    have hstep : updateEach valid t sec clock acts pre.length (h :: l).length d =
        (if b then M.ub else updateEach valid t sec clock acts (pre.length + 1) l.length) d2 := by
      simp only [List.length_cons, updateEach, hget]
      rw [M.bind_ok e1, M.bind_ok e2]
    rw [hstep]
    by_cases hst : Spec.Steady (Gui.keyOf t) sec (w.updated sec clock h) ((acts h).map (Act.on i))
    · have hbf := hb.mpr hst
      rw [if_pos hst]
      have hl2 : Lined t (Spec.deskAfter (Gui.keyOf t) sec (w.updated sec clock h)
          ((acts h).map (Act.on i))) ((pre ++ [h]) ++ l) d2 :=
        ⟨hs2.stands, by rw [hh hbf, hs1.order]; simp⟩
      have := ih (pre ++ [h]) hl2 (hrest hst)
      simp only [hbf, Bool.false_eq_true, if_false]
      simpa using this
    · have hbt : b = true := by
        cases hbb : b with
        | true => rfl
        | false => exact absurd (hb.mp hbb) hst
      rw [if_neg hst]
      simp [hbt]

theorem orderNext_tell (hs : Lined t w order d) (sec : Int → ℚ) (op : GuiOp) {h : Nat} {e : GuiEvent}
    (hn : Spec.guiNext (Gui.keyOf t) sec w.gui op = w.gui.tell h e) (hb : Spec.born w.gui op = none) :
    Spec.orderNext (Gui.keyOf t) sec w (.gui op [] .standard) order = order := by
  unfold Spec.orderNext
  simp only [Spec.deskBorn, hb, Option.toList_none, List.append_nil, List.filter_eq_self]
  intro k hk
  obtain ⟨i, hi⟩ := (hs.mem k).mp hk
  simp only [decide_eq_true_eq]
  refine ⟨i, ?_⟩
  simp only [Spec.deskNext, hn]
  exact hi

theorem forward_lined (hs : Lined t w order d) (sec : Int → ℚ) {h : Nat} (op : GuiOp) (e : GuiEvent)
    (hop : Gui.step t sec op = (do Gui.forward h e; pure none)) (hb : Spec.born w.gui op = none)
    (hn : Spec.guiNext (Gui.keyOf t) sec w.gui op = w.gui.tell h e) (hi : w.Open h) (acts : List DeskOp)
    (ha : Spec.deskLegal t (Kept valid t) (Gui.keyOf t) sec w (.gui op [] .standard :: acts)) :
    ∃ d', forwardActing valid t sec h e acts d = (.ok (), d') ∧
      Lined t (Spec.deskAfter (Gui.keyOf t) sec w (.gui op [] .standard :: acts))
        (Spec.orderAfter (Gui.keyOf t) sec w order (.gui op [] .standard :: acts)) d' := by
  obtain ⟨d1, e1, hs1⟩ := forward_spec hs.stands sec op e hop hb hi [] ⟨ha.1, trivial⟩
  obtain ⟨i, hi⟩ := hi
  have hmem := (hs.stands.gui.owned h i).mpr hi
  have hf : (d.gui.assoc.find? fun a => a.1 = h) = some (h, i) := Gui.find_some hs.stands.gui.nodup hmem
  have hc : onlyGui (Gui.call i e) d = (.ok (), d1) := by
    simp only [forwardActing, hf, acting] at e1
    rcases hx : onlyGui (Gui.call i e) d with ⟨o, d2⟩
    rw [M.bind_apply, hx] at e1
    cases o with
    | ok u =>
      have : d2 = d1 := congrArg Prod.snd e1
      rw [this]
    | throw x => have := congrArg Prod.fst e1; cases this
    | terminate => have := congrArg Prod.fst e1; cases this
    | ub => have := congrArg Prod.fst e1; cases this
    | hang => have := congrArg Prod.fst e1; cases this
  have hh : handles d1 = handles d := by
    unfold onlyGui at hc
    rcases hx : Gui.call i e d.gui with ⟨o, s1⟩
    rw [hx] at hc
    simp only [Prod.mk.injEq] at hc
    obtain ⟨rfl, rfl⟩ := hc
    exact Gui.call_hands hx
  have hl1 : Lined t (Spec.deskNext (Gui.keyOf t) sec w (.gui op [] .standard))
      (Spec.orderNext (Gui.keyOf t) sec w (.gui op [] .standard) order) d1 :=
    ⟨hs1, by rw [orderNext_tell hs sec op hn hb, hh, hs.order]⟩
  obtain ⟨b, d2, e2, hs2, -, -⟩ := acting_lined hl1 sec acts ha.2
  refine ⟨d2, ?_, hs2⟩
  simp only [forwardActing, hf]
  rw [M.bind_ok hc, M.bind_ok e2]
  rfl

theorem not_open (hs : Lined t w order d) {h : Nat} (hn : ¬ w.Open h) :
    (d.gui.assoc.find? fun a => a.1 = h) = none :=
  Gui.find_none fun i hi => hn ⟨i, (hs.stands.gui.owned h i).mp hi⟩

theorem turn_lined (hs : Lined t w order d) (sec : Int → ℚ) (x : GuiTurn)
    (ha : Spec.turnGood t (Kept valid t) (Gui.keyOf t) sec (w, order) x) :
    match Spec.turnDo (Gui.keyOf t) sec (w, order) x with
    | some s' => ∃ d', turn valid t sec x d = (.ok (), d') ∧ Lined t s'.1 s'.2 d'
    | none => (turn valid t sec x d).1 = .ub := by
  have hevent : ∀ (h : Nat) (op : GuiOp) (e : GuiEvent) (acts : List DeskOp),
      Gui.step t sec op = (do Gui.forward h e; pure none) → Spec.born w.gui op = none →
      Spec.guiNext (Gui.keyOf t) sec w.gui op = w.gui.tell h e →
      (w.Open h → Spec.deskLegal t (Kept valid t) (Gui.keyOf t) sec w (.gui op [] .standard :: acts)) →
      (w.Open h → ∃ d', forwardActing valid t sec h e acts d = (.ok (), d') ∧
        Lined t (Spec.deskAfter (Gui.keyOf t) sec w (.gui op [] .standard :: acts))
          (Spec.orderAfter (Gui.keyOf t) sec w order (.gui op [] .standard :: acts)) d') ∧
      (¬ w.Open h → ∃ d', forwardActing valid t sec h e acts d = (.ok (), d') ∧ Lined t w order d') := by
    intro h op e acts h1 h2 h3 h4
    refine ⟨fun hi => forward_lined hs sec op e h1 h2 h3 hi acts (h4 hi), fun hi => ?_⟩
    refine ⟨d, ?_, hs⟩
    simp only [forwardActing, not_open hs hi]
  cases x with
  | keyDown h code acts =>
    have := hevent h (.keyDown h code) (.keyDown (Gui.keyOf t code)) acts rfl rfl rfl ha
    simp only [Spec.turnDo, Spec.turnEvent]
    by_cases hi : w.Open h
    · rw [if_pos hi]; exact this.1 hi
    · rw [if_neg hi]; exact this.2 hi
  | keyUp h code acts =>
    have := hevent h (.keyUp h code) (.keyUp (Gui.keyOf t code)) acts rfl rfl rfl ha
    simp only [Spec.turnDo, Spec.turnEvent]
    by_cases hi : w.Open h
    · rw [if_pos hi]; exact this.1 hi
    · rw [if_neg hi]; exact this.2 hi
  | resize h acts =>
    have := hevent h (.resize h) .resize acts rfl rfl rfl ha
    simp only [Spec.turnDo, Spec.turnEvent]
    by_cases hi : w.Open h
    · rw [if_pos hi]; exact this.1 hi
    · rw [if_neg hi]; exact this.2 hi
  | closeRequest h r title mode =>
    simp only [Spec.turnDo, Spec.turnEvent]
    by_cases hi : w.Open h
    · rw [if_pos hi]
      obtain ⟨d', e, hs', -⟩ := step_lined hs sec _ (ha hi).1
      refine ⟨d', ?_, hs'⟩
      simp only [turn]
      rw [M.bind_ok e]
      rfl
    · rw [if_neg hi]
      have e1 : Gui.forwardClose t h r d.gui = (.ub, d.gui) := by
        simp only [Gui.forwardClose, not_open hs hi]
      have e2 : Gui.step t sec (.closeRequest h r) d.gui = (.ub, d.gui) := by
        simp only [Gui.step]
        rw [M.bind_apply, e1]
      have e3 : step valid t sec (.gui (.closeRequest h r) title mode) d = (.ub, d) := by
        simp only [step, onGui, e2]
      simp only [Spec.isClose, if_true, turn]
      rw [M.bind_apply, e3]
  | idle clock acts =>
    have hlen : d.gui.assoc.length = order.length := by
      rw [← hs.order, handles, List.length_map]
    have := updateEach_lined sec clock acts order [] hs ha
    simp only [Spec.turnDo, Spec.turnEvent, turn, hlen]
    cases hu : Spec.updatesAfter (Gui.keyOf t) sec clock acts w order with
    | none => rw [hu] at this; exact this
    | some w' => rw [hu] at this; exact this

/-- How the loop of the model ends. -/
def EndsSo (t : Toolkit) (x : Outcome Int × Desk) : Spec.LoopEnd → Prop
  | .returned w => ∃ order d', x = (.ok 0, d') ∧ Lined t w order d'
  | .undefined => x.1 = .ub
  | .running w => ∃ order d', x = (.hang, d') ∧ Lined t w order d'

theorem run_ends (hs : Lined t w order d) (sec : Int → ℚ) (xs : List GuiTurn)
    (ha : Spec.loopGood t (Kept valid t) (Gui.keyOf t) sec (w, order) xs) :
    EndsSo t (run valid t sec xs d) (Spec.loop (Gui.keyOf t) sec (w, order) xs) := by
  induction xs generalizing w order d with
  | nil =>
    simp only [Spec.loop, run]
    have hany := any_iff hs.stands
    by_cases hw : Spec.AnyWindow w
    · rw [if_pos hw, hany.mpr hw]
      exact ⟨order, d, rfl, hs⟩
    · have : d.gui.assoc.isEmpty = true := by
        by_contra hne
        exact hw (hany.mp (by simpa using hne))
      rw [if_neg hw, this]
      exact ⟨order, d, rfl, hs⟩
  | cons x xs ih =>
    simp only [Spec.loop, run]
    have hany := any_iff hs.stands
    by_cases hw : Spec.AnyWindow w
    · rw [if_pos hw, hany.mpr hw]
      simp only [Bool.false_eq_true, if_false]
      obtain ⟨hg, hrest⟩ := ha hw
      have ht := turn_lined hs sec x hg
      cases hd : Spec.turnDo (Gui.keyOf t) sec (w, order) x with
      | none =>
        rw [hd] at ht
        simp only
        show ((turn valid t sec x >>= fun _ => run valid t sec xs) d).1 = .ub
        rw [M.bind_apply]
        rcases hx : turn valid t sec x d with ⟨o, d1⟩
        rw [hx] at ht
        simp only at ht
        subst ht
        rfl
      | some s' =>
        rw [hd] at ht
        obtain ⟨d', e, hs'⟩ := ht
        simp only
        rw [M.bind_ok e]
        exact ih hs' (hrest s' hd)
    · have : d.gui.assoc.isEmpty = true := by
        by_contra hne
        exact hw (hany.mp (by simpa using hne))
      rw [if_neg hw, this]
      exact ⟨order, d, rfl, hs⟩

theorem kept_updates {valid : Str .char8 → Bool}
    (hv : ∀ s, Spec.WellFormed .utf8 (units s) → valid s = true) {keyOf : Nat → Key} {sec : Int → ℚ}
    {clock : Nat → Int} {acts : Nat → List Act} {w : DeskWorld} {l : List Nat}
    (hl : Spec.updatesLegal t (Spec.Title t) keyOf sec clock acts w l) :
    Spec.updatesLegal t (Kept valid t) keyOf sec clock acts w l := by
  induction l generalizing w with
  | nil => trivial
  | cons h l ih => exact ⟨kept_legal hv hl.1, fun hst => ih (hl.2 hst)⟩

theorem kept_loop {valid : Str .char8 → Bool}
    (hv : ∀ s, Spec.WellFormed .utf8 (units s) → valid s = true) {keyOf : Nat → Key} {sec : Int → ℚ}
    {s : DeskWorld × List Nat} {xs : List GuiTurn}
    (hl : Spec.loopGood t (Spec.Title t) keyOf sec s xs) :
    Spec.loopGood t (Kept valid t) keyOf sec s xs := by
  induction xs generalizing s with
  | nil => trivial
  | cons x xs ih =>
    intro hw
    obtain ⟨h1, h2⟩ := hl hw
    refine ⟨?_, fun s' hs' => ih (h2 s' hs')⟩
    cases x with
    | keyDown h code acts => exact fun ho => kept_legal hv (h1 ho)
    | keyUp h code acts => exact fun ho => kept_legal hv (h1 ho)
    | resize h acts => exact fun ho => kept_legal hv (h1 ho)
    | closeRequest h r title mode => exact fun ho => kept_legal hv (h1 ho)
    | idle clock acts => exact kept_updates hv h1

/-- What was told at each address, and the titles and the visibility of the windows, are as in the
world. -/
def SeenAs (t : Toolkit) (w : DeskWorld) (d : Desk) : Prop :=
  (∀ i, heard d.gui i = w.gui.told i) ∧
  ∀ h i, w.gui.shows h i = true → ∃ n, d.native h = some n ∧ n.visible = (w.face h).visible ∧
    Desk.getTitle t i d = (.ok (w.face h).title, d)

theorem Lined.seen (hs : Lined t w order d) : SeenAs t w d := by
  refine ⟨hs.stands.gui.told, fun h i hi => ?_⟩
  obtain ⟨n, hn, hl⟩ := hs.stands.native h i hi
  obtain ⟨r, hr⟩ := Gui.shows_iff.mp hi
  obtain ⟨x, hxo, hxh, -⟩ := hs.stands.gui.showing hr
  refine ⟨n, hn, hl.visible, ?_⟩
  simp only [Desk.getTitle, hxo, hxh, hn, hl.title]

end Desk

open Desk

/-- C92 in full for programs as in C90 whose handlers, those of updates included, do anything programs
may do: `run` returns 0 after the first turn that leaves no window and not before, unless an update
handler opens or closes a window or the user closes one that is not there: then, and only then, the
behaviour is undefined.  Until then everything is as in the abstract world; windows are updated in the
order in which they were opened. -/
theorem C92_exact (t : Toolkit) (valid : Str .char8 → Bool)
    (hv : ∀ s, Spec.WellFormed .utf8 (units s) → valid s = true) (sec : Int → ℚ) (ops : List DeskOp)
    (hl : Spec.deskLegal t (Spec.Title t) (Spec.keyOf t) sec .start ops) (w : DeskWorld)
    (hw : w = Spec.deskAfter (Spec.keyOf t) sec .start ops) (order : List Nat)
    (ho : order = Spec.orderAfter (Spec.keyOf t) sec .start [] ops) (xs : List GuiTurn)
    (hx : Spec.loopGood t (Spec.Title t) (Spec.keyOf t) sec (w, order) xs) :
    ∃ rs d, M.runList (Desk.step valid t sec) ops Desk.empty = (.ok rs, d) ∧
      match Spec.loop (Spec.keyOf t) sec (w, order) xs with
      | .returned w' => ∃ d', Desk.run valid t sec xs d = (.ok 0, d') ∧ SeenAs t w' d'
      | .undefined => (Desk.run valid t sec xs d).1 = .ub
      | .running w' => ∃ d', Desk.run valid t sec xs d = (.hang, d') ∧ SeenAs t w' d' := by
  subst hw ho
  rw [← Gui.keyOf_eq] at *
  obtain ⟨d, e, hs⟩ := run_lined (valid := valid) (order := []) ⟨stands_start False t, rfl⟩ sec ops
    (kept_legal hv hl)
  have := run_ends (valid := valid) hs sec xs (kept_loop hv hx)
  refine ⟨_, d, e, ?_⟩
  revert this
  cases Spec.loop (Gui.keyOf t) sec (Spec.deskAfter (Gui.keyOf t) sec .start ops,
      Spec.orderAfter (Gui.keyOf t) sec .start [] ops) xs with
  | returned w' => rintro ⟨o, d', e', h'⟩; exact ⟨d', e', h'.seen⟩
  | undefined => exact id
  | running w' => rintro ⟨o, d', e', h'⟩; exact ⟨d', e', h'.seen⟩

/-- C93 in full for updates: if the handlers do what programs may do, then what they do has the effect it
has after the update of their window, unless one of them opens or closes a window, and in that case the
behaviour is undefined. -/
theorem C93_exact (t : Toolkit) (valid : Str .char8 → Bool)
    (hv : ∀ s, Spec.WellFormed .utf8 (units s) → valid s = true) (sec : Int → ℚ) (ops : List DeskOp)
    (hl : Spec.deskLegal t (Spec.Title t) (Spec.keyOf t) sec .start ops) (w : DeskWorld)
    (hw : w = Spec.deskAfter (Spec.keyOf t) sec .start ops) (order : List Nat)
    (ho : order = Spec.orderAfter (Spec.keyOf t) sec .start [] ops) (clock : Nat → Int)
    (acts : Nat → List Act)
    (hx : Spec.updatesLegal t (Spec.Title t) (Spec.keyOf t) sec clock acts w order) :
    ∃ rs d, M.runList (Desk.step valid t sec) ops Desk.empty = (.ok rs, d) ∧
      match Spec.updatesAfter (Spec.keyOf t) sec clock acts w order with
      | some w' => ∃ d', Desk.turn valid t sec (.idle clock acts) d = (.ok (), d') ∧ SeenAs t w' d'
      | none => (Desk.turn valid t sec (.idle clock acts) d).1 = .ub := by
  subst hw ho
  rw [← Gui.keyOf_eq] at *
  obtain ⟨d, e, hs⟩ := run_lined (valid := valid) (order := []) ⟨stands_start False t, rfl⟩ sec ops
    (kept_legal hv hl)
  have := turn_lined (valid := valid) hs sec (.idle clock acts) (kept_updates hv hx)
  refine ⟨_, d, e, ?_⟩
  revert this
  simp only [Spec.turnDo, Spec.turnEvent]
  cases Spec.updatesAfter (Gui.keyOf t) sec clock acts (Spec.deskAfter (Gui.keyOf t) sec .start ops)
      (Spec.orderAfter (Gui.keyOf t) sec .start [] ops) with
  | none => exact id
  | some w' => rintro ⟨d', e', h'⟩; exact ⟨d', e', h'.seen⟩

/-- Two windows, in order. -/
def twoWindows : List DeskOp :=
  [.gui (.construct 0 (some 10) 0) [] .standard, .gui (.construct 1 (some 11) 0) [] .standard]

example : Spec.orderAfter (Spec.keyOf .gtk) (fun n => n) .start [] twoWindows = [10, 11] := by
  have h0 : (Spec.deskAfter (Spec.keyOf .gtk) (fun n => n) .start
      [.gui (.construct 0 (some 10) 0) [] .standard]).Open 10 := ⟨0, rfl⟩
  have h1 : (Spec.deskAfter (Spec.keyOf .gtk) (fun n => n) .start twoWindows).Open 10 := ⟨0, rfl⟩
  have h2 : (Spec.deskAfter (Spec.keyOf .gtk) (fun n => n) .start twoWindows).Open 11 := ⟨1, rfl⟩
  simp only [twoWindows, Spec.orderAfter, Spec.orderNext, Spec.deskBorn, Spec.born]
  simp only [Spec.deskAfter, List.foldl_cons, List.foldl_nil, twoWindows] at h0 h1 h2
  simp [h0, h1, h2]

/-- The update handler of the first moves the object of the second elsewhere, which is told of its
update there. -/
example :
    let x : GuiTurn := .idle (fun _ => 5) fun h => if h = 10 then [.op (.gui (.moveConstruct 2 1) [] .standard)] else []
    let d := (M.runList (Desk.step (fun _ => true) .gtk fun n => n) twoWindows Desk.empty).2
    (Desk.turn (fun _ => true) .gtk (fun n => n) x d).1 = .ok () ∧
    heard (Desk.turn (fun _ => true) .gtk (fun n => n) x d).2.gui 1 = [] ∧
    heard (Desk.turn (fun _ => true) .gtk (fun n => n) x d).2.gui 2 = [.update 5 5] := by
  decide +kernel

/-- That is steady in the sense of the theorem, and closing the second window is not. -/
example :
    let w := Spec.deskAfter (Spec.keyOf .gtk) (fun n => n) .start twoWindows
    Spec.Steady (Spec.keyOf .gtk) (fun n => n) w [.gui (.moveConstruct 2 1) [] .standard] ∧
    ¬ Spec.Steady (Spec.keyOf .gtk) (fun n => n) w [.gui (.close 1 ⟨true, none⟩) [] .standard] := by
  intro w
  constructor
  · refine ⟨fun h => ⟨?_, ?_⟩, trivial⟩
    · rintro ⟨i, hi⟩
      by_cases h2 : i = 2
      · subst h2
        exact ⟨1, hi⟩
      · by_cases h1 : i = 1
        · subst h1
          cases hi
        · refine ⟨i, ?_⟩
          simpa [Spec.deskNext, Spec.guiNext, GuiWorld.put, GuiWorld.shows, h1, h2] using hi
    · rintro ⟨i, hi⟩
      by_cases h1 : i = 1
      · subst h1
        exact ⟨2, hi⟩
      · by_cases h2 : i = 2
        · subst h2
          cases hi
        · refine ⟨i, ?_⟩
          simpa [Spec.deskNext, Spec.guiNext, GuiWorld.put, GuiWorld.shows, h1, h2] using hi
  · rintro ⟨h, -⟩
    obtain ⟨i, hi⟩ := (h 11).mpr ⟨1, rfl⟩
    by_cases h0 : i = 0
    · subst h0
      cases hi
    · by_cases h1 : i = 1
      · subst h1
        cases hi
      · simp [w, twoWindows, Spec.deskAfter, Spec.deskNext, Spec.guiNext, GuiWorld.put, GuiWorld.shows, h0,
          h1, GuiWorld.opened, GuiWorld.request, GuiWorld.tell, GuiWorld.vanish, DeskWorld.start,
          GuiWorld.start, Shown.is] at hi

end Cmp
