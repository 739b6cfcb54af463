import Mathlib.Data.List.Nodup
import Verif.Model.Gui

/-
The windows of the model stand for the windows of the abstract world.
-/

namespace Cmp

namespace Gui

open Spec (GuiWorld Shown)

@[simp] theorem is_none (h : Nat) : Shown.is h none = false := rfl
@[simp] theorem is_empty (h : Nat) : Shown.is h (some .empty) = false := rfl
@[simp] theorem is_closed (h : Nat) : Shown.is h (some .closed) = false := rfl
@[simp] theorem is_showing (h h' : Nat) (r : List Int) :
    Shown.is h (some (.showing h' r)) = decide (h' = h) := rfl

/-- The members of a window object are what its state says. -/
def Fits : Option Shown → Option Win → Prop
  | none, none => True
  | some .empty, some x => x.handle = none
  | some (.showing h r), some x =>
    x.handle = some h ∧ r.head? = some x.last ∧ r.getLast? = some x.start
  | some .closed, some x => ∃ h, x.handle = some h
  | _, _ => False

structure Stands (w : GuiWorld) (s : Gui) : Prop where
  objs : ∀ i, Fits (w.objs i) (s.objs i)
  nodup : (s.assoc.map (·.1)).Nodup
  owned : ∀ h i, (h, i) ∈ s.assoc ↔ w.shows h i = true
  told : ∀ i, (s.log.filter fun p => p.1 = i).map (·.2) = w.told i

theorem stands_start : Stands GuiWorld.start Gui.empty :=
  ⟨fun _ => trivial, List.nodup_nil, fun _ _ => by simp [GuiWorld.start, GuiWorld.shows, Gui.empty],
    fun _ => rfl⟩

variable {w : GuiWorld} {s : Gui} {t : Toolkit}

theorem shows_iff {h i : Nat} : w.shows h i = true ↔ ∃ r, w.objs i = some (.showing h r) := by
  unfold GuiWorld.shows
  cases hw : w.objs i with
  | none => simp [Shown.is]
  | some o => cases o <;> simp [Shown.is]

theorem find_none {l : List (Nat × Nat)} {h : Nat} (hn : ∀ i, (h, i) ∉ l) :
    (l.find? fun a => a.1 = h) = none := by
  rw [List.find?_eq_none]
  rintro ⟨h', i⟩ hm
  simp only [decide_eq_true_eq]
  rintro rfl
  exact hn i hm

theorem find_some {l : List (Nat × Nat)} {h i : Nat} (hd : (l.map (·.1)).Nodup)
    (hm : (h, i) ∈ l) : (l.find? fun a => a.1 = h) = some (h, i) := by
  induction l with
  | nil => simp at hm
  | cons a l ih =>
    simp only [List.map_cons, List.nodup_cons] at hd
    rw [List.find?_cons]
    by_cases ha : a.1 = h
    · simp only [ha, decide_true]
      rcases List.mem_cons.mp hm with e | hm'
      · rw [e]
      · exact absurd (List.mem_map_of_mem (f := (·.1)) hm') (ha ▸ hd.1)
    · simp only [ha, decide_false]
      rcases List.mem_cons.mp hm with e | hm'
      · exact absurd (by rw [← e]) ha
      · exact ih hd.2 hm'

theorem filter_none {l : List (Nat × Nat)} {h : Nat} (hn : h ∉ l.map (·.1)) :
    (l.filter fun a => a.1 ≠ h) = l := by
  rw [List.filter_eq_self]
  intro a ha
  simp only [ne_eq, decide_not, Bool.not_eq_true', decide_eq_false_iff_not]
  rintro rfl
  exact hn (List.mem_map_of_mem (f := (·.1)) ha)

theorem erase_eq {l : List (Nat × Nat)} {h : Nat} (hd : (l.map (·.1)).Nodup) :
    l.eraseIdx (l.findIdx fun a => decide (a.1 = h)) = l.filter fun a => a.1 ≠ h := by
  induction l with
  | nil => rfl
  | cons a l ih =>
    simp only [List.map_cons, List.nodup_cons] at hd
    rw [List.findIdx_cons]
    by_cases ha : a.1 = h
    · simp only [ha, decide_true, cond_true, List.eraseIdx_cons_zero, List.filter_cons]
      simp only [ne_eq, not_true_eq_false, decide_false, Bool.false_eq_true, if_false]
      exact (filter_none (ha ▸ hd.1)).symm
    · simp only [ha, decide_false, cond_false, List.eraseIdx_cons_succ, List.filter_cons]
      simp only [ne_eq, ha, not_false_eq_true, decide_true, if_true]
      rw [ih hd.2]

theorem modify_eq {l : List (Nat × Nat)} {h i : Nat} (hd : (l.map (·.1)).Nodup) :
    (l.modify (l.findIdx fun a => decide (a.1 = h)) fun a => (a.1, i)) =
      l.map fun a => if a.1 = h then (a.1, i) else a := by
  induction l with
  | nil => rfl
  | cons a l ih =>
    simp only [List.map_cons, List.nodup_cons] at hd
    rw [List.findIdx_cons]
    by_cases ha : a.1 = h
    · simp only [ha, decide_true, cond_true, List.modify_zero_cons, List.map_cons, if_true]
      congr 1
      symm
      refine (List.map_congr_left (g := id) ?_).trans (List.map_id l)
      intro b hb
      rw [if_neg, id]
      rintro rfl
      exact hd.1 (ha ▸ List.mem_map_of_mem (f := (·.1)) hb)
    · simp only [ha, decide_false, cond_false, List.modify_succ_cons, List.map_cons, if_false]
      rw [ih hd.2]

/-- Only one object shows a window. -/
theorem Stands.unique (hs : Stands w s) {h i j : Nat} (hi : w.shows h i = true)
    (hj : w.shows h j = true) : i = j := by
  have e1 := find_some hs.nodup ((hs.owned h i).mpr hi)
  have e2 := find_some hs.nodup ((hs.owned h j).mpr hj)
  rw [e1] at e2
  simpa using e2

theorem Stands.alive (hs : Stands w s) {i : Nat} (h : w.objs i ≠ none) : ∃ x, s.objs i = some x := by
  have := hs.objs i
  cases hw : w.objs i with
  | none => exact absurd hw h
  | some o =>
    rw [hw] at this
    cases hx : s.objs i with
    | some x => exact ⟨x, rfl⟩
    | none => rw [hx] at this; cases o <;> exact absurd this (by simp [Fits])

theorem Stands.dead (hs : Stands w s) {i : Nat} (h : w.objs i = none) : s.objs i = none := by
  have := hs.objs i
  rw [h] at this
  cases hx : s.objs i with
  | some x => rw [hx] at this; exact absurd this (by simp [Fits])
  | none => rfl

theorem Stands.empty (hs : Stands w s) {i : Nat} (h : w.objs i = some .empty) :
    ∃ x, s.objs i = some x ∧ x.handle = none := by
  obtain ⟨x, hx⟩ := hs.alive (by rw [h]; simp)
  have := hs.objs i
  rw [h, hx] at this
  exact ⟨x, hx, this⟩

theorem Stands.showing (hs : Stands w s) {i h : Nat} {r : List Int}
    (hw : w.objs i = some (.showing h r)) :
    ∃ x, s.objs i = some x ∧ x.handle = some h ∧ r.head? = some x.last ∧
      r.getLast? = some x.start := by
  obtain ⟨x, hx⟩ := hs.alive (by rw [hw]; simp)
  have := hs.objs i
  rw [hw, hx] at this
  exact ⟨x, hx, this⟩

/-- Telling one object, which is the only one to show the window. -/
theorem call_spec (hs : Stands w s) {h i : Nat} (hi : w.shows h i = true) (e : GuiEvent) :
    call i e s = (.ok (), { s with log := s.log ++ [(i, e)] }) ∧
      Stands (w.tell h e) { s with log := s.log ++ [(i, e)] } := by
  obtain ⟨r, hr⟩ := shows_iff.mp hi
  obtain ⟨x, hx⟩ := hs.alive (i := i) (by rw [hr]; simp)
  refine ⟨by simp [call, hx], hs.objs, hs.nodup, hs.owned, ?_⟩
  intro k
  simp only [GuiWorld.tell, List.filter_append, List.map_append, hs.told k]
  by_cases hk : k = i
  · subst hk
    simp [hi]
  · have hne : w.shows h k = false := by
      by_contra hc
      exact hk (hs.unique (by simpa using hc) hi)
    simp [hne, Ne.symm hk]

theorem tell_fresh {h : Nat} (hf : w.Fresh h) (e : GuiEvent) : w.tell h e = w := by
  unfold GuiWorld.tell
  simp [hf _]

theorem forward_spec (hs : Stands w s) (h : Nat) (e : GuiEvent) :
    ∃ s', forward h e s = (.ok (), s') ∧ Stands (w.tell h e) s' := by
  by_cases hf : ∃ i, w.shows h i = true
  · obtain ⟨i, hi⟩ := hf
    obtain ⟨e1, e2⟩ := call_spec hs hi e
    refine ⟨_, ?_, e2⟩
    unfold forward
    rw [find_some hs.nodup ((hs.owned h i).mpr hi)]
    exact e1
  · have hf' : w.Fresh h := by
      intro i
      by_contra hc
      exact hf ⟨i, by simpa using hc⟩
    refine ⟨s, ?_, by rw [tell_fresh hf']; exact hs⟩
    unfold forward
    rw [find_none]
    intro i hm
    exact hf ⟨i, (hs.owned h i).mp hm⟩

theorem shows_put {h i k : Nat} {o : Option Shown} :
    (w.put i o).shows h k = if k = i then Shown.is h o else w.shows h k := by
  unfold GuiWorld.shows GuiWorld.put
  by_cases hk : k = i <;> simp [hk]

/-- Replacing an object that shows nothing by another that shows nothing. -/
theorem put_spec (hs : Stands w s) {i : Nat} {o : Option Shown} {x : Option Win}
    (hi : ∀ h, w.shows h i = false) (ho : ∀ h r, o ≠ some (.showing h r)) (hf : Fits o x) :
    Stands (w.put i o) (s.put i x) := by
  refine ⟨?_, hs.nodup, ?_, hs.told⟩
  · intro k
    simp only [GuiWorld.put, put]
    by_cases hk : k = i
    · simpa [hk] using hf
    · simpa [hk] using hs.objs k
  · intro h k
    rw [shows_put]
    by_cases hk : k = i
    · subst hk
      rw [if_pos rfl]
      have e1 := hs.owned h k
      rw [hi h] at e1
      simp only [put]
      rw [e1]
      cases o with
      | none => simp [Shown.is]
      | some o =>
        cases o with
        | showing h' r => exact absurd rfl (ho h' r)
        | empty => simp [Shown.is]
        | closed => simp [Shown.is]
    · rw [if_neg hk]
      exact hs.owned h k

/-- Opening a window for an object without one. -/
theorem opened_spec (hs : Stands w s) {i h : Nat} (now : Int) (hi : w.objs i = some .empty)
    (hf : w.Fresh h) :
    Stands (w.put i (some (.showing h [now])))
      { s.put i (some ⟨some h, now, now⟩) with assoc := s.assoc ++ [(h, i)] } := by
  have hnone : ∀ k, (h, k) ∉ s.assoc := by
    intro k hm
    have := (hs.owned h k).mp hm
    rw [hf k] at this
    exact absurd this (by simp)
  refine ⟨?_, ?_, ?_, hs.told⟩
  · intro k
    simp only [GuiWorld.put, put]
    by_cases hk : k = i
    · simp [hk, Fits]
    · simpa [hk] using hs.objs k
  · rw [List.map_append, List.nodup_append]
    refine ⟨hs.nodup, by simp, ?_⟩
    intro a ha b hb
    simp only [List.map_cons, List.map_nil, List.mem_singleton] at hb
    subst hb
    obtain ⟨⟨h', k⟩, hm, rfl⟩ := List.mem_map.mp ha
    rintro rfl
    exact hnone k hm
  · intro h' k
    rw [shows_put]
    simp only [List.mem_append, List.mem_singleton, Prod.mk.injEq]
    by_cases hk : k = i
    · subst hk
      rw [if_pos rfl]
      simp only [is_showing, decide_eq_true_eq, and_true]
      constructor
      · rintro (hm | rfl)
        · have := (hs.owned h' k).mp hm
          unfold GuiWorld.shows at this
          rw [hi] at this
          exact absurd this (by simp)
        · rfl
      · rintro rfl
        exact Or.inr rfl
    · rw [if_neg hk]
      simp only [hk, and_false, or_false]
      exact hs.owned h' k

theorem open_spec (hs : Stands w s) {i : Nat} {h : Option Nat} (now : Int)
    (ha : Spec.guiAllowed t w (.open i h now)) :
    ∃ s', «open» t i h now s = (.ok (h.isSome && decide (w.objs i = some .empty)), s') ∧
      Stands (w.opened i h now) s' ∧ ∃ tail, s'.assoc = s.assoc ++ tail := by
  obtain ⟨hne, hh⟩ := ha
  obtain ⟨x, hx⟩ := hs.alive hne
  have hfit := hs.objs i
  rw [hx] at hfit
  cases ho : w.objs i with
  | none => exact absurd ho hne
  | some o =>
    rw [ho] at hfit
    by_cases hemp : o = .empty
    · subst hemp
      have hxh : x.handle = none := hfit
      cases h with
      | none =>
        simp only [Spec.handleAllowed] at hh
        exact ⟨s, by simp [«open», hx, hxh, hh], by simpa [GuiWorld.opened] using hs, [], by simp⟩
      | some h =>
        refine ⟨{ s.put i (some ⟨some h, now, now⟩) with assoc := s.assoc ++ [(h, i)] },
          by simp [«open», hx, hxh], ?_, [(h, i)], rfl⟩
        simp only [GuiWorld.opened, ho, if_true]
        exact opened_spec hs now ho hh
    · have hx' : ∃ h', x.handle = some h' := by
        cases o with
        | empty => exact absurd rfl hemp
        | showing h' r => exact ⟨h', hfit.1⟩
        | closed => exact hfit
      obtain ⟨h', hxh⟩ := hx'
      refine ⟨s, ?_, ?_, [], by simp⟩
      · simp [«open», hx, hxh, hemp]
      · cases h <;> simp [GuiWorld.opened, ho, hemp] <;> exact hs

theorem shows_none {i : Nat} (h : w.objs i = none) (h' : Nat) : w.shows h' i = false := by
  unfold GuiWorld.shows
  rw [h]
  rfl

theorem construct_spec (hs : Stands w s) {i : Nat} {h : Option Nat} (now : Int)
    (ha : Spec.guiAllowed t w (.construct i h now)) :
    ∃ s', construct t i h now s = (.ok (), s') ∧
      Stands ((w.put i (some .empty)).opened i h now) s' ∧ ∃ tail, s'.assoc = s.assoc ++ tail := by
  obtain ⟨hn, hh⟩ := ha
  have hs1 : Stands (w.put i (some .empty)) (s.put i (some ⟨none, 0, 0⟩)) :=
    put_spec hs (shows_none hn) (by simp) rfl
  have hh' : Spec.handleAllowed t (w.put i (some .empty)) h := by
    cases h with
    | none => exact hh
    | some h =>
      intro k
      rw [shows_put]
      by_cases hk : k = i
      · simp [hk]
      · rw [if_neg hk]; exact hh k
  obtain ⟨s', e, hs', tail, ht⟩ := open_spec (t := t) hs1 (i := i) (h := h) now
    ⟨by simp [GuiWorld.put], hh'⟩
  refine ⟨s', ?_, hs', tail, ht⟩
  simp only [construct, hs.dead hn]
  rw [M.bind_ok e]
  rfl

theorem opened_put {i h : Nat} (now : Int) :
    (w.put i (some .empty)).opened i (some h) now = w.put i (some (.showing h [now])) := by
  simp only [GuiWorld.opened, GuiWorld.put]
  simp only [if_true]
  congr 1
  funext k
  by_cases hk : k = i <;> simp [hk]

/-- What the handler leaves. -/
def replied (w : GuiWorld) (h : Nat) (r : CloseReply) : GuiWorld :=
  match r.dialog with
  | none => w.tell h .closeRequest
  | some (k, h', now, _) => (w.tell h .closeRequest).put k (some (.showing h' [now]))

theorem request_eq (w : GuiWorld) (h : Nat) (r : CloseReply) :
    w.request h r = if r.accept then (replied w h r).vanish h else replied w h r := rfl

theorem tell_shows (h h' : Nat) (e : GuiEvent) (i : Nat) :
    (w.tell h e).shows h' i = w.shows h' i := rfl

theorem closeHandler_spec (hs : Stands w s) {h i : Nat} (hi : w.shows h i = true) {r : CloseReply}
    (hr : Spec.replyAllowed w r) :
    ∃ s', closeHandler t i r s = (.ok (), s') ∧ Stands (replied w h r) s' ∧
      ∃ tail, s'.assoc = s.assoc ++ tail := by
  obtain ⟨e1, hs1⟩ := call_spec hs hi .closeRequest
  unfold closeHandler replied
  unfold Spec.replyAllowed at hr
  cases hd : r.dialog with
  | none => exact ⟨_, by rw [M.bind_ok e1]; rfl, hs1, [], by simp⟩
  | some d =>
    obtain ⟨k, h', now, grows⟩ := d
    rw [hd] at hr
    obtain ⟨hk, hf, -⟩ := hr
    obtain ⟨s', e2, hs2, tail, ht⟩ := construct_spec (t := t) hs1 (i := k) (h := some h') now
      ⟨hk, hf⟩
    rw [opened_put] at hs2
    exact ⟨s', by rw [M.bind_ok e1]; exact e2, hs2, tail, ht⟩

theorem vanish_spec (hs : Stands w s) {h : Nat} :
    Stands (w.vanish h)
      { s with assoc := s.assoc.eraseIdx (s.assoc.findIdx fun a => decide (a.1 = h)) } := by
  rw [erase_eq hs.nodup]
  refine ⟨?_, ?_, ?_, hs.told⟩
  · intro k
    simp only [GuiWorld.vanish]
    by_cases hk : w.shows h k = true
    · rw [if_pos hk]
      obtain ⟨r, hr⟩ := shows_iff.mp hk
      obtain ⟨x, hx, hxh, -⟩ := hs.showing hr
      rw [hx]
      exact ⟨h, hxh⟩
    · rw [if_neg hk]
      exact hs.objs k
  · exact hs.nodup.sublist (List.Sublist.map _ List.filter_sublist)
  · intro h' k
    simp only [List.mem_filter, ne_eq, decide_not, Bool.not_eq_true', decide_eq_false_iff_not]
    rw [hs.owned h' k]
    have : (w.vanish h).shows h' k =
        if w.shows h k = true then false else w.shows h' k := by
      change Shown.is h' (if w.shows h k = true then some .closed else w.objs k) = _
      by_cases hk : w.shows h k = true
      · rw [if_pos hk, if_pos hk]
        rfl
      · rw [if_neg hk, if_neg hk]
        rfl
    rw [this]
    by_cases hk : w.shows h k = true
    · rw [if_pos hk]
      simp only [Bool.false_eq_true, iff_false, not_and, not_not]
      intro hk'
      obtain ⟨r, hr⟩ := shows_iff.mp hk
      obtain ⟨r', hr'⟩ := shows_iff.mp hk'
      rw [hr] at hr'
      simp only [Option.some.injEq, Shown.showing.injEq] at hr'
      exact hr'.1.symm
    · rw [if_neg hk]
      constructor
      · exact fun h => h.1
      · intro hk'
        refine ⟨hk', ?_⟩
        rintro rfl
        exact hk hk'

theorem forwardClose_spec (hs : Stands w s) {h : Nat} {r : CloseReply}
    (ha : ∃ i, w.shows h i = true) (hr : Spec.replyAllowed w r) :
    ∃ s', forwardClose t h r s = (.ok (), s') ∧ Stands (w.request h r) s' := by
  obtain ⟨i, hi⟩ := ha
  have hmem := (hs.owned h i).mpr hi
  obtain ⟨s1, e1, hs1, tail, ht⟩ := closeHandler_spec (t := t) hs hi hr
  unfold forwardClose
  rw [find_some hs.nodup hmem, request_eq]
  dsimp only
  rw [M.bind_ok e1]
  cases hacc : r.accept with
  | false => exact ⟨s1, by simp, by simpa using hs1⟩
  | true =>
    have hm : CloseReply.moved r = false := by
      unfold CloseReply.moved
      unfold Spec.replyAllowed at hr
      cases hd : r.dialog with
      | none => rfl
      | some d =>
        obtain ⟨k, h', now, grows⟩ := d
        rw [hd] at hr
        rcases hr.2.2 with hg | hg
        · exact hg
        · rw [hacc] at hg; exact absurd hg (by simp)
    refine ⟨{ s1 with
      assoc := s1.assoc.eraseIdx (s1.assoc.findIdx fun a => decide (a.1 = h)) }, ?_, ?_⟩
    rotate_left 1
    · simp only [if_true]
      exact vanish_spec hs1
    · simp only [hm, if_true, Bool.false_eq_true, if_false, eraseAt, M.modify_apply]
      have hidx : (s1.assoc.findIdx fun a => decide (a.1 = h)) =
          s.assoc.findIdx fun a => decide (a.1 = h) := by
        rw [ht, List.findIdx_append, if_pos]
        rw [List.findIdx_lt_length]
        exact ⟨(h, i), hmem, by simp⟩
      rw [hidx]

theorem close_spec (hs : Stands w s) {i : Nat} {r : CloseReply}
    (ha : Spec.guiAllowed t w (.close i r)) :
    ∃ s', close t i r s = (.ok (), s') ∧
      Stands (match w.objs i with
        | some (.showing h _) => w.request h r
        | _ => w) s' := by
  simp only [Spec.guiAllowed] at ha
  cases ho : w.objs i with
  | none => rw [ho] at ha; exact absurd ha id
  | some o =>
    rw [ho] at ha
    cases o with
    | closed => exact absurd ha id
    | empty =>
      obtain ⟨x, hx, hxh⟩ := hs.empty ho
      exact ⟨s, by simp only [close, hx, hxh]; rw [if_neg ha], hs⟩
    | showing h rd =>
      obtain ⟨x, hx, hxh, -⟩ := hs.showing ho
      obtain ⟨s', e, hs'⟩ := forwardClose_spec (t := t) hs (h := h) (r := r)
        ⟨i, shows_iff.mpr ⟨rd, ho⟩⟩ ha
      exact ⟨s', by simp only [close, hx, hxh]; exact e, hs'⟩

theorem take_spec (hs : Stands w s) {i j : Nat} {x : Win} (hij : i ≠ j)
    (hi : ∀ h, w.shows h i = false) (hj : w.objs j ≠ some .closed) (hx : s.objs j = some x) :
    ∃ s', take i j x s = (.ok (), s') ∧
      Stands ((w.put i (w.objs j)).put j (some .empty)) s' := by
  have hfit := hs.objs j
  rw [hx] at hfit
  cases ho : w.objs j with
  | none => rw [ho] at hfit; exact absurd hfit (by simp [Fits])
  | some o =>
    rw [ho] at hfit hj
    have hputs : ∀ k, Fits (((w.put i (some o)).put j (some .empty)).objs k)
        (((s.put i (some x)).put j (some { x with handle := none })).objs k) := by
      intro k
      simp only [GuiWorld.put, put]
      by_cases hkj : k = j
      · simp [hkj, Fits]
      · by_cases hki : k = i
        · simpa [hkj, hki, hij] using hfit
        · simpa [hkj, hki] using hs.objs k
    cases o with
    | closed => exact absurd rfl hj
    | empty =>
      have hxh : x.handle = none := hfit
      refine ⟨(s.put i (some x)).put j (some { x with handle := none }), ?_, hputs, hs.nodup, ?_,
        hs.told⟩
      · simp only [take, hxh]
        rfl
      · intro h k
        rw [shows_put, shows_put]
        refine (hs.owned h k).trans ?_
        by_cases hkj : k = j
        · subst hkj
          rw [if_pos rfl]
          simp only [GuiWorld.shows, ho]
        · rw [if_neg hkj]
          by_cases hki : k = i
          · subst hki
            rw [if_pos rfl]
            simp [hi h]
          · rw [if_neg hki]
    | showing h rd =>
      have hxh : x.handle = some h := hfit.1
      have hmem : (h, j) ∈ s.assoc := (hs.owned h j).mpr (shows_iff.mpr ⟨rd, ho⟩)
      refine ⟨{ (s.put i (some x)).put j (some { x with handle := none }) with
          assoc := s.assoc.map fun a => if a.1 = h then (a.1, i) else a }, ?_, hputs, ?_, ?_,
        hs.told⟩
      · have e1 : fixAssociation i h (s.put i (some x)) = (.ok (),
            { s.put i (some x) with
              assoc := s.assoc.map fun a => if a.1 = h then (a.1, i) else a }) := by
          unfold fixAssociation
          rw [if_pos]
          · rw [← modify_eq hs.nodup]
            rfl
          · rw [List.any_eq_true]
            exact ⟨(h, j), hmem, by simp⟩
        simp only [take, hxh]
        rw [M.bind_ok e1]
        rfl
      · have : (s.assoc.map fun a => if a.1 = h then (a.1, i) else a).map (·.1) =
            s.assoc.map (·.1) := by
          rw [List.map_map]
          apply List.map_congr_left
          intro a _
          simp only [Function.comp]
          by_cases ha : a.1 = h <;> simp [ha]
        change ((s.assoc.map fun a => if a.1 = h then (a.1, i) else a).map (·.1)).Nodup
        rw [this]
        exact hs.nodup
      · intro h' k
        rw [shows_put, shows_put]
        have hmap : (h', k) ∈ (s.assoc.map fun a => if a.1 = h then (a.1, i) else a) ↔
            (h' = h ∧ k = i) ∨ (h' ≠ h ∧ (h', k) ∈ s.assoc) := by
          rw [List.mem_map]
          constructor
          · rintro ⟨⟨a, b⟩, hab, e⟩
            by_cases ha : a = h
            · simp only [ha, if_true, Prod.mk.injEq] at e
              exact Or.inl ⟨e.1.symm, e.2.symm⟩
            · simp only [ha, if_false, Prod.mk.injEq] at e
              obtain ⟨rfl, rfl⟩ := e
              exact Or.inr ⟨ha, hab⟩
          · rintro (⟨rfl, rfl⟩ | ⟨hne, hm⟩)
            · exact ⟨(h', j), hmem, by simp⟩
            · exact ⟨(h', k), hm, by simp [hne]⟩
        refine hmap.trans ?_
        by_cases hkj : k = j
        · subst hkj
          rw [if_pos rfl]
          simp only [is_empty, Bool.false_eq_true, iff_false]
          rintro (⟨-, rfl⟩ | ⟨hne, hm⟩)
          · exact hij rfl
          · have := (hs.owned h' k).mp hm
            rw [shows_iff] at this
            obtain ⟨r', hr'⟩ := this
            rw [ho] at hr'
            simp only [Option.some.injEq, Shown.showing.injEq] at hr'
            exact hne hr'.1.symm
        · rw [if_neg hkj]
          by_cases hki : k = i
          · subst hki
            rw [if_pos rfl]
            simp only [is_showing, decide_eq_true_eq, and_true]
            constructor
            · rintro (rfl | ⟨-, hm⟩)
              · rfl
              · have := (hs.owned h' k).mp hm
                rw [hi h'] at this
                exact absurd this (by simp)
            · rintro rfl
              exact Or.inl rfl
          · rw [if_neg hki]
            rw [← hs.owned h' k]
            constructor
            · rintro (⟨-, rfl⟩ | ⟨-, hm⟩)
              · exact absurd rfl hki
              · exact hm
            · intro hm
              refine Or.inr ⟨?_, hm⟩
              rintro rfl
              exact hkj (hs.unique ((hs.owned h' k).mp hm) ((hs.owned h' j).mp hmem))

theorem moveConstruct_spec (hs : Stands w s) {i j : Nat}
    (ha : Spec.guiAllowed t w (.moveConstruct i j)) :
    ∃ s', moveConstruct i j s = (.ok (), s') ∧
      Stands ((w.put i (w.objs j)).put j (some .empty)) s' := by
  obtain ⟨hi, hj, hc⟩ := ha
  obtain ⟨x, hx⟩ := hs.alive hj
  have hij : i ≠ j := by
    rintro rfl
    exact hj hi
  obtain ⟨s', e, hs'⟩ := take_spec hs hij (shows_none hi) hc hx
  exact ⟨s', by simp only [moveConstruct, hs.dead hi, hx]; exact e, hs'⟩

/-- Asking a window to close leaves the other objects as they were. -/
theorem request_other (hs : Stands w s) {h i j : Nat} (hi : w.shows h i = true) (hij : i ≠ j)
    {r : CloseReply} (hr : Spec.replyAllowed w r) (hj : w.objs j ≠ none) :
    (w.request h r).objs j = w.objs j := by
  have hjs : w.shows h j = false := by
    by_contra hc
    exact hij (hs.unique hi (by simpa using hc))
  have hrep : (replied w h r).objs j = w.objs j := by
    unfold replied
    unfold Spec.replyAllowed at hr
    cases hd : r.dialog with
    | none => rfl
    | some d =>
      obtain ⟨k, h', now, grows⟩ := d
      rw [hd] at hr
      have hk : j ≠ k := by
        rintro rfl
        exact hj hr.1
      simp only [GuiWorld.put, GuiWorld.tell, if_neg hk]
  rw [request_eq]
  cases r.accept with
  | false => simpa using hrep
  | true =>
    simp only [if_true, GuiWorld.vanish]
    rw [if_neg]
    · exact hrep
    · unfold GuiWorld.shows
      rw [hrep]
      unfold GuiWorld.shows at hjs
      rw [hjs]
      simp

/-- An accepted request leaves the object without a window. -/
theorem request_closed {h i : Nat} (hi : w.shows h i = true) {r : CloseReply}
    (hr : Spec.replyAllowed w r) (hacc : r.accept = true) (h' : Nat) :
    (w.request h r).shows h' i = false := by
  obtain ⟨rd, ho⟩ := shows_iff.mp hi
  have hrep : (replied w h r).objs i = w.objs i := by
    unfold replied
    unfold Spec.replyAllowed at hr
    cases hd : r.dialog with
    | none => rfl
    | some d =>
      obtain ⟨k, h', now, grows⟩ := d
      rw [hd] at hr
      have hk : i ≠ k := by
        rintro rfl
        rw [hr.1] at ho
        exact absurd ho (by simp)
      simp only [GuiWorld.put, GuiWorld.tell, if_neg hk]
  have hrs : (replied w h r).shows h i = true := by
    unfold GuiWorld.shows
    rw [hrep]
    exact hi
  rw [request_eq, hacc, if_pos rfl]
  change Shown.is h' (if (replied w h r).shows h i = true then some .closed else _) = false
  rw [if_pos hrs]
  rfl

theorem moveAssign_spec (hs : Stands w s) {i j : Nat} {r : CloseReply}
    (ha : Spec.guiAllowed t w (.moveAssign i j r)) (keyOf : Nat → Key) (sec : Int → ℚ) :
    ∃ s', moveAssign t i j r s = (.ok (), s') ∧
      Stands (Spec.guiNext keyOf sec w (.moveAssign i j r)) s' := by
  simp only [Spec.guiAllowed] at ha
  simp only [Spec.guiNext]
  by_cases hij : i = j
  · rw [if_pos hij] at ha
    obtain ⟨x, hx⟩ := hs.alive ha
    subst hij
    exact ⟨s, by simp [moveAssign, hx], by simpa using hs⟩
  · rw [if_neg hij] at ha
    obtain ⟨hj, hc, hi⟩ := ha
    obtain ⟨y, hy⟩ := hs.alive hj
    have hclose : Spec.guiAllowed t w (.close i r) := by
      simp only [Spec.guiAllowed]
      cases ho : w.objs i with
      | none => rw [ho] at hi; exact hi
      | some o =>
        rw [ho] at hi
        cases o with
        | empty => exact hi
        | closed => exact hi
        | showing h rd => exact hi.1
    obtain ⟨s1, e1, hs1⟩ := close_spec (t := t) hs hclose
    rw [if_neg hij]
    have key : ∀ w' : GuiWorld, Stands w' s1 → w'.objs j = w.objs j → (∀ h, w'.shows h i = false) →
        w'.objs i ≠ none → w.objs i ≠ none →
        ∃ s', moveAssign t i j r s = (.ok (), s') ∧
          Stands ((w'.put i (w.objs j)).put j (some .empty)) s' := by
      intro w' hs' hj' hi' hi2 hi3
      obtain ⟨x1, hx1⟩ := hs'.alive hi2
      obtain ⟨y1, hy1⟩ := hs'.alive (i := j) (by rw [hj']; exact hj)
      obtain ⟨x, hx⟩ := hs.alive hi3
      obtain ⟨s2, e2, hs2⟩ := take_spec hs' hij hi' (by rw [hj']; exact hc) hy1
      rw [hj'] at hs2
      refine ⟨s2, ?_, hs2⟩
      simp only [moveAssign, hx, hy]
      rw [if_neg hij, M.bind_ok e1]
      simp only [takeFrom, hx1, hy1]
      exact e2
    cases ho : w.objs i with
    | none => rw [ho] at hi; exact absurd hi id
    | some o =>
      rw [ho] at hi hs1
      cases o with
      | closed => exact absurd hi id
      | empty =>
        refine key w hs1 rfl ?_ (by rw [ho]; simp) (by rw [ho]; simp)
        intro h
        unfold GuiWorld.shows
        rw [ho]
        rfl
      | showing h rd =>
        have hsh : w.shows h i = true := shows_iff.mpr ⟨rd, ho⟩
        refine key (w.request h r) hs1 (request_other hs hsh hij hi.1 hj)
          (request_closed hsh hi.1 hi.2) ?_ (by rw [ho]; simp)
        have := hs1.objs i
        intro hn
        have hd := hs1.dead hn
        obtain ⟨x, hx, -⟩ := hs.showing ho
        -- the object is alive in the model before and so after
        have hrep : (w.request h r).objs i ≠ none := by
          have hsame : (replied w h r).objs i = w.objs i := by
            unfold replied
            have hr := hi.1
            unfold Spec.replyAllowed at hr
            cases hd : r.dialog with
            | none => rfl
            | some d =>
              obtain ⟨k, h', now, grows⟩ := d
              rw [hd] at hr
              have hk : i ≠ k := by
                rintro rfl
                rw [hr.1] at ho
                exact absurd ho (by simp)
              simp only [GuiWorld.put, GuiWorld.tell, if_neg hk]
          have hrs : (replied w h r).shows h i = true := by
            unfold GuiWorld.shows
            rw [hsame]
            exact hsh
          rw [request_eq, hi.2, if_pos rfl]
          simp [GuiWorld.vanish, hrs]
        exact hrep hn

theorem elapsed_eq {l : List Int} {a b : Int} (ha : l.head? = some a) (hb : l.getLast? = some b) :
    Spec.elapsed l = a - b := by
  induction l generalizing a with
  | nil => simp at ha
  | cons x l ih =>
    simp only [List.head?_cons, Option.some.injEq] at ha
    subst ha
    cases l with
    | nil =>
      simp only [List.getLast?_singleton, Option.some.injEq] at hb
      subst hb
      simp [Spec.elapsed]
    | cons y l =>
      rw [List.getLast?_cons_cons] at hb
      simp only [Spec.elapsed]
      rw [ih rfl hb]
      omega

/-- The state after updating the windows of a list of associations. -/
theorem updateAll_eq (sec : Int → ℚ) (clock : Nat → Int) (l : List (Nat × Nat)) (s : Gui)
    (hd : (l.map (·.2)).Nodup) (ha : ∀ a ∈ l, ∃ x, s.objs a.2 = some x) :
    ∃ s', updateAll sec clock l s = (.ok (), s') ∧ s'.assoc = s.assoc ∧
      (∀ i, i ∉ l.map (·.2) → s'.objs i = s.objs i) ∧
      (∀ h i x, (h, i) ∈ l → s.objs i = some x → s'.objs i = some { x with last := clock h }) ∧
      (∀ i, i ∉ l.map (·.2) → (s'.log.filter fun p => p.1 = i) = s.log.filter fun p => p.1 = i) ∧
      ∀ h i x, (h, i) ∈ l → s.objs i = some x →
        (s'.log.filter fun p => p.1 = i) = (s.log.filter fun p => p.1 = i) ++
          [(i, .update (sec (clock h - x.last)) (sec (clock h - x.start)))] := by
  induction l generalizing s with
  | nil => exact ⟨s, rfl, rfl, fun _ _ => rfl, by simp, fun _ _ => rfl, by simp⟩
  | cons a l ih =>
    obtain ⟨h0, i0⟩ := a
    simp only [List.map_cons, List.nodup_cons] at hd
    obtain ⟨x0, hx0⟩ := ha (h0, i0) (by simp)
    dsimp only at hx0
    let s1 : Gui := { s.put i0 (some { x0 with last := clock h0 }) with
      log := s.log ++ [(i0, .update (sec (clock h0 - x0.last)) (sec (clock h0 - x0.start)))] }
    have e1 : updateWindow sec i0 (clock h0) s = (.ok (), s1) := by
      simp only [updateWindow, hx0, call, put, if_true]
      rfl
    have hobj : ∀ k, k ≠ i0 → s1.objs k = s.objs k := by
      intro k hk
      simp only [s1, put, if_neg hk]
    have hlog : ∀ k, k ≠ i0 →
        (s1.log.filter fun p => p.1 = k) = s.log.filter fun p => p.1 = k := by
      intro k hk
      simp [s1, Ne.symm hk]
    have hne : ∀ a ∈ l, a.2 ≠ i0 := by
      intro a ha e
      exact hd.1 (e ▸ List.mem_map_of_mem (f := (·.2)) ha)
    obtain ⟨s', e2, has, ho1, ho2, hl1, hl2⟩ := ih s1 hd.2 (by
      intro a hm
      rw [hobj a.2 (hne a hm)]
      exact ha a (by simp [hm]))
    refine ⟨s', ?_, has, ?_, ?_, ?_, ?_⟩
    · simp only [updateAll]
      rw [M.bind_ok e1]
      exact e2
    · intro k hk
      simp only [List.map_cons, List.mem_cons, not_or] at hk
      rw [ho1 k hk.2, hobj k hk.1]
    · intro h k x hm hx
      rcases List.mem_cons.mp hm with e | hm'
      · simp only [Prod.mk.injEq] at e
        obtain ⟨rfl, rfl⟩ := e
        rw [hx0] at hx
        cases hx
        rw [ho1 k hd.1]
        simp [s1, put]
      · exact ho2 h k x hm' (by rw [hobj k (hne _ hm')]; exact hx)
    · intro k hk
      simp only [List.map_cons, List.mem_cons, not_or] at hk
      rw [hl1 k hk.2, hlog k hk.1]
    · intro h k x hm hx
      rcases List.mem_cons.mp hm with e | hm'
      · simp only [Prod.mk.injEq] at e
        obtain ⟨rfl, rfl⟩ := e
        rw [hx0] at hx
        cases hx
        rw [hl1 k hd.1]
        simp [s1]
      · rw [hl2 h k x hm' (by rw [hobj k (hne _ hm')]; exact hx), hlog k (hne _ hm')]

theorem idle_spec (hs : Stands w s) (keyOf : Nat → Key) (sec : Int → ℚ) (clock : Nat → Int) :
    ∃ s', updateAll sec clock s.assoc s = (.ok (), s') ∧
      Stands (Spec.guiNext keyOf sec w (.idle clock)) s' := by
  have hdup : (s.assoc.map (·.2)).Nodup := by
    apply List.Nodup.map_on
    · rintro ⟨h, i⟩ hm ⟨h', i'⟩ hm' e
      simp only at e
      subst e
      obtain ⟨r, hr⟩ := shows_iff.mp ((hs.owned h i).mp hm)
      obtain ⟨r', hr'⟩ := shows_iff.mp ((hs.owned h' i).mp hm')
      rw [hr] at hr'
      simp only [Option.some.injEq, Shown.showing.injEq] at hr'
      rw [hr'.1]
    · exact hs.nodup.of_map _
  obtain ⟨s', e, has, ho1, ho2, hl1, hl2⟩ := updateAll_eq sec clock s.assoc s hdup (by
    rintro ⟨h, i⟩ hm
    obtain ⟨r, hr⟩ := shows_iff.mp ((hs.owned h i).mp hm)
    exact hs.alive (by rw [hr]; simp))
  have hout : ∀ i, (∀ h r, w.objs i ≠ some (.showing h r)) → i ∉ s.assoc.map (·.2) := by
    intro i hi hm
    obtain ⟨⟨h, k⟩, hm', rfl⟩ := List.mem_map.mp hm
    obtain ⟨r, hr⟩ := shows_iff.mp ((hs.owned h k).mp hm')
    exact hi h r hr
  refine ⟨s', e, ?_, by rw [has]; exact hs.nodup, ?_, ?_⟩
  · intro i
    unfold Spec.guiNext
    dsimp only
    by_cases hsh : ∃ h r, w.objs i = some (.showing h r)
    · obtain ⟨h, r, hw⟩ := hsh
      obtain ⟨x, hx, hxh, hhead, hlast⟩ := hs.showing hw
      rw [hw, ho2 h i x ((hs.owned h i).mpr (shows_iff.mpr ⟨r, hw⟩)) hx]
      refine ⟨hxh, rfl, ?_⟩
      cases r with
      | nil => simp at hhead
      | cons y r =>
        dsimp only
        rw [List.getLast?_cons_cons]
        exact hlast
    · have hn : ∀ h r, w.objs i ≠ some (.showing h r) := fun h r hc => hsh ⟨h, r, hc⟩
      rw [ho1 i (hout i hn)]
      have := hs.objs i
      cases hw : w.objs i with
      | none => rw [hw] at this; exact this
      | some o =>
        rw [hw] at this
        cases o with
        | showing h r => exact absurd hw (hn h r)
        | empty => exact this
        | closed => exact this
  · intro h i
    rw [has, hs.owned h i]
    unfold Spec.guiNext
    simp only [GuiWorld.shows]
    cases w.objs i with
    | none => simp
    | some o => cases o <;> simp
  · intro i
    unfold Spec.guiNext
    dsimp only
    by_cases hsh : ∃ h r, w.objs i = some (.showing h r)
    · obtain ⟨h, r, hw⟩ := hsh
      obtain ⟨x, hx, hxh, hhead, hlast⟩ := hs.showing hw
      rw [hw, hl2 h i x ((hs.owned h i).mpr (shows_iff.mpr ⟨r, hw⟩)) hx, List.map_append, hs.told i]
      dsimp only
      congr 1
      unfold Spec.updateEvent
      cases r with
      | nil => simp at hhead
      | cons y r =>
        simp only [List.head?_cons, Option.some.injEq] at hhead
        subst hhead
        have h1 : Spec.elapsed (clock h :: (x.last :: r).take 1) = clock h - x.last :=
          elapsed_eq rfl (by simp)
        have h2 : Spec.elapsed (clock h :: x.last :: r) = clock h - x.start :=
          elapsed_eq rfl (by rw [List.getLast?_cons_cons]; exact hlast)
        rw [h1, h2]
        rfl
    · have hn : ∀ h r, w.objs i ≠ some (.showing h r) := fun h r hc => hsh ⟨h, r, hc⟩
      rw [hl1 i (hout i hn), hs.told i]
      cases hw : w.objs i with
      | none => rfl
      | some o =>
        cases o with
        | showing h r => exact absurd hw (hn h r)
        | empty => rfl
        | closed => rfl

theorem step_spec (hs : Stands w s) (sec : Int → ℚ) (op : GuiOp) (ha : Spec.guiAllowed t w op) :
    ∃ s', step t sec op s = (.ok (Spec.guiResult w op), s') ∧
      Stands (Spec.guiNext (keyOf t) sec w op) s' := by
  cases op with
  | construct i h now =>
    obtain ⟨s', e, hs', -⟩ := construct_spec (t := t) hs now ha
    exact ⟨s', by simp only [step]; rw [M.bind_ok e]; rfl, hs'⟩
  | «open» i h now =>
    obtain ⟨s', e, hs', -⟩ := open_spec (t := t) hs now ha
    exact ⟨s', by simp only [step]; rw [M.bind_ok e]; rfl, hs'⟩
  | close i r =>
    obtain ⟨s', e, hs'⟩ := close_spec (t := t) hs ha
    exact ⟨s', by simp only [step]; rw [M.bind_ok e]; rfl, hs'⟩
  | moveConstruct i j =>
    obtain ⟨s', e, hs'⟩ := moveConstruct_spec (t := t) hs ha
    exact ⟨s', by simp only [step]; rw [M.bind_ok e]; rfl, hs'⟩
  | moveAssign i j r =>
    obtain ⟨s', e, hs'⟩ := moveAssign_spec (t := t) hs ha (keyOf t) sec
    exact ⟨s', by simp only [step]; rw [M.bind_ok e]; rfl, hs'⟩
  | destroy i =>
    have hne : w.objs i ≠ none := by rcases ha with h | h <;> rw [h] <;> simp
    obtain ⟨x, hx⟩ := hs.alive hne
    have e : destroy i s = (.ok (), s.put i none) := by simp only [destroy, hx]
    refine ⟨s.put i none, by simp only [step]; rw [M.bind_ok e]; rfl, ?_⟩
    refine put_spec hs ?_ (by simp) trivial
    intro h
    unfold GuiWorld.shows
    rcases ha with h | h <;> rw [h] <;> rfl
  | closeRequest h r =>
    obtain ⟨s', e, hs'⟩ := forwardClose_spec (t := t) hs ha.1 ha.2
    exact ⟨s', by simp only [step]; rw [M.bind_ok e]; rfl, hs'⟩
  | keyDown h code =>
    obtain ⟨s', e, hs'⟩ := forward_spec hs h (.keyDown (keyOf t code))
    exact ⟨s', by simp only [step]; rw [M.bind_ok e]; rfl, hs'⟩
  | keyUp h code =>
    obtain ⟨s', e, hs'⟩ := forward_spec hs h (.keyUp (keyOf t code))
    exact ⟨s', by simp only [step]; rw [M.bind_ok e]; rfl, hs'⟩
  | resize h =>
    obtain ⟨s', e, hs'⟩ := forward_spec hs h .resize
    exact ⟨s', by simp only [step]; rw [M.bind_ok e]; rfl, hs'⟩
  | idle clock =>
    obtain ⟨s', e, hs'⟩ := idle_spec hs (keyOf t) sec clock
    exact ⟨s', by simp only [step]; rw [M.bind_ok e]; rfl, hs'⟩

theorem run_spec (hs : Stands w s) (sec : Int → ℚ) (ops : List GuiOp)
    (ha : Spec.guiLegal t (keyOf t) sec w ops) :
    ∃ s', M.runList (step t sec) ops s = (.ok (Spec.guiResults (keyOf t) sec w ops), s') ∧
      Stands (Spec.guiAfter (keyOf t) sec w ops) s' := by
  induction ops generalizing w s with
  | nil => exact ⟨s, rfl, hs⟩
  | cons op ops ih =>
    obtain ⟨s1, e1, hs1⟩ := step_spec hs sec op ha.1
    obtain ⟨s2, e2, hs2⟩ := ih hs1 ha.2
    exact ⟨s2, M.runList_cons e1 e2, hs2⟩

end Gui

end Cmp
