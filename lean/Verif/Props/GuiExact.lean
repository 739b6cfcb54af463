import Verif.Spec.GuiLedger
import Verif.Props.Gui

/-
Properties C64 and C65 in full: programs that keep to no discipline.
-/

namespace Cmp

open Cmp.Spec (GuiLedger)

/-- Everything but updates. -/
def GuiEvent.notUpdate : GuiEvent → Bool
  | .update _ _ => false
  | _ => true

namespace Gui

/-- The windows of the model are those of the ledger. -/
structure Tracks (w : GuiLedger) (s : Gui) : Prop where
  holds : ∀ i, w.holds i = (s.objs i).map (·.handle)
  nodup : (s.assoc.map (·.1)).Nodup
  taker : ∀ h a, (h, a) ∈ s.assoc ↔ w.taker h = some a
  told : ∀ i, (heard s i).filter GuiEvent.notUpdate = w.told i

/-- The operation completes with `a` and the ledger given, or is undefined if there is none. -/
def Does {α : Type} (x : M Gui α) (s : Gui) (a : α) (o : Option GuiLedger) : Prop :=
  match o with
  | some w => ∃ s', x s = (.ok a, s') ∧ Tracks w s'
  | none => (x s).1 = .ub

variable {t : Toolkit} {w : GuiLedger} {s : Gui}

theorem Does.pure_bind {α β : Type} {x : M Gui α} {a : α} {b : β} {o : Option GuiLedger}
    (h : Does x s a o) : Does (x >>= fun _ => pure b) s b o := by
  cases o with
  | some w =>
    obtain ⟨s', e, h⟩ := h
    exact ⟨s', by rw [M.bind_ok e]; rfl, h⟩
  | none =>
    show ((x >>= fun _ => pure b) s).1 = .ub
    have h : (x s).1 = .ub := h
    rw [M.bind_apply]
    cases e : x s with
    | mk o s' =>
      rw [e] at h
      simp only at h
      subst h
      rfl

theorem Does.bind {α β : Type} {x : M Gui α} {f : α → M Gui β} {a : α} {b : β} {o : Option GuiLedger}
    {g : GuiLedger → Option GuiLedger} (h : Does x s a o)
    (hf : ∀ w' s', o = some w' → Tracks w' s' → Does (f a) s' b (g w')) :
    Does (x >>= f) s b (o.bind g) := by
  cases o with
  | some w =>
    obtain ⟨s', e, h⟩ := h
    have := hf w s' rfl h
    rw [Option.bind_some]
    unfold Does at this ⊢
    rw [M.bind_ok e]
    exact this
  | none =>
    show ((x >>= f) s).1 = .ub
    have h : (x s).1 = .ub := h
    rw [M.bind_apply]
    cases e : x s with
    | mk o s' =>
      rw [e] at h
      simp only at h
      subst h
      rfl

theorem Tracks.dead (h : Tracks w s) {i : Nat} (hi : w.holds i = none) : s.objs i = none := by
  have := h.holds i
  rw [hi] at this
  cases hx : s.objs i with
  | none => rfl
  | some x => rw [hx] at this; simp at this

theorem Tracks.alive (h : Tracks w s) {i : Nat} {o : Option Nat} (hi : w.holds i = some o) :
    ∃ x, s.objs i = some x ∧ x.handle = o := by
  have := h.holds i
  rw [hi] at this
  cases hx : s.objs i with
  | none => rw [hx] at this; simp at this
  | some x => rw [hx] at this; exact ⟨x, rfl, by simpa using this.symm⟩

theorem Tracks.find (h : Tracks w s) (k : Nat) :
    (s.assoc.find? fun a => a.1 = k) = (w.taker k).map fun a => (k, a) := by
  cases ha : w.taker k with
  | none => exact find_none fun i hi => by rw [(h.taker k i).mp hi] at ha; simp at ha
  | some a => exact find_some h.nodup ((h.taker k a).mpr ha)

theorem Tracks.put (h : Tracks w s) (i : Nat) (o : Option Win) :
    Tracks (w.setHolds i (o.map (·.handle))) (s.put i o) := by
  refine ⟨fun k => ?_, h.nodup, h.taker, h.told⟩
  simp only [GuiLedger.setHolds, Gui.put]
  by_cases hk : k = i
  · simp [hk]
  · simp [hk, h.holds k]

theorem tracks_call (h : Tracks w s) (a : Nat) (e : GuiEvent) (he : e.notUpdate = true) :
    Does (call a e) s () (w.tell a e) := by
  unfold GuiLedger.tell
  cases ha : w.holds a with
  | none => simp [Does, call, h.dead ha]
  | some o =>
    obtain ⟨x, hx, -⟩ := h.alive ha
    refine ⟨{ s with log := s.log ++ [(a, e)] }, by simp [call, hx], h.holds, h.nodup, h.taker, ?_⟩
    intro k
    have := h.told k
    unfold heard at this ⊢
    by_cases hk : k = a
    · subst hk
      simp [List.filter_append, List.map_append, ← this, he]
    · have hk' : ¬ a = k := fun h => hk h.symm
      simp [List.filter_append, ← this, hk, hk']

theorem tracks_forward (h : Tracks w s) (k : Nat) (e : GuiEvent) (he : e.notUpdate = true) :
    Does (forward k e) s () (w.report k e) := by
  have hfind := h.find k
  unfold GuiLedger.report
  cases ha : w.taker k with
  | none =>
    rw [ha] at hfind
    exact ⟨s, by simp only [forward, hfind, Option.map_none], h⟩
  | some a =>
    rw [ha] at hfind
    have := tracks_call h a e he
    unfold Does at this ⊢
    simp only [forward, hfind, Option.map_some]
    exact this

/-- Opening appends to the list. -/
theorem tracks_opens (h : Tracks w s) {i : Nat} {x : Win} (hi : s.objs i = some x)
    (hx : x.handle = none) (o : Option Nat) (now : Int) (hf : ∀ k, o = some k → w.taker k = none) :
    Does (Gui.open t i o now) s o.isSome (w.opens t i o) := by
  cases o with
  | none =>
    unfold GuiLedger.opens Does
    by_cases ht : t = .windows
    · exact if_pos ht ▸ ⟨s, by simp [Gui.open, hi, hx, ht], h⟩
    · simp [Gui.open, hi, hx, ht]
  | some k =>
    have hk := hf k rfl
    refine ⟨{ s.put i (some ⟨some k, now, now⟩) with assoc := s.assoc ++ [(k, i)] }, ?_, ?_⟩
    · simp only [Gui.open, hi, hx]
      rfl
    · have hp := h.put i (some ⟨some k, now, now⟩)
      refine ⟨hp.holds, ?_, ?_, hp.told⟩
      · have hn : ∀ a, (k, a) ∉ s.assoc := fun a ha => by rw [(h.taker k a).mp ha] at hk; simp at hk
        simp only [List.map_append, List.map_cons, List.map_nil]
        rw [List.nodup_append]
        refine ⟨h.nodup, by simp, ?_⟩
        intro a ha b hb
        simp only [List.mem_singleton] at hb
        subst hb
        rintro rfl
        obtain ⟨⟨a1, a2⟩, hm, rfl⟩ := List.mem_map.mp ha
        exact hn a2 hm
      · intro k' a
        simp only [List.mem_append, List.mem_singleton, Prod.mk.injEq, GuiLedger.setTaker]
        by_cases hkk : k' = k
        · subst hkk
          rw [if_pos rfl, h.taker k' a, hk]
          constructor
          · rintro (h | h)
            · simp at h
            · rw [h.2]
          · intro h
            exact .inr ⟨rfl, by simpa using h.symm⟩
        · rw [if_neg hkk]
          constructor
          · rintro (h' | h')
            · exact (h.taker k' a).mp h'
            · exact absurd h'.1 hkk
          · exact fun h' => .inl ((h.taker k' a).mpr h')

theorem tracks_construct (h : Tracks w s) (i : Nat) (o : Option Nat) (now : Int)
    (hf : ∀ k, o = some k → w.taker k = none) :
    Does (construct t i o now) s () (w.born t i o) := by
  unfold GuiLedger.born
  cases hi : w.holds i with
  | some x =>
    obtain ⟨x, hx, -⟩ := h.alive hi
    simp [Does, construct, hx]
  | none =>
    have hx := h.dead hi
    have hp := h.put i (some ⟨none, 0, 0⟩)
    have ho := tracks_opens (t := t) hp (i := i) (x := ⟨none, 0, 0⟩) (by simp [Gui.put]) rfl o now hf
    have := ho.pure_bind (b := ())
    unfold Does at this ⊢
    simp only [construct, hx]
    exact this

/-- What a close handler adds to the list is behind the rest. -/
theorem closeHandler_assoc (t : Toolkit) (i : Nat) (r : CloseReply) (s s' : Gui)
    (h : closeHandler t i r s = (.ok (), s')) : ∃ tail, s'.assoc = s.assoc ++ tail := by
  unfold closeHandler at h
  rw [M.bind_apply] at h
  unfold call at h
  cases hx : s.objs i with
  | none => simp [hx] at h
  | some x =>
    simp only [hx] at h
    cases hd : r.dialog with
    | none =>
      simp only [hd, M.pure_apply, Prod.mk.injEq] at h
      exact ⟨[], by rw [← h.2]; simp⟩
    | some d =>
      obtain ⟨k, h', now, g⟩ := d
      simp only [hd, construct] at h
      cases hk : s.objs k with
      | some y => simp [hk] at h
      | none =>
        simp only [hk] at h
        rw [M.bind_apply] at h
        simp only [Gui.open, Gui.put, if_pos, M.pure_apply, Prod.mk.injEq] at h
        exact ⟨[(h', k)], by rw [← h.2]⟩

theorem GuiLedger.tell_taker {w w' : GuiLedger} {a : Nat} {e : GuiEvent} (h : w.tell a e = some w') :
    w'.taker = w.taker := by
  unfold GuiLedger.tell at h
  split at h
  · simp at h
  · simp only [Option.some.injEq] at h
    rw [← h]

theorem tracks_closeHandler (h : Tracks w s) (a : Nat) (r : CloseReply) (hf : w.freshDialog r) :
    Does (closeHandler t a r) s () ((w.tell a .closeRequest).bind fun w1 => w1.dialog t r.dialog) := by
  unfold closeHandler
  refine (tracks_call h a .closeRequest rfl).bind fun w1 s1 e1 h1 => ?_
  unfold GuiLedger.dialog
  cases hd : r.dialog with
  | none => exact ⟨s1, rfl, h1⟩
  | some d =>
    obtain ⟨k, h', now, g⟩ := d
    refine tracks_construct h1 k (some h') now fun k' hk' => ?_
    simp only [Option.some.injEq] at hk'
    subst hk'
    rw [GuiLedger.tell_taker e1]
    exact hf _ _ _ _ hd

theorem tracks_request (h : Tracks w s) (k : Nat) (r : CloseReply) (hf : w.freshDialog r) :
    Does (forwardClose t k r) s () (w.request t k r) := by
  have hfind := h.find k
  unfold GuiLedger.request
  cases ha : w.taker k with
  | none =>
    rw [ha] at hfind
    simp only [Does, forwardClose, hfind, Option.map_none]
  | some a =>
    rw [ha] at hfind
    have hmem := (h.taker k a).mpr ha
    have key : Does (do
        closeHandler t a r
        if r.accept then
          if CloseReply.moved r then M.ub
          else eraseAt (s.assoc.findIdx fun (a : Nat × Nat) => a.1 = k)
        else pure ()) s () (((w.tell a .closeRequest).bind fun w1 => w1.dialog t r.dialog).bind fun w2 =>
          if r.accept = false then some w2
          else if r.dialog.any (·.2.2.2) then none
          else some (w2.setTaker k none)) := by
      have hc := tracks_closeHandler (t := t) h a r hf
      revert hc
      generalize ((w.tell a .closeRequest).bind fun w1 => w1.dialog t r.dialog) = o
      intro hc
      cases o with
      | none =>
        have hc' : (closeHandler t a r s).1 = .ub := hc
        show (_ : Outcome Unit × Gui).1 = .ub
        rw [M.bind_apply]
        cases e : closeHandler t a r s with
        | mk o s' =>
          rw [e] at hc'
          simp only at hc'
          subst hc'
          rfl
      | some w2 =>
        obtain ⟨s2, e2, h2⟩ := hc
        obtain ⟨tail, ht⟩ := closeHandler_assoc t a r s s2 e2
        rw [Option.bind_some]
        unfold Does
        rw [M.bind_ok e2]
        cases hacc : r.accept with
        | false => exact ⟨s2, rfl, h2⟩
        | true =>
          have hm : CloseReply.moved r = r.dialog.any (·.2.2.2) := by
            unfold CloseReply.moved
            cases r.dialog <;> rfl
          rw [hm]
          cases r.dialog.any (·.2.2.2) with
          | true => rfl
          | false =>
            have hidx : (s.assoc.findIdx fun a => decide (a.1 = k)) =
                s2.assoc.findIdx fun a => decide (a.1 = k) := by
              rw [ht, List.findIdx_append, if_pos]
              rw [List.findIdx_lt_length]
              exact ⟨(k, a), hmem, by simp⟩
            refine ⟨{ s2 with assoc := s2.assoc.eraseIdx (s2.assoc.findIdx fun a => decide (a.1 = k)) },
              ?_, ?_⟩
            · rw [hidx]
              rfl
            · rw [erase_eq h2.nodup]
              refine ⟨h2.holds, h2.nodup.sublist (List.Sublist.map _ List.filter_sublist), ?_, h2.told⟩
              intro h' b
              simp only [List.mem_filter, ne_eq, decide_not, Bool.not_eq_true', decide_eq_false_iff_not,
                GuiLedger.setTaker]
              by_cases hk : h' = k
              · simp [hk]
              · simp [hk, h2.taker h' b]
    have hassoc : (((w.tell a .closeRequest).bind fun w1 => w1.dialog t r.dialog).bind fun w2 =>
          if r.accept = false then some w2
          else if r.dialog.any (·.2.2.2) then none
          else some (w2.setTaker k none)) =
        (w.tell a .closeRequest).bind fun w1 => (w1.dialog t r.dialog).bind fun w2 =>
          if r.accept = false then some w2
          else if r.dialog.any (·.2.2.2) then none
          else some (w2.setTaker k none) := by
      cases w.tell a .closeRequest <;> rfl
    rw [hassoc] at key
    unfold Does at key ⊢
    simp only [forwardClose, hfind, Option.map_some]
    exact key

theorem tracks_close (h : Tracks w s) (i : Nat) (r : CloseReply) (hf : w.freshDialog r) :
    Does (close t i r) s () (w.closes t i r) := by
  unfold GuiLedger.closes
  cases hi : w.holds i with
  | none => simp [Does, close, h.dead hi]
  | some o =>
    obtain ⟨x, hx, hh⟩ := h.alive hi
    cases o with
    | none =>
      simp only
      by_cases ht : t = .windows
      · simp [Does, close, hx, hh, ht]
      · rw [if_neg ht]
        exact ⟨s, by simp [close, hx, hh, ht], h⟩
    | some k =>
      have := tracks_request (t := t) h k r hf
      unfold Does at this ⊢
      simp only [close, hx, hh]
      exact this

theorem tracks_take (h : Tracks w s) {i j : Nat} (x : Win) (hj : s.objs j = some x) :
    Does (take i j x) s () (w.takes i j) := by
  have hh : w.holds j = some x.handle := by rw [h.holds j, hj]; rfl
  unfold GuiLedger.takes
  rw [hh]
  have hp := h.put i (some x)
  cases hx : x.handle with
  | none =>
    simp only
    have hp2 := hp.put j (some { x with handle := none })
    refine ⟨_, ?_, by simpa [hx] using hp2⟩
    simp only [take, hx]
    rfl
  | some k =>
    simp only
    have hany : (s.assoc.any fun a => decide (a.1 = k)) = (w.taker k).isSome := by
      have := h.find k
      cases hk : w.taker k with
      | none =>
        rw [hk] at this
        rw [Option.map_none, List.find?_eq_none] at this
        simp only [Option.isSome_none, List.any_eq_false]
        exact this
      | some a =>
        simp only [Option.isSome_some, List.any_eq_true]
        exact ⟨(k, a), (h.taker k a).mpr hk, by simp⟩
    by_cases hs : (w.taker k).isSome = true
    · rw [if_pos hs]
      let s1 : Gui := { s.put i (some x) with
        assoc := s.assoc.modify (s.assoc.findIdx fun a => decide (a.1 = k)) fun a => (a.1, i) }
      have h1 : Tracks ((w.setHolds i (some (some k))).setTaker k (some i)) s1 := by
        refine ⟨?_, ?_, ?_, hp.told⟩
        · have := hp.holds
          rw [Option.map_some, hx] at this
          exact this
        · show ((s.assoc.modify _ _).map (·.1)).Nodup
          rw [modify_eq h.nodup, List.map_map]
          have : ((fun a : Nat × Nat => a.1) ∘ fun a => if a.1 = k then (a.1, i) else a) = fun a => a.1 := by
            funext a
            simp only [Function.comp_apply]
            split <;> rfl
          rw [this]
          exact h.nodup
        · intro h' b
          show (h', b) ∈ s.assoc.modify _ _ ↔ _
          rw [modify_eq h.nodup]
          simp only [List.mem_map, GuiLedger.setTaker, GuiLedger.setHolds]
          obtain ⟨a, ha⟩ := Option.isSome_iff_exists.mp hs
          by_cases hk : h' = k
          · subst hk
            rw [if_pos rfl]
            constructor
            · rintro ⟨⟨c1, c2⟩, hm, hc⟩
              split at hc
              · simp only [Prod.mk.injEq] at hc
                rw [hc.2]
              · rename_i hne
                simp only [Prod.mk.injEq] at hc
                exact absurd hc.1 hne
            · intro hb
              simp only [Option.some.injEq] at hb
              exact ⟨(h', a), (h.taker h' a).mpr ha, by simp [hb]⟩
          · rw [if_neg hk, ← h.taker h' b]
            constructor
            · rintro ⟨⟨c1, c2⟩, hm, hc⟩
              split at hc
              · rename_i he
                simp only [Prod.mk.injEq] at hc he
                exact absurd (hc.1.symm.trans he) hk
              · rw [← hc]
                exact hm
            · exact fun hm => ⟨(h', b), hm, by simp [hk]⟩
      have h2 := h1.put j (some { x with handle := none })
      refine ⟨_, ?_, by simpa using h2⟩
      simp only [take, hx]
      rw [M.bind_apply, fixAssociation]
      rw [if_pos (by rw [show (s.put i (some x)).assoc = s.assoc from rfl, hany]; exact hs)]
      rfl
    · rw [if_neg hs]
      show (take i j x s).1 = .ub
      simp only [take, hx]
      rw [M.bind_apply, fixAssociation]
      rw [if_neg (by rw [show (s.put i (some x)).assoc = s.assoc from rfl, hany]; exact hs)]

theorem GuiLedger.born_holds {w w' : GuiLedger} {k : Nat} {o : Option Nat} (h : w.born t k o = some w')
    {i : Nat} (hi : w.holds i ≠ none) : w'.holds i ≠ none := by
  unfold GuiLedger.born at h
  split at h
  · simp at h
  · rename_i hk
    have hik : i ≠ k := by rintro rfl; exact hi hk
    cases o with
    | none =>
      simp only [GuiLedger.opens] at h
      split at h
      · simp only [Option.some.injEq] at h
        rw [← h]
        simpa [GuiLedger.setHolds, hik] using hi
      · simp at h
    | some k' =>
      simp only [GuiLedger.opens, Option.some.injEq] at h
      rw [← h]
      simpa [GuiLedger.setHolds, GuiLedger.setTaker, hik] using hi

theorem GuiLedger.tell_holds {w w' : GuiLedger} {a : Nat} {e : GuiEvent} (h : w.tell a e = some w') :
    w'.holds = w.holds := by
  unfold GuiLedger.tell at h
  split at h
  · simp at h
  · simp only [Option.some.injEq] at h
    rw [← h]

theorem GuiLedger.closes_holds {w w' : GuiLedger} {k : Nat} {r : CloseReply} (h : w.closes t k r = some w')
    {i : Nat} (hi : w.holds i ≠ none) : w'.holds i ≠ none := by
  unfold GuiLedger.closes at h
  split at h
  · simp at h
  · split at h
    · simp at h
    · simp only [Option.some.injEq] at h
      rw [← h]
      exact hi
  · unfold GuiLedger.request at h
    split at h
    · simp at h
    · obtain ⟨w1, e1, h⟩ := Option.bind_eq_some_iff.mp h
      obtain ⟨w2, e2, h⟩ := Option.bind_eq_some_iff.mp h
      have h1 : w1.holds i ≠ none := by rw [GuiLedger.tell_holds e1]; exact hi
      have h2 : w2.holds i ≠ none := by
        unfold GuiLedger.dialog at e2
        split at e2
        · simp only [Option.some.injEq] at e2
          rw [← e2]
          exact h1
        · exact GuiLedger.born_holds e2 h1
      split at h
      · simp only [Option.some.injEq] at h
        rw [← h]
        exact h2
      · split at h
        · simp at h
        · simp only [Option.some.injEq] at h
          rw [← h]
          exact h2

theorem tracks_moveAssign (h : Tracks w s) (i j : Nat) (r : CloseReply) (hf : w.freshDialog r) :
    Does (moveAssign t i j r) s () (if w.holds i = none ∨ w.holds j = none then none
      else if i = j then some w else (w.closes t i r).bind fun w' => w'.takes i j) := by
  cases hi : w.holds i with
  | none => simp [Does, moveAssign, h.dead hi]
  | some oi =>
    obtain ⟨x, hx, -⟩ := h.alive hi
    cases hj : w.holds j with
    | none => simp [Does, moveAssign, hx, h.dead hj]
    | some oj =>
      obtain ⟨y, hy, -⟩ := h.alive hj
      rw [if_neg (by simp)]
      by_cases hij : i = j
      · rw [if_pos hij]
        subst hij
        exact ⟨s, by simp [moveAssign, hx], h⟩
      · rw [if_neg hij]
        have key : Does (do close t i r; takeFrom i j) s ()
            ((w.closes t i r).bind fun w' => w'.takes i j) := by
          refine (tracks_close h i r hf).bind fun w' s' e' h' => ?_
          have a := GuiLedger.closes_holds e' (i := i) (by rw [hi]; simp)
          have b := GuiLedger.closes_holds e' (i := j) (by rw [hj]; simp)
          obtain ⟨p, hp⟩ := Option.ne_none_iff_exists'.mp a
          obtain ⟨q, hq⟩ := Option.ne_none_iff_exists'.mp b
          obtain ⟨x', hx', -⟩ := h'.alive hp
          obtain ⟨y', hy', -⟩ := h'.alive hq
          have := tracks_take (i := i) h' y' hy'
          unfold Does at this ⊢
          simp only [takeFrom, hx', hy']
          exact this
        unfold Does at key ⊢
        simp only [moveAssign, hx, hy, if_neg hij]
        exact key

theorem tracks_updateAll (sec : Int → ℚ) (clock : Nat → Int) (l : List (Nat × Nat)) (h : Tracks w s) :
    Does (updateAll sec clock l) s () (if ∀ a ∈ l, w.holds a.2 ≠ none then some w else none) := by
  induction l generalizing s with
  | nil => exact if_pos (c := ∀ a ∈ ([] : List (Nat × Nat)), w.holds a.2 ≠ none) (by simp) ▸ ⟨s, rfl, h⟩
  | cons a l ih =>
    cases ha : w.holds a.2 with
    | none =>
      rw [if_neg (by simp [ha])]
      simp [Does, updateAll, M.bind_apply, updateWindow, h.dead ha]
    | some o =>
      obtain ⟨x, hx, hh⟩ := h.alive ha
      let s1 : Gui := { s.put a.2 (some { x with last := clock a.1 }) with
        log := s.log ++ [(a.2, .update (sec (clock a.1 - x.last)) (sec (clock a.1 - x.start)))] }
      have e1 : updateWindow sec a.2 (clock a.1) s = (.ok (), s1) := by
        simp only [updateWindow, hx, call, Gui.put, if_true]
        rfl
      have h1 : Tracks w s1 := by
        refine ⟨?_, h.nodup, h.taker, ?_⟩
        · intro k
          show w.holds k = Option.map _ (if k = a.2 then _ else s.objs k)
          by_cases hk : k = a.2
          · rw [if_pos hk, hk, ha, ← hh]
            rfl
          · rw [if_neg hk]
            exact h.holds k
        · intro k
          have := h.told k
          unfold heard at this ⊢
          rw [← this]
          show ((List.filter _ (s.log ++ [_])).map _).filter _ = _
          rw [List.filter_append, List.map_append, List.filter_append]
          by_cases hk : a.2 = k
          · simp [hk, GuiEvent.notUpdate]
          · simp [hk]
      have := ih h1
      have hc : (∀ b ∈ a :: l, w.holds b.2 ≠ none) ↔ ∀ b ∈ l, w.holds b.2 ≠ none := by
        simp [ha]
      rw [if_congr hc rfl rfl]
      unfold Does at this ⊢
      simp only [updateAll]
      rw [M.bind_ok e1]
      exact this

/-- One thing that happens. -/
theorem tracks_step (h : Tracks w s) (sec : Int → ℚ) (op : GuiOp) (hf : w.fresh op) :
    Does (step t sec op) s (w.result op) (w.next t (keyOf t) op) := by
  cases op with
  | construct i o now => exact (tracks_construct h i o now hf).pure_bind
  | «open» i o now =>
    show Does (Gui.open t i o now >>= fun b => pure (some b)) s _ _
    simp only [GuiLedger.next, GuiLedger.result]
    cases hi : w.holds i with
    | none =>
      show ((Gui.open t i o now >>= fun b => pure (some b)) s).1 = .ub
      rw [M.bind_apply]
      simp [Gui.open, h.dead hi]
    | some p =>
      obtain ⟨x, hx, hh⟩ := h.alive hi
      cases p with
      | some k =>
        refine ⟨s, ?_, h⟩
        rw [M.bind_apply]
        simp [Gui.open, hx, hh]
      | none =>
        have := (tracks_opens (t := t) h hx hh o now hf)
        have := this.bind (f := fun b => pure (some b)) (b := some (o.isSome && true)) (g := some)
          fun w' s' _ h' => ⟨s', by simp, h'⟩
        simpa using this
  | close i r => exact (tracks_close h i r hf).pure_bind
  | moveConstruct i j =>
    refine Does.pure_bind (a := ()) ?_
    simp only [GuiLedger.next]
    cases hi : w.holds i with
    | some o =>
      obtain ⟨x, hx, -⟩ := h.alive hi
      simp [Does, moveConstruct, hx]
    | none =>
      rw [if_pos rfl]
      have hx := h.dead hi
      cases hj : w.holds j with
      | none => simp [Does, moveConstruct, hx, h.dead hj, GuiLedger.takes, hj]
      | some o =>
        obtain ⟨y, hy, -⟩ := h.alive hj
        have := tracks_take (i := i) h y hy
        unfold Does at this ⊢
        simp only [moveConstruct, hx, hy]
        exact this
  | moveAssign i j r =>
    refine Does.pure_bind (a := ()) ?_
    have := tracks_moveAssign (t := t) h i j r hf
    simp only [GuiLedger.next]
    convert this
  | destroy i =>
    refine Does.pure_bind (a := ()) ?_
    simp only [GuiLedger.next]
    cases hi : w.holds i with
    | none => simp [Does, destroy, h.dead hi]
    | some o =>
      obtain ⟨x, hx, -⟩ := h.alive hi
      rw [if_neg (by simp)]
      exact ⟨s.put i none, by simp [destroy, hx], h.put i none⟩
  | closeRequest k r => exact (tracks_request h k r hf).pure_bind
  | keyDown k code => exact (tracks_forward h k _ rfl).pure_bind
  | keyUp k code => exact (tracks_forward h k _ rfl).pure_bind
  | resize k => exact (tracks_forward h k _ rfl).pure_bind
  | idle clock =>
    have := (tracks_updateAll sec clock s.assoc h).pure_bind (b := w.result (.idle clock))
    simp only [GuiLedger.next]
    have hc : (∀ a ∈ s.assoc, w.holds a.2 ≠ none) ↔ ∀ k a, w.taker k = some a → w.holds a ≠ none := by
      constructor
      · exact fun H k a hk => H (k, a) ((h.taker k a).mpr hk)
      · rintro H ⟨k, a⟩ hm
        exact H k a ((h.taker k a).mp hm)
    by_cases H : ∀ k a, w.taker k = some a → w.holds a ≠ none
    · rw [if_pos (hc.mpr H)] at this
      rw [if_pos H]
      exact this
    · rw [if_neg (fun H' => H (hc.mp H'))] at this
      rw [if_neg H]
      exact this

theorem tracks_start : Tracks GuiLedger.start Gui.empty :=
  ⟨fun _ => rfl, List.nodup_nil, fun _ _ => by simp [GuiLedger.start, Gui.empty], fun _ => rfl⟩

theorem tracks_run (h : Tracks w s) (sec : Int → ℚ) (ops : List GuiOp)
    (hf : w.allFresh t (keyOf t) ops) :
    match w.run t (keyOf t) ops with
    | some (rs, w') => ∃ s', M.runList (step t sec) ops s = (.ok rs, s') ∧ Tracks w' s'
    | none => (M.runList (step t sec) ops s).1 = .ub := by
  induction ops generalizing w s with
  | nil => exact ⟨s, rfl, h⟩
  | cons op ops ih =>
    have h1 := tracks_step (t := t) h sec op hf.1
    simp only [GuiLedger.run]
    cases hn : w.next t (keyOf t) op with
    | none =>
      rw [hn] at h1
      show (M.runList (step t sec) (op :: ops) s).1 = .ub
      have h1 : (step t sec op s).1 = .ub := h1
      rw [M.runList, M.bind_apply]
      cases e : step t sec op s with
      | mk o s' =>
        rw [e] at h1
        simp only at h1
        subst h1
        rfl
    | some w1 =>
      rw [hn] at h1
      obtain ⟨s1, e1, h1⟩ := h1
      have := ih h1 (hf.2 w1 hn)
      rw [Option.bind_some]
      revert this
      cases w1.run t (keyOf t) ops with
      | some p =>
        rintro ⟨s2, e2, h2⟩
        exact ⟨s2, M.runList_cons e1 e2, h2⟩
      | none =>
        intro h2
        show (M.runList (step t sec) (op :: ops) s).1 = .ub
        rw [M.runList, M.bind_ok e1, M.bind_apply]
        cases e : M.runList (step t sec) ops s1 with
        | mk o s' =>
          rw [e] at h2
          simp only at h2
          subst h2
          rfl

end Gui

open Gui

/-- C64 in full, for all programs on all toolkits, whatever they do, as long as the system gives out no
handle of a window that is open.  A program is undefined exactly if it is in the ledger, and else what
was told at each address (updates aside) is what the ledger says: what is reported for an open window
goes to the address that opened it or took it over last, whichever window the object there holds, and
is undefined if there is none. -/
theorem C64_exact (t : Toolkit) (sec : Int → ℚ) (ops : List GuiOp)
    (hf : GuiLedger.start.allFresh t (Spec.keyOf t) ops) :
    match GuiLedger.start.run t (Spec.keyOf t) ops with
    | some (rs, w) => ∃ s, M.runList (Gui.step t sec) ops Gui.empty = (.ok rs, s)
        ∧ (∀ i, (heard s i).filter GuiEvent.notUpdate = w.told i)
        ∧ ∀ i, (s.objs i).map (·.handle) = w.holds i
    | none => (M.runList (Gui.step t sec) ops Gui.empty).1 = .ub := by
  rw [← keyOf_eq] at hf ⊢
  have := tracks_run tracks_start sec ops hf
  revert this
  cases GuiLedger.start.run t (keyOf t) ops with
  | none => exact id
  | some p =>
    rintro ⟨s, e, h⟩
    exact ⟨s, e, h.told, fun i => (h.holds i).symm⟩

/-- What was told at an address, updates aside. -/
def heardBesides (s : Gui) (i : Nat) : List GuiEvent := (heard s i).filter GuiEvent.notUpdate

/-- When a request to close a window is undefined: the window is not open, nobody lives at the address
that is to be asked, the dialog is constructed where something lives, or the list of windows moves under
a handler that accepts. -/
def RequestUndefined (w : GuiLedger) (h : Nat) (r : CloseReply) : Prop :=
  (∀ a, w.taker h = some a → w.holds a = none)
  ∨ ∃ k h' now grows, r.dialog = some (k, h', now, grows)
      ∧ (w.holds k ≠ none ∨ (r.accept = true ∧ grows = true))

theorem GuiLedger.request_cases {t : Toolkit} {w : GuiLedger} {h : Nat} {r : CloseReply}
    (hf : w.freshDialog r) :
    (RequestUndefined w h r ∧ w.request t h r = none)
    ∨ (¬ RequestUndefined w h r ∧ ∃ a o w', w.taker h = some a ∧ w.request t h r = some w'
      ∧ w'.holds a = some o ∧ w'.taker h = (if r.accept then none else some a)
      ∧ ∀ k, w'.told k = if k = a then w.told k ++ [.closeRequest] else w.told k) := by
  unfold RequestUndefined GuiLedger.request
  cases ht : w.taker h with
  | none => exact .inl ⟨.inl fun a ha => by simp at ha, rfl⟩
  | some a =>
    cases ho : w.holds a with
    | none => exact .inl ⟨.inl fun b hb => by simp at hb; rw [← hb]; exact ho, by simp [GuiLedger.tell, ho]⟩
    | some o =>
      have hn : ¬ ∀ b, some a = some b → w.holds b = none := fun H => by
        have := H a rfl
        rw [ho] at this
        simp at this
      simp only [GuiLedger.tell, ho, Option.bind_some]
      cases hd : r.dialog with
      | none =>
        refine .inr ⟨by rintro (H | ⟨k, h', now, g, H, -⟩); exact hn H; simp at H, a, o, ?_⟩
        simp only [GuiLedger.dialog, Option.bind_some, Option.any_none, Bool.false_eq_true, if_false]
        cases r.accept with
        | false => exact ⟨_, trivial, rfl, ho, by simpa using ht, fun k => rfl⟩
        | true => exact ⟨_, trivial, rfl, ho, by simp [GuiLedger.setTaker], fun k => rfl⟩
      | some d =>
        obtain ⟨k, h', now, g⟩ := d
        have hfr := hf k h' now g hd
        have hh : h ≠ h' := by
          rintro rfl
          rw [hfr] at ht
          simp at ht
        simp only [GuiLedger.dialog, GuiLedger.born, Option.any_some]
        cases hk : w.holds k with
        | some q =>
          exact .inl ⟨.inr ⟨k, h', now, g, rfl, .inl (by rw [hk]; simp)⟩, rfl⟩
        | none =>
          have hka : a ≠ k := by
            rintro rfl
            rw [ho] at hk
            simp at hk
          simp only [GuiLedger.opens, Option.bind_some]
          cases hacc : r.accept with
          | false =>
            refine .inr ⟨?_, a, o, _, rfl, if_pos rfl, ?_, ?_, fun _ => rfl⟩
            · rintro (H | ⟨k2, h2, n2, g2, H, H2⟩)
              · exact hn H
              · simp only [Option.some.injEq, Prod.mk.injEq] at H
                obtain ⟨rfl, -⟩ := H
                rcases H2 with H2 | H2
                · exact H2 hk
                · simp at H2
            · simpa [GuiLedger.setTaker, GuiLedger.setHolds, hka] using ho
            · simpa [GuiLedger.setTaker, GuiLedger.setHolds, hh] using ht
          | true =>
            cases g with
            | true =>
              exact .inl ⟨.inr ⟨k, h', now, true, rfl, .inr ⟨rfl, rfl⟩⟩, rfl⟩
            | false =>
              refine .inr ⟨?_, a, o, _, rfl, rfl, ?_, ?_, fun _ => rfl⟩
              · rintro (H | ⟨k2, h2, n2, g2, H, H2⟩)
                · exact hn H
                · simp only [Option.some.injEq, Prod.mk.injEq] at H
                  obtain ⟨rfl, -, -, rfl⟩ := H
                  rcases H2 with H2 | H2
                  · exact H2 hk
                  · simp at H2
              · simpa [GuiLedger.setTaker, GuiLedger.setHolds, hka] using ho
              · simp [GuiLedger.setTaker]

/-- Reports for one window. -/
theorem GuiLedger.run_inputs {t : Toolkit} {h : Nat} (ps : List (GuiOp × GuiEvent))
    (hp : ∀ p ∈ ps, Spec.Input t h p.1 p.2) {w : GuiLedger} {a : Option Nat} (ha : w.taker h = a)
    (hh : ∀ b, a = some b → w.holds b ≠ none) :
    ∃ rs w', w.run t (Spec.keyOf t) (ps.map (·.1)) = some (rs, w')
      ∧ ∀ k, w'.told k = if some k = a then w.told k ++ ps.map (·.2) else w.told k := by
  induction ps generalizing w with
  | nil => exact ⟨[], w, rfl, fun k => by simp⟩
  | cons p ps ih =>
    obtain ⟨op, e⟩ := p
    have h1 := hp (op, e) (by simp)
    have hn : w.next t (Spec.keyOf t) op = w.report h e := by cases h1 <;> rfl
    rw [List.map_cons, GuiLedger.run, hn]
    unfold GuiLedger.report
    rw [ha]
    cases a with
    | none =>
      obtain ⟨rs, w', e1, h2⟩ := ih (fun q hq => hp q (by simp [hq])) ha
        (fun b hb => by simp at hb)
      refine ⟨_, w', by simp only [Option.bind_some]; rw [e1]; rfl, fun k => by rw [h2 k]; simp⟩
    | some b =>
      obtain ⟨o, ho⟩ := Option.ne_none_iff_exists'.mp (hh b rfl)
      simp only [GuiLedger.tell, ho, Option.bind_some]
      obtain ⟨rs, w', e1, h2⟩ := ih (w := { w with told := fun k => if k = b then w.told k ++ [e] else w.told k })
        (fun q hq => hp q (by simp [hq])) ha (fun c hc => hh c hc)
      refine ⟨_, w', by rw [e1]; rfl, fun k => ?_⟩
      rw [h2 k]
      by_cases hk : k = b
      · simp [hk]
      · simp [hk]

/-- C65 in full, for all programs on all toolkits: a request to close a window is undefined exactly as
said above, and else the address that opened the window or took it over last is asked; whatever is
reported for the window then is told there if it vetoed and nowhere if it did not. -/
theorem C65_exact (t : Toolkit) (sec : Int → ℚ) (ops : List GuiOp) (h : Nat) (r : CloseReply)
    (hf : GuiLedger.start.allFresh t (Spec.keyOf t) ops) (rs : List (Option Bool)) (w : GuiLedger)
    (hrun : GuiLedger.start.run t (Spec.keyOf t) ops = some (rs, w)) (hd : w.freshDialog r) :
    ∃ s, M.runList (Gui.step t sec) ops Gui.empty = (.ok rs, s) ∧
    ((RequestUndefined w h r ∧ (Gui.step t sec (.closeRequest h r) s).1 = .ub)
    ∨ (¬ RequestUndefined w h r ∧ ∃ a, w.taker h = some a ∧
      ∀ ps : List (GuiOp × GuiEvent), (∀ p ∈ ps, Spec.Input t h p.1 p.2) →
      ∃ rs' s', M.runList (Gui.step t sec) (.closeRequest h r :: ps.map (·.1)) s = (.ok rs', s')
        ∧ heardBesides s' a = heardBesides s a ++ [.closeRequest] ++ (if r.accept then [] else ps.map (·.2))
        ∧ ∀ k, k ≠ a → heardBesides s' k = heardBesides s k)) := by
  rw [← keyOf_eq] at hf hrun
  have h1 := tracks_run tracks_start sec ops hf
  rw [hrun] at h1
  obtain ⟨s, e, h1⟩ := h1
  refine ⟨s, e, ?_⟩
  have h2 := tracks_step (t := t) h1 sec (.closeRequest h r) hd
  have hn : w.next t (keyOf t) (.closeRequest h r) = w.request t h r := rfl
  rw [hn] at h2
  rcases GuiLedger.request_cases (t := t) (h := h) hd with ⟨a1, a2⟩ | ⟨a1, a, o, w', a2, a3, a4, a5, a6⟩
  · rw [a2] at h2
    exact .inl ⟨a1, h2⟩
  · rw [a3] at h2
    obtain ⟨s2, e2, h2⟩ := h2
    refine .inr ⟨a1, a, a2, fun ps hp => ?_⟩
    have hin := GuiLedger.run_inputs ps hp a5 (by
      intro b hb
      split at hb
      · simp at hb
      · simp only [Option.some.injEq] at hb
        rw [← hb, a4]
        simp)
    obtain ⟨rs3, w3, e3, h3⟩ := hin
    have hfresh : ∀ (ps : List (GuiOp × GuiEvent)) (w : GuiLedger), (∀ p ∈ ps, Spec.Input t h p.1 p.2) →
        w.allFresh t (keyOf t) (ps.map (·.1)) := by
      intro ps
      induction ps with
      | nil => intro w _; trivial
      | cons p ps ih =>
        intro w hp
        refine ⟨?_, fun w' _ => ih w' fun q hq => hp q (by simp [hq])⟩
        have := hp p (by simp)
        obtain ⟨op, ev⟩ := p
        cases this <;> trivial
    have h4 := tracks_run h2 sec (ps.map (·.1)) (hfresh ps w' hp)
    rw [keyOf_eq, e3] at h4
    obtain ⟨s4, e4, h4⟩ := h4
    refine ⟨_, s4, M.runList_cons e2 e4, ?_, ?_⟩
    · unfold heardBesides
      rw [h4.told a, h1.told a, h3 a, a6 a]
      cases r.accept <;> simp
    · intro k hk
      unfold heardBesides
      rw [h4.told k, h1.told k, h3 k, a6 k]
      cases r.accept <;> simp [hk]

/-- A program that assigns a window to an object whose own window refuses to close: the object then holds
window 11 and hears of both. -/
def vetoedAssignment : List GuiOp :=
  [.construct 0 (some 10) 0, .construct 1 (some 11) 0, .moveAssign 0 1 ⟨false, none⟩, .resize 10, .resize 11]

example : GuiLedger.start.allFresh .gtk (Spec.keyOf .gtk) vetoedAssignment
    ∧ ∃ rs w, GuiLedger.start.run .gtk (Spec.keyOf .gtk) vetoedAssignment = some (rs, w)
      ∧ w.holds 0 = some (some 11) ∧ w.told 0 = [.closeRequest, .resize, .resize]
      ∧ w.told 1 = [] := by
  constructor
  · simp [vetoedAssignment, GuiLedger.allFresh, GuiLedger.fresh, GuiLedger.freshDialog, GuiLedger.next, GuiLedger.born,
      GuiLedger.start, GuiLedger.opens, GuiLedger.setHolds, GuiLedger.setTaker]
  · refine ⟨_, _, by
      simp [vetoedAssignment, GuiLedger.run, GuiLedger.next, GuiLedger.born, GuiLedger.start, GuiLedger.opens,
        GuiLedger.setHolds, GuiLedger.setTaker, GuiLedger.closes, GuiLedger.request, GuiLedger.tell, GuiLedger.dialog,
        GuiLedger.takes, GuiLedger.report]; exact ⟨rfl, rfl⟩, ?_, ?_, ?_⟩ <;> simp

/-- An object destroyed with its window open, on every toolkit. -/
example (t : Toolkit) : GuiLedger.start.run t (Spec.keyOf t) [.construct 0 (some 10) 0, .destroy 0] ≠ none
    ∧ GuiLedger.start.run t (Spec.keyOf t) [.construct 0 (some 10) 0, .destroy 0, .resize 10] = none := by
  constructor <;>
    simp [GuiLedger.run, GuiLedger.next, GuiLedger.born, GuiLedger.start, GuiLedger.opens, GuiLedger.setHolds,
      GuiLedger.setTaker, GuiLedger.report, GuiLedger.tell]

/-- A window that was closed, and one whose handle is given out again: the old object closes the window of
the new one. -/
example (t : Toolkit) :
    GuiLedger.start.run t (Spec.keyOf t)
      [.construct 0 (some 10) 0, .close 0 ⟨true, none⟩, .close 0 ⟨true, none⟩] = none
    ∧ ∃ rs w, GuiLedger.start.run t (Spec.keyOf t)
      [.construct 0 (some 10) 0, .close 0 ⟨true, none⟩, .construct 1 (some 10) 0, .close 0 ⟨false, none⟩]
        = some (rs, w) ∧ w.told 0 = [.closeRequest] ∧ w.told 1 = [.closeRequest] := by
  constructor
  · simp [GuiLedger.run, GuiLedger.next, GuiLedger.born, GuiLedger.start, GuiLedger.opens, GuiLedger.setHolds,
      GuiLedger.setTaker, GuiLedger.closes, GuiLedger.request, GuiLedger.tell, GuiLedger.dialog]
  · refine ⟨_, _, by
      simp [GuiLedger.run, GuiLedger.next, GuiLedger.born, GuiLedger.start, GuiLedger.opens, GuiLedger.setHolds,
        GuiLedger.setTaker, GuiLedger.closes, GuiLedger.request, GuiLedger.tell, GuiLedger.dialog]
      exact ⟨rfl, rfl⟩, ?_, ?_⟩ <;> simp

end Cmp
