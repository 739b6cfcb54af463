import Verif.Model.Views
import Verif.Proofs.Container

/-
Property C111: input resources on containers can be copied, assigned and moved.  The specification
is a world in which every object is a cursor on a text.
-/

namespace Cmp

namespace Spec

/-- A reader: the bytes it reads and how many of them it has read.  `cap` is the size of its buffer
and `loaded` tells whether it has read through the buffer since it was made or positioned; they
matter only for what a program may do. -/
structure View where
  content : List Byte
  cursor : Nat
  cap : Nat
  loaded : Bool
  deriving DecidableEq

/-- The readers; `some none` is one that was moved from. -/
abbrev Desks : Type := Nat → Option (Option View)

/-- Store a reader, or remove it. -/
def Desks.put (w : Desks) (i : Nat) (v : Option (Option View)) : Desks :=
  fun k => if k = i then v else w k

/-- Value semantics. -/
def viewStep (w : Desks) : ViewOp → ResObs × Desks
  | .construct i cap content => (.nothing, w.put i (some (some ⟨content, 0, cap, false⟩)))
  | .copyConstruct i j | .copyAssign i j => (.nothing, w.put i (w j))
  | .moveConstruct i j => (.nothing, (w.put j (some none)).put i (w j))
  | .moveAssign i j again => (.nothing, (w.put j (some none)).put i ((w j).map fun o =>
      o.map fun v => { v with cap := if again then 0 else v.cap }))
  | .destroy i => (.nothing, w.put i none)
  | .read i n =>
    match w i with
    | some (some v) =>
      let bytes := (v.content.drop v.cursor).take n
      (.bytes bytes, w.put i (some (some
        { v with cursor := v.cursor + bytes.length, loaded := decide (0 < v.cap) })))
    | _ => (.nothing, w)
  | .seek i k =>
    match w i with
    | some (some v) => (.nothing, w.put i (some (some { v with cursor := k, loaded := false })))
    | _ => (.nothing, w)
  | .position i =>
    match w i with
    | some (some v) => (.number v.cursor, w)
    | _ => (.nothing, w)
  | .atEnd i =>
    match w i with
    | some (some v) => (.flag (decide (v.cursor = v.content.length)), w)
    | _ => (.nothing, w)

/-- What a program may do: construct where there is nothing, use what is there and was not moved
from, stay inside the container, not read more than the buffer holds (unless there is none), assign
copies only to objects whose buffer is not larger, and not move an object to itself. -/
def viewLegal (w : Desks) : ViewOp → Bool
  | .construct i _ _ => (w i).isNone
  | .copyConstruct i j | .moveConstruct i j => (w i).isNone && (w j).join.isSome
  | .copyAssign i j =>
    match w i, w j with
    | some none, some (some _) => true
    | some (some o), some (some v) => decide (o.cap ≤ v.cap)
    | _, _ => false
  | .moveAssign i j _ => decide (i ≠ j) && (w i).isSome && (w j).join.isSome
  | .destroy i => (w i).isSome
  | .read i n =>
    match w i with
    | some (some v) => decide (n ≤ v.cap ∨ v.cap = 0)
    | _ => false
  | .seek i k =>
    match w i with
    | some (some v) => decide (k ≤ v.content.length)
    | _ => false
  | .position i | .atEnd i => (w i).join.isSome

/-- Additionally: an object is moved into another by an assignment that loses the buffer only while
nothing is in the buffer. -/
def viewCareful (w : Desks) : ViewOp → Bool
  | .moveAssign _ j true => (w j).join.all fun v => !v.loaded
  | _ => true

/-- All operations of a history satisfy a condition on the state before them. -/
def viewAll (p : Desks → ViewOp → Bool) : Desks → List ViewOp → Bool
  | _, [] => true
  | w, op :: ops => p w op && viewAll p (viewStep w op).2 ops

/-- What a history returns. -/
def viewResults : Desks → List ViewOp → List ResObs
  | _, [] => []
  | w, op :: ops => (viewStep w op).1 :: viewResults (viewStep w op).2 ops

end Spec

open Spec (viewStep viewLegal viewCareful viewAll viewResults)

/-- Read something, move the object by assignment: the bytes come again. -/
theorem C111_violated :
    ¬ ∀ ops, viewAll viewLegal (fun _ => none) ops = true →
      (M.runList Views.step ops (fun _ => none)).1 = .ok (viewResults (fun _ => none) ops) := by
  intro h
  have := h [.construct 0 4 [1, 2, 3, 4], .construct 1 4 [], .read 0 2, .moveAssign 1 0 true, .read 1 2]
    (by decide +kernel)
  revert this
  decide +kernel

namespace Views

/-- The objects of the library and of the specification. -/
def Agree (w : Views) (v : Spec.Desks) : Prop := ∀ i,
  match v i with
  | none => w i = none
  | some none => ∃ r, w i = some r ∧ r.buf.data = []
  | some (some a) => ∃ r, w i = some r ∧ Ctr.Reading a.cap a.content 1 a.cursor r
      ∧ (a.loaded = false → r.buf.readDirty = true)

theorem Agree.put {w : Views} {v : Spec.Desks} (h : Agree w v) (i : Nat) (r : Option (Res Ctr))
    (a : Option (Option Spec.View))
    (hr : match a with
      | none => r = none
      | some none => ∃ x, r = some x ∧ x.buf.data = []
      | some (some a) => ∃ x, r = some x ∧ Ctr.Reading a.cap a.content 1 a.cursor x
          ∧ (a.loaded = false → x.buf.readDirty = true)) :
    Agree (w.put i r) (v.put i a) := by
  intro k
  by_cases hk : k = i
  · simp only [Views.put, Spec.Desks.put, if_pos hk]
    exact hr
  · simp only [Views.put, Spec.Desks.put, if_neg hk]
    exact h k

theorem Agree.value {w : Views} {v : Spec.Desks} (h : Agree w v) {i : Nat} {a : Spec.View}
    (hi : v i = some (some a)) : ∃ r, w i = some r ∧ Ctr.Reading a.cap a.content 1 a.cursor r
      ∧ (a.loaded = false → r.buf.readDirty = true) := by
  have := h i
  rw [hi] at this
  exact this

theorem Agree.absent {w : Views} {v : Spec.Desks} (h : Agree w v) {i : Nat} (hi : v i = none) :
    w i = none := by
  have := h i
  rw [hi] at this
  exact this

theorem Agree.present {w : Views} {v : Spec.Desks} (h : Agree w v) {i : Nat} (hi : (v i).isSome) :
    ∃ r, w i = some r := by
  have := h i
  cases hv : v i with
  | none => rw [hv] at hi; cases hi
  | some o =>
    rw [hv] at this
    cases o with
    | none => obtain ⟨r, hr, -⟩ := this; exact ⟨r, hr⟩
    | some a => obtain ⟨r, hr, -⟩ := this; exact ⟨r, hr⟩

theorem put_same {w : Views} {i : Nat} {r : Res Ctr} (hr : w i = some r) : w.put i (some r) = w := by
  funext k
  by_cases hk : k = i
  · rw [Views.put, if_pos hk, hk, hr]
  · rw [Views.put, if_neg hk]

theorem isSome_join {o : Option (Option Spec.View)} (h : o.join.isSome = true) :
    ∃ a, o = some (some a) := by
  cases o with
  | none => cases h
  | some x =>
    cases x with
    | none => cases h
    | some a => exact ⟨a, rfl⟩

/-- A resource without data in its buffer can do without the buffer. -/
theorem reading_emptied {a : Spec.View} {r : Res Ctr}
    (h : Ctr.Reading a.cap a.content 1 a.cursor r) (hd : r.buf.readDirty = true) :
    Ctr.Reading 0 a.content 1 a.cursor (emptied r) := by
  obtain ⟨-, h2, h3⟩ := h
  rcases h3 with ⟨-, h4, h5⟩ | ⟨h4, -⟩
  · exact ⟨rfl, h2, .inl ⟨hd, h4, h5⟩⟩
  · rw [hd] at h4
    cases h4

theorem agree_step {w : Views} {v : Spec.Desks} (h : Agree w v) (op : ViewOp)
    (hl : viewLegal v op = true) (hc : viewCareful v op = true) :
    ∃ w', step op w = (.ok (viewStep v op).1, w') ∧ Agree w' (viewStep v op).2 := by
  cases op with
  | construct i cap content =>
    have hi := h.absent (Option.isNone_iff_eq_none.mp hl)
    refine ⟨_, by simp only [step, hi]; rfl, h.put i _ _ ⟨_, rfl, Ctr.reading_make cap content 1, ?_⟩⟩
    intro _
    rfl
  | copyConstruct i j =>
    simp only [viewLegal, Bool.and_eq_true] at hl
    have hi := h.absent (Option.isNone_iff_eq_none.mp hl.1)
    obtain ⟨a, ha⟩ := isSome_join hl.2
    obtain ⟨r, hr, h1, h2⟩ := h.value ha
    refine ⟨_, by simp only [step, hi, hr]; rfl, ?_⟩
    simp only [viewStep, ha]
    exact h.put i _ _ ⟨r, rfl, h1, h2⟩
  | copyAssign i j =>
    have key : ∃ a o r, v j = some (some a) ∧ w i = some o ∧ w j = some r ∧
        ¬ o.buf.capacity > r.buf.capacity := by
      simp only [viewLegal] at hl
      split at hl
      · rename_i a h1 h2
        obtain ⟨r, hr, h3, -⟩ := h.value h2
        have := h i
        rw [h1] at this
        obtain ⟨o, ho, he⟩ := this
        refine ⟨a, o, r, h2, ho, hr, ?_⟩
        rw [IoBuffer.capacity, he]
        simp
      · rename_i b a h1 h2
        obtain ⟨r, hr, h3, -⟩ := h.value h2
        obtain ⟨o, ho, h4, -⟩ := h.value h1
        refine ⟨a, o, r, h2, ho, hr, ?_⟩
        rw [IoBuffer.capacity, IoBuffer.capacity, h3.length, h4.length]
        have := of_decide_eq_true hl
        omega
      · cases hl
    obtain ⟨a, o, r, ha, ho, hr, hcap⟩ := key
    obtain ⟨r', hr', h1, h2⟩ := h.value ha
    rw [hr] at hr'
    cases hr'
    refine ⟨_, by simp only [step, ho, hr, if_neg hcap]; rfl, ?_⟩
    simp only [viewStep, ha]
    exact h.put i _ _ ⟨r, rfl, h1, h2⟩
  | moveConstruct i j =>
    simp only [viewLegal, Bool.and_eq_true] at hl
    have hi := h.absent (Option.isNone_iff_eq_none.mp hl.1)
    obtain ⟨a, ha⟩ := isSome_join hl.2
    obtain ⟨r, hr, h1, h2⟩ := h.value ha
    refine ⟨_, by simp only [step, hi, hr]; rfl, ?_⟩
    simp only [viewStep, ha]
    exact (h.put j _ _ (by exact ⟨_, rfl, rfl⟩)).put i _ _ ⟨r, rfl, h1, h2⟩
  | moveAssign i j again =>
    simp only [viewLegal, Bool.and_eq_true] at hl
    obtain ⟨o, ho⟩ := h.present hl.1.2
    obtain ⟨a, ha⟩ := isSome_join hl.2
    obtain ⟨r, hr, h1, h2⟩ := h.value ha
    refine ⟨_, by simp only [step, ho, hr]; rfl, ?_⟩
    simp only [viewStep, ha, Option.map_some]
    refine (h.put j _ _ (by exact ⟨_, rfl, rfl⟩)).put i _ _ ?_
    cases again with
    | false => exact ⟨r, rfl, h1, h2⟩
    | true =>
      have hload : a.loaded = false := by simpa [viewCareful, ha] using hc
      have h3 := reading_emptied h1 (h2 hload)
      exact ⟨emptied r, rfl, h3, fun _ => h2 hload⟩
  | destroy i =>
    obtain ⟨o, ho⟩ := h.present hl
    exact ⟨_, by simp only [step, ho]; rfl, h.put i none none rfl⟩
  | read i n =>
    simp only [viewLegal] at hl
    split at hl
    · rename_i a ha
      have hn := of_decide_eq_true hl
      obtain ⟨r, hr, h1, h2⟩ := h.value ha
      obtain ⟨r', e1, h3, -⟩ := Res.read_delivering (Ctr.source 1 a.content) h1 n trivial trivial hn
      refine ⟨w.put i (some r'), ?_, ?_⟩
      · simp only [step, use, hr, viewStep, ha]
        rw [M.bind_ok e1]
        rfl
      · simp only [viewStep, ha]
        refine h.put i _ _ ⟨r', rfl, h3, ?_⟩
        intro hcap
        have h0 : ¬ 0 < a.cap := of_decide_eq_false hcap
        rcases h3.state with ⟨h4, -⟩ | ⟨-, h4, -⟩
        · exact h4
        · exact absurd h4 h0
    · cases hl
  | seek i k =>
    simp only [viewLegal] at hl
    split at hl
    · rename_i a ha
      have hk := of_decide_eq_true hl
      obtain ⟨r, hr, h1, h2⟩ := h.value ha
      obtain ⟨c1, c2⟩ := Ctr.reading_content h1
      obtain ⟨r', e1, h3⟩ := Ctr.setPositionIn_reading r k (by rw [c1, c2]; omega)
      rw [c1, c2, h1.length, Nat.mul_one] at h3
      have hd : r'.buf.readDirty = true := by
        rw [Ctr.setPositionIn_eq] at e1
        cases e1
        rfl
      refine ⟨w.put i (some r'), ?_, ?_⟩
      · simp only [step, use, hr, viewStep, ha]
        rw [M.bind_ok e1]
        rfl
      · simp only [viewStep, ha]
        exact h.put i _ _ ⟨r', rfl, h3, fun _ => hd⟩
    · cases hl
  | position i =>
    obtain ⟨a, ha⟩ := isSome_join hl
    obtain ⟨r, hr, h1, h2⟩ := h.value ha
    refine ⟨w.put i (some r), ?_, ?_⟩
    · simp only [step, use, hr, viewStep, ha]
      rw [M.bind_ok (M.get_apply r), Ctr.getPosition_reading h1 (.inl rfl)]
      rfl
    · simp only [viewStep, ha]
      rw [put_same hr]
      exact h
  | atEnd i =>
    obtain ⟨a, ha⟩ := isSome_join hl
    obtain ⟨r, hr, h1, h2⟩ := h.value ha
    have he : Ctr.isAtEnd r = decide (a.cursor = a.content.length) := by
      rw [Bool.eq_iff_iff, Ctr.isAtEnd_reading h1 (.inl rfl) ⟨_, (Nat.one_mul _).symm⟩,
        decide_eq_true_iff]
    refine ⟨w.put i (some r), ?_, ?_⟩
    · simp only [step, use, hr, viewStep, ha]
      rw [M.bind_ok (M.get_apply r), he]
      rfl
    · simp only [viewStep, ha]
      rw [put_same hr]
      exact h

end Views

/-- C111 for all histories in which an assignment that loses the buffer is made only while the buffer
is empty.  Missing: moving an object that has read through its buffer by such an assignment. -/
theorem C111_partial (ops : List ViewOp) (hl : viewAll viewLegal (fun _ => none) ops = true)
    (hc : viewAll viewCareful (fun _ => none) ops = true) :
    (M.runList Views.step ops (fun _ => none)).1 = .ok (viewResults (fun _ => none) ops) := by
  suffices ∀ (w : Views) (v : Spec.Desks), Views.Agree w v → viewAll viewLegal v ops = true →
      viewAll viewCareful v ops = true →
      ∃ w', M.runList Views.step ops w = (.ok (viewResults v ops), w') by
    obtain ⟨w', e⟩ := this (fun _ => none) (fun _ => none) (fun _ => rfl) hl hc
    rw [e]
  clear hl hc
  induction ops with
  | nil => intro w v _ _ _; exact ⟨w, rfl⟩
  | cons op ops ih =>
    intro w v h hl hc
    simp only [viewAll, Bool.and_eq_true] at hl hc
    obtain ⟨w1, e1, h1⟩ := Views.agree_step h op hl.1 hc.1
    obtain ⟨w2, e2⟩ := ih w1 _ h1 hl.2 hc.2
    exact ⟨w2, M.runList_cons e1 e2⟩

/-- A history the hypotheses admit: copies and moves of readers that have data in their buffers, and
an assignment that loses an empty buffer. -/
example :
    let ops : List ViewOp := [.construct 0 3 [1, 2, 3, 4, 5], .read 0 2, .copyConstruct 1 0, .read 1 2,
      .read 0 1, .moveConstruct 2 0, .read 2 3, .copyAssign 0 1, .read 0 3, .seek 0 4, .moveAssign 1 0 true,
      .read 1 7, .atEnd 1, .position 2, .destroy 0, .destroy 1, .construct 0 1 [], .moveAssign 2 0 false,
      .atEnd 2]
    viewAll viewLegal (fun _ => none) ops = true ∧ viewAll viewCareful (fun _ => none) ops = true
      ∧ viewResults (fun _ => none) ops = [.nothing, .bytes [1, 2], .nothing, .bytes [3, 4], .bytes [3],
        .nothing, .bytes [4, 5], .nothing, .bytes [5], .nothing, .nothing, .bytes [5], .flag true,
        .number 5, .nothing, .nothing, .nothing, .nothing, .flag true] := by
  decide +kernel

end Cmp
