import Verif.Props.Handle
import Mathlib.Tactic.ByContra
import Mathlib.Tactic.Conv
import Mathlib.Data.List.Induction

/-
C60 in full: for which histories every descriptor has one owner, and what happens to one with several.
-/

namespace Cmp

namespace Handles

/-- A move that has something to hand over, or to lose: the object moved from has a file open, or the
one assigned to has another. -/
def HandsOver (h : Handles) : HandleOp → Prop
  | .moveConstruct i j => h.objs i = none ∧ ∃ fd, h.objs j = some (some fd)
  | .moveAssign i j => i ≠ j ∧ ∃ a b, h.objs i = some a ∧ h.objs j = some b ∧ (a ≠ none ∨ b ≠ none)
  | _ => False

theorem sound_quiet {h : Handles} (s : Sound h) (op : HandleOp) (hop : ¬ h.HandsOver op) :
    Sound (h.step op) := by
  cases op with
  | moveConstruct i j =>
    simp only [step]
    cases hi : h.objs i with
    | some => exact s
    | none =>
      cases hj : h.objs j with
      | none => exact s
      | some own =>
        cases own with
        | none => exact sound_put_none s i _ (by simp) (by simp [hi])
        | some fd => exact absurd ⟨hi, fd, hj⟩ hop
  | moveAssign i j =>
    simp only [step]
    cases hi : h.objs i with
    | none => exact s
    | some a =>
      cases hj : h.objs j with
      | none => exact s
      | some b =>
        by_cases e : i = j
        · subst e
          simp only
          have : h.put i (some b) = h := by
            rw [put, ← hj]
            have : (fun k => if k = i then h.objs i else h.objs k) = h.objs := by
              funext k
              by_cases e : k = i
              · rw [if_pos e, e]
              · rw [if_neg e]
            rw [this]
          rw [this]
          exact s
        · have ha : a = none := by
            by_contra ha
            exact hop ⟨e, a, b, hi, hj, .inl ha⟩
          have hb : b = none := by
            by_contra hb
            exact hop ⟨e, a, b, hi, hj, .inr hb⟩
          subst ha hb
          exact sound_put_none s i _ (by simp) (by simp [hi])
  | _ => exact sound_step s _ (by simp [HandleOp.IsMove])

theorem handsOver_broken {h : Handles} (s : Sound h) (op : HandleOp) (hop : h.HandsOver op) :
    ¬ OwnsExactly (h.step op) := by
  rintro ⟨-, ho⟩
  cases op with
  | moveConstruct i j =>
    obtain ⟨hi, fd, hj⟩ := hop
    have hij : i ≠ j := by
      rintro rfl
      rw [hi] at hj
      cases hj
    have e : h.step (.moveConstruct i j) = h.put i (some (some fd)) := by
      simp only [step, hi, hj]
    rw [e] at ho
    obtain ⟨k, -, hk⟩ := ho fd ((s.owned fd).mpr ⟨j, hj⟩)
    have h1 := hk i (by simp [put])
    have h2 := hk j (by simpa [put, hij.symm] using hj)
    exact hij (h1.trans h2.symm)
  | moveAssign i j =>
    obtain ⟨hij, a, b, hi, hj, hab⟩ := hop
    have e : h.step (.moveAssign i j) = h.put i (some b) := by
      simp only [step, hi, hj]
    rw [e] at ho
    cases b with
    | some fd =>
      obtain ⟨k, -, hk⟩ := ho fd ((s.owned fd).mpr ⟨j, hj⟩)
      have h1 := hk i (by simp [put])
      have h2 := hk j (by simpa [put, hij.symm] using hj)
      exact hij (h1.trans h2.symm)
    | none =>
      cases a with
      | none => simp at hab
      | some fd =>
        obtain ⟨k, hk, -⟩ := ho fd ((s.owned fd).mpr ⟨i, hi⟩)
        by_cases e : k = i
        · simp [put, e] at hk
        · simp only [put, e, if_false] at hk
          exact e (s.unique fd k i hk hi)
  | _ => exact hop

end Handles

/-- C60 in full: descriptors have one owner and are closed once at every moment of a history exactly
if no move in it had a file to hand over or to lose. -/
theorem C60_exact (ops : List HandleOp) :
    (∀ n, OwnsExactly (Handles.run (ops.take n)))
      ↔ ∀ before op after, ops = before ++ op :: after → ¬ (Handles.run before).HandsOver op := by
  have own : ∀ {h : Handles}, h.Sound → OwnsExactly h := fun s => ⟨s.closes, fun fd hfd => by
    obtain ⟨i, hi⟩ := (s.owned fd).mp hfd
    exact ⟨i, hi, fun j hj => s.unique fd j i hj hi⟩⟩
  have start : Handles.empty.Sound :=
    ⟨by simp [Handles.empty], by simp [Handles.empty], by simp [Handles.empty],
      by simp [Handles.empty]⟩
  have key : ∀ ops : List HandleOp,
      (∀ before op after, ops = before ++ op :: after → ¬ (Handles.run before).HandsOver op) →
      (Handles.run ops).Sound := by
    intro ops
    induction ops using List.reverseRecOn with
    | nil => exact fun _ => start
    | append_singleton ops op ih =>
      intro hq
      have s := ih fun before o after e => hq before o (after ++ [op]) (by rw [e]; simp)
      have := Handles.sound_quiet s op (hq ops op [] rfl)
      simpa [Handles.run, List.foldl_append] using this
  constructor
  · intro ho
    -- the first move that hands something over breaks the rule
    have : ∀ n before, before.length = n → ∀ op after, ops = before ++ op :: after →
        ¬ (Handles.run before).HandsOver op := by
      intro n
      induction n using Nat.strongRecOn with
      | ind n ih =>
        intro before hlen op after e hop
        have s : (Handles.run before).Sound := key before fun b o a e' =>
          ih b.length (by rw [← hlen, e']; simp) b rfl o (a ++ op :: after) (by rw [e, e']; simp)
        have h1 := ho (before.length + 1)
        have h2 : ops.take (before.length + 1) = before ++ [op] := by
          rw [e, List.take_append, List.take_of_length_le (by omega)]
          simp
        rw [h2, Handles.run, List.foldl_append] at h1
        exact Handles.handsOver_broken s op hop h1
    exact fun before op after e => this _ before rfl op after e
  · intro hq n
    refine own (key _ fun before op after e => ?_)
    exact hq before op (after ++ ops.drop n) (by
      conv_lhs => rw [← List.take_append_drop n ops, e]
      simp)

example : (Handles.run [.construct 0, .open 0 3, .close 0]).HandsOver (.moveConstruct 1 0) → False := by
  rintro ⟨-, fd, h⟩
  have e : (Handles.run [.construct 0, .open 0 3, .close 0]).objs 0 = some none := by decide +kernel
  rw [e] at h
  cases h

example : (Handles.run [.construct 0, .open 0 3]).HandsOver (.moveConstruct 1 0) :=
  ⟨by decide +kernel, 3, by decide +kernel⟩

/-- What becomes of a descriptor that several objects hold: letting go of them closes it once for each,
and only the first time it is open, or was if it was closed or given to another before. -/
theorem C60_exact_closes (h : Handles) (fd : Nat) (i : Nat) (is : List Nat) (hn : (i :: is).Nodup)
    (hh : ∀ k ∈ i :: is, h.objs k = some (some fd)) (hopen : h.opened.Nodup) :
    (((i :: is).map HandleOp.destroy).foldl Handles.step h).closes =
      h.closes ++ (fd, h.opened.contains fd) :: List.replicate is.length (fd, false)
    ∧ (((i :: is).map HandleOp.destroy).foldl Handles.step h).opened = h.opened.erase fd := by
  have gone : ∀ (is : List Nat) (h : Handles), is.Nodup → (∀ k ∈ is, h.objs k = some (some fd)) →
      fd ∉ h.opened → ((is.map HandleOp.destroy).foldl Handles.step h).closes =
          h.closes ++ List.replicate is.length (fd, false)
        ∧ ((is.map HandleOp.destroy).foldl Handles.step h).opened = h.opened := by
    intro is
    induction is with
    | nil => intro h _ _ _; simp
    | cons i is ih =>
      intro h hn hh hno
      obtain ⟨hi, hn⟩ := List.nodup_cons.mp hn
      have e : h.step (.destroy i) = (h.close i (some fd)).put i none := by
        simp only [Handles.step, hh i (by simp)]
      have hc : h.opened.contains fd = false := by simpa using hno
      obtain ⟨h1, h2⟩ := ih (h.step (.destroy i)) hn (by
        intro k hk
        have : k ≠ i := by
          rintro rfl
          exact hi hk
        rw [e]
        simpa [Handles.put, Handles.close, Handles.sysClose, this] using hh k (by simp [hk])) (by
        rw [e]
        simpa [Handles.put, Handles.close, Handles.sysClose, List.erase_of_not_mem hno] using hno)
      rw [List.map_cons, List.foldl_cons, h1, h2, e]
      simp [Handles.put, Handles.close, Handles.sysClose, List.replicate_succ,
        List.erase_of_not_mem hno, hno]
  obtain ⟨hi, hn⟩ := List.nodup_cons.mp hn
  have e : h.step (.destroy i) = (h.close i (some fd)).put i none := by
    simp only [Handles.step, hh i (by simp)]
  obtain ⟨h1, h2⟩ := gone is (h.step (.destroy i)) hn (by
    intro k hk
    have : k ≠ i := by
      rintro rfl
      exact hi hk
    rw [e]
    simpa [Handles.put, Handles.close, Handles.sysClose, this] using hh k (by simp [hk])) (by
    rw [e]
    simp only [Handles.put, Handles.close, Handles.sysClose]
    exact fun hm => (hopen.mem_erase_iff.mp hm).1 rfl)
  rw [List.map_cons, List.foldl_cons, h1, h2, e]
  simp [Handles.put, Handles.close, Handles.sysClose]

example : ∀ k ∈ [0, 1], (Handles.run [.construct 0, .open 0 3, .moveConstruct 1 0]).objs k
    = some (some 3) := by decide +kernel

end Cmp
