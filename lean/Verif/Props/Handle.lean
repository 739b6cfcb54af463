import Verif.Model.Handle

/-
Property C60: ownership of file descriptors.
-/

namespace Cmp

/-- The claim: every call of `::close` is for a descriptor that is open at the time, and a
descriptor that is open belongs to exactly one object (so when there are no objects left, nothing
is open). -/
def OwnsExactly (h : Handles) : Prop :=
  (∀ c ∈ h.closes, c.2 = true)
  ∧ ∀ fd ∈ h.opened, ∃ i, h.objs i = some (some fd) ∧ ∀ j, h.objs j = some (some fd) → j = i

/-- Move a file and let both objects go: the descriptor is closed twice.  If the system has given it
out again in between, the second `close` closes a stranger's file.  And moving onto an open file
leaves that file open for good. -/
theorem C60_violated :
    (Handles.run [.construct 0, .open 0 3, .moveConstruct 1 0, .destroy 0, .destroy 1]).closes =
      [(3, true), (3, false)]
    ∧ (Handles.run [.construct 0, .open 0 3, .moveConstruct 1 0, .destroy 0, .construct 2,
        .open 2 3, .destroy 1]).objs 2 = some (some 3)
    ∧ (Handles.run [.construct 0, .open 0 3, .moveConstruct 1 0, .destroy 0, .construct 2,
        .open 2 3, .destroy 1]).opened = []
    ∧ (Handles.run [.construct 0, .open 0 3, .construct 1, .open 1 4, .moveAssign 1 0, .destroy 0,
        .destroy 1]).opened = [4]
    ∧ ¬ ∀ ops, OwnsExactly (Handles.run ops) := by
  refine ⟨by decide +kernel, by decide +kernel, by decide +kernel, by decide +kernel, fun h => ?_⟩
  have := (h [.construct 0, .open 0 3, .moveConstruct 1 0, .destroy 0, .destroy 1]).1 (3, false)
    (by decide +kernel)
  exact absurd this (by decide)

namespace Handles

/-- Objects and open descriptors correspond one to one. -/
structure Sound (h : Handles) : Prop where
  closes : ∀ c ∈ h.closes, c.2 = true
  nodup : h.opened.Nodup
  owned : ∀ fd, fd ∈ h.opened ↔ ∃ i, h.objs i = some (some fd)
  unique : ∀ fd i j, h.objs i = some (some fd) → h.objs j = some (some fd) → i = j

theorem sound_put_none {h : Handles} (s : Sound h) (i : Nat) (o : Option (Option Nat))
    (ho : ∀ fd, o ≠ some (some fd)) (hi : ∀ fd, h.objs i ≠ some (some fd)) : Sound (h.put i o) where
  closes := s.closes
  nodup := s.nodup
  owned := by
    intro fd
    rw [show (h.put i o).opened = h.opened from rfl, s.owned fd]
    constructor
    · rintro ⟨k, hk⟩
      have : k ≠ i := fun e => hi fd (e ▸ hk)
      exact ⟨k, by simpa [put, this] using hk⟩
    · rintro ⟨k, hk⟩
      by_cases e : k = i
      · simp only [put, e, if_true] at hk
        exact absurd hk (ho fd)
      · exact ⟨k, by simpa [put, e] using hk⟩
  unique := by
    intro fd a b ha hb
    by_cases e : a = i
    · simp only [put, e, if_true] at ha
      exact absurd ha (ho fd)
    · by_cases e' : b = i
      · simp only [put, e', if_true] at hb
        exact absurd hb (ho fd)
      · simp only [put, e, e', if_false] at ha hb
        exact s.unique fd a b ha hb

theorem sound_close {h : Handles} (s : Sound h) (i : Nat) (own : Option Nat)
    (hi : h.objs i = some own) : Sound (h.close i own) := by
  cases own with
  | none => exact sound_put_none s i _ (by simp) (by simp [hi])
  | some fd =>
    have hin : fd ∈ h.opened := (s.owned fd).mpr ⟨i, hi⟩
    refine ⟨?_, s.nodup.erase fd, ?_, ?_⟩
    · intro c hc
      simp only [close, sysClose, put, List.mem_append, List.mem_singleton] at hc
      rcases hc with hc | rfl
      · exact s.closes c hc
      · simpa using hin
    · intro g
      simp only [close, sysClose, put]
      rw [s.nodup.mem_erase_iff, s.owned g]
      constructor
      · rintro ⟨hne, k, hk⟩
        refine ⟨k, ?_⟩
        have : k ≠ i := by
          rintro rfl
          rw [hi] at hk
          simp only [Option.some.injEq] at hk
          exact hne hk.symm
        simpa [this] using hk
      · rintro ⟨k, hk⟩
        by_cases e : k = i
        · simp [e] at hk
        · simp only [e, if_false] at hk
          refine ⟨?_, k, hk⟩
          rintro rfl
          exact e (s.unique _ k i hk hi)
    · intro g a b ha hb
      simp only [close, sysClose, put] at ha hb
      by_cases e : a = i
      · simp [e] at ha
      · by_cases e' : b = i
        · simp [e'] at hb
        · simp only [e, e', if_false] at ha hb
          exact s.unique g a b ha hb

theorem sound_give {h : Handles} (s : Sound h) (i fd : Nat) (hi : h.objs i = some none)
    (hfd : fd ∉ h.opened) :
    Sound { h.put i (some (some fd)) with opened := fd :: h.opened } where
  closes := s.closes
  nodup := List.nodup_cons.mpr ⟨hfd, s.nodup⟩
  owned := by
    intro g
    simp only [put, List.mem_cons, s.owned g]
    constructor
    · rintro (rfl | ⟨k, hk⟩)
      · exact ⟨i, by simp⟩
      · have : k ≠ i := by
          rintro rfl
          simp [hi] at hk
        exact ⟨k, by simpa [this] using hk⟩
    · rintro ⟨k, hk⟩
      by_cases e : k = i
      · simp only [e, if_true, Option.some.injEq] at hk
        exact .inl hk.symm
      · exact .inr ⟨k, by simpa [e] using hk⟩
  unique := by
    intro g a b ha hb
    simp only [put] at ha hb
    have old : ∀ k, h.objs k ≠ some (some fd) := fun k hk => hfd ((s.owned fd).mpr ⟨k, hk⟩)
    by_cases e : a = i <;> by_cases e' : b = i
    · rw [e, e']
    · simp only [e, e', if_true, if_false, Option.some.injEq] at ha hb
      exact absurd (ha ▸ hb) (old b)
    · simp only [e, e', if_true, if_false, Option.some.injEq] at ha hb
      exact absurd (hb ▸ ha) (old a)
    · simp only [e, e', if_false] at ha hb
      exact s.unique g a b ha hb

theorem sound_step {h : Handles} (s : Sound h) (op : HandleOp) (hop : ¬ op.IsMove) :
    Sound (h.step op) := by
  cases op with
  | construct i =>
    simp only [step]
    cases hi : h.objs i with
    | none => exact sound_put_none s i _ (by simp) (by simp [hi])
    | some => exact s
  | «open» i fd =>
    simp only [step]
    cases hi : h.objs i with
    | none => exact s
    | some own =>
      cases own with
      | none =>
        dsimp only
        split
        · exact s
        · exact sound_give s i fd hi (by simp_all)
      | some g =>
        dsimp only
        split
        · exact s
        · exact sound_give (sound_close s i _ hi) i fd (by simp [close, put]) (by simp_all)
  | close i =>
    simp only [step]
    cases hi : h.objs i with
    | none => exact s
    | some own => exact sound_close s i own hi
  | moveConstruct => exact absurd trivial hop
  | moveAssign => exact absurd trivial hop
  | destroy i =>
    simp only [step]
    cases hi : h.objs i with
    | none => exact s
    | some own =>
      exact sound_put_none (sound_close s i own hi) i none (by simp) (by simp [close, put])

end Handles

/-- Histories without moves.  Missing: moves, after which the code closes twice or never. -/
theorem C60_partial (ops : List HandleOp) (hops : ∀ op ∈ ops, ¬ op.IsMove) :
    OwnsExactly (Handles.run ops) := by
  have key : ∀ (ops : List HandleOp) (h : Handles), (∀ op ∈ ops, ¬ op.IsMove) → h.Sound →
      (ops.foldl Handles.step h).Sound := by
    intro ops
    induction ops with
    | nil => exact fun h _ s => s
    | cons op ops ih =>
      exact fun h hops s => ih _ (fun o ho => hops o (by simp [ho]))
        (Handles.sound_step s op (hops op (by simp)))
  have s := key ops Handles.empty hops
    ⟨by simp [Handles.empty], by simp [Handles.empty], by simp [Handles.empty],
      by simp [Handles.empty]⟩
  refine ⟨s.closes, fun fd hfd => ?_⟩
  obtain ⟨i, hi⟩ := (s.owned fd).mp hfd
  exact ⟨i, hi, fun j hj => s.unique fd j i hj hi⟩

example : (Handles.run [.construct 0, .open 0 3, .construct 1, .open 1 4, .open 0 5, .close 1,
      .destroy 1]).opened = [5]
    ∧ (Handles.run [.construct 0, .open 0 3, .construct 1, .open 1 4, .open 0 5, .close 1,
      .destroy 1]).closes = [(3, true), (4, true)] := by decide +kernel

end Cmp
