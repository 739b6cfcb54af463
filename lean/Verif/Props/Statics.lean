import Verif.Model.Statics

/-
Property C114: the standard streams can be used by the constructors and destructors of objects of
static storage duration.
-/

namespace Cmp

open Static (run construct destroy lib user)

/-- The compiled library alone: `uin_resource` is tied to an object that does not exist yet. -/
theorem C114_violated : ¬ ∀ mode before after, run true mode before after = .ok () := by
  intro h
  have := h .compiled [] []
  revert this
  decide

/-- Even if that is harmless: an object that is constructed before the library's objects. -/
theorem C114_violated_order : ¬ ∀ mode before after, run false mode before after = .ok () := by
  intro h
  have := h .compiled [⟨0, [.uout], []⟩] []
  revert this
  decide

namespace Static

theorem construct_append (strict : Bool) (a b alive : List Static) :
    construct strict (a ++ b) alive = construct strict a alive >>= construct strict b := by
  induction a generalizing alive with
  | nil => rfl
  | cons s a ih =>
    simp only [List.cons_append, construct]
    split
    · exact ih _
    · rfl

/-- Objects of the program are constructed if what they use is there. -/
theorem construct_users (strict : Bool) (us : List UserStatic) (alive : List Static)
    (h : ∀ u ∈ us, ∀ n ∈ u.onInit, ∀ o ∈ n.touches, lib o ∈ alive) :
    construct strict (us.map user) alive = .ok ((us.map user).reverse ++ alive) := by
  induction us generalizing alive with
  | nil => rfl
  | cons u us ih =>
    have hu : ∀ o ∈ (user u).onInit strict, lib o ∈ alive := by
      intro o ho
      obtain ⟨n, hn, ho⟩ := List.mem_flatMap.mp ho
      exact h u (by simp) n hn o ho
    simp only [List.map_cons, construct, if_pos hu]
    rw [ih]
    · simp
    · intro v hv n hn o ho
      exact List.mem_cons_of_mem _ (h v (by simp [hv]) n hn o ho)

/-- Objects of the program are destroyed if what they use is still there. -/
theorem destroy_users (us : List UserStatic) (alive : List Static)
    (h : ∀ u ∈ us, ∀ n ∈ u.onExit, ∀ o ∈ n.touches, lib o ∈ alive) :
    destroy (us.map user ++ alive) = destroy alive := by
  induction us with
  | nil => rfl
  | cons u us ih =>
    have hu : ∀ o ∈ (user u).onExit, lib o ∈ us.map user ++ alive := by
      intro o ho
      obtain ⟨n, hn, ho⟩ := List.mem_flatMap.mp ho
      exact List.mem_append_right _ (h u (by simp) n hn o ho)
    simp only [List.map_cons, List.cons_append, destroy, if_pos hu]
    exact ih fun v hv => h v (by simp [hv])

/-- All objects of the library. -/
theorem mem_objects (mode : LibraryMode) (o : StdObject) : o ∈ mode.objects := by
  cases mode <;> cases o <;> decide

theorem construct_lib (strict : Bool) (mode : LibraryMode) (alive : List Static)
    (h : strict = false ∨ mode = .headerOnly) :
    construct strict (mode.objects.map lib) alive = .ok ((mode.objects.map lib).reverse ++ alive) := by
  cases mode with
  | compiled =>
    have : strict = false := by simpa using h
    subst this
    simp [LibraryMode.objects, construct, Static.onInit, StdObject.onInit]
  | headerOnly => cases strict <;> simp [LibraryMode.objects, construct, Static.onInit, StdObject.onInit]

theorem destroy_lib (mode : LibraryMode) (alive : List Static) :
    destroy ((mode.objects.map lib).reverse ++ alive) = destroy alive := by
  cases mode <;> simp [LibraryMode.objects, destroy, Static.onExit, StdObject.onExit]

theorem touches_ne (n : StdName) : ∃ o, o ∈ n.touches := by
  cases n <;> exact ⟨_, List.mem_cons_self ..⟩

/-- What is constructed and destroyed where no object of the library is. -/
theorem construct_without {strict : Bool} {us : List UserStatic} {alive alive' : List Static}
    (hl : ∀ o, lib o ∉ alive) (h : construct strict (us.map user) alive = .ok alive') :
    (∀ u ∈ us, u.onInit = []) ∧ alive' = (us.map user).reverse ++ alive := by
  induction us generalizing alive with
  | nil => exact ⟨by simp, by simpa [construct, eq_comm] using h⟩
  | cons u us ih =>
    simp only [List.map_cons, construct] at h
    split at h
    · rename_i hu
      have h0 : u.onInit = [] := by
        cases hn : u.onInit with
        | nil => rfl
        | cons n ns =>
          obtain ⟨o, ho⟩ := touches_ne n
          exact absurd (hu o (by simp only [Static.onInit, hn]; simp [ho])) (hl o)
      obtain ⟨h1, h2⟩ := ih (alive := user u :: alive) (by intro o ho; simp at ho; exact hl o ho) h
      refine ⟨?_, by simp [h2]⟩
      intro v hv
      rcases List.mem_cons.mp hv with rfl | hv
      · exact h0
      · exact h1 v hv
    · cases h

theorem destroy_without {us : List UserStatic} {alive : List Static}
    (hl : ∀ o, lib o ∉ alive) (h : destroy (us.map user ++ alive) = .ok ()) :
    ∀ u ∈ us, u.onExit = [] := by
  induction us with
  | nil => simp
  | cons u us ih =>
    simp only [List.map_cons, List.cons_append, destroy] at h
    split at h
    · rename_i hu
      intro v hv
      rcases List.mem_cons.mp hv with rfl | hv
      · cases hn : v.onExit with
        | nil => rfl
        | cons n ns =>
          obtain ⟨o, ho⟩ := touches_ne n
          have := hu o (by simp only [Static.onExit, hn]; simp [ho])
          rcases List.mem_append.mp this with h1 | h1
          · simp at h1
          · exact absurd h1 (hl o)
      · exact ih h v hv
    · cases h

end Static

/-- C114 for the library that consists of headers, strictly: every program, whatever streams its
objects use.  Missing: the compiled library, see `C114_exact`. -/
theorem C114_partial (strict : Bool) (before after : List UserStatic) :
    run strict .headerOnly before after = .ok () := by
  have hm : ∀ o, lib o ∈ (LibraryMode.headerOnly.objects.map lib).reverse := by
    intro o
    simp [Static.mem_objects]
  simp only [run]
  rw [List.append_assoc, Static.construct_append, Static.construct_lib _ _ _ (.inr rfl), Outcome.ok_bind,
    ← List.map_append, Static.construct_users, Outcome.ok_bind, ← List.map_reverse, Static.destroy_users,
    Static.destroy_lib]
  · rfl
  · intro u _ n _ o _
    exact List.mem_append_left _ (hm o)
  · intro u _ n _ o _
    exact List.mem_append_left _ (hm o)

/-- C114 for the compiled library, if tying to an object that does not exist yet is harmless: exactly
the programs in which no object that is constructed before the library's uses a stream.  (The objects
constructed after it may.) -/
theorem C114_exact (before after : List UserStatic) :
    run false .compiled before after = .ok () ↔ ∀ u ∈ before, u.onInit = [] ∧ u.onExit = [] := by
  have hm : ∀ o, lib o ∈ (LibraryMode.compiled.objects.map lib).reverse := by
    intro o
    simp [Static.mem_objects]
  have key : ∀ alive, construct false (before.map user) [] = .ok alive →
      run false .compiled before after = destroy alive := by
    intro alive e
    simp only [run]
    rw [List.append_assoc, Static.construct_append, e, Outcome.ok_bind, Static.construct_append,
      Static.construct_lib _ _ _ (.inl rfl), Outcome.ok_bind, Static.construct_users, Outcome.ok_bind,
      ← List.map_reverse, Static.destroy_users, Static.destroy_lib]
    · intro u _ n _ o _
      exact List.mem_append_left _ (hm o)
    · intro u _ n _ o _
      exact List.mem_append_left _ (hm o)
  constructor
  · intro h
    cases e : construct false (before.map user) [] with
    | ok alive =>
      rw [key alive e] at h
      obtain ⟨h1, h2⟩ := Static.construct_without (by simp) e
      rw [h2, ← List.map_reverse] at h
      have h3 := Static.destroy_without (by simp) h
      exact fun u hu => ⟨h1 u hu, h3 u (by simpa using hu)⟩
    | _ =>
      simp only [run] at h
      rw [List.append_assoc, Static.construct_append, e] at h
      cases h
  · intro h
    have e := Static.construct_users false before [] (by
      intro u hu n hn
      rw [(h u hu).1] at hn
      cases hn)
    rw [key _ e, ← List.map_reverse, Static.destroy_users _ [] (by
      intro u hu n hn
      rw [(h u (by simpa using hu)).2] at hn
      cases hn)]
    rfl

/-- Objects that use streams in their constructors and destructors. -/
example : run false .compiled [⟨0, [], []⟩] [⟨1, [.uin, .uout], []⟩, ⟨2, [], [.uerr]⟩] = .ok () ∧
    run true .headerOnly [⟨0, [.uerr], [.uin]⟩] [] = .ok () ∧
    run false .compiled [⟨0, [], [.uerr]⟩] [] = .ub := by decide

end Cmp
