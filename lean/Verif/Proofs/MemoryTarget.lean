import Verif.Model.MemoryTarget
import Verif.Props.Target
import Verif.Props.Memory

/-
Lemmas about text input into strings when memory runs out.
-/

namespace Cmp

open InStream
open _root_.Spec (Item Ending Itemised passReturns gather skipChars)

theorem appendMem_rejected {e : Enc} {v : Nat} (h : grown e v = none) (H : Heap) (x : Exn)
    (m : MStr (BitVec e.width)) :
    appendMem H x e (BitVec.ofNat 32 v) m = (.throw .invalidCodePoint, m) := by
  have h1 := grown_none h m.units
  rw [appendCodePoint] at h1
  rcases C122_exact e (BitVec.ofNat 32 v) m.units.length m.units with ⟨y, hy, hm⟩ | ⟨us, hu, -⟩
  · rw [hy] at h1
    cases h1
    simp only [appendMem, appendCodePointMem]
    rw [hm H m rfl]
  · rw [hu] at h1
    cases h1

theorem appendMem_grown {e : Enc} {v : Nat} {us : Str e} (h : grown e v = some us) (H : Heap) (x : Exn)
    (m : MStr (BitVec e.width)) :
    (∃ m', appendMem H x e (BitVec.ofNat 32 v) m = (.ok (), m') ∧ m'.units = m.units ++ us ∧
      (m.units.length + us.length ≤ m.capacity → m'.capacity = m.capacity)) ∨
    ∃ k m', k < us.length ∧ appendMem H x e (BitVec.ofNat 32 v) m = (.throw x, m') ∧
      m'.units = m.units ++ us.take k ∧ m.capacity < m.units.length + us.length := by
  have h1 := grown_some h m.units
  rw [appendCodePoint] at h1
  rcases C122_exact e (BitVec.ofNat 32 v) m.units.length m.units with ⟨y, hy, -⟩ | ⟨us', hu, hc, hf, -⟩
  · rw [hy] at h1
    cases h1
  · rw [hu] at h1
    obtain rfl : us' = us := by simpa using h1
    obtain ⟨k, hk, h2, h3⟩ := hc H m rfl
    have h4 := hf H m rfl
    simp only [List.take_length, List.drop_length, List.append_nil] at h2 h4
    rcases hr : insertCodePointMem H e (BitVec.ofNat 32 v) m.units.length m with ⟨o, m'⟩
    rw [hr] at h2 h3 h4
    by_cases hk' : k = us'.length
    · left
      rw [if_pos hk'] at h3
      obtain rfl : o = .as (.ok ()) := h3
      refine ⟨m', by simp only [appendMem, appendCodePointMem]; rw [hr], ?_, fun hcap => ?_⟩
      · rw [hk', List.take_length] at h2
        exact h2
      · have := h4 hcap
        cases this
        rfl
    · right
      rw [if_neg hk'] at h3
      obtain rfl : o = .noMemory := h3
      refine ⟨k, m', by omega, by simp only [appendMem, appendCodePointMem]; rw [hr], h2, ?_⟩
      by_contra hcap
      cases h4 (by omega)

namespace InStream

variable {ρ : Type} {R : Reader ρ} {sizes : Nat → Prop} {tells : Bool} {left : List Byte → ρ → Prop}

/-- The loops: read until `stop`. -/
def loopMem (H : Heap) (x : Exn) (native : Endian) (R : Reader ρ) (e : Enc) (stop : Char32 → Bool) :
    Nat → M (InStream ρ × MStr (BitVec e.width)) Unit
  | 0 => M.hang
  | fuel + 1 => do
    let atEnd ← onStream (isAtEnd R)
    if atEnd then pure ()
    else do
      let c ← onStream (readFiltered native R)
      if stop c then pure ()
      else do
        onTarget (appendMem H x e c)
        loopMem H x native R e stop fuel

theorem appendLineMem_eq (H : Heap) (x : Exn) (native : Endian) (R : Reader ρ) (e : Enc) (fuel : Nat) :
    appendLineMem H x native R e fuel = loopMem H x native R e (fun c => decide (c = 10#32)) fuel := by
  induction fuel with
  | zero => rfl
  | succ fuel ih => rw [appendLineMem, loopMem, ih]; simp only [decide_eq_true_eq]

theorem appendAllMem_eq (H : Heap) (x : Exn) (native : Endian) (R : Reader ρ) (e : Enc) (fuel : Nat) :
    appendAllMem H x native R e fuel = loopMem H x native R e (fun _ => false) fuel := by
  induction fuel with
  | zero => rfl
  | succ fuel ih => rw [appendAllMem, loopMem, ih]; simp

theorem takeWordMem_eq (H : Heap) (x : Exn) (native : Endian) (R : Reader ρ) (e : Enc) (fuel : Nat) :
    takeWordMem H x native R e fuel = loopMem H x native R e isWhitespace fuel := by
  induction fuel with
  | zero => rfl
  | succ fuel ih => rw [takeWordMem, loopMem, ih]

/-- What the characters add to a string. -/
def added (e : Enc) (cs : List Nat) : Str e := cs.flatMap fun c => (grown e c).getD []

/-- The memory is refused for a character of the items: those before it are in the string, of it there are
fewer units than it has, and it is not among the items that are left. -/
structure Starved (e : Enc) (stop : Nat → Bool) (is : List Item) (m m' : MStr (BitVec e.width))
    (rest : List Item) (cs : List Nat) (v : Nat) (us : Str e) (k : Nat) : Prop where
  items : is = cs.map Item.char ++ .char v :: rest
  taken : ∀ c ∈ cs, stop c = false ∧ grown e c ≠ none
  going : stop v = false
  units : grown e v = some us
  less : k < us.length
  string : m'.units = m.units ++ added e cs ++ us.take k
  full : m.capacity < m.units.length + (added e cs).length + us.length

/-- The two ways in which reading into a string ends. -/
def Fed (sizes : Nat → Prop) (tells : Bool) (left : List Byte → ρ → Prop) (e : Enc) (stop : Nat → Bool)
    (x : Exn) (is : List Item) (s : InStream ρ) (m : MStr (BitVec e.width))
    (result : Outcome Unit × InStream ρ × MStr (BitVec e.width)) : Prop :=
  (∃ r' m', result = (ending (gather tells stop (grown e) is).2.1, ({ s with res := r' }, m')) ∧
    m'.units = m.units ++ (gather tells stop (grown e) is).1 ∧
    HasItems sizes tells left { s with res := r' } (gather tells stop (grown e) is).2.2) ∨
  ∃ r' m' rest cs v us k, result = (.throw x, ({ s with res := r' }, m')) ∧
    Starved e stop is m m' rest cs v us k ∧ HasItems sizes tells left { s with res := r' } rest

/-- One character more in front. -/
theorem fed_char {e : Enc} {stop : Nat → Bool} {x : Exn} {is : List Item} {s : InStream ρ} {r : ρ} {v : Nat}
    {us : Str e} {m m1 : MStr (BitVec e.width)} {res : Outcome Unit × InStream ρ × MStr (BitVec e.width)}
    (hs : stop v = false) (hg : grown e v = some us) (hu : m1.units = m.units ++ us)
    (hc : m.units.length + us.length ≤ m.capacity → m1.capacity = m.capacity)
    (h : Fed sizes tells left e stop x is { s with res := r } m1 res) :
    Fed sizes tells left e stop x (.char v :: is) s m res := by
  rcases h with ⟨r', m', e1, h1, q⟩ | ⟨r', m', rest, cs, w, ws, k, e1, h1, q⟩
  · left
    have : gather tells stop (grown e) (.char v :: is) =
        (us ++ (gather tells stop (grown e) is).1, (gather tells stop (grown e) is).2) := by
      rw [gather, hs, hg]
      simp
    rw [this]
    exact ⟨r', m', e1, by rw [h1, hu, List.append_assoc], q⟩
  · right
    refine ⟨r', m', rest, v :: cs, w, ws, k, e1, ⟨by rw [h1.items]; rfl, ?_, h1.going, h1.units, h1.less,
      ?_, ?_⟩, q⟩
    · intro c hc
      rcases List.mem_cons.mp hc with rfl | hc
      · exact ⟨hs, by rw [hg]; simp⟩
      · exact h1.taken c hc
    · rw [h1.string, hu]
      simp [added, hg]
    · have hf := h1.full
      rw [hu] at hf
      have : added e (v :: cs) = us ++ added e cs := by simp [added, hg]
      rw [this]
      simp only [List.length_append] at hf ⊢
      by_cases hcap : m.units.length + us.length ≤ m.capacity
      · rw [hc hcap] at hf
        omega
      · omega

theorem loopMem_fed (D : R.Delivers sizes tells left) (H : Heap) (x : Exn) (native : Endian) (e : Enc)
    (stop : Nat → Bool) (stop' : Char32 → Bool)
    (hstop : ∀ v, v < 2 ^ 32 → stop' (BitVec.ofNat 32 v) = stop v) (fuel : Nat) (is : List Item)
    (hf : is.length < fuel) (s : InStream ρ) (h : HasItems sizes tells left s is)
    (m : MStr (BitVec e.width)) :
    Fed sizes tells left e stop x is s m (loopMem H x native R e stop' fuel (s, m)) := by
  induction is generalizing fuel s m with
  | nil =>
    left
    obtain ⟨fuel, rfl⟩ : ∃ k, fuel = k + 1 := ⟨fuel - 1, by simp at hf; omega⟩
    have hend := hasItems_end D h
    have e0 : (onStream (isAtEnd R) : M (InStream ρ × MStr (BitVec e.width)) Bool) (s, m) =
        (.ok (tells && true), (s, m)) := by
      rw [onStream_apply, hend]; rfl
    rw [loopMem, M.bind_ok e0]
    cases tells with
    | true => exact ⟨s.res, m, by simp [gather, ending], by simp [gather], h⟩
    | false =>
      obtain ⟨r', e1, q⟩ := hasItems_none D native h
      have e1' : (onStream (readFiltered native R) : M (InStream ρ × MStr (BitVec e.width)) Char32) (s, m) =
          (.throw .readPastEnd, ({ s with res := r' }, m)) := by rw [onStream_apply, e1]
      refine ⟨r', m, ?_, by simp [gather], q⟩
      rw [if_neg (by simp), M.bind_throw e1']
      simp [gather, ending]
  | cons i is ih =>
    obtain ⟨fuel, rfl⟩ : ∃ k, fuel = k + 1 := ⟨fuel - 1, by simp at hf; omega⟩
    have hend := hasItems_end D h
    have e0 : (onStream (isAtEnd R) : M (InStream ρ × MStr (BitVec e.width)) Bool) (s, m) =
        (.ok false, (s, m)) := by
      rw [onStream_apply, hend]; simp
    obtain ⟨r', e1, q⟩ := hasItems_read D native h
    have e1' : (onStream (readFiltered native R) : M (InStream ρ × MStr (BitVec e.width)) Char32) (s, m) =
        (report i, ({ s with res := r' }, m)) := by rw [onStream_apply, e1]
    rw [loopMem, M.bind_ok e0, if_neg (by simp)]
    cases i with
    | bad =>
      exact Or.inl ⟨r', m, by rw [M.bind_throw e1']; simp [gather, ending], by simp [gather], q⟩
    | cut =>
      exact Or.inl ⟨r', m, by rw [M.bind_throw e1']; simp [gather, ending], by simp [gather], q⟩
    | char v =>
      have hv := hasItems_lt h
      rw [M.bind_ok e1', hstop v hv]
      by_cases hst : stop v = true
      · rw [if_pos hst]
        exact Or.inl ⟨r', m, by simp [gather, hst, ending], by simp [gather, hst], by
          rw [gather, if_pos hst]; exact q⟩
      · rw [if_neg hst]
        cases hg : grown e v with
        | none =>
          have e2 : (onTarget (appendMem H x e (BitVec.ofNat 32 v)) :
              M (InStream ρ × MStr (BitVec e.width)) Unit) ({ s with res := r' }, m) =
              (.throw .invalidCodePoint, ({ s with res := r' }, m)) := by
            rw [onTarget_apply, appendMem_rejected hg]
          exact Or.inl ⟨r', m, by rw [M.bind_throw e2]; simp [gather, hst, hg, ending],
            by simp [gather, hst, hg], by rw [gather, if_neg hst, hg]; exact q⟩
        | some us =>
          rcases appendMem_grown hg H x m with ⟨m1, a1, a2, a3⟩ | ⟨k, m1, hk, a1, a2, a3⟩
          · have e2 : (onTarget (appendMem H x e (BitVec.ofNat 32 v)) :
                M (InStream ρ × MStr (BitVec e.width)) Unit) ({ s with res := r' }, m) =
                (.ok (), ({ s with res := r' }, m1)) := by
              rw [onTarget_apply, a1]
            rw [M.bind_ok e2]
            exact fed_char (by simpa using hst) hg a2 a3
              (ih fuel (by simp at hf; omega) { s with res := r' } q m1)
          · have e2 : (onTarget (appendMem H x e (BitVec.ofNat 32 v)) :
                M (InStream ρ × MStr (BitVec e.width)) Unit) ({ s with res := r' }, m) =
                (.throw x, ({ s with res := r' }, m1)) := by
              rw [onTarget_apply, a1]
            rw [M.bind_throw e2]
            exact Or.inr ⟨r', m1, is, [], v, us, k, rfl,
              ⟨rfl, by simp, by simpa using hst, hg, hk, by simpa [added] using a2, by
                simpa [added] using a3⟩, q⟩

/-- Skipping whitespace and taking the word. -/
theorem skipSpaceMem_fed (D : R.Delivers sizes tells left) (H : Heap) (x : Exn) (native : Endian) (e : Enc)
    (stop : Nat → Bool)
    (hstop : ∀ v, v < 2 ^ 32 → isWhitespace (BitVec.ofNat 32 v) = stop v) (fuel fuel2 : Nat)
    (is : List Item) (hf : is.length < fuel) (hf2 : is.length < fuel2) (s : InStream ρ)
    (h : HasItems sizes tells left s is) (m : MStr (BitVec e.width)) :
    Fed sizes tells left e stop x (skipChars stop is) s m
      ((skipSpaceMem H x native R e fuel >>= fun _ => takeWordMem H x native R e fuel2) (s, m)) := by
  induction is generalizing fuel s m with
  | nil =>
    obtain ⟨fuel, rfl⟩ : ∃ k, fuel = k + 1 := ⟨fuel - 1, by simp at hf; omega⟩
    have hend := hasItems_end D h
    have e0 : (onStream (isAtEnd R) : M (InStream ρ × MStr (BitVec e.width)) Bool) (s, m) =
        (.ok (tells && true), (s, m)) := by
      rw [onStream_apply, hend]; rfl
    cases tells with
    | true =>
      have e1 : skipSpaceMem H x native R e (fuel + 1) (s, m) = (.ok (), (s, m)) := by
        rw [skipSpaceMem, M.bind_ok e0]; rfl
      rw [M.bind_ok e1, takeWordMem_eq]
      exact loopMem_fed D H x native e stop isWhitespace hstop fuel2 [] hf2 s h m
    | false =>
      left
      obtain ⟨r', e1, q⟩ := hasItems_none D native h
      have e1' : (onStream (readFiltered native R) : M (InStream ρ × MStr (BitVec e.width)) Char32) (s, m) =
          (.throw .readPastEnd, ({ s with res := r' }, m)) := by rw [onStream_apply, e1]
      have e2 : skipSpaceMem H x native R e (fuel + 1) (s, m) =
          (.throw .readPastEnd, ({ s with res := r' }, m)) := by
        rw [skipSpaceMem, M.bind_ok e0, if_neg (by simp), M.bind_throw e1']
      refine ⟨r', m, ?_, by simp [skipChars, gather], q⟩
      rw [M.bind_throw e2]
      simp [skipChars, gather, ending]
  | cons i is ih =>
    obtain ⟨fuel, rfl⟩ : ∃ k, fuel = k + 1 := ⟨fuel - 1, by simp at hf; omega⟩
    have hend := hasItems_end D h
    have e0 : (onStream (isAtEnd R) : M (InStream ρ × MStr (BitVec e.width)) Bool) (s, m) =
        (.ok false, (s, m)) := by
      rw [onStream_apply, hend]; simp
    obtain ⟨r', e1, q⟩ := hasItems_read D native h
    have e1' : (onStream (readFiltered native R) : M (InStream ρ × MStr (BitVec e.width)) Char32) (s, m) =
        (report i, ({ s with res := r' }, m)) := by rw [onStream_apply, e1]
    cases i with
    | bad =>
      have e2 : skipSpaceMem H x native R e (fuel + 1) (s, m) =
          (.throw .invalidUnicodeEncoding, ({ s with res := r' }, m)) := by
        rw [skipSpaceMem, M.bind_ok e0, if_neg (by simp), M.bind_throw e1']
      exact Or.inl ⟨r', m, by rw [M.bind_throw e2]; simp [skipChars, gather, ending],
        by simp [skipChars, gather], q⟩
    | cut =>
      have e2 : skipSpaceMem H x native R e (fuel + 1) (s, m) =
          (.throw .readPastEnd, ({ s with res := r' }, m)) := by
        rw [skipSpaceMem, M.bind_ok e0, if_neg (by simp), M.bind_throw e1']
      exact Or.inl ⟨r', m, by rw [M.bind_throw e2]; simp [skipChars, gather, ending],
        by simp [skipChars, gather], q⟩
    | char v =>
      have hv := hasItems_lt h
      by_cases hst : stop v = true
      · have e2 : skipSpaceMem H x native R e (fuel + 1) (s, m) =
            skipSpaceMem H x native R e fuel ({ s with res := r' }, m) := by
          rw [skipSpaceMem, M.bind_ok e0, if_neg (by simp), M.bind_ok e1', hstop v hv, if_pos hst]
        rw [M.bind_apply, e2, ← M.bind_apply]
        have hk : skipChars stop (.char v :: is) = skipChars stop is := by
          simp [skipChars, hst]
        rw [hk]
        exact ih fuel (by simp at hf; omega) (by simp at hf2; omega) { s with res := r' } q m
      · have hk : skipChars stop (.char v :: is) = .char v :: is := by
          simp [skipChars, hst]
        rw [hk]
        have e2 : skipSpaceMem H x native R e (fuel + 1) (s, m) =
            (onTarget (appendMem H x e (BitVec.ofNat 32 v)) :
              M (InStream ρ × MStr (BitVec e.width)) Unit) ({ s with res := r' }, m) := by
          rw [skipSpaceMem, M.bind_ok e0, if_neg (by simp), M.bind_ok e1', hstop v hv, if_neg hst]
        cases hg : grown e v with
        | none =>
          rw [onTarget_apply, appendMem_rejected hg] at e2
          exact Or.inl ⟨r', m, by rw [M.bind_throw e2]; simp [gather, hst, hg, ending],
            by simp [gather, hst, hg], by rw [gather, if_neg hst, hg]; exact q⟩
        | some us =>
          rcases appendMem_grown hg H x m with ⟨m1, a1, a2, a3⟩ | ⟨k, m1, hk, a1, a2, a3⟩
          · rw [onTarget_apply, a1] at e2
            rw [M.bind_ok e2, takeWordMem_eq]
            exact fed_char (by simpa using hst) hg a2 a3 (loopMem_fed D H x native e stop isWhitespace hstop
              fuel2 is (by simp at hf2; omega) { s with res := r' } q m1)
          · rw [onTarget_apply, a1] at e2
            rw [M.bind_throw e2]
            exact Or.inr ⟨r', m1, is, [], v, us, k, rfl,
              ⟨rfl, by simp, by simpa using hst, hg, hk, by simpa [added] using a2, by
                simpa [added] using a3⟩, q⟩

/-- Starving in the middle of what would have been gathered. -/
theorem Starved.gather_eq {e : Enc} {stop : Nat → Bool} {is : List Item} {m m' : MStr (BitVec e.width)}
    {rest : List Item} {cs : List Nat} {v : Nat} {us : Str e} {k : Nat}
    (h : Starved e stop is m m' rest cs v us k) (tells : Bool) :
    gather tells stop (grown e) is = (added e cs ++ us ++ (gather tells stop (grown e) rest).1,
      (gather tells stop (grown e) rest).2) := by
  have key : ∀ cs : List Nat, (∀ c ∈ cs, stop c = false ∧ grown e c ≠ none) →
      gather tells stop (grown e) (cs.map Item.char ++ .char v :: rest) =
        (added e cs ++ us ++ (gather tells stop (grown e) rest).1,
          (gather tells stop (grown e) rest).2) := by
    intro cs
    induction cs with
    | nil =>
      intro _
      rw [List.map_nil, List.nil_append, gather, h.going, h.units]
      simp [added]
    | cons c cs ih =>
      intro hc
      obtain ⟨h1, h2⟩ := hc c (by simp)
      cases hg : grown e c with
      | none => exact absurd hg h2
      | some ws =>
        rw [List.map_cons, List.cons_append, gather, h1, hg, ih fun d hd => hc d (by simp [hd])]
        simp [added, hg]
  rw [h.items]
  exact key cs h.taken

end InStream

end Cmp
