import Verif.Model.Memory
import Verif.Proofs.UnicodeLoops

/-
Lemmas about strings in limited memory (`Model/Memory`), for C122, C123 and C124.
-/

namespace Cmp

namespace MemOp

variable {α β : Type}

theorem andThen_ok {a b : MemOp α} {m m' : MStr α} (h : a m = (.as (.ok ()), m')) :
    a.andThen b m = b m' := by
  unfold andThen; rw [h]

theorem andThen_stop {a b : MemOp α} {m : MStr α} {x : Ends} {m' : MStr α} (h : a m = (x, m'))
    (hx : x ≠ .as (.ok ())) : a.andThen b m = (x, m') := by
  unfold andThen; rw [h]
  split
  · next h2 =>
    simp only [Prod.mk.injEq] at h2
    exact absurd h2.1 hx
  · rfl

theorem andThen_nop (a : MemOp α) : a.andThen (fun m => (.as (.ok ()), m)) = a := by
  funext m
  rcases h : a m with ⟨x, m'⟩
  by_cases hx : x = .as (.ok ())
  · subst hx; rw [andThen_ok h]
  · rw [andThen_stop h hx]

end MemOp

/-- Insert several units one after the other, at consecutive indices. -/
def insertUnitsMem {α : Type} (H : Heap) : Nat → List α → MemOp α
  | _, [] => fun m => (.as (.ok ()), m)
  | i, u :: us => (strInsertMem H i u).andThen (insertUnitsMem H (i + 1) us)

theorem insert16Mem_eq (H : Heap) (c : Char32) (i : Nat) :
    insert16Mem H c i = insertUnitsMem H i (insU.ins16 c) := by
  unfold insert16Mem insU.ins16
  split
  · exact (MemOp.andThen_nop _).symm
  · simp only [insertUnitsMem, MemOp.andThen_nop]

theorem insert8Mem_eq (H : Heap) (c : Char32) (i : Nat) (h : isCodePointValid c = true) :
    insertCodePointMem H .char8 c i = insertUnitsMem H i (insU .char8 c) := by
  have hv := h
  rw [isCodePointValid_eq, decide_eq_true_iff] at hv
  simp only [insertCodePointMem, h, Bool.not_true, Bool.false_eq_true, if_false, insU, Spec.utf8]
  by_cases h1 : c.toNat < 0x80
  · rw [if_pos (by simp [fitsIn7Bits, BitVec.le_def]; omega), if_pos h1, byte_one]
    exact (MemOp.andThen_nop _).symm
  rw [if_neg (by simp [fitsIn7Bits, BitVec.le_def]; omega), if_neg h1]
  by_cases h2 : c.toNat < 0x800
  · rw [if_pos (by simp [BitVec.le_def]; omega), if_pos h2, byte_lead2 c h2, byte_trail]
    simp only [List.map, insertUnitsMem, MemOp.andThen_nop]
  rw [if_neg (by simp [BitVec.le_def]; omega), if_neg h2]
  by_cases h3 : c.toNat < 0x10000
  · rw [if_pos (by simp [BitVec.le_def]; omega), if_pos h3, byte_lead3 c h3, byte_trail c,
      byte_trail6 c]
    simp only [List.map, insertUnitsMem, MemOp.andThen_nop]
  rw [if_neg (by simp [BitVec.le_def]; omega), if_neg h3, byte_lead4 c (by omega), byte_trail c,
      byte_trail6 c, byte_trail12 c]
  simp only [List.map, insertUnitsMem, MemOp.andThen_nop]

theorem insertCodePointMem_eq (H : Heap) (e : Enc) (c : Char32) (i : Nat) (h : rejected e c = false) :
    insertCodePointMem H e c i = insertUnitsMem H i (insU e c) := by
  cases e with
  | narrow => exact (MemOp.andThen_nop _).symm
  | char8 => exact insert8Mem_eq H c i (by simpa [rejected] using h)
  | char16 => exact insert16Mem_eq H c i
  | wide2 => exact insert16Mem_eq H c i
  | char32 => exact (MemOp.andThen_nop _).symm
  | wide4 => exact (MemOp.andThen_nop _).symm

theorem insertCodePointMem_rejected (H : Heap) (e : Enc) (c : Char32) (i : Nat) (m : MStr (BitVec e.width))
    (h : rejected e c = true) :
    insertCodePointMem H e c i m = (.as (.throw .invalidCodePoint), m) := by
  cases e <;> simp_all [rejected, insertCodePointMem]

/-! ### Insertions one by one -/

variable {α : Type}

theorem strInsertMem_range (H : Heap) (i : Nat) (u : α) (m : MStr α) (h : m.units.length < i) :
    strInsertMem H i u m = (.as (.throw .outOfRange), m) := by
  unfold strInsertMem; rw [if_pos h]

/-- What one insertion does: it succeeds or leaves the units as they were. -/
theorem strInsertMem_cases (H : Heap) (i : Nat) (u : α) (m : MStr α) (h : i ≤ m.units.length) :
    (∃ cap k, strInsertMem H i u m = (.as (.ok ()), ⟨m.units.take i ++ u :: m.units.drop i, cap, k⟩)) ∨
    (∃ k, strInsertMem H i u m = (.noMemory, ⟨m.units, m.capacity, k⟩)) := by
  unfold strInsertMem
  rw [if_neg (by omega)]
  unfold MStr.room MemOp.andThen
  by_cases h1 : m.units.length + 1 ≤ m.capacity
  · simp only [if_pos h1]
    exact .inl ⟨_, _, rfl⟩
  by_cases h2 : H.maxSize < m.units.length + 1
  · simp only [if_neg h1, if_pos h2]
    exact .inr ⟨_, rfl⟩
  by_cases h3 : H.grants m.asked
  · simp only [if_neg h1, if_neg h2, if_pos h3]
    exact .inl ⟨_, _, rfl⟩
  · simp only [if_neg h1, if_neg h2, if_neg h3]
    exact .inr ⟨_, rfl⟩

theorem strInsertMem_fits (H : Heap) (i : Nat) (u : α) (m : MStr α) (h : i ≤ m.units.length)
    (hc : m.units.length + 1 ≤ m.capacity) :
    strInsertMem H i u m = (.as (.ok ()), { m with units := m.units.take i ++ u :: m.units.drop i }) := by
  unfold strInsertMem
  rw [if_neg (by omega)]
  unfold MStr.room MemOp.andThen
  simp only [if_pos hc]

theorem strInsertMem_refused (H : Heap) (i : Nat) (u : α) (m : MStr α) (h : i ≤ m.units.length)
    (hc : ¬ m.units.length + 1 ≤ m.capacity) (hg : H.grants m.asked = false) :
    ∃ k, strInsertMem H i u m = (.noMemory, ⟨m.units, m.capacity, k⟩) := by
  unfold strInsertMem
  rw [if_neg (by omega)]
  unfold MStr.room MemOp.andThen
  by_cases h2 : H.maxSize < m.units.length + 1
  · simp only [if_neg hc, if_pos h2]
    exact ⟨_, rfl⟩
  · simp only [if_neg hc, if_neg h2, hg, Bool.false_eq_true, if_false]
    exact ⟨_, rfl⟩

theorem splice (s : List α) (i : Nat) (u : α) (us : List α) (h : i ≤ s.length) :
    (s.take i ++ u :: s.drop i).take (i + 1) ++ us ++ (s.take i ++ u :: s.drop i).drop (i + 1) =
      s.take i ++ (u :: us) ++ s.drop i := by
  have e1 : (s.take i ++ u :: s.drop i).take (i + 1) = s.take i ++ [u] := by
    rw [List.take_append, List.take_of_length_le (by simp; omega)]
    simp [List.length_take, Nat.min_eq_left h]
  have e2 : (s.take i ++ u :: s.drop i).drop (i + 1) = s.drop i := by
    rw [List.drop_append, List.drop_of_length_le (by simp; omega)]
    simp [List.length_take, Nat.min_eq_left h]
  rw [e1, e2]; simp

theorem insertUnitsMem_cases (H : Heap) (us : List α) : ∀ (i : Nat) (m : MStr α), i ≤ m.units.length →
    ∃ k, k ≤ us.length ∧
      (insertUnitsMem H i us m).2.units = m.units.take i ++ us.take k ++ m.units.drop i ∧
      (insertUnitsMem H i us m).1 = if k = us.length then .as (.ok ()) else .noMemory := by
  induction us with
  | nil => intro i m h; exact ⟨0, Nat.le_refl _, by simp [insertUnitsMem], rfl⟩
  | cons u us ih =>
    intro i m h
    rcases strInsertMem_cases H i u m h with ⟨cap, k, h1⟩ | ⟨k, h1⟩
    · rw [insertUnitsMem, MemOp.andThen_ok h1]
      obtain ⟨k', h2, h3, h4⟩ := ih (i + 1) ⟨m.units.take i ++ u :: m.units.drop i, cap, k⟩ (by
        simp; omega)
      refine ⟨k' + 1, by simpa using h2, ?_, ?_⟩
      · rw [h3, splice _ _ _ _ h]; rfl
      · rw [h4]; simp
    · rw [insertUnitsMem, MemOp.andThen_stop h1 (by simp)]
      exact ⟨0, Nat.zero_le _, by simp, by simp⟩

theorem insertUnitsMem_fits (H : Heap) (us : List α) : ∀ (i : Nat) (m : MStr α), i ≤ m.units.length →
    m.units.length + us.length ≤ m.capacity →
    insertUnitsMem H i us m =
      (.as (.ok ()), { m with units := m.units.take i ++ us ++ m.units.drop i }) := by
  induction us with
  | nil => intro i m h _; simp [insertUnitsMem]
  | cons u us ih =>
    intro i m h hc
    simp only [List.length_cons] at hc
    rw [insertUnitsMem, MemOp.andThen_ok (strInsertMem_fits H i u m h (by omega)),
      ih _ _ (by simp; omega) (by simp; omega)]
    dsimp only
    rw [splice _ _ _ _ h]

theorem insertUnitsMem_stops (H : Heap) (hg : ∀ k, H.grants k = false) (us : List α) :
    ∀ (k i : Nat) (m : MStr α), i ≤ m.units.length →
    k < us.length → m.capacity = m.units.length + k →
    (insertUnitsMem H i us m).1 = .noMemory ∧
      (insertUnitsMem H i us m).2.units = m.units.take i ++ us.take k ++ m.units.drop i := by
  induction us with
  | nil => intro k i m _ hk; simp at hk
  | cons u us ih =>
    intro k i m h hk hc
    cases k with
    | zero =>
      obtain ⟨k, h1⟩ := strInsertMem_refused H i u m h (by omega) (hg _)
      rw [insertUnitsMem, MemOp.andThen_stop h1 (by simp)]
      simp
    | succ k =>
      rw [insertUnitsMem, MemOp.andThen_ok (strInsertMem_fits H i u m h (by omega))]
      have h2 := ih k (i + 1) { m with units := m.units.take i ++ u :: m.units.drop i } (by simp; omega)
        (by simpa using hk) (by simp; omega)
      refine ⟨h2.1, ?_⟩
      rw [h2.2, splice _ _ _ _ h]; rfl

theorem insertUnitsMem_range (H : Heap) (us : List α) (hu : us ≠ []) (i : Nat) (m : MStr α)
    (h : m.units.length < i) : insertUnitsMem H i us m = (.as (.throw .outOfRange), m) := by
  obtain ⟨u, us, rfl⟩ := List.exists_cons_of_ne_nil hu
  rw [insertUnitsMem, MemOp.andThen_stop (strInsertMem_range H i u m h) (by simp)]

/-! ### Requests -/

/-- Requests are counted, and a string that made none has its old capacity and room enough. -/
def Thrifty (m m' : MStr α) : Prop :=
  m.asked ≤ m'.asked ∧ (m'.asked = m.asked → m'.capacity = m.capacity ∧
    (m.units.length ≤ m.capacity → m'.units.length ≤ m.capacity))

theorem Thrifty.refl (m : MStr α) : Thrifty m m := ⟨Nat.le_refl _, fun _ => ⟨rfl, id⟩⟩

theorem Thrifty.trans {a b c : MStr α} (h1 : Thrifty a b) (h2 : Thrifty b c) : Thrifty a c := by
  refine ⟨Nat.le_trans h1.1 h2.1, fun h => ?_⟩
  have h3 := h1.1
  have h4 := h2.1
  obtain ⟨h5, h6⟩ := h1.2 (by omega)
  obtain ⟨h7, h8⟩ := h2.2 (by omega)
  refine ⟨by omega, fun h => ?_⟩
  have := h6 h
  have := h8 (by omega)
  omega

theorem room_thrifty (H : Heap) (n : Nat) (m : MStr α) : Thrifty m (MStr.room H n m).2 := by
  unfold MStr.room
  split
  · exact .refl m
  split
  · exact .refl m
  split
  · exact ⟨by simp, fun h => by simp at h⟩
  · exact ⟨by simp, fun h => by simp at h⟩

theorem andThen_thrifty {a b : MemOp α} (ha : ∀ m, Thrifty m (a m).2) (hb : ∀ m, Thrifty m (b m).2)
    (m : MStr α) : Thrifty m (a.andThen b m).2 := by
  rcases h : a m with ⟨x, m'⟩
  have h1 := ha m
  rw [h] at h1
  by_cases hx : x = .as (.ok ())
  · subst hx; rw [MemOp.andThen_ok h]; exact h1.trans (hb m')
  · rw [MemOp.andThen_stop h hx]; exact h1

theorem strInsertMem_thrifty (H : Heap) (i : Nat) (u : α) (m : MStr α) :
    Thrifty m (strInsertMem H i u m).2 := by
  unfold strInsertMem
  split
  · exact .refl m
  · next h =>
    unfold MStr.room MemOp.andThen
    by_cases h1 : m.units.length + 1 ≤ m.capacity
    · simp only [if_pos h1]
      refine ⟨Nat.le_refl _, fun _ => ⟨rfl, fun _ => ?_⟩⟩
      simp
      omega
    by_cases h2 : H.maxSize < m.units.length + 1
    · simp only [if_neg h1, if_pos h2]
      exact .refl m
    by_cases h3 : H.grants m.asked
    · simp only [if_neg h1, if_neg h2, if_pos h3]
      exact ⟨by simp, fun h => by simp at h⟩
    · simp only [if_neg h1, if_neg h2, if_neg h3]
      exact ⟨by simp, fun h => by simp at h⟩

theorem insertUnitsMem_thrifty (H : Heap) (us : List α) : ∀ (i : Nat) (m : MStr α),
    Thrifty m (insertUnitsMem H i us m).2 := by
  induction us with
  | nil => intro i m; exact .refl m
  | cons u us ih =>
    intro i m
    exact andThen_thrifty (strInsertMem_thrifty H i u) (ih (i + 1)) m

theorem appendCodePointMem_thrifty (H : Heap) (e : Enc) (c : Char32) (m : MStr (BitVec e.width)) :
    Thrifty m (appendCodePointMem H e c m).2 := by
  unfold appendCodePointMem
  cases hr : rejected e c with
  | true => rw [insertCodePointMem_rejected _ _ _ _ _ hr]; exact .refl m
  | false => rw [insertCodePointMem_eq _ _ _ _ hr]; exact insertUnitsMem_thrifty _ _ _ _

theorem eval_thrifty {β : Type} (o : Outcome β) {k : β → MemOp α} (hk : ∀ b m, Thrifty m (k b m).2)
    (m : MStr α) : Thrifty m (MemOp.eval o k m).2 := by
  unfold MemOp.eval
  split
  · exact hk _ m
  all_goals exact .refl m

theorem convertFromMem_thrifty (H : Heap) (src dst : Enc) (s : Str src) : ∀ (fuel i : Nat)
    (m : MStr (BitVec dst.width)), Thrifty m (convertFromMem H src dst s fuel i m).2
  | 0, _, m => .refl m
  | fuel + 1, i, m => by
    unfold convertFromMem
    split
    · exact .refl m
    · exact eval_thrifty _ (fun c => andThen_thrifty (appendCodePointMem_thrifty H dst c)
        (eval_thrifty _ fun j => convertFromMem_thrifty H src dst s fuel j)) m

/-! ### Conversion -/

theorem appendCP_cases (e : Enc) (s : Str e) (c : Char32) :
    (rejected e c = true ∧ appendCP e s c = .throw .invalidCodePoint) ∨
    (rejected e c = false ∧ appendCP e s c = .ok (s ++ insU e c)) := by
  cases hr : rejected e c with
  | true =>
    left
    rw [appendCP, appendCodePoint, insertCodePoint_rejected _ _ _ _ hr]
    exact ⟨rfl, rfl⟩
  | false =>
    right
    rw [appendCP, appendCodePoint, insertCodePoint_eq _ _ _ hr, insertUnits_ok _ _ _ (Nat.le_refl _)]
    simp

theorem appendMem_throws (H : Heap) (e : Enc) (c : Char32) (m : MStr (BitVec e.width))
    (hr : rejected e c = true) : appendCodePointMem H e c m = (.as (.throw .invalidCodePoint), m) :=
  insertCodePointMem_rejected _ _ _ _ _ hr

theorem appendMem_cases (H : Heap) (e : Enc) (c : Char32) (m : MStr (BitVec e.width))
    (hr : rejected e c = false) :
    (∃ cap k, appendCodePointMem H e c m = (.as (.ok ()), ⟨m.units ++ insU e c, cap, k⟩)) ∨
    (appendCodePointMem H e c m).1 = .noMemory := by
  unfold appendCodePointMem
  rw [insertCodePointMem_eq _ _ _ _ hr]
  obtain ⟨k, h1, h2, h3⟩ := insertUnitsMem_cases H (insU e c) m.units.length m (Nat.le_refl _)
  by_cases hk : k = (insU e c).length
  · left
    rw [if_pos hk] at h3
    refine ⟨(insertUnitsMem H m.units.length (insU e c) m).2.capacity,
      (insertUnitsMem H m.units.length (insU e c) m).2.asked, ?_⟩
    rw [hk] at h2
    simp only [List.take_length, List.drop_length, List.append_nil] at h2
    rw [← h2, ← h3]
  · right
    rw [if_neg hk] at h3
    exact h3

theorem appendMem_fits (H : Heap) (e : Enc) (c : Char32) (m : MStr (BitVec e.width))
    (hr : rejected e c = false) (hc : (m.units ++ insU e c).length ≤ m.capacity) :
    appendCodePointMem H e c m = (.as (.ok ()), { m with units := m.units ++ insU e c }) := by
  unfold appendCodePointMem
  rw [insertCodePointMem_eq _ _ _ _ hr, insertUnitsMem_fits _ _ _ _ (Nat.le_refl _) (by simpa using hc)]
  simp

theorem forEachFrom_longer (src dst : Enc) (s : Str src) : ∀ (fuel i : Nat) (acc t : Str dst),
    forEachFrom src s (appendCP dst) fuel i acc = .ok t → acc.length ≤ t.length
  | 0, _, _, _, h => by cases h
  | fuel + 1, i, acc, t, h => by
    unfold forEachFrom at h
    split at h
    · cases h; exact Nat.le_refl _
    · obtain ⟨c, hc, h⟩ := Outcome.bind_eq_ok.1 h
      obtain ⟨a, ha, h⟩ := Outcome.bind_eq_ok.1 h
      obtain ⟨j, hj, h⟩ := Outcome.bind_eq_ok.1 h
      have h1 := forEachFrom_longer src dst s fuel j a t h
      rcases appendCP_cases dst acc c with ⟨_, h2⟩ | ⟨_, h2⟩ <;> rw [h2] at ha <;> cases ha
      simp at h1
      omega

theorem convertFromMem_fits (H : Heap) (src dst : Enc) (s : Str src) : ∀ (fuel i : Nat)
    (m : MStr (BitVec dst.width)) (t : Str dst),
    forEachFrom src s (appendCP dst) fuel i m.units = .ok t → t.length ≤ m.capacity →
    convertFromMem H src dst s fuel i m = (.as (.ok ()), { m with units := t })
  | 0, _, _, _, h, _ => by cases h
  | fuel + 1, i, m, t, h, hc => by
    unfold forEachFrom at h
    unfold convertFromMem
    split at h
    · next hi => rw [if_pos hi]; cases h; rfl
    · next hi =>
      rw [if_neg hi]
      obtain ⟨c, hc1, h⟩ := Outcome.bind_eq_ok.1 h
      obtain ⟨a, ha, h⟩ := Outcome.bind_eq_ok.1 h
      obtain ⟨j, hj, h⟩ := Outcome.bind_eq_ok.1 h
      have h1 := forEachFrom_longer src dst s fuel j a t h
      rcases appendCP_cases dst m.units c with ⟨_, h2⟩ | ⟨hr, h2⟩ <;> rw [h2] at ha <;> cases ha
      rw [hc1]
      dsimp only [MemOp.eval]
      rw [MemOp.andThen_ok (appendMem_fits H dst c m hr (Nat.le_trans h1 hc)), hj]
      exact convertFromMem_fits H src dst s fuel j _ t h hc

/-- In limited memory the loop ends for lack of memory, or as it would in unlimited memory. -/
theorem convertFromMem_refines (H : Heap) (src dst : Enc) (s : Str src) : ∀ (fuel i : Nat)
    (m : MStr (BitVec dst.width)),
    (convertFromMem H src dst s fuel i m).1 = .noMemory ∨
    ((convertFromMem H src dst s fuel i m).1 =
        .as (forEachFrom src s (appendCP dst) fuel i m.units >>= fun _ => .ok ()) ∧
      ∀ t, forEachFrom src s (appendCP dst) fuel i m.units = .ok t →
        (convertFromMem H src dst s fuel i m).2.units = t)
  | 0, _, m => .inr ⟨rfl, fun t h => by cases h⟩
  | fuel + 1, i, m => by
    unfold forEachFrom convertFromMem
    by_cases hi : i = s.length
    · rw [if_pos hi, if_pos hi]
      exact .inr ⟨rfl, fun t h => by cases h; rfl⟩
    rw [if_neg hi, if_neg hi]
    rcases deref src s i with c | _ | _ | _ | _
    rotate_left
    · exact .inr ⟨rfl, fun t h => by cases h⟩
    · exact .inr ⟨rfl, fun t h => by cases h⟩
    · exact .inr ⟨rfl, fun t h => by cases h⟩
    · exact .inr ⟨rfl, fun t h => by cases h⟩
    rw [Outcome.ok_bind]
    dsimp only [MemOp.eval]
    rcases appendCP_cases dst m.units c with ⟨hr, h2⟩ | ⟨hr, h2⟩ <;> rw [h2]
    · rw [MemOp.andThen_stop (appendMem_throws H dst c m hr) (by simp)]
      exact .inr ⟨rfl, fun t h => by cases h⟩
    rw [Outcome.ok_bind]
    rcases appendMem_cases H dst c m hr with ⟨cap, k, h3⟩ | h3
    · rw [MemOp.andThen_ok h3]
      rcases advance src s i with j | _ | _ | _ | _
      · exact convertFromMem_refines H src dst s fuel j ⟨m.units ++ insU dst c, cap, k⟩
      all_goals exact .inr ⟨rfl, fun t h => by cases h⟩
    · left
      rw [MemOp.andThen_stop (Prod.ext h3 rfl) (by simp)]

end Cmp
