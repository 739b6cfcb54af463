import Verif.Proofs.Memory
import Verif.Proofs.UnicodeText

/-
Properties C122, C123 and C124: strings when memory runs out.
-/

namespace Cmp

/-! ### C122 -/

/-- A string with room for one more byte, to which U+00E9 is appended when no more memory can be had,
keeps the first byte of the character. -/
theorem C122_violated :
    ¬ ∀ (H : Heap) (e : Enc) (c : Char32) (i : Nat) (m : MStr (BitVec e.width)),
      m.units.length ≤ m.capacity →
      (insertCodePointMem H e c i m).1 ≠ .as (.ok ()) → (insertCodePointMem H e c i m).2.units = m.units := by
  intro h
  have h1 := h ⟨fun _ => false, fun n => 2 * n, 2 ^ 62⟩ .char8 0xE9#32 14
    ⟨List.replicate 14 0x61, 15, 0⟩ (by decide) (by decide +kernel)
  exact absurd h1 (by decide +kernel)

/-- Insertion is all or nothing if the character has one unit, or the string has room for four more. -/
theorem C122_partial (H : Heap) (e : Enc) (c : Char32) (i : Nat) (m : MStr (BitVec e.width))
    (h : e = .narrow ∨ e.form = .utf32 ∨ c.toNat < 128 ∨ m.units.length + 4 ≤ m.capacity)
    (hf : (insertCodePointMem H e c i m).1 ≠ .as (.ok ())) :
    (insertCodePointMem H e c i m).2.units = m.units := by
  cases hr : rejected e c with
  | true => rw [insertCodePointMem_rejected _ _ _ _ _ hr]
  | false =>
    rw [insertCodePointMem_eq _ _ _ _ hr] at hf ⊢
    by_cases hi : i ≤ m.units.length
    · by_cases hl : (insU e c).length = 1
      · obtain ⟨k, h1, h2, h3⟩ := insertUnitsMem_cases H (insU e c) i m hi
        by_cases hk : k = (insU e c).length
        · rw [if_pos hk] at h3; exact absurd h3 hf
        · rw [h2, show k = 0 by omega]; simp
      · by_cases hc : m.units.length + 4 ≤ m.capacity
        · exfalso
          apply hf
          rw [insertUnitsMem_fits _ _ _ _ hi]
          have : (insU e c).length ≤ 4 := by
            cases e <;> simp only [insU, insU.ins16, Spec.utf8] <;> repeat' split
            all_goals simp
          omega
        · exfalso
          apply hl
          have hb : c.toNat < 128 → (insU.ins16 c).length = 1 := by
            intro h
            unfold insU.ins16
            rw [if_pos]
            · rfl
            · rw [isSurrogate_eq]
              simp only [maximumBmpCodePoint, BitVec.le_def, Bool.and_eq_true, Bool.not_eq_true',
                decide_eq_false_iff_not, decide_eq_true_eq, BitVec.toNat_setWidth, BitVec.toNat_ofNat]
              omega
          cases e with
          | narrow => rfl
          | char32 => rfl
          | wide4 => rfl
          | char8 =>
            have : c.toNat < 128 := by simpa [Enc.form, hc] using h
            simp [insU, Spec.utf8, this]
          | char16 => exact hb (by simpa [Enc.form, hc] using h)
          | wide2 => exact hb (by simpa [Enc.form, hc] using h)
    · rw [insertUnitsMem_range _ _ (insU_ne_nil e c) _ _ (by omega)]

/-- An insertion that would throw with unlimited memory throws the same and changes nothing.  Otherwise
`us`, the units that would be inserted, are inserted one after the other until memory runs out; and of
each number of units less than all there is a case in which just they remain. -/
theorem C122_exact (e : Enc) (c : Char32) (i : Nat) (s : Str e) :
    (∃ x, insertCodePoint e c i s = (.throw x, s) ∧
      ∀ H m, m.units = s → insertCodePointMem H e c i m = (.as (.throw x), m)) ∨
    ∃ us, insertCodePoint e c i s = (.ok (), s.take i ++ us ++ s.drop i) ∧
      (∀ H m, m.units = s → ∃ k, k ≤ us.length ∧
        (insertCodePointMem H e c i m).2.units = s.take i ++ us.take k ++ s.drop i ∧
        (insertCodePointMem H e c i m).1 = if k = us.length then .as (.ok ()) else .noMemory) ∧
      (∀ H m, m.units = s → s.length + us.length ≤ m.capacity →
        insertCodePointMem H e c i m =
          (.as (.ok ()), { m with units := s.take i ++ us ++ s.drop i })) ∧
      (∀ k, k < us.length → ∃ H m, m.units = s ∧ m.units.length ≤ m.capacity ∧
        (insertCodePointMem H e c i m).1 = .noMemory ∧
        (insertCodePointMem H e c i m).2.units = s.take i ++ us.take k ++ s.drop i) := by
  cases hr : rejected e c with
  | true =>
    exact .inl ⟨_, insertCodePoint_rejected e c i s hr,
      fun H m _ => insertCodePointMem_rejected H e c i m hr⟩
  | false =>
    rw [insertCodePoint_eq _ _ _ hr]
    by_cases hi : i ≤ s.length
    · right
      refine ⟨insU e c, insertUnits_ok _ _ _ hi, ?_, ?_, ?_⟩
      · intro H m hm
        rw [insertCodePointMem_eq _ _ _ _ hr]
        subst hm
        exact insertUnitsMem_cases H _ _ _ hi
      · intro H m hm hc
        rw [insertCodePointMem_eq _ _ _ _ hr]
        subst hm
        exact insertUnitsMem_fits H _ _ _ hi hc
      · intro k hk
        refine ⟨⟨fun _ => false, id, 0⟩, ⟨s, s.length + k, 0⟩, rfl, Nat.le_add_right _ _, ?_⟩
        rw [insertCodePointMem_eq _ _ _ _ hr]
        exact insertUnitsMem_stops _ (fun _ => rfl) _ _ _ _ hi hk rfl
    · left
      obtain ⟨u, us, h⟩ := List.exists_cons_of_ne_nil (insU_ne_nil e c)
      refine ⟨.outOfRange, ?_, ?_⟩
      · rw [h, insertUnits_fail u us i s (by omega)]
      · intro H m hm
        rw [insertCodePointMem_eq _ _ _ _ hr,
          insertUnitsMem_range _ _ (insU_ne_nil e c) _ _ (by rw [hm]; omega)]

/-- U+1F600 needs two units of UTF-16; with room for one the leading surrogate remains. -/
example : insertCodePointMem ⟨fun _ => false, id, 100⟩ .char16 0x1F600#32 1 ⟨[0x41#16, 0x42#16], 3, 0⟩
    = (.noMemory, ⟨[0x41#16, 0xD83D#16, 0x42#16], 3, 1⟩) := by
  decide +kernel

/-! ### C123 -/

/-- Sixteen characters of UTF-32 whose UTF-8 has three bytes each: the string asks a second time. -/
theorem C123_violated :
    ¬ ∀ (H : Heap) (small : Nat) (src dst : Enc) (s : Str src), (∀ n, n ≤ H.grow n) →
      (convertStringMem H small src dst s).2.asked ≤ 1 := by
  intro h
  have h1 := h ⟨fun _ => true, fun n => 2 * n, 2 ^ 62⟩ 15 .char32 .char8 (List.replicate 16 0x20AC)
    (fun n => by show n ≤ 2 * n; omega)
  exact absurd h1 (by decide +kernel)

theorem convertStringMem_reserved {H : Heap} {small : Nat} {src dst : Enc} {s : Str src}
    {m : MStr (BitVec dst.width)} (h : MStr.room H s.length ⟨[], small, 0⟩ = (.as (.ok ()), m)) :
    convertStringMem H small src dst s = convertFromMem H src dst s (s.length + 1) 0 m :=
  MemOp.andThen_ok h

/-- What `reserve` does. -/
theorem reserve_cases {α : Type} (H : Heap) (small n : Nat) :
    (n ≤ small ∧ MStr.room H n (⟨[], small, 0⟩ : MStr α) = (.as (.ok ()), ⟨[], small, 0⟩)) ∨
    (small < n ∧ n ≤ H.maxSize ∧ H.grants 0 = true ∧
      MStr.room H n (⟨[], small, 0⟩ : MStr α) = (.as (.ok ()), ⟨[], H.grow n, 1⟩)) ∨
    (small < n ∧ ∃ k, k ≤ 1 ∧ MStr.room H n (⟨[], small, 0⟩ : MStr α) = (.noMemory, ⟨[], small, k⟩)) := by
  unfold MStr.room
  by_cases h1 : n ≤ small
  · rw [if_pos h1]; exact .inl ⟨h1, rfl⟩
  rw [if_neg h1]
  by_cases h2 : H.maxSize < n
  · rw [if_pos h2]; exact .inr (.inr ⟨by omega, 0, by omega, rfl⟩)
  rw [if_neg h2]
  by_cases h3 : H.grants 0
  · rw [if_pos h3]; exact .inr (.inl ⟨by omega, by omega, h3, rfl⟩)
  · rw [if_neg h3]; exact .inr (.inr ⟨by omega, 1, by omega, rfl⟩)

/-- In any memory a conversion ends for lack of memory, or as it does in unlimited memory and with the
same units. -/
theorem C123_refines (H : Heap) (small : Nat) (src dst : Enc) (s : Str src) :
    (convertStringMem H small src dst s).1 = .noMemory ∨
    ((convertStringMem H small src dst s).1 = .as (convertString src dst s >>= fun _ => .ok ()) ∧
      ∀ t, convertString src dst s = .ok t → (convertStringMem H small src dst s).2.units = t) := by
  rcases reserve_cases (α := BitVec dst.width) H small s.length with
    ⟨_, h⟩ | ⟨_, _, _, h⟩ | ⟨_, k, _, h⟩
  · rw [convertStringMem_reserved h]; exact convertFromMem_refines H src dst s _ _ _
  · rw [convertStringMem_reserved h]; exact convertFromMem_refines H src dst s _ _ _
  · left
    rw [convertStringMem, MemOp.andThen_stop h (by simp)]

/-- If the result has no more units than the source then the conversion asks for memory at most once,
and does not fail if that is granted. -/
theorem C123_partial (H : Heap) (hg : ∀ n, n ≤ H.grow n) (small : Nat) (src dst : Enc) (s : Str src)
    (t : Str dst) (h : convertString src dst s = .ok t) (hl : t.length ≤ s.length) :
    (convertStringMem H small src dst s).2.asked ≤ 1 ∧
    (s.length ≤ small ∨ H.grants 0 = true ∧ s.length ≤ H.maxSize →
      (convertStringMem H small src dst s).1 = .as (.ok ()) ∧
      (convertStringMem H small src dst s).2.units = t) := by
  have h' : forEachFrom src s (appendCP dst) (s.length + 1) 0 [] = .ok t := h
  rcases reserve_cases (α := BitVec dst.width) H small s.length with
    ⟨h1, h2⟩ | ⟨h1, _, _, h2⟩ | ⟨h1, k, hk, h2⟩
  · rw [convertStringMem_reserved h2, convertFromMem_fits H src dst s _ _ ⟨[], small, 0⟩ t h' (by
      show t.length ≤ small; omega)]
    exact ⟨Nat.zero_le _, fun _ => ⟨rfl, rfl⟩⟩
  · rw [convertStringMem_reserved h2, convertFromMem_fits H src dst s _ _ ⟨[], H.grow s.length, 1⟩ t h' (by
      have := hg s.length
      show t.length ≤ H.grow s.length; omega)]
    exact ⟨Nat.le_refl _, fun _ => ⟨rfl, rfl⟩⟩
  · rw [convertStringMem, MemOp.andThen_stop h2 (by simp)]
    refine ⟨hk, fun h3 => ?_⟩
    exfalso
    rcases h3 with h3 | ⟨h3, h4⟩
    · omega
    · unfold MStr.room at h2
      rw [if_neg (by show ¬ s.length ≤ small; omega), if_neg (by omega), if_pos h3] at h2
      simp at h2

theorem utf16_length_le (c : Nat) : (Spec.utf16 c).length ≤ (Spec.utf8 c).length := by
  unfold Spec.utf16 Spec.utf8
  repeat' split
  all_goals simp
  all_goals omega

theorem encode1_pos (f : Spec.Form) (c : Nat) : 1 ≤ (f.encode1 c).length := by
  cases f <;> simp only [Spec.Form.encode1, Spec.utf8, Spec.utf16, Spec.utf32]
  all_goals repeat' split
  all_goals simp

/-- So it is for all texts from UTF-8 to UTF-16 and to UTF-32, from UTF-16 to UTF-32, and between forms
of the same kind. -/
theorem C123_forms (H : Heap) (hg : ∀ n, n ≤ H.grow n) (small : Nat) (src dst : Enc) (s : Str src)
    (t : Str dst) (cs : List Nat) (hs : TextOf src s cs) (ht : TextOf dst t cs)
    (h : convertString src dst s = .ok t)
    (hf : src.form = dst.form ∨ src.form = .utf8 ∨ dst.form = .utf32) :
    (convertStringMem H small src dst s).2.asked ≤ 1 := by
  refine (C123_partial H hg small src dst s t h ?_).1
  have e1 : s.length = (src.form.encode cs).length := by
    rw [← hs.1.2]; simp [units]
  have e2 : t.length = (dst.form.encode cs).length := by
    rw [← ht.1.2]; simp [units]
  rw [e1, e2]
  have key : ∀ c, (dst.form.encode1 c).length ≤ (src.form.encode1 c).length := by
    intro c
    rcases hf with hf | hf | hf
    · rw [hf]; exact Nat.le_refl _
    · rw [hf]
      cases dst.form with
      | utf8 => exact Nat.le_refl _
      | utf16 => exact utf16_length_le c
      | utf32 => exact encode1_pos _ c
    · rw [hf]
      cases src.form with
      | utf8 => exact encode1_pos _ c
      | utf16 => exact encode1_pos _ c
      | utf32 => exact Nat.le_refl _
  clear e1 e2 ht hs
  induction cs with
  | nil => simp [Spec.Form.encode]
  | cons c cs ih =>
    have := key c
    simp only [Spec.Form.encode, List.flatMap_cons, List.length_append] at ih ⊢
    omega

/-- A conversion that succeeds asks only for what it reserves exactly if the result
fits in that. -/
theorem C123_exact (H : Heap) (small : Nat) (src dst : Enc) (s : Str src)
    (t : Str dst) (h : convertString src dst s = .ok t)
    (hok : (convertStringMem H small src dst s).1 = .as (.ok ())) :
    (convertStringMem H small src dst s).2.asked = (if s.length ≤ small then 0 else 1) ↔
      t.length ≤ if s.length ≤ small then small else H.grow s.length := by
  have key : ∀ m : MStr (BitVec dst.width), m.units = [] →
      (convertFromMem H src dst s (s.length + 1) 0 m).1 = .as (.ok ()) →
      ((convertFromMem H src dst s (s.length + 1) 0 m).2.asked = m.asked ↔ t.length ≤ m.capacity) := by
    intro m hu ho
    have h' : forEachFrom src s (appendCP dst) (s.length + 1) 0 m.units = .ok t := by rw [hu]; exact h
    constructor
    · intro ha
      have h1 := ((convertFromMem_thrifty H src dst s (s.length + 1) 0 m).2 ha).2 (by rw [hu]; simp)
      rcases convertFromMem_refines H src dst s (s.length + 1) 0 m with h2 | ⟨_, h2⟩
      · rw [h2] at ho; cases ho
      · rw [h2 t h'] at h1; exact h1
    · intro hc
      rw [convertFromMem_fits H src dst s _ _ m t h' hc]
  rcases reserve_cases (α := BitVec dst.width) H small s.length with
    ⟨h1, h2⟩ | ⟨h1, _, _, h2⟩ | ⟨h1, k, hk, h2⟩
  · rw [convertStringMem_reserved h2] at hok ⊢
    rw [if_pos h1, if_pos h1]
    exact key _ rfl hok
  · rw [convertStringMem_reserved h2] at hok ⊢
    rw [if_neg (by omega), if_neg (by omega)]
    exact key _ rfl hok
  · rw [convertStringMem, MemOp.andThen_stop h2 (by simp)] at hok
    cases hok

/-- Twenty characters of UTF-8 with two bytes each, and thirty of UTF-32 that are ASCII. -/
example : convertString .char8 .char16 ([0xC3#8, 0xA9#8] ++ [0xC3#8, 0xA9#8]) = .ok [0xE9#16, 0xE9#16]
    ∧ (convertStringMem ⟨fun _ => true, id, 100⟩ 7 .char8 .char16
        (List.replicate 20 [0xC3#8, 0xA9#8]).flatten).2.asked = 1
    ∧ (convertStringMem ⟨fun _ => true, id, 100⟩ 15 .char32 .char8 (List.replicate 30 0x41#32)).2.asked = 1
    ∧ (convertStringMem ⟨fun k => k < 1, id, 100⟩ 15 .char32 .char8 (List.replicate 16 0xE9#32)).1
        = .noMemory := by
  refine ⟨?_, ?_, ?_, ?_⟩ <;> decide +kernel

/-! ### C124 -/

/-- The setters of `bool_format` end the program when memory runs out. -/
theorem C124_violated :
    ¬ ∀ (H : Heap) (new : List Char8) (m : MStr Char8), m.units.length ≤ m.capacity →
      (setBoolString H new m).1 ≠ .as .terminate := by
  intro h
  exact h ⟨fun _ => false, id, 2 ^ 62⟩ (List.replicate 16 0x61) ⟨[0x31], 15, 0⟩ (by decide)
    (by decide +kernel)

/-- They do so exactly if the new string is longer than the capacity of the old one and there is no
memory for it; otherwise the string is the new one.  So do the getters if the string is longer than
strings are without memory of their own. -/
theorem C124_exact {α : Type} (H : Heap) (new : List α) (small : Nat) (m : MStr α) :
    ((setBoolString H new m).1 = .as .terminate ↔
      m.capacity < new.length ∧ (H.maxSize < new.length ∨ H.grants m.asked = false)) ∧
    ((setBoolString H new m).1 = .as .terminate → (setBoolString H new m).2.units = m.units) ∧
    ((setBoolString H new m).1 ≠ .as .terminate →
      (setBoolString H new m).1 = .as (.ok ()) ∧ (setBoolString H new m).2.units = new) ∧
    ((getBoolString H small m).1 = .as .terminate ↔
      small < m.units.length ∧ (H.maxSize < m.units.length ∨ H.grants m.asked = false)) ∧
    ((getBoolString H small m).1 ≠ .as .terminate →
      (getBoolString H small m).1 = .as (.ok ()) ∧ (getBoolString H small m).2.units = m.units) := by
  have key : ∀ (new : List α) (m : MStr α), ((setBoolString H new m).1 = .as .terminate ↔
      m.capacity < new.length ∧ (H.maxSize < new.length ∨ H.grants m.asked = false)) ∧
      ((setBoolString H new m).1 = .as .terminate → (setBoolString H new m).2.units = m.units) ∧
      ((setBoolString H new m).1 ≠ .as .terminate →
        (setBoolString H new m).1 = .as (.ok ()) ∧ (setBoolString H new m).2.units = new) := by
    intro new m
    unfold setBoolString MStr.room
    by_cases h1 : new.length ≤ m.capacity
    · simp [h1]; omega
    by_cases h2 : H.maxSize < new.length
    · simp [h1, h2]; omega
    cases h3 : H.grants m.asked
    · simp [h1, h2]; omega
    · simp [h1, h2]
  obtain ⟨k1, k2, k3⟩ := key new m
  obtain ⟨g1, g2, g3⟩ := key m.units ⟨[], small, m.asked⟩
  exact ⟨k1, k2, k3, g1, g3⟩

/-- Strings of up to fifteen bytes, which the common implementations keep in the object, are safe. -/
theorem C124_partial (H : Heap) (new : List Char8) (m : MStr Char8) (hc : 15 ≤ m.capacity)
    (hn : new.length ≤ 15) :
    (setBoolString H new m).1 = .as (.ok ()) ∧ (setBoolString H new m).2.units = new := by
  have h := C124_exact H new 15 m
  exact h.2.2.1 (fun h1 => by have := (h.1.1 h1).1; omega)

example : (setBoolString ⟨fun _ => false, id, 2 ^ 62⟩ [0x79#8, 0x65#8, 0x73#8] ⟨[0x31#8], 15, 0⟩).1
      = .as (.ok ())
    ∧ (getBoolString ⟨fun _ => false, id, 2 ^ 62⟩ 15 ⟨List.replicate 20 0x61#8, 30, 4⟩).1
      = .as .terminate := by
  refine ⟨?_, ?_⟩ <;> decide +kernel

end Cmp
