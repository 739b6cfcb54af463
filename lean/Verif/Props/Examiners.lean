import Mathlib.Tactic.SplitIfs
import Verif.Proofs.UnicodeText

/-
Property C94: the examiners of code units tell where the characters of a text begin.
-/

namespace Cmp

/-- What is said about a code unit. -/
structure UnitKind where
  alone : Bool
  leads : Bool
  trails : Bool
  deriving DecidableEq

/-- What is to be said about the unit at `k` of a sequence of `n` units: whether it is a sequence of
its own, begins a longer one, or continues one. -/
def Spec.kindAt (n k : Nat) : UnitKind := ⟨k = 0 ∧ n = 1, k = 0 ∧ n ≠ 1, k ≠ 0⟩

/-- What the library says about a unit of UTF-8. -/
def examine8 (u : Char8) : UnitKind := ⟨isStandaloneByte u, isLeadingByte u, isTrailingByte u⟩

/-- What the library says about a unit of UTF-16. -/
def examine16 (u : Char16) : UnitKind := ⟨!isSurrogate u, isLeadingSurrogate u, isTrailingSurrogate u⟩

theorem examine8_eq (u : Char8) : examine8 u =
    ⟨u.toNat < 0x80, 0xC0 ≤ u.toNat ∧ u.toNat < 0xF8, 0x80 ≤ u.toNat ∧ u.toNat < 0xC0⟩ := by
  revert u
  decide +kernel

theorem examine16_eq (u : Char16) : examine16 u =
    ⟨¬ (0xD800 ≤ u.toNat ∧ u.toNat ≤ 0xDFFF), 0xD800 ≤ u.toNat ∧ u.toNat ≤ 0xDBFF,
      0xDC00 ≤ u.toNat ∧ u.toNat ≤ 0xDFFF⟩ := by
  simp only [examine16, isSurrogate, isLeadingSurrogate, isTrailingSurrogate, BitVec.le_def]
  simp [← decide_not]

theorem kinds_utf8 {c : Nat} (hc : Spec.IsScalar c) {us : List Char8} (h : units us = Spec.utf8 c) :
    us.map examine8 = (List.range (Spec.utf8 c).length).map (Spec.kindAt (Spec.utf8 c).length) := by
  have hu : us.map examine8 = (units us).map fun n =>
      (⟨n < 0x80, 0xC0 ≤ n ∧ n < 0xF8, 0x80 ≤ n ∧ n < 0xC0⟩ : UnitKind) := by
    simp only [units, List.map_map]
    apply List.map_congr_left
    intro u _
    exact examine8_eq u
  rw [hu, h]
  unfold Spec.IsScalar at hc
  unfold Spec.utf8
  split_ifs <;>
    simp only [List.map_cons, List.map_nil, List.length_cons, List.length_nil, List.range_succ,
      List.range_zero, List.nil_append, List.cons_append, Spec.kindAt] <;>
    simp <;> omega

theorem kinds_utf16 {c : Nat} (hc : Spec.IsScalar c) {us : List Char16} (h : units us = Spec.utf16 c) :
    us.map examine16 = (List.range (Spec.utf16 c).length).map (Spec.kindAt (Spec.utf16 c).length) := by
  have hu : us.map examine16 = (units us).map fun n =>
      (⟨¬ (0xD800 ≤ n ∧ n ≤ 0xDFFF), 0xD800 ≤ n ∧ n ≤ 0xDBFF, 0xDC00 ≤ n ∧ n ≤ 0xDFFF⟩ : UnitKind) := by
    simp only [units, List.map_map]
    apply List.map_congr_left
    intro u _
    exact examine16_eq u
  rw [hu, h]
  unfold Spec.IsScalar at hc
  unfold Spec.utf16
  split_ifs <;>
    simp only [List.map_cons, List.map_nil, List.length_cons, List.length_nil, List.range_succ,
      List.range_zero, List.nil_append, List.cons_append, Spec.kindAt] <;>
    simp <;> omega

/-- Putting characters together. -/
theorem kinds_text {w : Nat} {enc : Nat → List Nat} {examine : BitVec w → UnitKind}
    (h1 : ∀ c us, Spec.IsScalar c → units us = enc c →
      us.map examine = (List.range (enc c).length).map (Spec.kindAt (enc c).length))
    {s : List (BitVec w)} {cs : List Nat} (ht : Spec.IsText cs) (h : units s = cs.flatMap enc) :
    s.map examine =
      cs.flatMap fun c => (List.range (enc c).length).map (Spec.kindAt (enc c).length) := by
  induction cs generalizing s with
  | nil =>
    have : s = [] := by simpa [units] using h
    rw [this]
    rfl
  | cons c cs ih =>
    rw [List.flatMap_cons] at h
    obtain ⟨a, b, rfl, ha, hb⟩ := List.map_eq_append_iff.mp h
    rw [List.map_append, List.flatMap_cons, h1 c a (ht c (by simp)) ha,
      ih (fun x hx => ht x (by simp [hx])) hb]

/-- C94 for UTF-8: in every text, `is_standalone_byte` says which units are characters,
`is_leading_byte` where the longer characters begin, and `is_trailing_byte` which units continue
one. -/
theorem C94_utf8 (s : Str .char8) (cs : List Nat) (h : Spec.Denotes .utf8 (units s) cs) :
    s.map (fun u => (⟨isStandaloneByte u, isLeadingByte u, isTrailingByte u⟩ : UnitKind)) =
      cs.flatMap fun c =>
        (List.range (Spec.utf8 c).length).map (Spec.kindAt (Spec.utf8 c).length) :=
  kinds_text (enc := Spec.utf8) (examine := examine8) (fun _ _ hc hu => kinds_utf8 hc hu) h.1 h.2

/-- C94 for UTF-16: the same of what are no surrogates, leading surrogates and trailing
surrogates. -/
theorem C94_utf16 (s : Str .char16) (cs : List Nat) (h : Spec.Denotes .utf16 (units s) cs) :
    s.map (fun u => (⟨!isSurrogate u, isLeadingSurrogate u, isTrailingSurrogate u⟩ : UnitKind)) =
      cs.flatMap fun c =>
        (List.range (Spec.utf16 c).length).map (Spec.kindAt (Spec.utf16 c).length) :=
  kinds_text (enc := Spec.utf16) (examine := examine16) (fun _ _ hc hu => kinds_utf16 hc hu) h.1 h.2

/-- One unit of every character is none that continues. -/
theorem count_kinds (enc : Nat → List Nat) (hne : ∀ c, enc c ≠ []) (cs : List Nat) :
    (cs.flatMap fun c => (List.range (enc c).length).map (Spec.kindAt (enc c).length)).countP
      (fun k => !k.trails) = cs.length := by
  induction cs with
  | nil => rfl
  | cons c cs ih =>
    rw [List.flatMap_cons, List.countP_append, ih, List.length_cons]
    have hpos := List.length_pos_iff.mpr (hne c)
    obtain ⟨n, hn⟩ : ∃ n, (enc c).length = n + 1 := ⟨_, (Nat.succ_pred_eq_of_pos hpos).symm⟩
    have : ((List.range (n + 1)).map (Spec.kindAt (n + 1))).countP (fun k => !k.trails) = 1 := by
      rw [List.range_succ_eq_map]
      simp [Spec.kindAt, List.countP_eq_zero]
    rw [hn, this]
    omega

/-- C94, counting: the characters of a text are as many as its units that do not trail. -/
theorem C94_count (s : Str .char8) (s' : Str .char16) (cs : List Nat)
    (h : Spec.Denotes .utf8 (units s) cs) (h' : Spec.Denotes .utf16 (units s') cs) :
    s.countP (fun u => !isTrailingByte u) = cs.length ∧
      s'.countP (fun u => !isTrailingSurrogate u) = cs.length := by
  constructor
  · have := congrArg (List.countP fun k => !k.trails) (C94_utf8 s cs h)
    rw [count_kinds Spec.utf8 (fun c => by unfold Spec.utf8; split_ifs <;> simp),
      List.countP_map] at this
    exact this
  · have := congrArg (List.countP fun k => !k.trails) (C94_utf16 s' cs h')
    rw [count_kinds Spec.utf16 (fun c => by unfold Spec.utf16; split_ifs <;> simp),
      List.countP_map] at this
    exact this

/-- C94: `fits_in_7_bits` says which code points are one unit of UTF-8. -/
theorem C94_fits (c : Char32) : fitsIn7Bits c = true ↔ (Spec.utf8 c.toNat).length = 1 := by
  have : fitsIn7Bits c = decide (c.toNat < 0x80) := by
    simp only [fitsIn7Bits, BitVec.le_def]
    apply decide_eq_decide.mpr
    show c.toNat ≤ 127 ↔ _
    omega
  rw [this, decide_eq_true_eq]
  unfold Spec.utf8
  split_ifs <;> simp_all

/-- The text "a€😀". -/
example : Spec.Denotes .utf8 (units ([0x61, 0xE2, 0x82, 0xAC, 0xF0, 0x9F, 0x98, 0x80] : Str .char8))
      [0x61, 0x20AC, 0x1F600] ∧
    Spec.Denotes .utf16 (units ([0x61, 0x20AC, 0xD83D, 0xDE00] : Str .char16)) [0x61, 0x20AC, 0x1F600] := by
  refine ⟨⟨?_, rfl⟩, ⟨?_, rfl⟩⟩ <;> · unfold Spec.IsText; decide

end Cmp
