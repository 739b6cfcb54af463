import Verif.Model.Key

/-
Property C67: key codes of the three platforms are translated to the keys they denote, everything
else to `unknown`, and keys have distinct names.
-/

namespace Cmp

namespace Spec

/-- The key with a given ASCII character on it: letters regardless of case, digits, space. -/
def keyOfChar (c : Nat) : Key :=
  if h : 65 ≤ c ∧ c < 91 then .letter ⟨c - 65, by omega⟩
  else if h : 97 ≤ c ∧ c < 123 then .letter ⟨c - 97, by omega⟩
  else if h : 48 ≤ c ∧ c < 58 then .number ⟨c - 48, by omega⟩
  else if c = 32 then .spaceBar
  else .unknown

/-- Key symbols of X: Latin-1 characters stand for themselves, `XK_F1` is `0xffbe` and `XK_KP_0` is
`0xffb0`. -/
def gtkKey (c : Nat) : Key :=
  if h : 0xffbe ≤ c ∧ c < 0xffbe + 24 then .f ⟨c - 0xffbe, by omega⟩
  else if h : 0xffb0 ≤ c ∧ c < 0xffb0 + 10 then .numpad ⟨c - 0xffb0, by omega⟩
  else keyOfChar c

/-- Virtual key codes of Windows: upper case letters and digits are their ASCII code, `VK_F1` is
`0x70` and `VK_NUMPAD0` is `0x60`. -/
def windowsKey (c : Nat) : Key :=
  if h : 0x70 ≤ c ∧ c < 0x70 + 24 then .f ⟨c - 0x70, by omega⟩
  else if h : 0x60 ≤ c ∧ c < 0x60 + 10 then .numpad ⟨c - 0x60, by omega⟩
  else if c < 91 then keyOfChar c
  else .unknown

/-- What is printed on the keys with the codes `0x00` to `0x31` of an Apple keyboard (`kVK_ANSI_*` in
`HIToolbox/Events.h`); `?` where it is no single character. -/
def macosCaps : List Char :=
  "ASDFHGZXCV?BQWERYT123465=97-80]OU[IP?LJ'K;\\,/NM.? ".toList

/-- The codes of the function keys `F1` to `F20` of an Apple keyboard. -/
def macosFunctionKeys : List Nat :=
  [0x7a, 0x78, 0x63, 0x76, 0x60, 0x61, 0x62, 0x64, 0x65, 0x6d, 0x67, 0x6f, 0x69, 0x6b, 0x71, 0x6a,
    0x40, 0x4f, 0x50, 0x5a]

/-- The codes of the keys `0` to `9` of the keypad of an Apple keyboard. -/
def macosKeypad : List Nat := [0x52, 0x53, 0x54, 0x55, 0x56, 0x57, 0x58, 0x59, 0x5b, 0x5c]

def macosKey (c : Nat) : Key :=
  if h : macosFunctionKeys.idxOf c < 24 ∧ c ∈ macosFunctionKeys then
    .f ⟨macosFunctionKeys.idxOf c, h.1⟩
  else if h : macosKeypad.idxOf c < 10 then .numpad ⟨macosKeypad.idxOf c, h⟩
  else keyOfChar ((macosCaps[c]?.getD '?').toNat)

/-- The name of a key. -/
def keyName : Key → String
  | .f n => "F" ++ toString (n.val + 1)
  | .number d => toString d.val
  | .numpad d => "Numpad " ++ toString d.val
  | .letter l => String.singleton (Char.ofNat (65 + l))
  | .spaceBar => "Space Bar"
  | .unknown => "Unknown"

end Spec

namespace Key

theorem lookup_none {cases : List (Nat × Key)} {c : Nat} (h : ∀ p ∈ cases, p.1 ≠ c) :
    cases.lookup c = none := by
  induction cases with
  | nil => rfl
  | cons p t ih =>
    rw [List.lookup_cons]
    have hp := h p (by simp)
    have hne : (c == p.1) = false := by simp [Ne.symm hp]
    rw [hne]
    exact ih fun q hq => h q (by simp [hq])

/-- A table and a function agree everywhere if they agree on a range and the table has nothing and
the function says `unknown` beyond it. -/
theorem select_eq {cases : List (Nat × Key)} {f : Nat → Key} (lo n : Nat)
    (hin : ∀ k < n, select cases (lo + k) = f (lo + k)) {c : Nat} (h : lo ≤ c) (h' : c < lo + n) :
    select cases c = f c := by
  have := hin (c - lo) (by omega)
  rwa [Nat.add_sub_cancel' h] at this

theorem select_unknown {cases : List (Nat × Key)} {P : Nat → Bool}
    (h : ∀ p ∈ cases, P p.1 = true) {c : Nat} (hc : P c = false) : select cases c = .unknown := by
  unfold select
  rw [lookup_none]
  · rfl
  · intro p hp e
    rw [← e, h p hp] at hc
    exact absurd hc (by simp)

end Key

open Key

/-- C67, GTK: all 2^32 codes. -/
theorem C67_gtk (code : BitVec 32) : translateGtk code = Spec.gtkKey code.toNat := by
  unfold translateGtk
  generalize code.toNat = c
  by_cases h1 : c < 128
  · exact select_eq 0 128 (by decide +kernel) (Nat.zero_le _) (by omega)
  · by_cases h2 : 0xffb0 ≤ c ∧ c < 0xffb0 + 40
    · exact select_eq 0xffb0 40 (by decide +kernel) h2.1 h2.2
    · rw [select_unknown (P := fun c => decide (c < 128 ∨ (0xffb0 ≤ c ∧ c < 0xffb0 + 40)))
        (by decide +kernel) (by simp only [decide_eq_false_iff_not]; omega)]
      unfold Spec.gtkKey Spec.keyOfChar
      simp only [show ¬(0xffbe ≤ c ∧ c < 0xffbe + 24) by omega,
        show ¬(0xffb0 ≤ c ∧ c < 0xffb0 + 10) by omega, show ¬(65 ≤ c ∧ c < 91) by omega,
        show ¬(97 ≤ c ∧ c < 123) by omega, show ¬(48 ≤ c ∧ c < 58) by omega,
        show ¬(c = 32) by omega, dite_false, if_false]

/-- C67, Windows: all 2^64 codes. -/
theorem C67_windows (code : BitVec 64) : translateWindows code = Spec.windowsKey code.toNat := by
  unfold translateWindows
  generalize code.toNat = c
  by_cases h1 : c < 256
  · exact select_eq 0 256 (by decide +kernel) (Nat.zero_le _) (by omega)
  · rw [select_unknown (P := fun c => decide (c < 256)) (by decide +kernel) (by simp; omega)]
    unfold Spec.windowsKey
    simp only [show ¬(0x70 ≤ c ∧ c < 0x70 + 24) by omega,
      show ¬(0x60 ≤ c ∧ c < 0x60 + 10) by omega, show ¬(c < 91) by omega, dite_false, if_false]

/-- C67, macOS: all 2^16 codes. -/
theorem C67_macos (code : BitVec 16) : translateMacos code = Spec.macosKey code.toNat := by
  unfold translateMacos
  generalize code.toNat = c
  by_cases h1 : c < 128
  · exact select_eq 0 128 (by decide +kernel) (Nat.zero_le _) (by omega)
  · rw [select_unknown (P := fun c => decide (c < 128)) (by decide +kernel) (by simp; omega)]
    have e1 : c ∉ Spec.macosFunctionKeys := by
      intro hm
      have : ∀ k ∈ Spec.macosFunctionKeys, k < 128 := by decide +kernel
      exact h1 (this c hm)
    have e2 : c ∉ Spec.macosKeypad := by
      intro hm
      have : ∀ k ∈ Spec.macosKeypad, k < 128 := by decide +kernel
      exact h1 (this c hm)
    have e3 : Spec.macosCaps[c]? = none := by
      rw [List.getElem?_eq_none]
      have : Spec.macosCaps.length = 50 := by decide +kernel
      omega
    unfold Spec.macosKey
    rw [dif_neg (fun h => e1 h.2), dif_neg (fun h => e2 (List.idxOf_lt_length_iff.mp
      (by rw [show Spec.macosKeypad.length = 10 from rfl]; exact h))), e3]
    decide +kernel

/-- C67: letters are translated regardless of case. -/
theorem C67_gtk_case (l : Fin 26) :
    translateGtk (BitVec.ofNat 32 (65 + l)) = .letter l ∧
      translateGtk (BitVec.ofNat 32 (97 + l)) = .letter l := by
  revert l
  decide +kernel

/-- C67: every key of a platform can be reported.  Apple keyboards stop at `F20`. -/
theorem C67_reachable (k : Key) :
    (k ≠ .unknown → (∃ code, translateGtk code = k) ∧ ∃ code, translateWindows code = k) ∧
      (k ≠ .unknown → (∀ n, k = .f n → n < 20) → ∃ code, translateMacos code = k) := by
  refine ⟨fun hk => ⟨?_, ?_⟩, fun hk hf => ?_⟩
  · cases k with
    | f n => exact ⟨BitVec.ofNat 32 (0xffbe + n), by revert n; decide +kernel⟩
    | number n => exact ⟨BitVec.ofNat 32 (48 + n), by revert n; decide +kernel⟩
    | numpad n => exact ⟨BitVec.ofNat 32 (0xffb0 + n), by revert n; decide +kernel⟩
    | letter n => exact ⟨BitVec.ofNat 32 (65 + n), by revert n; decide +kernel⟩
    | spaceBar => exact ⟨32, by decide +kernel⟩
    | unknown => exact absurd rfl hk
  · cases k with
    | f n => exact ⟨BitVec.ofNat 64 (0x70 + n), by revert n; decide +kernel⟩
    | number n => exact ⟨BitVec.ofNat 64 (48 + n), by revert n; decide +kernel⟩
    | numpad n => exact ⟨BitVec.ofNat 64 (0x60 + n), by revert n; decide +kernel⟩
    | letter n => exact ⟨BitVec.ofNat 64 (65 + n), by revert n; decide +kernel⟩
    | spaceBar => exact ⟨32, by decide +kernel⟩
    | unknown => exact absurd rfl hk
  · have key : ∀ (c : Nat), c < 128 → select macosCases c = k → ∃ code, translateMacos code = k := by
      intro c hc h
      refine ⟨BitVec.ofNat 16 c, ?_⟩
      unfold translateMacos
      rw [BitVec.toNat_ofNat, Nat.mod_eq_of_lt (by omega)]
      exact h
    cases k with
    | f n =>
      have hn : n.val < 20 := by
        have := hf n rfl
        omega
      have : ∀ n : Fin 24, n.val < 20 → Spec.macosFunctionKeys.getD n 0 < 128 ∧
          select macosCases (Spec.macosFunctionKeys.getD n 0) = .f n := by decide +kernel
      exact key _ (this n hn).1 (this n hn).2
    | number n =>
      have : ∀ n : Fin 10, Spec.macosCaps.idxOf (Char.ofNat (48 + n)) < 128 ∧
          select macosCases (Spec.macosCaps.idxOf (Char.ofNat (48 + n))) = .number n := by
        decide +kernel
      exact key _ (this n).1 (this n).2
    | numpad n =>
      have : ∀ n : Fin 10, Spec.macosKeypad.getD n 0 < 128 ∧
          select macosCases (Spec.macosKeypad.getD n 0) = .numpad n := by decide +kernel
      exact key _ (this n).1 (this n).2
    | letter n =>
      have : ∀ n : Fin 26, Spec.macosCaps.idxOf (Char.ofNat (65 + n)) < 128 ∧
          select macosCases (Spec.macosCaps.idxOf (Char.ofNat (65 + n))) = .letter n := by
        decide +kernel
      exact key _ (this n).1 (this n).2
    | spaceBar => exact key 49 (by decide) (by decide +kernel)
    | unknown => exact absurd rfl hk

/-- C67: what the keys are called. -/
theorem C67_name (k : Key) : k.name = Spec.keyName k := by
  cases k with
  | f n => revert n; decide +kernel
  | number n => revert n; decide +kernel
  | numpad n => revert n; decide +kernel
  | letter n => revert n; decide +kernel
  | spaceBar => rfl
  | unknown => rfl

namespace Key

def all : List Key :=
  (List.finRange 24).map .f ++ (List.finRange 10).map .number ++ (List.finRange 10).map .numpad ++
    (List.finRange 26).map .letter ++ [.spaceBar, .unknown]

theorem mem_all (k : Key) : k ∈ all := by
  cases k <;> simp [all]

end Key

/-- C67: distinct keys have distinct names. -/
theorem C67_distinct (k k' : Key) (h : k.name = k'.name) : k = k' := by
  have hall : ∀ a ∈ Key.all, ∀ b ∈ Key.all, a.name = b.name → a = b := by decide +kernel
  exact hall k (Key.mem_all k) k' (Key.mem_all k') h

/-- The `q` of the three platforms, and a code that is no key. -/
example : translateGtk 0x71 = .letter 16 ∧ translateWindows 0x51 = .letter 16 ∧
    translateMacos 12 = .letter 16 ∧ translateWindows 0x1000000000051 = .unknown := by
  decide +kernel

end Cmp
