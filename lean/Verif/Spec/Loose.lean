import Verif.Spec.Unicode

/-
Specification: UTF-8 looked at byte by byte, without regard to which code points the bytes spell,
and what it means that a sequence is cut off.
-/

namespace Spec

/-- A lead byte and the continuation bytes it announces, with the value of their payload. -/
def Group (g : List Nat) (v : Nat) : Prop :=
  (∃ a, a < 128 ∧ g = [a] ∧ v = a)
  ∨ (∃ a b, a < 32 ∧ b < 64 ∧ g = [0xC0 + a, 0x80 + b] ∧ v = a * 64 + b)
  ∨ (∃ a b c, a < 16 ∧ b < 64 ∧ c < 64 ∧ g = [0xE0 + a, 0x80 + b, 0x80 + c]
      ∧ v = (a * 64 + b) * 64 + c)
  ∨ (∃ a b c d, a < 8 ∧ b < 64 ∧ c < 64 ∧ d < 64 ∧ g = [0xF0 + a, 0x80 + b, 0x80 + c, 0x80 + d]
      ∧ v = ((a * 64 + b) * 64 + c) * 64 + d)

/-- A row of such groups, none of which spells more than 10FFFF. -/
def Loose (us : List Nat) : Prop :=
  ∃ gs : List (List Nat × Nat), us = (gs.map (·.1)).flatten
    ∧ ∀ g ∈ gs, Group g.1 g.2 ∧ g.2 ≤ 0x10FFFF

/-- More bytes than the value needs. -/
def Overlong (g : List Nat) (v : Nat) : Prop :=
  (g.length = 2 ∧ v < 0x80) ∨ (g.length = 3 ∧ v < 0x800) ∨ (g.length = 4 ∧ v < 0x10000)

/-- How many bytes a lead byte announces. -/
def announced (b : Nat) : Nat :=
  if 0xC0 ≤ b ∧ b < 0xE0 then 2
  else if 0xE0 ≤ b ∧ b < 0xF0 then 3
  else if 0xF0 ≤ b ∧ b < 0xF8 then 4
  else 1

/-- The units end before the sequence they begin is complete. -/
def CutOff : Form → List Nat → Prop
  | .utf8, us => ∃ b bs, us = b :: bs ∧ us.length < announced b ∧ ∀ x ∈ bs, 0x80 ≤ x ∧ x < 0xC0
  | .utf16, us => ∃ u, us = [u] ∧ 0xD800 ≤ u ∧ u ≤ 0xDBFF
  | .utf32, _ => False

end Spec
