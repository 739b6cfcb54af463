import Mathlib.Data.Rat.Floor
import Mathlib.Algebra.Order.Floor.Ring
import Verif.Spec.Numeral

/-
Specification of binary floating-point formats and of positional numerals with a fraction part,
on rational numbers.  It does not refer to the model of the library.
-/

namespace Spec

/-- A binary floating-point format: significands have at most `prec` bits, the least exponent
is `emin`, and all values are below `2 ^ emax`. -/
structure BinFmt where
  prec : Nat
  emin : Int
  emax : Nat

/-- IEEE binary32 (`float`). -/
def binary32 : BinFmt := ⟨24, -149, 128⟩

/-- IEEE binary64 (`double`). -/
def binary64 : BinFmt := ⟨53, -1074, 1024⟩

/-- One of the two formats of `float` and `double`. -/
def BinFmt.Std (F : BinFmt) : Prop := F = binary32 ∨ F = binary64

/-- `q` is a value of the format. -/
def BinFmt.Has (F : BinFmt) (q : ℚ) : Prop :=
  ∃ m e : Int, m.natAbs < 2 ^ F.prec ∧ (F.emin ≤ e ∧ e + F.prec ≤ F.emax) ∧ q = m * (2 : ℚ) ^ e

/-- `rnd` rounds to the format as IEEE arithmetic does: values of the format stay what they are, and
in the range of normal numbers the relative error is at most half a unit in the last place. -/
def BinFmt.Rounding (F : BinFmt) (rnd : ℚ → ℚ) : Prop :=
  (∀ q, F.Has q → rnd q = q)
    ∧ ∀ q, (2 : ℚ) ^ (F.emin + F.prec - 1) ≤ q → q ≤ 2 ^ (F.emax - 1) →
      (1 - 1 / 2 ^ F.prec) * q ≤ rnd q ∧ rnd q ≤ (1 + 1 / 2 ^ F.prec) * q

/-- The value of a sequence of digits after the radix character. -/
def fraction (r : Nat) (ds : List Nat) : ℚ := (positional r ds : ℚ) / (r : ℚ) ^ ds.length

/-- `x`, not negative, truncated to `n` places of radix `r`. -/
def truncated (r n : Nat) (x : ℚ) : ℚ := (⌊x * (r : ℚ) ^ n⌋ : ℚ) / (r : ℚ) ^ n

/-- `x` truncated towards zero to `n` places of radix `r`. -/
def truncatedToZero (r n : Nat) (x : ℚ) : ℚ :=
  if x < 0 then -truncated r n (-x) else truncated r n x

/-- `cs` without the separator. -/
def ungroup (sep : Option Nat) (cs : List Nat) : List Nat :=
  match sep with
  | none => cs
  | some s => cs.filter (· ≠ s)

/-- `cs` is a numeral of digits `ds`, optionally followed by the radix character `rc` and the
digits `fs`, among which separators `fsep` may be strewn. -/
def RealNumeral (r : Nat) (sep : Option Nat) (plus : Bool) (rc : Nat) (fsep : Option Nat)
    (cs : List Nat) (neg : Bool) (ds fs : List Nat) : Prop :=
  ∃ head, Numeral r sep plus head neg ds ∧ (∀ d ∈ fs, d < r)
    ∧ ((cs = head ∧ fs = [])
      ∨ ∃ tail, cs = head ++ rc :: tail ∧ (ungroup fsep tail).map digitValue = fs.map some)

/-- The number such a numeral denotes. -/
def denoteReal (r : Nat) (neg : Bool) (ds fs : List Nat) : ℚ :=
  if neg then -((positional r ds : ℚ) + fraction r fs) else (positional r ds : ℚ) + fraction r fs

end Spec
