/-
Specification of positional numerals, on natural numbers and code point values.  It does not
refer to the model of the library.
-/

namespace Spec

/-- The digit value of an ASCII digit or letter, letters in either case counting from ten. -/
def digitValue (c : Nat) : Option Nat :=
  if 48 ≤ c ∧ c ≤ 57 then some (c - 48)
  else if 65 ≤ c ∧ c ≤ 90 then some (c - 55)
  else if 97 ≤ c ∧ c ≤ 122 then some (c - 87)
  else none

/-- `c` is a digit of radix `r`. -/
def IsDigit (r c : Nat) : Prop := ∃ d, digitValue c = some d ∧ d < r

/-- The digit characters `0`-`9`, `A`-`Z`. -/
def upperDigit (d : Nat) : Nat := if d < 10 then 48 + d else 55 + d

/-- The value of a digit sequence, most significant digit first. -/
def positional (r : Nat) (ds : List Nat) : Nat := ds.foldl (fun a d => a * r + d) 0

/-- The value of a digit sequence, least significant digit first, with the place values `w`. -/
def weighted (w : Nat → Int) : List Nat → Int
  | [] => 0
  | d :: ds => d * w 0 + weighted (fun k => w (k + 1)) ds

/-- Put a separator after every third element, but not at the end. -/
def groupRev {α : Type} (s : α) : List α → List α
  | a :: b :: c :: d :: l => a :: b :: c :: s :: groupRev s (d :: l)
  | l => l

/-- Group a sequence in threes counted from its right end. -/
def group {α : Type} (sep : Option α) (l : List α) : List α :=
  match sep with
  | none => l
  | some s => (groupRev s l.reverse).reverse

/-- `body` spells the non-empty digit sequence `ds` of radix `r`, in upper or lower case, with
the separator, if there is one, at exactly the right places. -/
def Spells (r : Nat) (sep : Option Nat) (body ds : List Nat) : Prop :=
  ds ≠ [] ∧ (∀ d ∈ ds, d < r)
    ∧ ∃ chars : List Nat, chars.map digitValue = ds.map some ∧ body = group sep chars

/-- `cs` is an optional leading sign followed by a correctly grouped digit sequence; a plus sign
is allowed only if `plus`. -/
def Numeral (r : Nat) (sep : Option Nat) (plus : Bool) (cs : List Nat) (neg : Bool)
    (ds : List Nat) : Prop :=
  ∃ sign body, cs = sign ++ body ∧ Spells r sep body ds
    ∧ ((sign = [] ∧ neg = false) ∨ (sign = [45] ∧ neg = true)
      ∨ (sign = [43] ∧ neg = false ∧ plus = true))

/-- The integer a numeral denotes. -/
def denote (r : Nat) (neg : Bool) (ds : List Nat) : Int :=
  if neg then -(positional r ds : Int) else positional r ds

end Spec
