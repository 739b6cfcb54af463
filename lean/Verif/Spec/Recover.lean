import Verif.Spec.Wire

/-
Reading a text from arbitrary bytes, one character after the other, going on after what is not a
character.  It does not refer to the model of the library.
-/

namespace Spec

/-- What is taken from the front of a byte sequence, and how many bytes that are. -/
inductive Taken
  /-- a code point -/
  | char (value bytes : Nat)
  /-- everything up to and including the code unit that cannot be at its place -/
  | bad (bytes : Nat)
  /-- everything, the bytes end inside a sequence -/
  | cut
  deriving DecidableEq, Repr

/-- Take `n` continuation bytes, accumulating six payload bits each; `len` is the length of the whole
sequence. -/
def takeTail (len : Nat) : Nat → Nat → List Nat → Taken
  | 0, acc, _ => .char acc len
  | _ + 1, _, [] => .cut
  | n + 1, acc, b :: bs =>
    if 0x80 ≤ b ∧ b < 0xC0 then takeTail len n (acc * 64 + b % 64) bs else .bad (len - n)

/-- Take one UTF-8 sequence. -/
def take8 : List Nat → Taken
  | [] => .cut
  | b :: bs =>
    if b < 0x80 then .char b 1
    else if 0xC0 ≤ b ∧ b < 0xE0 then takeTail 2 1 (b % 32) bs
    else if 0xE0 ≤ b ∧ b < 0xF0 then takeTail 3 2 (b % 16) bs
    else if 0xF0 ≤ b ∧ b < 0xF8 then takeTail 4 3 (b % 8) bs
    else .bad 1

/-- Take what follows a leading surrogate `u`. -/
def takePair (u : Nat) : List Nat → Taken
  | [] => .cut
  | v :: _ =>
    if 0xDC00 ≤ v ∧ v ≤ 0xDFFF then .char (0x10000 + (u - 0xD800) * 1024 + (v - 0xDC00)) 4
    else .bad 4

/-- Take one UTF-16 sequence from code units of two bytes. -/
def take16 : List Nat → Taken
  | [] => .cut
  | u :: us =>
    if 0xD800 ≤ u ∧ u ≤ 0xDBFF then takePair u us
    else if 0xDC00 ≤ u ∧ u ≤ 0xDFFF then .bad 2
    else .char u 2

/-- What is taken in an encoding scheme. -/
def Form.takeBytes (f : Form) (o : ByteOrder) (l : List Nat) : Taken :=
  match f with
  | .utf8 => take8 l
  | .utf16 => take16 (o.units 2 2 l)
  | .utf32 =>
    match o.units 4 1 l with
    | [] => .cut
    | u :: _ => .char u 4

/-- What a reader comes upon. -/
inductive Item
  | char (value : Nat)
  | bad
  | cut
  deriving DecidableEq, Repr

/-- The bytes are a sequence of items. -/
inductive Itemised (f : Form) (o : ByteOrder) : List Nat → List Item → Prop
  | none : Itemised f o [] []
  | char {l : List Nat} {v n : Nat} {is : List Item} (h : f.takeBytes o l = .char v n)
      (t : Itemised f o (l.drop n) is) : Itemised f o l (.char v :: is)
  | bad {l : List Nat} {n : Nat} {is : List Item} (h : f.takeBytes o l = .bad n)
      (t : Itemised f o (l.drop n) is) : Itemised f o l (.bad :: is)
  | cut {l : List Nat} (hl : l ≠ []) (h : f.takeBytes o l = .cut) : Itemised f o l [.cut]

/-- A carriage return with something behind it is passed over, and what is behind it is taken as it
is; a source that does not tell that it is at its end makes readers look behind its last carriage
return. -/
def passReturns (tells : Bool) : List Item → List Item
  | [] => []
  | [i] => if i = .char 13 ∧ ¬ tells then [.cut] else [i]
  | i :: j :: is => if i = .char 13 then j :: passReturns tells is else i :: passReturns tells (j :: is)

/-- The code points among items. -/
def chars (is : List Item) : List Nat :=
  is.filterMap fun
    | .char v => some v
    | _ => none

/-- A code unit that begins no sequence. -/
def Form.Stray : Form → Nat → Prop
  | .utf8, u => (0x80 ≤ u ∧ u < 0xC0) ∨ (0xF8 ≤ u ∧ u < 0x100)
  | .utf16, u => 0xDC00 ≤ u ∧ u ≤ 0xDFFF
  | .utf32, _ => False

/-- The first code units of a character of which the last ones are missing. -/
def Form.CutShort (f : Form) (us : List Nat) : Prop :=
  ∃ c, IsScalar c ∧ us <+: f.encode1 c ∧ us ≠ [] ∧ us ≠ f.encode1 c

/-- How reading into a string comes to an end. -/
inductive Ending
  /-- because of the character that stops it or because there is nothing more -/
  | finished
  /-- because the string cannot take the last character read -/
  | rejected
  /-- because of code units that are not a character -/
  | bad
  /-- because something is missing -/
  | cut
  deriving DecidableEq, Repr

/-- What reading into a string adds to it, how it ends and what remains to be read.  It reads up to
and including a character `stop` holds of; `add` tells what a character adds to the string and that it
adds nothing because it is rejected.  A source that tells its end ends the reading without failure. -/
def gather {α : Type} (tells : Bool) (stop : Nat → Bool) (add : Nat → Option (List α)) :
    List Item → List α × Ending × List Item
  | [] => ([], if tells then .finished else .cut, [])
  | .bad :: is => ([], .bad, is)
  | .cut :: is => ([], .cut, is)
  | .char v :: is =>
    if stop v then ([], .finished, is)
    else
      match add v with
      | none => ([], .rejected, is)
      | some us => (us ++ (gather tells stop add is).1, (gather tells stop add is).2)

/-- The items without the characters at their front that `p` holds of. -/
def skipChars (p : Nat → Bool) (is : List Item) : List Item :=
  is.dropWhile fun
    | .char v => p v
    | _ => false

end Spec
