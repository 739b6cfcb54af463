/-
Specification of Unicode scalar values and encoding forms, written on natural
numbers from the Unicode Standard (chapter 3.9, tables 3-5 and 3-6, definitions
D76, D91, D92) and RFC 3629 / RFC 2781.  It does not refer to the model of the
library.
-/

namespace Spec

/-- D76: a Unicode scalar value is any code point except the surrogates. -/
def IsScalar (n : Nat) : Prop := n ≤ 0x10FFFF ∧ ¬ (0xD800 ≤ n ∧ n ≤ 0xDFFF)

instance (n : Nat) : Decidable (IsScalar n) := by unfold IsScalar; infer_instance

/-- Table 3-6: UTF-8 bit distribution. -/
def utf8 (n : Nat) : List Nat :=
  if n < 0x80 then [n]
  else if n < 0x800 then [0xC0 + n / 64, 0x80 + n % 64]
  else if n < 0x10000 then [0xE0 + n / 4096, 0x80 + n / 64 % 64, 0x80 + n % 64]
  else [0xF0 + n / 262144, 0x80 + n / 4096 % 64, 0x80 + n / 64 % 64, 0x80 + n % 64]

/-- Table 3-5: UTF-16 bit distribution. -/
def utf16 (n : Nat) : List Nat :=
  if n < 0x10000 then [n]
  else [0xD800 + (n - 0x10000) / 1024, 0xDC00 + (n - 0x10000) % 1024]

/-- D90: UTF-32. -/
def utf32 (n : Nat) : List Nat := [n]

/-- The three encoding forms. -/
inductive Form
  | utf8 | utf16 | utf32
  deriving DecidableEq, Repr

/-- Encoding of one scalar value. -/
def Form.encode1 : Form → Nat → List Nat
  | .utf8 => Spec.utf8
  | .utf16 => Spec.utf16
  | .utf32 => Spec.utf32

/-- Encoding of a text. -/
def Form.encode (f : Form) (cs : List Nat) : List Nat := cs.flatMap f.encode1

/-- A text is a finite sequence of Unicode scalar values. -/
def IsText (cs : List Nat) : Prop := ∀ c ∈ cs, IsScalar c

/-- The code units `u` are well-formed in form `f` and denote the text `cs`. -/
def Denotes (f : Form) (u : List Nat) (cs : List Nat) : Prop := IsText cs ∧ u = f.encode cs

/-- D85: a code unit sequence is well-formed when it denotes some text. -/
def WellFormed (f : Form) (u : List Nat) : Prop := ∃ cs, Denotes f u cs

/-- Basic Multilingual Plane. -/
def IsBmp (n : Nat) : Prop := n < 0x10000

/-- The White_Space property of PropList.txt, as ranges. -/
def whiteSpaceRanges : List (Nat × Nat) :=
  [(0x0009, 0x000D), (0x0020, 0x0020), (0x0085, 0x0085), (0x00A0, 0x00A0), (0x1680, 0x1680),
   (0x2000, 0x200A), (0x2028, 0x2028), (0x2029, 0x2029), (0x202F, 0x202F), (0x205F, 0x205F),
   (0x3000, 0x3000)]

/-- The White_Space property. -/
def IsWhiteSpace (n : Nat) : Prop := ∃ r ∈ whiteSpaceRanges, r.1 ≤ n ∧ n ≤ r.2

end Spec

namespace Spec

/-! ### Structure of arbitrary (possibly ill-formed) byte sequences -/

/-- What a byte sequence begins with, looking only at lead and continuation byte patterns. -/
inductive Scan
  /-- a lead byte followed by all its continuation bytes; payload value and length -/
  | complete (value length : Nat)
  /-- a byte that cannot occur at its place -/
  | malformed
  /-- the bytes end inside a sequence -/
  | truncated
  deriving DecidableEq, Repr

/-- Scan `n` continuation bytes, accumulating six payload bits each; `len` is the total length
of the sequence, reported on success. -/
def scanTail (len : Nat) : Nat → Nat → List Nat → Scan
  | 0, acc, _ => .complete acc len
  | _ + 1, _, [] => .truncated
  | n + 1, acc, b :: bs =>
    if 0x80 ≤ b ∧ b < 0xC0 then scanTail len n (acc * 64 + b % 64) bs else .malformed

/-- Scan one UTF-8 sequence: `0xxxxxxx`, `110xxxxx`, `1110xxxx` or `11110xxx` and the
corresponding number of `10xxxxxx`.  Overlong forms, surrogates and values up to 0x1FFFFF are
structurally complete. -/
def scan8 : List Nat → Scan
  | [] => .truncated
  | b :: bs =>
    if b < 0x80 then .complete b 1
    else if 0xC0 ≤ b ∧ b < 0xE0 then scanTail 2 1 (b % 32) bs
    else if 0xE0 ≤ b ∧ b < 0xF0 then scanTail 3 2 (b % 16) bs
    else if 0xF0 ≤ b ∧ b < 0xF8 then scanTail 4 3 (b % 8) bs
    else .malformed

/-- What follows a leading surrogate `u`. -/
def scanPair (u : Nat) : List Nat → Scan
  | [] => .truncated
  | v :: _ =>
    if 0xDC00 ≤ v ∧ v ≤ 0xDFFF then
      .complete (0x10000 + (u - 0xD800) * 1024 + (v - 0xDC00)) 2
    else .malformed

/-- Scan one UTF-16 sequence: a non-surrogate, or a leading and a trailing surrogate. -/
def scan16 : List Nat → Scan
  | [] => .truncated
  | u :: us =>
    if 0xD800 ≤ u ∧ u ≤ 0xDBFF then scanPair u us
    else if 0xDC00 ≤ u ∧ u ≤ 0xDFFF then .malformed
    else .complete u 1

end Spec
