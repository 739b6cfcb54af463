import Verif.Spec.Unicode

/-
Specification of byte serialisation: numbers as bytes in a byte order, the Unicode encoding schemes
(Unicode Standard, chapter 3.10: UTF-8, UTF-16BE, UTF-16LE, UTF-32BE, UTF-32LE), line terminators
and words.  It does not refer to the model of the library.
-/

namespace Spec

/-- Byte orders. -/
inductive ByteOrder
  | big
  | little
  deriving DecidableEq, Repr

/-- The `k` bytes of a number: big-endian has the most significant byte first. -/
def ByteOrder.bytes : ByteOrder → Nat → Nat → List Nat
  | .big, k, n => (List.range k).map fun i => n / 256 ^ (k - 1 - i) % 256
  | .little, k, n => (List.range k).map fun i => n / 256 ^ i % 256

/-- The number of bytes of a code unit. -/
def Form.unitSize : Form → Nat
  | .utf8 => 1
  | .utf16 => 2
  | .utf32 => 4

/-- The encoding scheme: code units as bytes. -/
def Form.serialize (f : Form) (o : ByteOrder) (cs : List Nat) : List Nat :=
  (f.encode cs).flatMap (o.bytes f.unitSize)

/-- The number a group of bytes stands for. -/
def ByteOrder.value : ByteOrder → List Nat → Nat
  | .big, l => l.foldl (fun n b => 256 * n + b) 0
  | .little, l => l.foldr (fun b n => 256 * n + b) 0

/-- The complete code units of `k` bytes at the front of a byte sequence; `n` bounds their
number. -/
def ByteOrder.units (o : ByteOrder) (k : Nat) : Nat → List Nat → List Nat
  | 0, _ => []
  | n + 1, l => if l.length < k then [] else o.value (l.take k) :: o.units k n (l.drop k)

/-- What a byte sequence begins with in an encoding scheme.  In UTF-32 every group of four bytes is
complete, whatever its value. -/
def Form.scanBytes (f : Form) (o : ByteOrder) (l : List Nat) : Scan :=
  match f with
  | .utf8 => scan8 l
  | .utf16 => scan16 (o.units 2 2 l)
  | .utf32 =>
    match o.units 4 1 l with
    | [] => .truncated
    | u :: _ => .complete u 1

/-- CR LF pairs replaced by LF. -/
def crlfToLf : List Nat → List Nat
  | 13 :: 10 :: cs => 10 :: crlfToLf cs
  | c :: cs => c :: crlfToLf cs
  | [] => []

/-- Every carriage return is followed by a line feed or is at the end. -/
def NoLoneCR (cs : List Nat) : Prop := ∀ pre c post, cs = pre ++ 13 :: c :: post → c = 10

/-- A line terminator. -/
inductive Newline
  | lf
  | crlf
  deriving DecidableEq, Repr

/-- The characters of a line terminator. -/
def Newline.text : Newline → List Nat
  | .lf => [10]
  | .crlf => [13, 10]

/-- Lines and the terminator that follows each of them. -/
def joinLines (lines : List (List Nat × Newline)) : List Nat :=
  lines.flatMap fun l => l.1 ++ l.2.text

/-- `words` are the maximal runs of characters satisfying `P` in `cs`: the text is words and
separators in turn. -/
inductive Words (sep : Nat → Prop) : List Nat → List (List Nat) → Prop
  | none (s : List Nat) (hs : ∀ c ∈ s, sep c) : Words sep s []
  | last (s w : List Nat) (hs : ∀ c ∈ s, sep c) (hw : w ≠ []) (hn : ∀ c ∈ w, ¬ sep c) :
      Words sep (s ++ w) [w]
  | next (s w : List Nat) (b : Nat) (cs : List Nat) (ws : List (List Nat)) (hs : ∀ c ∈ s, sep c)
      (hw : w ≠ []) (hn : ∀ c ∈ w, ¬ sep c) (hb : sep b) (h : Words sep cs ws) :
      Words sep (s ++ w ++ b :: cs) (w :: ws)

end Spec
