import Verif.Spec.Board
import Verif.Spec.Recover

/-
Following a text while it is written, for property C126.  It does not refer to the model of the
library.
-/

namespace Cmp.Spec

/-- What is done with a text that one writes and others follow.  Those who follow it are numbered. -/
inductive TailOp
  /-- a character is written -/
  | put (c : Nat)
  | flush
  /-- another one begins to follow the text, with a buffer of this size -/
  | join (i cap : Nat)
  /-- the one called `i` reads on until it is at the end -/
  | follow (i : Nat)
  deriving DecidableEq

namespace TailOp

/-- Those who follow the text, with the sizes of their buffers, afterwards. -/
def joined (readers : Nat → Option Nat) : TailOp → Nat → Option Nat
  | join i cap => fun j => if j = i then some cap else readers j
  | _ => readers

/-- The characters are `able` to be written, the buffers have `room`, and only those who began to
follow the text do so. -/
def Proper (able room : Nat → Prop) : (Nat → Option Nat) → List TailOp → Prop
  | _, [] => True
  | readers, op :: ops =>
    (match op with
      | put c => able c
      | flush => True
      | join i cap => readers i = none ∧ room cap
      | follow i => (readers i).isSome) ∧ Proper able room (op.joined readers) ops

end TailOp

/-- The text so far, how much of it was flushed, and how much of it each one has. -/
structure TextLog where
  written : List Nat
  flushed : Nat
  have_ : Nat → Nat

namespace TextLog

/-- Nobody has anything of a text yet. -/
def holding (text : List Nat) : TextLog := ⟨text, text.length, fun _ => 0⟩

/-- With another number of characters that `i` has. -/
def give (s : TextLog) (i n : Nat) : TextLog :=
  { s with have_ := fun j => if j = i then n else s.have_ j }

/-- Whoever follows the text gets each time the characters behind those it has, whole and in order, at
least as far as they were flushed. -/
def Explains (s : TextLog) : List (TailOp × Option (List Nat)) → Prop
  | [] => True
  | (.put c, x) :: t => x = none ∧ ({ s with written := s.written ++ [c] } : TextLog).Explains t
  | (.flush, x) :: t => x = none ∧ ({ s with flushed := s.written.length } : TextLog).Explains t
  | (.join i _, x) :: t => x = none ∧ (s.give i 0).Explains t
  | (.follow i, x) :: t => ∃ cs, x = some cs
    ∧ cs = (s.written.drop (s.have_ i)).take cs.length ∧ s.flushed ≤ s.have_ i + cs.length
    ∧ (s.give i (s.have_ i + cs.length)).Explains t

end TextLog

/-- The pieces in which a character is written: UTF-16 in a byte order that is not the system's `own`
is written a code unit at a time. -/
def pieces (own : Bool) (f : _root_.Spec.Form) (o : _root_.Spec.ByteOrder) (c : Nat) : List Octets :=
  if f = .utf16 ∧ own = false then (f.encode1 c).map fun u => (o.bytes 2 u).map (BitVec.ofNat 8)
  else [(f.serialize o [c]).map (BitVec.ofNat 8)]

/-- What is in the file, what the writer keeps back, and how much of the file each one has seen. -/
structure Tail where
  shown : Octets
  kept : Octets
  seen : Nat → Nat

namespace Tail

/-- Nobody has seen anything of a file yet. -/
def holding (content : Octets) : Tail := ⟨content, [], fun _ => 0⟩

/-- A piece is written with a buffer of `cap` bytes. -/
def add (cap : Nat) (s : Tail) (data : Octets) : Tail :=
  if cap < data.length then { s with shown := s.shown ++ s.kept ++ data, kept := [] }
  else if cap < s.kept.length + data.length then { s with shown := s.shown ++ s.kept, kept := data }
  else { s with kept := s.kept ++ data }

/-- What is kept back is written. -/
def flush (s : Tail) : Tail := { s with shown := s.shown ++ s.kept, kept := [] }

/-- With another number of bytes that `i` has seen. -/
def look (s : Tail) (i n : Nat) : Tail := { s with seen := fun j => if j = i then n else s.seen j }

/-- Whoever follows the file gets the characters among what the bytes are that appeared since the last
time, by themselves: neither what was before nor what comes later is taken into account. -/
def Explains (cap : Nat) (own : Bool) (f : _root_.Spec.Form) (o : _root_.Spec.ByteOrder) (s : Tail) :
    List (TailOp × Option (List Nat)) → Prop
  | [] => True
  | (.put c, x) :: t => x = none ∧ ((pieces own f o c).foldl (add cap) s).Explains cap own f o t
  | (.flush, x) :: t => x = none ∧ s.flush.Explains cap own f o t
  | (.join i _, x) :: t => x = none ∧ (s.look i 0).Explains cap own f o t
  | (.follow i, x) :: t =>
    (∃ is, _root_.Spec.Itemised f o ((s.shown.drop (s.seen i)).map BitVec.toNat) is
      ∧ x = some (_root_.Spec.chars (_root_.Spec.passReturns true is)))
    ∧ (s.look i s.shown.length).Explains cap own f o t

end Tail

end Cmp.Spec
