import Verif.Spec.Board

/-
A journal, for property C125: a file that is written in sessions, each going on where the last ended,
while others read it.  What they may see is what may be seen of a log.
-/

namespace Cmp.Spec

/-- What is done with a journal.  Readers are numbered. -/
inductive JournalOp
  /-- a writer begins, with a buffer of this size, that may (`both`) or may not read as well -/
  | session (cap : Nat) (both : Bool)
  | write (data : Octets)
  | flush
  /-- where the writer is -/
  | writerPlace
  /-- the writer ends -/
  | finish
  /-- a new reader with a buffer of this size; the operating system answers its calls with at most so
  many bytes each -/
  | join (i cap : Nat) (calls : List Nat)
  | leave (i : Nat)
  | read (i n : Nat)
  | place (i : Nat)
  | atEnd (i : Nat)
  /-- the file is looked at by other means -/
  | look
  deriving DecidableEq

namespace JournalOp

/-- Whether there is a writer afterwards. -/
def opened (writer : Bool) : JournalOp → Bool
  | session _ _ => true
  | finish => false
  | _ => writer

/-- The readers with the sizes of their buffers afterwards. -/
def joined (readers : Nat → Option Nat) : JournalOp → Nat → Option Nat
  | join i cap _ => fun j => if j = i then some cap else readers j
  | leave i => fun j => if j = i then none else readers j
  | _ => readers

/-- One writer at a time writes and only readers that are there do something; buffers and data have
sizes that `fit`, the operating system is `calm`, and reads of `n` bytes with a buffer of `cap` bytes
are such that `small cap n`. -/
def Proper (fit : Nat → Prop) (calm : List Nat → Prop) (small : Nat → Nat → Prop) :
    Bool → (Nat → Option Nat) → List JournalOp → Prop
  | _, _, [] => True
  | writer, readers, op :: ops =>
    (match op with
      | session cap _ => writer = false ∧ fit cap
      | write data => writer = true ∧ fit data.length
      | flush => writer = true
      | writerPlace => writer = true
      | finish => writer = true
      | join i cap calls => readers i = none ∧ fit cap ∧ calm calls
      | leave i => (readers i).isSome
      | read i n => ∃ cap, readers i = some cap ∧ fit n ∧ small cap n
      | place i => (readers i).isSome
      | atEnd i => (readers i).isSome
      | look => True) ∧ Proper fit calm small (op.opened writer) (op.joined readers) ops

end JournalOp

namespace Log

/-- A log with this content, which nobody reads. -/
def holding (content : Octets) : Log := ⟨content, content.length, fun _ => 0⟩

/-- What was seen of a journal is what may be seen of a log: see `Log.Explains`.  What a writer wrote
is flushed when it ends, and the next one goes on behind it. -/
def Tells (s : Log) : List (JournalOp × Seen) → Prop
  | [] => True
  | (.session _ _, x) :: t => x = .done ∧ s.Tells t
  | (.write data, x) :: t =>
    x = .bytes [] data.length ∧ ({ s with written := s.written ++ data } : Log).Tells t
  | (.flush, x) :: t => x = .done ∧ ({ s with flushed := s.written.length } : Log).Tells t
  | (.writerPlace, x) :: t => x = .place s.written.length ∧ s.Tells t
  | (.finish, x) :: t => x = .done ∧ ({ s with flushed := s.written.length } : Log).Tells t
  | (.join i _ _, x) :: t => x = .done ∧ (s.withCursor i 0).Tells t
  | (.leave _, x) :: t => x = .done ∧ s.Tells t
  | (.read i n, x) :: t => ∃ data, x = .bytes data data.length
    ∧ data = (s.written.drop (s.cursors i)).take data.length
    ∧ min n (s.flushed - s.cursors i) ≤ data.length ∧ data.length ≤ n
    ∧ (s.withCursor i (s.cursors i + data.length)).Tells t
  | (.place i, x) :: t => x = .place (s.cursors i) ∧ s.Tells t
  | (.atEnd i, x) :: t => ∃ b, x = .atEnd b ∧ (b = true → s.flushed ≤ s.cursors i)
    ∧ (s.cursors i = s.written.length → b = true) ∧ s.Tells t
  | (.look, x) :: t => ∃ data, x = .bytes data data.length
    ∧ data = s.written.take data.length ∧ s.flushed ≤ data.length ∧ s.Tells t

end Log

end Cmp.Spec
