import Verif.Model.Buffer

/-
What a user expects of a source or sink of bytes: an array of bytes with a cursor.  Only the type
`Byte` is shared with the model.
-/

namespace Cmp.Spec

/-- An array of bytes with a cursor. -/
structure ArrayCursor where
  bytes : List Byte
  cursor : Nat
  deriving DecidableEq, Repr

namespace ArrayCursor

/-- The next `n` bytes, or as many as there are. -/
def next (a : ArrayCursor) (n : Nat) : List Byte := (a.bytes.drop a.cursor).take n

/-- Reading moves the cursor behind what was read. -/
def afterRead (a : ArrayCursor) (n : Nat) : ArrayCursor :=
  { a with cursor := a.cursor + (a.next n).length }

/-- Writing overwrites what is there, grows the array as needed and moves the cursor behind what
was written. -/
def afterWrite (a : ArrayCursor) (data : List Byte) : ArrayCursor :=
  ⟨a.bytes.take a.cursor ++ data ++ a.bytes.drop (a.cursor + data.length),
    a.cursor + data.length⟩

/-- The results of a sequence of reads. -/
def reads (a : ArrayCursor) : List Nat → List (List Byte)
  | [] => []
  | n :: ns => a.next n :: reads (a.afterRead n) ns

/-- The cursor after a sequence of reads. -/
def afterReads (a : ArrayCursor) (ns : List Nat) : ArrayCursor := ns.foldl afterRead a

/-- All bytes a sequence of reads delivers are the bytes from the cursor on, in order. -/
theorem reads_flatten (a : ArrayCursor) (ns : List Nat) :
    (a.reads ns).flatten = (a.bytes.drop a.cursor).take ns.sum := by
  induction ns generalizing a with
  | nil => simp [reads]
  | cons n ns ih =>
    simp only [reads, List.flatten_cons, ih, List.sum_cons, List.take_add]
    congr 1
    simp only [afterRead, next, List.drop_drop, List.length_take, List.length_drop]
    by_cases h : n ≤ a.bytes.length - a.cursor
    · rw [Nat.min_eq_left h]
    · rw [Nat.min_eq_right (by omega), List.drop_eq_nil_of_le (by omega),
        List.drop_eq_nil_of_le (by omega)]

/-- A read is short only at the end of the array. -/
theorem next_short (a : ArrayCursor) (n : Nat) (h : (a.next n).length < n) :
    a.bytes.length ≤ (a.afterRead n).cursor := by
  simp only [next, afterRead, List.length_take, List.length_drop] at *
  omega

end ArrayCursor

/-- An operation of a user on a resource for reading and writing. -/
inductive IoOp
  | read (n : Nat)
  | write (data : List Byte)
  /-- go to element number `k` -/
  | seek (k : Nat)
  /-- go `d` elements forward, or back -/
  | move (d : Int)
  /-- go to the end -/
  | toEnd
  | flush
  deriving DecidableEq, Repr

/-- No more than `most` bytes are read or written at once. -/
def IoOp.Within (most : Nat) : IoOp → Prop
  | read n => n ≤ most
  | write data => data.length ≤ most
  | _ => True

/-- What an operation gives back: the bytes read and the count returned. -/
def IoOp.result (a : ArrayCursor) : IoOp → List Byte × Nat
  | read n => (a.next n, (a.next n).length)
  | write data => ([], data.length)
  | seek _ => ([], 0)
  | move _ => ([], 0)
  | toEnd => ([], 0)
  | flush => ([], 0)

/-- What an operation does to the array, whose elements have `elem` bytes. -/
def IoOp.effect (elem : Nat) (a : ArrayCursor) : IoOp → ArrayCursor
  | read n => a.afterRead n
  | write data => a.afterWrite data
  | seek k => { a with cursor := k * elem }
  | move d => { a with cursor := (a.cursor + d * elem).toNat }
  | toEnd => { a with cursor := a.bytes.length }
  | flush => a

/-- The results of a sequence of operations. -/
def results (elem : Nat) (a : ArrayCursor) : List IoOp → List (List Byte × Nat)
  | [] => []
  | op :: ops => op.result a :: results elem (op.effect elem a) ops

/-- The array after a sequence of operations. -/
def after (elem : Nat) (a : ArrayCursor) (ops : List IoOp) : ArrayCursor :=
  ops.foldl (IoOp.effect elem) a

/-- What a user has done since the last change of position: nothing, read, or written starting at
byte `start` of an array of then `size` bytes. -/
inductive Session
  | fresh
  | reading
  | writing (size start : Nat)
  deriving DecidableEq, Repr

/-- The session after a flush. -/
def Session.flushed : Session → Session
  | fresh => fresh
  | reading => reading
  | writing _ _ => fresh

/-- Sequences of operations in which reading and writing are separated by a change of position (or,
after writing, by a flush), reads are no larger than the buffer, positions relative to the cursor are
not used after reading (except without a buffer), all positions are inside the array, and writing is
allowed by `allowed size start n`, where `n` is the number of bytes written in the session. -/
inductive Disciplined (cap elem : Nat) (allowed : Nat → Nat → Nat → Prop) :
    Session → ArrayCursor → List IoOp → Prop
  | nil (s : Session) (a : ArrayCursor) : Disciplined cap elem allowed s a []
  | read {s : Session} {a : ArrayCursor} {n : Nat} {ops : List IoOp} :
    s = .fresh ∨ s = .reading → n ≤ cap ∨ cap = 0 →
    Disciplined cap elem allowed .reading (a.afterRead n) ops →
    Disciplined cap elem allowed s a (.read n :: ops)
  | write {s : Session} {a : ArrayCursor} {data : List Byte} {ops : List IoOp} {size start : Nat} :
    s = .fresh ∧ size = a.bytes.length ∧ start = a.cursor ∨ s = .writing size start →
    allowed size start (a.cursor + data.length - start) →
    Disciplined cap elem allowed (.writing size start) (a.afterWrite data) ops →
    Disciplined cap elem allowed s a (.write data :: ops)
  | seek {s : Session} {a : ArrayCursor} {k : Nat} {ops : List IoOp} :
    k * elem ≤ a.bytes.length →
    Disciplined cap elem allowed .fresh { a with cursor := k * elem } ops →
    Disciplined cap elem allowed s a (.seek k :: ops)
  | move {s : Session} {a : ArrayCursor} {d : Int} {ops : List IoOp} :
    s ≠ .reading ∨ cap = 0 → 0 ≤ a.cursor + d * elem → a.cursor + d * elem ≤ a.bytes.length →
    Disciplined cap elem allowed .fresh { a with cursor := (a.cursor + d * elem).toNat } ops →
    Disciplined cap elem allowed s a (.move d :: ops)
  | toEnd {s : Session} {a : ArrayCursor} {ops : List IoOp} :
    elem ∣ a.bytes.length →
    Disciplined cap elem allowed .fresh { a with cursor := a.bytes.length } ops →
    Disciplined cap elem allowed s a (.toEnd :: ops)
  | flush {s : Session} {a : ArrayCursor} {ops : List IoOp} :
    Disciplined cap elem allowed s.flushed a ops →
    Disciplined cap elem allowed s a (.flush :: ops)

end Cmp.Spec
