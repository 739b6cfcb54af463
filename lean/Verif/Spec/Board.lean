import Verif.Spec.OneWay

/-
A board that several people read and write, for property C118: each reader has a lens (or none) and
each writer a pen (or none) of its own, what is on the board is common to all.  And the log a board
is meant to be if one person writes on it from its start.
-/

namespace Cmp.Spec

/-- What is seen of a board. -/
inductive Seen
  /-- nothing in particular -/
  | done
  /-- these bytes, which are said to be so many -/
  | bytes (data : Octets) (count : Nat)
  | place (p : Int)
  | atEnd (b : Bool)
  deriving DecidableEq

/-- Where a reader or a writer goes. -/
inductive Goal
  /-- the element with this number -/
  | element (k : Int)
  /-- so many elements on -/
  | on (d : Int)
  /-- so many elements before the end -/
  | beforeEnd (k : Int)
  deriving DecidableEq

/-- What is done with a board.  Readers and writers are numbered. -/
inductive BoardOp
  | newReader (i cap : Nat)
  | newWriter (i cap : Nat)
  | dropReader (i : Nat)
  | dropWriter (i : Nat)
  /-- `j` becomes a copy of `i` -/
  | copyReader (i j : Nat)
  | copyWriter (i j : Nat)
  | read (i n : Nat)
  | readerTo (i : Nat) (g : Goal)
  | readerPlace (i : Nat)
  | readerAtEnd (i : Nat)
  | write (i : Nat) (data : Octets)
  | flush (i : Nat)
  | writerTo (i : Nat) (g : Goal)
  | writerPlace (i : Nat)
  | writerAtEnd (i : Nat)
  | look
  | assign (content : Octets)
  deriving DecidableEq

/-- Where a goal is in a content with elements of `elem` bytes, seen from `p`. -/
def Goal.from (elem : Nat) (content : Octets) (p : Int) : Goal → Int
  | element k => k * elem
  | on d => p + d * elem
  | beforeEnd k => ((content.length / elem : Nat) - k) * elem

/-- A board: its content, the readers with their capacity and lens, the writers with their capacity,
their place and what they keep back. -/
structure Board where
  elem : Nat
  content : Octets
  lenses : Nat → Option (Nat × Lens)
  pens : Nat → Option (Nat × Int × Option Octets)

namespace Board

/-- A board nobody reads or writes. -/
def start (elem : Nat) (content : Octets) : Board := ⟨elem, content, fun _ => none, fun _ => none⟩

/-- With another reader `i`. -/
def withLens (b : Board) (i : Nat) (l : Option (Nat × Lens)) : Board :=
  { b with lenses := fun j => if j = i then l else b.lenses j }

/-- With another writer `i`. -/
def withPen (b : Board) (i : Nat) (p : Option (Nat × Int × Option Octets)) : Board :=
  { b with pens := fun j => if j = i then p else b.pens j }

/-- The pen of writer `i`, on the content of the board. -/
def pen (b : Board) (i : Nat) : Option (Nat × Pen) :=
  (b.pens i).map fun (cap, place, kept) => (cap, ⟨b.content, place, kept⟩)

/-- After writer `i` did something with its pen. -/
def drawn (b : Board) (i cap : Nat) (p : Pen) : Board :=
  { b.withPen i (some (cap, p.place, p.kept)) with content := p.content }

/-- Where the end is. -/
def last (b : Board) : Int := (b.content.length / b.elem * b.elem : Nat)

/-- What is seen when something is done, and the board then.  No answer: the behaviour is undefined. -/
def act (b : Board) : BoardOp → Option (Seen × Board)
  | .newReader i cap => some (.done, b.withLens i (some (cap, Lens.start)))
  | .newWriter i cap => some (.done, b.withPen i (some (cap, 0, none)))
  | .dropReader i => some (.done, b.withLens i none)
  | .dropWriter i => some (.done, b.withPen i none)
  | .copyReader i j => (b.lenses i).map fun l => (.done, b.withLens j (some l))
  | .copyWriter i j => (b.pens i).map fun p => (.done, b.withPen j (some p))
  | .read i n => do
    let (cap, l) ← b.lenses i
    let (data, l) ← l.read cap b.elem b.content n
    pure (.bytes data data.length, b.withLens i (some (cap, l)))
  | .readerTo i g => do
    let (cap, l) ← b.lenses i
    pure (.done, b.withLens i (some (cap, ⟨g.from b.elem b.content l.place, 0, none⟩)))
  | .readerPlace i => (b.lenses i).map fun (_, l) => (.place l.position, b)
  | .readerAtEnd i => (b.lenses i).map fun (_, l) => (.atEnd (l.position = b.last), b)
  | .write i data => do
    let (cap, p) ← b.pen i
    let p ← p.write cap b.elem data
    pure (.bytes [] data.length, b.drawn i cap p)
  | .flush i => do
    let (cap, p) ← b.pen i
    let p ← p.flush b.elem
    pure (.done, b.drawn i cap p)
  | .writerTo i g => do
    let (cap, p) ← b.pen i
    let p ← p.flush b.elem
    pure (.done, b.drawn i cap { p with place := g.from b.elem p.content p.place })
  | .writerPlace i => (b.pen i).map fun (_, p) => (.place p.position, b)
  | .writerAtEnd i => (b.pen i).map fun (_, p) => (.atEnd (p.position = b.last), b)
  | .look => some (.bytes b.content b.content.length, b)
  | .assign content => some (.done, { b with content := content })

/-- The same for a sequence. -/
def actAll (b : Board) : List BoardOp → Option (List Seen × Board)
  | [] => some ([], b)
  | op :: ops => do
    let (x, b) ← b.act op
    let (xs, b) ← b.actAll ops
    pure (x :: xs, b)

end Board

/-! ### A log -/

/-- What is done with a log that writer `0` writes. -/
inductive LogOp
  /-- a new reader with a buffer of this size -/
  | join (i cap : Nat)
  /-- reader `j` becomes a copy of reader `i` -/
  | clone (i j : Nat)
  | write (data : Octets)
  | flush
  | read (i n : Nat)
  | place (i : Nat)
  | atEnd (i : Nat)
  | look
  deriving DecidableEq

namespace LogOp

/-- What that is on the board. -/
def onBoard : LogOp → BoardOp
  | join i cap => .newReader i cap
  | clone i j => .copyReader i j
  | write data => .write 0 data
  | flush => .flush 0
  | read i n => .read i n
  | place i => .readerPlace i
  | atEnd i => .readerAtEnd i
  | look => .look

/-- The readers with the sizes of their buffers afterwards. -/
def joined (readers : Nat → Option Nat) : LogOp → Nat → Option Nat
  | join i cap => fun j => if j = i then some cap else readers j
  | clone i j => fun k => if k = j then readers i else readers k
  | _ => readers

/-- Only readers that joined do something, and reads of `n` bytes with a buffer of `cap` bytes are
such that `small cap n`. -/
def Proper (small : Nat → Nat → Prop) (readers : Nat → Option Nat) : List LogOp → Prop
  | [] => True
  | op :: ops =>
    (match op with
      | clone i _ => (readers i).isSome
      | read i n => ∃ cap, readers i = some cap ∧ small cap n
      | place i => (readers i).isSome
      | atEnd i => (readers i).isSome
      | _ => True) ∧ Proper small (op.joined readers) ops

end LogOp

/-- A log: what was written to it, how much of that was flushed, and how much each reader read. -/
structure Log where
  written : Octets
  flushed : Nat
  cursors : Nat → Nat

namespace Log

/-- An empty log. -/
def start : Log := ⟨[], 0, fun _ => 0⟩

/-- With another reader `i`. -/
def withCursor (s : Log) (i k : Nat) : Log :=
  { s with cursors := fun j => if j = i then k else s.cursors j }

/-- What was seen is what may be seen of a log: readers get what was written, in order and with nothing
left out or twice, at least as far as it was flushed if they ask for it, and are told they are at the
end if there is nothing more, and not as long as there is something flushed they did not read. -/
def Explains (s : Log) : List (LogOp × Seen) → Prop
  | [] => True
  | (.join i _, x) :: t => x = .done ∧ (s.withCursor i 0).Explains t
  | (.clone i j, x) :: t => x = .done ∧ (s.withCursor j (s.cursors i)).Explains t
  | (.write data, x) :: t =>
    x = .bytes [] data.length ∧ ({ s with written := s.written ++ data } : Log).Explains t
  | (.flush, x) :: t => x = .done ∧ ({ s with flushed := s.written.length } : Log).Explains t
  | (.read i n, x) :: t => ∃ data, x = .bytes data data.length
    ∧ data = (s.written.drop (s.cursors i)).take data.length
    ∧ min n (s.flushed - s.cursors i) ≤ data.length ∧ data.length ≤ n
    ∧ (s.withCursor i (s.cursors i + data.length)).Explains t
  | (.place i, x) :: t => x = .place (s.cursors i) ∧ s.Explains t
  | (.atEnd i, x) :: t => ∃ b, x = .atEnd b ∧ (b = true → s.flushed ≤ s.cursors i)
    ∧ (s.cursors i = s.written.length → b = true) ∧ s.Explains t
  | (.look, x) :: t => ∃ data, x = .bytes data data.length
    ∧ data = s.written.take data.length ∧ s.flushed ≤ data.length ∧ s.Explains t

end Log

end Cmp.Spec
