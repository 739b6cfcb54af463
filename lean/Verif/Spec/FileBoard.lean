import Verif.Spec.Board

/-
What several objects on one file see of it, in full, for property C125: readers that see a page of the
file at a time and writers that keep data back, as on the board of C118, but with the rules of files:
there is something to read or to write at every place, and who leaves writes what was kept back.
-/

namespace Cmp.Spec

/-- A reader of a file: where its page begins -- or, without a page, where it reads next -- and how
much of the page was delivered. -/
structure Loupe where
  place : Nat
  page : Option (Octets × Nat)
  deriving DecidableEq

namespace Loupe

/-- Before anything is read. -/
def start : Loupe := ⟨0, none⟩

/-- The next page. -/
def turn (cap : Nat) (content : Octets) (g : Loupe) : Octets × Loupe :=
  let p := g.place + (g.page.elim 0 (·.1.length))
  ((content.drop p).take cap, ⟨p, some ((content.drop p).take cap, 0)⟩)

/-- Read `n` bytes, having a page of which `given` bytes were delivered: what is left of it; if that is
not enough, and what is missing is larger than a page, the rest *from where the page begins*, after
which the page is thought to begin behind that; otherwise the start of the next page. -/
def readPage (cap : Nat) (content : Octets) (n : Nat) (g : Loupe) (page : Octets) (given : Nat) :
    Octets × Loupe :=
  let rest := page.drop given
  if n ≤ rest.length then (rest.take n, ⟨g.place, some (page, given + n)⟩)
  else if cap < n - rest.length then
    let more := (content.drop g.place).take (n - rest.length)
    (rest ++ more, ⟨g.place + more.length, some (page, page.length)⟩)
  else
    let t := g.turn cap content
    let more := t.1.take (n - rest.length)
    (rest ++ more, ⟨t.2.place, some (t.1, more.length)⟩)

/-- Read `n` bytes with a buffer of `cap` bytes. -/
def read (cap : Nat) (content : Octets) (n : Nat) (g : Loupe) : Octets × Loupe :=
  if cap = 0 then
    let bytes := (content.drop g.place).take n
    (bytes, { g with place := g.place + bytes.length })
  else match g.page with
    | some (page, given) => readPage cap content n g page given
    | none =>
      let t := g.turn cap content
      readPage cap content n t.2 t.1 0

/-- The position it reports. -/
def position (g : Loupe) : Nat := g.place + g.page.elim 0 (·.2)

end Loupe

/-- A writer to a file: where it writes next and the data it keeps back. -/
structure Quill where
  place : Nat
  kept : Octets
  deriving DecidableEq

namespace Quill

/-- Data in their place in the file; a gap before them becomes zeros. -/
def inked (content : Octets) (place : Nat) (data : Octets) : Octets :=
  if data = [] then content
  else (content ++ List.replicate (place - content.length) 0).take place ++ data
    ++ content.drop (place + data.length)

/-- Put what is kept back in its place. -/
def flush (content : Octets) (q : Quill) : Octets × Quill :=
  (inked content q.place q.kept, ⟨q.place + q.kept.length, []⟩)

/-- Write with a buffer of `cap` bytes. -/
def write (cap : Nat) (data : Octets) (content : Octets) (q : Quill) : Octets × Quill :=
  if cap = 0 then (inked content q.place data, ⟨q.place + data.length, q.kept⟩)
  else if cap < q.kept.length + data.length then
    let f := q.flush content
    if cap < data.length then (inked f.1 f.2.place data, ⟨f.2.place + data.length, []⟩)
    else (f.1, ⟨f.2.place, data⟩)
  else (content, ⟨q.place, q.kept ++ data⟩)

end Quill

/-- What is done with a file by several objects, of which each only reads or only writes. -/
inductive FileAct
  | newReader (i cap : Nat)
  | newWriter (i cap : Nat)
  | dropReader (i : Nat)
  | dropWriter (i : Nat)
  | read (i n : Nat)
  | readerTo (i : Nat) (g : Goal)
  | readerPlace (i : Nat)
  | readerAtEnd (i : Nat)
  | write (i : Nat) (data : Octets)
  | flush (i : Nat)
  | writerTo (i : Nat) (g : Goal)
  | writerPlace (i : Nat)
  | writerAtEnd (i : Nat)
  /-- the file is looked at by other means -/
  | look
  /-- the file is changed by other means -/
  | assign (content : Octets)
  deriving DecidableEq

/-- All sizes fit. -/
def FileAct.Fits (fit : Nat → Prop) : FileAct → Prop
  | newReader _ cap => fit cap
  | newWriter _ cap => fit cap
  | read _ n => fit n
  | write _ data => fit data.length
  | _ => True

/-- Where a goal is in a file, seen from `p`.  If it were before the start, one stays where one is;
except that places counted from the start may be taken to be the start instead (`clamp`). -/
def Goal.inFile (clamp : Bool) (content : Octets) (p : Nat) : Goal → Nat
  | element k => if 0 ≤ k then k.toNat else if clamp then 0 else p
  | on d => if 0 ≤ p + d then (p + d).toNat else p
  | beforeEnd k => if 0 ≤ content.length - k then (content.length - k).toNat else p

/-- A file with its readers and writers and the sizes of their buffers. -/
structure FileBoard where
  content : Octets
  readers : Nat → Option (Nat × Loupe)
  writers : Nat → Option (Nat × Quill)

namespace FileBoard

/-- A file that nobody reads or writes. -/
def start (content : Octets) : FileBoard := ⟨content, fun _ => none, fun _ => none⟩

/-- With another reader `i`. -/
def withReader (b : FileBoard) (i : Nat) (g : Option (Nat × Loupe)) : FileBoard :=
  { b with readers := fun j => if j = i then g else b.readers j }

/-- With another content and another writer `i`. -/
def withWriter (b : FileBoard) (i : Nat) (content : Octets) (q : Option (Nat × Quill)) : FileBoard :=
  { b with content := content, writers := fun j => if j = i then q else b.writers j }

/-- What the file holds after writer `i`, if there is one, wrote what it kept back. -/
def settled (b : FileBoard) (i : Nat) : Octets :=
  match b.writers i with
  | some (_, q) => (q.flush b.content).1
  | none => b.content

/-- What is seen when something is done, and what there is then.  No answer: there is no such reader or
writer. -/
def act (clamp : Bool) (b : FileBoard) : FileAct → Option (Seen × FileBoard)
  | .newReader i cap => some (.done, b.withReader i (some (cap, Loupe.start)))
  | .newWriter i cap => some (.done, b.withWriter i (b.settled i) (some (cap, ⟨0, []⟩)))
  | .dropReader i => (b.readers i).map fun _ => (.done, b.withReader i none)
  | .dropWriter i => (b.writers i).map fun _ => (.done, b.withWriter i (b.settled i) none)
  | .read i n => (b.readers i).map fun (cap, g) =>
    let x := g.read cap b.content n
    (.bytes x.1 x.1.length, b.withReader i (some (cap, x.2)))
  | .readerTo i goal => (b.readers i).map fun (cap, g) =>
    (.done, b.withReader i (some (cap, ⟨goal.inFile clamp b.content g.place, none⟩)))
  | .readerPlace i => (b.readers i).map fun (_, g) => (.place g.position, b)
  | .readerAtEnd i => (b.readers i).map fun (_, g) => (.atEnd (g.position = b.content.length), b)
  | .write i data => (b.writers i).map fun (cap, q) =>
    let x := q.write cap data b.content
    (.bytes [] data.length, b.withWriter i x.1 (some (cap, x.2)))
  | .flush i => (b.writers i).map fun (cap, q) =>
    let x := q.flush b.content
    (.done, b.withWriter i x.1 (some (cap, x.2)))
  | .writerTo i goal => (b.writers i).map fun (cap, q) =>
    let x := q.flush b.content
    (.done, b.withWriter i x.1 (some (cap, ⟨goal.inFile clamp x.1 x.2.place, []⟩)))
  | .writerPlace i => (b.writers i).map fun (_, q) => (.place (q.place + q.kept.length : Nat), b)
  | .writerAtEnd i => (b.writers i).map fun (_, q) =>
    (.atEnd (q.place + q.kept.length = b.content.length), b)
  | .look => some (.bytes b.content b.content.length, b)
  | .assign content => some (.done, { b with content := content })

/-- The same for a sequence. -/
def actAll (clamp : Bool) (b : FileBoard) : List FileAct → Option (List Seen × FileBoard)
  | [] => some ([], b)
  | op :: ops => do
    let (x, b) ← b.act clamp op
    let (xs, b) ← b.actAll clamp ops
    pure (x :: xs, b)

end FileBoard

end Cmp.Spec
