import Verif.Base.Outcome

/-
What container resources for one direction do in full, for property C100: reading through a lens that
sees a page of the container at a time, and writing with a pen that keeps data back.  Neither is a
cursor in an array; how they differ from one is what the property is about.
-/

namespace Cmp.Spec

/-- The bytes of a container. -/
abbrev Octets := List (BitVec 8)

/-- At most `n` bytes from byte `p` on; there is no answer for places outside the content. -/
def excerpt (content : Octets) (p : Int) (n : Nat) : Option Octets :=
  if 0 ≤ p ∧ p ≤ content.length then some ((content.drop p.toNat).take n) else none

/-- A reader of a container.  `place` is where it would read next if it had no page, up to `skip`
elements that are to be passed over; `page` is the page it has, and how much of it was delivered. -/
structure Lens where
  place : Int
  skip : Nat
  page : Option (Octets × Nat)
  deriving DecidableEq

namespace Lens

/-- Before anything is read. -/
def start : Lens := ⟨0, 0, none⟩

/-- The next page: the bytes of the last one are passed over *as if they were elements*, the page is
taken, and its bytes are gone back *as if they were elements*. -/
def turn (cap elem : Nat) (content : Octets) (l : Lens) : Option (Octets × Lens) := do
  let page ← excerpt content (l.place + l.skip * elem) cap
  pure (page, ⟨l.place + l.skip * elem + page.length - page.length * elem, page.length,
    some (page, 0)⟩)

/-- Read `n` bytes, having a page of which `given` bytes were delivered: what is left of it; if that
is not enough, and what is missing is larger than a page, the rest *from where the lens is without
passing over anything*; otherwise the start of the next page. -/
def readPage (cap elem : Nat) (content : Octets) (n : Nat) (l : Lens) (page : Octets) (given : Nat) :
    Option (Octets × Lens) :=
  let rest := page.drop given
  if n ≤ rest.length then some (rest.take n, { l with page := some (page, given + n) })
  else if cap < n - rest.length then do
    let more ← excerpt content l.place (n - rest.length)
    pure (rest ++ more, { l with place := l.place + more.length, page := some (page, page.length) })
  else do
    let (next, l) ← turn cap elem content l
    let more := next.take (n - rest.length)
    pure (rest ++ more, { l with page := some (next, more.length) })

/-- Read `n` bytes with a buffer of `cap` bytes. -/
def read (cap elem : Nat) (content : Octets) (n : Nat) (l : Lens) : Option (Octets × Lens) :=
  if cap = 0 then do
    let bytes ← excerpt content l.place n
    pure (bytes, { l with place := l.place + bytes.length })
  else match l.page with
    | some (page, given) => readPage cap elem content n l page given
    | none => do
      let (page, l) ← turn cap elem content l
      readPage cap elem content n l page 0

/-- The position it reports. -/
def position (l : Lens) : Int := l.place + (l.page.elim 0 (·.2) : Nat)

end Lens

/-- A writer to a container: the content, where it writes next, and the data it keeps back. -/
structure Pen where
  content : Octets
  place : Int
  kept : Option Octets
  deriving DecidableEq

namespace Pen

/-- Before anything is written. -/
def start (content : Octets) : Pen := ⟨content, 0, none⟩

/-- Put data in their place.  Data that do not fit make the content larger by as many whole elements
as they have, however much of them would have fitted; if that is not enough, and for places before
the start, there is no answer. -/
def put (elem : Nat) (data : Octets) (p : Pen) : Option Pen :=
  if p.place < 0 then none
  else
    let fits := p.place.toNat + data.length ≤ p.content.length
    let room := if fits then p.content
      else p.content ++ List.replicate (data.length / elem * elem) 0
    if p.place.toNat + data.length ≤ room.length then
      some { p with
        content := room.take p.place.toNat ++ data ++ room.drop (p.place.toNat + data.length)
        place := p.place + data.length }
    else none

/-- Put what is kept back in its place. -/
def flush (elem : Nat) (p : Pen) : Option Pen :=
  match p.kept with
  | none => some p
  | some data => (put elem data p).map fun p => { p with kept := none }

/-- Write with a buffer of `cap` bytes. -/
def write (cap elem : Nat) (data : Octets) (p : Pen) : Option Pen :=
  if cap = 0 then put elem data p
  else if cap < (p.kept.getD []).length + data.length then do
    let p ← flush elem p
    if cap < data.length then put elem data p else pure { p with kept := some data }
  else some { p with kept := some (p.kept.getD [] ++ data) }

/-- The position it reports. -/
def position (p : Pen) : Int := p.place + (p.kept.getD []).length

end Pen

end Cmp.Spec
