import Verif.Model.Buffer

/-
Model of the container resources: `api/src/cmp/io/impl/ctr_essence.ipp`.  The six resource classes
(`transparent_container_input_resource` and so on) only forward to it.
-/

namespace Cmp

/-- `ctr_essence<Container>` and the container it points to, as the bytes of its elements.
`elem` is `sizeof (element_type)`; the number of bytes is a multiple of it.  `position` is a
mathematical integer instead of a `std::int64_t`. -/
structure Ctr where
  elem : Nat
  content : List Byte
  position : Int
  lastFill : Nat
  deriving DecidableEq, Repr

namespace Ctr

/-- The constructor, `ctr_essence.ipp` 14-30. -/
def make (elem : Nat) (content : List Byte) : Ctr := ⟨elem, content, 0, 0⟩

/-- `std::size` of the container. -/
def count (c : Ctr) : Nat := c.content.length / c.elem

/-- `get_position`, `ctr_essence.ipp` 69-79. -/
def getPosition (r : Res Ctr) : Int := r.dev.position + r.buf.position

/-- `is_at_end`, `ctr_essence.ipp` 54-67.  A negative position converts to a `std::size_t` that no
container size equals. -/
def isAtEnd (r : Res Ctr) : Bool := getPosition r == (r.dev.count * r.dev.elem : Nat)

/-- `set_position_raw`, `ctr_essence.ipp` 81-106. -/
def seek (p : Int) (pr : PositionReference) : M Ctr Unit := M.modify fun c =>
  match pr with
  | .begin => { c with position := p * c.elem, lastFill := 0 }
  | .current => { c with position := c.position + p * c.elem, lastFill := 0 }
  | .end => { c with position := (c.count - p) * c.elem, lastFill := 0 }

/-- The part of `read_raw` that copies, `ctr_essence.ipp` 126-159.  With a negative position or one
behind the end the unsigned arithmetic wraps around and the copy starts or ends outside the
container.  (Copying no bytes from an empty container is taken to do nothing, though its pointer may
be null.) -/
def copyOut (n : Nat) : M Ctr (List Byte) := fun c =>
  if c.position < 0 ∨ c.position > c.content.length then (.ub, c)
  else
    let at_ := c.position.toNat
    let n := if at_ + n > c.content.length then c.content.length - at_ else n
    (.ok ((c.content.drop at_).take n), { c with position := c.position + n })

/-- The start of `read_raw`, `ctr_essence.ipp` 122-124. -/
def skipFill (rr : ReadRequest) : M Ctr Unit := do
  let c ← M.get
  if rr = .fillBuffer ∧ c.lastFill > 0 then Res.goForward seek c.lastFill else pure ()

/-- The end of `read_raw`, `ctr_essence.ipp` 165-168. -/
def noteFill (rr : ReadRequest) (n : Nat) : M Ctr Unit :=
  if rr = .fillBuffer then do
    Res.goBack seek n
    M.modify fun c => { c with lastFill := n }
  else pure ()

/-- `read_raw`, `ctr_essence.ipp` 108-171. -/
def readRaw (n : Nat) (rr : ReadRequest) : M Ctr ReadResult := do
  skipFill rr
  let bytes ← copyOut n
  noteFill rr bytes.length
  pure ⟨bytes, bytes.length⟩

/-- `write_raw`, `ctr_essence.ipp` 173-223.  The elements `resize` appends are value-initialised:
zero bytes, for the arithmetic element types the resources are used with.  For a negative position
the pointer arithmetic is undefined. -/
def writeRaw (bytes : List Byte) : M Ctr Nat := fun c =>
  if c.position < 0 then (.ub, c)
  else
    let at_ := c.position.toNat
    let content :=
      if at_ + bytes.length > c.content.length then
        c.content ++ List.replicate (bytes.length / c.elem * c.elem) 0
      else c.content
    if at_ + bytes.length > content.length then (.ub, c)
    else (.ok bytes.length, { c with
      content := content.take at_ ++ bytes ++ content.drop (at_ + bytes.length),
      position := c.position + bytes.length })

end Ctr

end Cmp
