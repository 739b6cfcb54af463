import Verif.Model.Container
import Verif.Model.Memory
import Verif.Model.Stream

/-
Model of container resources when memory runs out: `ctr_essence::write_raw`
(`api/src/cmp/io/impl/ctr_essence.ipp`), whose `resize` asks for memory.  The functions of
`Model/Buffer` are used as they are.

As the standard demands of `std::vector` and `std::basic_string`, a `resize` that is refused memory
throws and leaves the container as it was.
-/

namespace Cmp

/-- A container resource's device in limited memory: the essence, the room that the container has, and
the number of requests for memory that were made. -/
structure MCtr where
  ctr : Ctr
  capacity : Nat
  asked : Nat
  deriving DecidableEq

namespace MCtr

/-- `resize` to `n` bytes, as far as memory is concerned; `x` stands for `std::bad_alloc` and
`std::length_error`, which no code of the library distinguishes from other exceptions. -/
def room (H : Heap) (x : Exn) (n : Nat) : M MCtr Unit := fun m =>
  if n ≤ m.capacity then (.ok (), m)
  else if H.maxSize < n then (.throw x, m)
  else if H.grants m.asked then (.ok (), { m with capacity := H.grow n, asked := m.asked + 1 })
  else (.throw x, { m with asked := m.asked + 1 })

/-- `write_raw`, `ctr_essence.ipp` 173-223: first the room (196-205), then what there is to do in
unlimited memory. -/
def writeRaw (H : Heap) (x : Exn) (bytes : List Byte) : M MCtr Nat := fun m =>
  let grown :=
    if m.ctr.position + bytes.length > m.ctr.content.length then
      m.ctr.content.length + bytes.length / m.ctr.elem * m.ctr.elem
    else m.ctr.content.length
  if m.ctr.position < 0 then (.ub, m)
  else match room H x grown m with
    | (.ok _, m') =>
      ((Ctr.writeRaw bytes m.ctr).1, { m' with ctr := (Ctr.writeRaw bytes m.ctr).2 })
    | (_, m') => (.throw x, m')

/-- `set_position_raw`, `ctr_essence.ipp` 81-106: it needs no memory. -/
def seek (p : Int) (pr : PositionReference) : M MCtr Unit := fun m =>
  ((Ctr.seek p pr m.ctr).1, { m with ctr := (Ctr.seek p pr m.ctr).2 })

/-- The members of a container resource that a stream calls. -/
def writer (H : Heap) (x : Exn) : Writer (Res MCtr) :=
  ⟨Res.write (writeRaw H x), Res.flush (writeRaw H x)⟩

end MCtr

/-- The destructor of an output stream (`noexcept`, as it does not say otherwise), `output_stream.ipp`
25-31. -/
def OutStream.destroy {ρ : Type} (W : Writer ρ) : M (OutStream ρ) Unit := M.noexcept (OutStream.flush W)

end Cmp
