import Verif.Model.MemoryTarget

/-
Model of `operator >>` for truth values and numbers when memory runs out: `text_input_stream.ipp` 470-512,
with the strings of `Model/Memory`.
-/

namespace Cmp

namespace InStream

variable {ρ : Type}

/-- The string `input` local to the operators below, when memory runs out.  It starts empty, with room for
`small` code units (which strings have without asking for memory), is read into, and is gone when they return
or throw.  `asked` is the number of requests that the program made before; it is not counted on, as the
schedules of the theorems are arbitrary. -/
def readLocalWordMem (H : Heap) (x : Exn) (small asked : Nat) (native : Endian) (R : Reader ρ)
    (fuel : Nat) : M (InStream ρ) (Str .char8) :=
  fun s =>
    match readWordMem H x native R .char8 fuel (s, ⟨[], small, asked⟩) with
    | (.ok (), s') => (.ok s'.2.units, s'.1)
    | (.throw y, s') => (.throw y, s'.1)
    | (.terminate, s') => (.terminate, s'.1)
    | (.ub, s') => (.ub, s'.1)
    | (.hang, s') => (.hang, s'.1)

/-- `operator >>` for `bool`, `text_input_stream.ipp` 470-482. -/
def readBoolMem (H : Heap) (x : Exn) (small asked : Nat) (native : Endian) (R : Reader ρ)
    (fuel : Nat) : M (InStream ρ × Bool) Unit := do
  let input ← onStream (readLocalWordMem H x small asked native R fuel)
  let b ← M.lift (parseBool .char8 input BoolFormat.default)
  onTarget (M.set b)

/-- `operator >>` for integers, `text_input_stream.ipp` 484-497. -/
def readIntegerMem (H : Heap) (x : Exn) (small asked : Nat) (native : Endian) (R : Reader ρ) (T : IntTy)
    (fuel : Nat) : M (InStream ρ × Int) Unit := do
  let input ← onStream (readLocalWordMem H x small asked native R fuel)
  let v ← M.lift (parseInteger .char8 T input IntegerFormat.default)
  onTarget (M.set v)

/-- `operator >>` for floating-point numbers, `text_input_stream.ipp` 499-512.  `rnd` is the rounding
of the machine. -/
def readFloatMem (H : Heap) (x : Exn) (small asked : Nat) (native : Endian) (R : Reader ρ) (rnd : ℚ → ℚ)
    (fuel : Nat) : M (InStream ρ × ℚ) Unit := do
  let input ← onStream (readLocalWordMem H x small asked native R fuel)
  let y ← M.lift (parseFloat .char8 rnd input FloatFormat.default)
  onTarget (M.set y)

end InStream

end Cmp
