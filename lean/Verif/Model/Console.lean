import Verif.Model.Resource
import Verif.Model.Text

/-
Model of the standard streams `uin` and `uout` (`api/src/cmp/io/uio.cpp`,
`impl/common/common_uio.cpp`, `impl/unix_like/unix_like_uin.cpp`, `impl/windows/windows_uin.cpp`):
two streams on the two tied resources.
-/

namespace Cmp

/-- The two implementations of the standard streams. -/
inductive StdPlatform
  | unix
  | windows
  deriving DecidableEq, Repr

namespace StdPlatform

/-- `stdin_resource::read_raw`. -/
def readRaw : StdPlatform → Nat → ReadRequest → M Sys ReadResult
  | unix => Stdin.readRaw
  | windows => Stdin.readRawWindows

/-- `stdout_resource::write_raw`. -/
def writeRaw : StdPlatform → List Byte → M Sys Nat
  | unix => Stdout.writeRaw
  | windows => Stdout.writeRawWindows

/-- The encoding form of `uin`: `unix_like_uin.cpp` 46-52, `windows_uin.cpp` 55-61. -/
def inForm : StdPlatform → EncodingForm
  | unix => .utf8
  | windows => .utf16

/-- Standard input: `read` (`input_resource.cpp` 22-35) and `is_at_end` (`unix_like_uin.cpp` 24-29,
`windows_uin.cpp` 25-30). -/
def stdin (p : StdPlatform) : Reader (Tied Sys) :=
  ⟨Tied.read p.readRaw p.writeRaw, fun _ => .ok false⟩

/-- Standard output: `write` and `flush` (`output_resource.cpp` 21-40). -/
def stdout (p : StdPlatform) : Writer (Tied Sys) :=
  ⟨Tied.write p.writeRaw, Tied.flush p.writeRaw⟩

end StdPlatform

/-- `uin` and `uout`, `uio.cpp` 8-9, with the resources they refer to. -/
structure Console where
  res : Tied Sys
  inEndian : Endian
  inForm : EncodingForm
  outEndian : Endian
  outForm : EncodingForm
  deriving DecidableEq

namespace Console

variable {α : Type}

/-- The two objects as constructed: `unix_like_uin.cpp` 12-20, 46-52 and 56, `windows_uin.cpp`
12-21, 55-61 and 65, `unix_like_uout.cpp` 12-21 and 48-51, `windows_uout.cpp` 12-22 and 53-56,
`common_uio.cpp` 12-22.  The capacities of the buffers are configured at build time. -/
def make (p : StdPlatform) (native : Endian) (capIn capOut : Nat) (sys : Sys) : Console :=
  ⟨⟨IoBuffer.make capIn, IoBuffer.make capOut, sys⟩, native, p.inForm, native, .utf8⟩

/-- Using `uin`. -/
def uin (x : M (InStream (Tied Sys)) α) : M Console α := fun c =>
  let y := x ⟨c.res, c.inEndian, c.inForm⟩
  (y.1, { c with res := y.2.res, inEndian := y.2.endian, inForm := y.2.form })

/-- Using `uout`. -/
def uout (x : M (OutStream (Tied Sys)) α) : M Console α := fun c =>
  let y := x ⟨c.res, c.outEndian, c.outForm⟩
  (y.1, { c with res := y.2.res, outEndian := y.2.endian, outForm := y.2.form })

end Console

end Cmp
