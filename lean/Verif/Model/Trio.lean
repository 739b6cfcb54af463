import Verif.Model.Console

/-
Model of the three standard resources together: `uin_resource`, `uout_resource` and
`uerr_resource` (`api/src/cmp/io/impl/unix_like/unix_like_uin.cpp`, `unix_like_uout.cpp`,
`api/src/cmp/io/impl/windows/windows_uin.cpp`, `windows_uout.cpp`), and of the end of the program
(`api/src/cmp/io/uio.cpp`).
-/

namespace Cmp

/-- Standard output and standard error: the descriptors `STDOUT_FILENO` and `STDERR_FILENO`,
`unix_like_uout.cpp` 48-56, and the handles `STD_OUTPUT_HANDLE` and `STD_ERROR_HANDLE`,
`windows_uout.cpp` 53-61. -/
inductive OutHandle
  | out
  | err
  deriving DecidableEq, Repr

/-- What the system sees of a process, in order. -/
inductive TermEvent
  /-- at most `n` bytes of input were asked for and `given` were handed out -/
  | asked (n given : Nat)
  /-- bytes were accepted -/
  | wrote (h : OutHandle) (bytes : List Byte)
  deriving DecidableEq, Repr

namespace TermEvent

/-- An event of a call on a handle; calls for input do not write. -/
def tag (h : OutHandle) : StdEvent → TermEvent
  | .asked n given => asked n given
  | .wrote bytes => wrote h bytes

end TermEvent

/-- The operating system's side: `sys` without its log, and the log.  One schedule is for the calls
to write on both handles. -/
structure Term where
  sys : Sys
  log : List TermEvent
  deriving DecidableEq, Repr

/-- A system call on a handle (`m_file_descriptor`, `unix_like_uout.cpp` 39; `m_handle`,
`windows_uout.cpp` 41); for calls that read, `h` does not matter. -/
def Term.call {α : Type} (h : OutHandle) (x : M Sys α) : M Term α := fun t =>
  let y := x { t.sys with log := [] }
  (y.1, ⟨{ y.2 with log := [] }, t.log ++ y.2.log.map (TermEvent.tag h)⟩)

/-- The buffers of the three resources. -/
structure Trio where
  inp : IoBuffer
  outs : OutHandle → IoBuffer
  term : Term

namespace Trio

/-- The resources as constructed: `unix_like_uin.cpp` 56, `unix_like_uout.cpp` 48-56,
`windows_uin.cpp` 65, `windows_uout.cpp` 53-61.  The capacities are configured at build time
(`config.hpp` 29-43). -/
def make (capIn : Nat) (cap : OutHandle → Nat) (supply : List Byte) (reads writes : List (Option Nat)) :
    Trio :=
  ⟨IoBuffer.make capIn, fun h => IoBuffer.make (cap h), ⟨⟨supply, reads, writes, []⟩, []⟩⟩

/-- An operation on the resource of a handle. -/
def onOut {α : Type} (h : OutHandle) (x : M (Res Term) α) : M Trio α := fun t =>
  let y := x ⟨t.outs h, t.term⟩
  (y.1, { t with outs := fun k => if k = h then y.2.buf else t.outs k, term := y.2.dev })

/-- An operation on the input resource. -/
def onIn {α : Type} (x : M (Res Term) α) : M Trio α := fun t =>
  let y := x ⟨t.inp, t.term⟩
  (y.1, { t with inp := y.2.buf, term := y.2.dev })

/-- `output_resource::write`, `output_resource.cpp` 21-31. -/
def write (p : StdPlatform) (h : OutHandle) (bytes : List Byte) : M Trio Nat :=
  onOut h (Res.write (fun b => Term.call h (p.writeRaw b)) bytes)

/-- `output_resource::flush`, `output_resource.cpp` 33-40. -/
def flush (p : StdPlatform) (h : OutHandle) : M Trio Unit :=
  onOut h (Res.flush fun b => Term.call h (p.writeRaw b))

/-- `input_resource::read`, `input_resource.cpp` 22-35, of the resource that its constructor ties to
`uout_resource`: `unix_like_uin.cpp` 12-20, `windows_uin.cpp` 12-21. -/
def read (p : StdPlatform) (n : Nat) : M Trio ReadResult := do
  flush p .out
  onIn (Res.read (fun n rr => Term.call .out (p.readRaw n rr)) n)

/-- The end of the program: the destructors of `uerr` and `uout` (`uio.cpp` 8-10 in reverse;
`output_stream.ipp` 25-31) flush.  The destructors of the resources do nothing. -/
def close (p : StdPlatform) : M Trio Unit := do
  flush p .err
  flush p .out

end Trio

end Cmp
