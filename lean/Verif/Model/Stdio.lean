import Verif.Model.Buffer

/-
Model of the standard streams' resources: `api/src/cmp/io/impl/unix_like/unix_like_uin.cpp`,
`unix_like_uout.cpp`, `api/src/cmp/io/impl/windows/windows_uin.cpp`, `windows_uout.cpp`, and of
`input_resource::tie`.

The operating system is a state `Sys`; how much each call transfers is a parameter (a schedule).
-/

namespace Cmp

/-- What a process does with its standard streams, in order. -/
inductive StdEvent
  /-- the system was asked for at most `n` bytes of standard input and handed out `given` -/
  | asked (n given : Nat)
  /-- the system accepted bytes for standard output -/
  | wrote (bytes : List Byte)
  deriving DecidableEq, Repr

/-- The operating system's side of standard input and output.  A schedule has an entry for each
call: `none` if it fails, `some k` if it transfers `k` bytes (or as many as possible); a call
behind the end of the schedule transfers as many bytes as possible. -/
structure Sys where
  /-- the bytes of standard input not yet given out -/
  supply : List Byte
  reads : List (Option Nat)
  writes : List (Option Nat)
  log : List StdEvent
  deriving DecidableEq, Repr

namespace Sys

/-- All bytes accepted for standard output. -/
def output (log : List StdEvent) : List Byte := log.flatMap fun
  | .asked _ _ => []
  | .wrote bytes => bytes

/-- The number of bytes of standard input handed out. -/
def given (log : List StdEvent) : Nat := (log.map fun
  | .asked _ k => k
  | .wrote _ => 0).sum

/-- How many of `n` bytes the first entry of a schedule transfers. -/
def transferred (n : Nat) : List (Option Nat) → Option Nat
  | [] => some n
  | none :: _ => none
  | some k :: _ => some (min k n)

/-- `::read(STDIN_FILENO, data, n)`; `none` is the return value -1. -/
def read (n : Nat) : M Sys (Option (List Byte)) := fun s =>
  let g := (transferred n s.reads).map s.supply.take
  (.ok g, { s with
    supply := s.supply.drop (g.map List.length |>.getD 0)
    reads := s.reads.tail
    log := s.log ++ [.asked n (g.map List.length |>.getD 0)] })

/-- `::write(STDOUT_FILENO, data, n)`; `none` is the return value -1. -/
def write (bytes : List Byte) : M Sys (Option Nat) := fun s =>
  let k := transferred bytes.length s.writes
  (.ok k, { s with
    writes := s.writes.tail
    log := s.log ++ [.wrote (bytes.take (k.getD 0))] })

end Sys

/-- `stdin_resource::read_raw` on Unix, `unix_like_uin.cpp` 33-40.  The return value -1 becomes the
largest `std::size_t`. -/
def Stdin.readRaw (n : Nat) (_ : ReadRequest) : M Sys ReadResult := do
  let g ← Sys.read n
  match g with
  | some bytes => pure ⟨bytes, bytes.length⟩
  | none => pure ⟨[], 2 ^ 64 - 1⟩

/-- `stdin_resource::read_raw` on Windows, `windows_uin.cpp` 34-49, for a console that delivers
whole two-byte units: the schedule counts units.  If `ReadConsoleW` fails `chars_read` may not
have been set.  The conversion to `DWORD` is left out: for requests of less than 2^33 bytes. -/
def Stdin.readRawWindows (n : Nat) (_ : ReadRequest) : M Sys ReadResult := fun s =>
  match Sys.transferred (n / 2) s.reads with
  | some k =>
    let bytes := s.supply.take (2 * k)
    (.ok ⟨bytes, bytes.length⟩, { s with
      supply := s.supply.drop (2 * k), reads := s.reads.tail, log := s.log ++ [.asked n bytes.length] })
  | none => (.ub, s)

/-- `stdout_resource::write_raw` on Unix, `unix_like_uout.cpp` 34-44. -/
def Stdout.writeRaw (bytes : List Byte) : M Sys Nat := do
  let k ← Sys.write bytes
  match k with
  | some k => pure k
  | none => pure 0

/-- `stdout_resource::write_raw` on Windows, `windows_uout.cpp` 35-49: `bytes_written` stays 0 if
the call fails.  The conversion to `DWORD` is left out: for less than 2^32 bytes. -/
def Stdout.writeRawWindows (bytes : List Byte) : M Sys Nat := do
  let k ← Sys.write bytes
  pure (k.getD 0)

/-- An input resource and the output resource it is tied to: `m_tied_resource`, and the
constructor of `stdin_resource`, `unix_like_uin.cpp` 12-20. -/
structure Tied (ω : Type) where
  inp : IoBuffer
  out : IoBuffer
  world : ω
  deriving DecidableEq

namespace Tied

variable {ω α : Type}

/-- An operation on the input resource. -/
def onIn (x : M (Res ω) α) : M (Tied ω) α := fun t =>
  ((x ⟨t.inp, t.world⟩).1,
    { t with inp := (x ⟨t.inp, t.world⟩).2.buf, world := (x ⟨t.inp, t.world⟩).2.dev })

/-- An operation on the output resource. -/
def onOut (x : M (Res ω) α) : M (Tied ω) α := fun t =>
  ((x ⟨t.out, t.world⟩).1,
    { t with out := (x ⟨t.out, t.world⟩).2.buf, world := (x ⟨t.out, t.world⟩).2.dev })

/-- `input_resource::read` with a tied output resource, `input_resource.cpp` 22-35. -/
def read (rd : Nat → ReadRequest → M ω ReadResult) (wr : List Byte → M ω Nat) (n : Nat) :
    M (Tied ω) ReadResult := do
  onOut (Res.flush wr)
  onIn (Res.read rd n)

/-- `output_resource::write`. -/
def write (wr : List Byte → M ω Nat) (bytes : List Byte) : M (Tied ω) Nat :=
  onOut (Res.write wr bytes)

/-- `output_resource::flush`. -/
def flush (wr : List Byte → M ω Nat) : M (Tied ω) Unit := onOut (Res.flush wr)

end Tied

end Cmp
