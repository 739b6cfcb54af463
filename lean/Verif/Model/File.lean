import Verif.Model.Buffer

/-
Model of files: `api/src/cmp/io/file.cpp`, `api/src/cmp/io/impl/unix_like/unix_like_file.cpp` and
`api/src/cmp/io/impl/windows/windows_file.cpp`.

The operating system is modelled by what it documents for regular files that no one else changes:
a file is a list of bytes, a descriptor has an offset, `::read` returns at least one byte unless it
is at the end, `::write` accepts everything, `::lseek` refuses negative targets.  How many bytes
each `::read` returns is a parameter (a schedule).  Paths are numbers; the empty path is `none`.
-/

namespace Cmp

/-- `access_mode`, `api/include/cmp/io/general.hpp` 14-18. -/
inductive AccessMode
  | readOnly
  | writeOnly
  | readAndWrite
  deriving DecidableEq, Repr

/-- `if_not_there`, `api/include/cmp/io/general.hpp` 42-45. -/
inductive IfNotThere
  | fail
  | create
  deriving DecidableEq, Repr

/-- An open file: what the operating system keeps for a descriptor. -/
structure Desc where
  path : Nat
  offset : Nat
  mode : AccessMode
  deriving DecidableEq, Repr

/-- The part of a `file` object below its buffer, with the file system: `m_file_descriptor`
(`none` is -1) and `m_last_fill_amount`.  `reads` schedules how many bytes each `::read` returns at
most; behind its end, and for 0, see `sysRead`. -/
structure FileDev where
  files : Nat → Option (List Byte)
  fd : Option Desc
  lastFill : Nat
  reads : List Nat

namespace FileDev

/-- How many of `n` bytes a read returns at most: at least one, unless `n` is 0. -/
def portion (n : Nat) : List Nat → Nat
  | [] => n
  | k :: _ => min n (max 1 k)

/-- `::read` (`ReadFile`); `none` is failure. -/
def sysRead (n : Nat) : M FileDev (Option (List Byte)) := fun d =>
  match d.fd with
  | none => (.ok none, d)
  | some f =>
    if f.mode = .writeOnly then (.ok none, d)
    else
      let bytes := (((d.files f.path).getD []).drop f.offset).take (portion n d.reads)
      (.ok (some bytes), { d with
        fd := some { f with offset := f.offset + bytes.length }, reads := d.reads.tail })

/-- What writing makes of a file: a gap between the end and the offset becomes zero bytes. -/
def patched (content : List Byte) (offset : Nat) (bytes : List Byte) : List Byte :=
  if bytes = [] then content
  else (content ++ List.replicate (offset - content.length) 0).take offset ++ bytes ++
    content.drop (offset + bytes.length)

/-- `::write` (`WriteFile`); `none` is failure. -/
def sysWrite (bytes : List Byte) : M FileDev (Option Nat) := fun d =>
  match d.fd with
  | none => (.ok none, d)
  | some f =>
    if f.mode = .readOnly then (.ok none, d)
    else (.ok (some bytes.length), { d with
      files := fun p =>
        if p = f.path then some (patched ((d.files f.path).getD []) f.offset bytes) else d.files p
      fd := some { f with offset := f.offset + bytes.length } })

/-- `::lseek` (`SetFilePointerEx`). -/
def sysSeek (p : Int) (pr : PositionReference) : M FileDev Unit := M.modify fun d =>
  match d.fd with
  | none => d
  | some f =>
    let target := p + match pr with
      | .begin => (0 : Int)
      | .current => f.offset
      | .end => ((d.files f.path).getD []).length
    if target < 0 then d else { d with fd := some { f with offset := target.toNat } }

/-- `set_position_raw` on Unix, `unix_like_file.cpp` 105-131. -/
def seek (p : Int) (pr : PositionReference) : M FileDev Unit := M.noexcept do
  sysSeek (if pr = .begin ∧ p < 0 then 0 else p) pr
  M.modify fun d => { d with lastFill := 0 }

/-- `set_position_raw` on Windows, `windows_file.cpp` 124-158: the distance is taken before the
position is clamped. -/
def seekWindows (p : Int) (pr : PositionReference) : M FileDev Unit := M.noexcept do
  sysSeek p pr
  M.modify fun d => { d with lastFill := 0 }

/-- The loop of `read_block` on Unix, `unix_like_file.cpp` 227-236: each `::read` is given the same
address and count.  `stored` is what the caller's array holds, `total` is `bytes_read_total`. -/
def readLoop (n : Nat) : Nat → List Byte → Nat → M FileDev ReadResult
  | 0, _, _ => M.hang
  | fuel + 1, stored, total => do
    let got ← sysRead n
    match got with
    | none => pure ⟨stored, total⟩
    | some bytes =>
      if bytes.length = 0 then pure ⟨stored, total⟩
      else if total + bytes.length = n then
        pure ⟨bytes ++ stored.drop bytes.length, total + bytes.length⟩
      else readLoop n fuel (bytes ++ stored.drop bytes.length) (total + bytes.length)

/-- `read_block` on Unix, `unix_like_file.cpp` 218-239.  Each round takes at least one byte of the
file, which bounds the loop. -/
def readBlock (n : Nat) : M FileDev ReadResult := do
  let d ← M.get
  readLoop n (((d.fd.bind fun f => d.files f.path).getD []).length + 1) [] 0

/-- The loop of `read_block` on Windows, `windows_file.cpp` 255-271: address and count advance. -/
def readLoopWindows (n : Nat) : Nat → List Byte → M FileDev ReadResult
  | 0, _ => M.hang
  | fuel + 1, stored => do
    let got ← sysRead (n - stored.length)
    match got with
    | none => pure ⟨stored, stored.length⟩
    | some bytes =>
      if bytes.length = 0 ∨ stored.length + bytes.length = n then
        pure ⟨stored ++ bytes, stored.length + bytes.length⟩
      else readLoopWindows n fuel (stored ++ bytes)

/-- `read_block` on Windows, `windows_file.cpp` 245-274. -/
def readBlockWindows (n : Nat) : M FileDev ReadResult := do
  let d ← M.get
  readLoopWindows n (((d.fd.bind fun f => d.files f.path).getD []).length + 1) []

/-- The loop of `read_raw` over blocks of at most `most` bytes, `unix_like_file.cpp` 151-167 and
`windows_file.cpp` 178-194: every block is stored at the same address.  The loop is run at most
once per byte. -/
def readBlocks (block : Nat → M FileDev ReadResult) (most : Nat) : Nat → Nat → M FileDev ReadResult
  | 0, n => if n = 0 then pure ⟨[], 0⟩ else M.hang
  | fuel + 1, n =>
    if n = 0 then pure ⟨[], 0⟩
    else do
      let got ← block (min n most)
      if got.count ≠ min n most then pure got
      else do
        let more ← readBlocks block most fuel (n - most)
        pure ⟨more.bytes ++ got.bytes.drop more.bytes.length, got.count + more.count⟩

/-- The loop of `write_raw` over blocks of at most `most` bytes, `unix_like_file.cpp` 195-211 and
`windows_file.cpp` 222-238: every block is taken from the same address. -/
def writeBlocks (most : Nat) (data : List Byte) : Nat → Nat → M FileDev Nat
  | 0, n => if n = 0 then pure 0 else M.hang
  | fuel + 1, n =>
    if n = 0 then pure 0
    else do
      let got ← sysWrite (data.take (min n most))
      if got.getD 0 ≠ min n most then pure (got.getD 0)
      else do
        let more ← writeBlocks most data fuel (n - most)
        pure (got.getD 0 + more)

/-- `std::numeric_limits<ssize_t>::max()`. -/
def ssizeMax : Nat := 2 ^ 63 - 1

/-- `std::numeric_limits<DWORD>::max()`. -/
def dwordMax : Nat := 2 ^ 32 - 1

/-- The start of `read_raw`, `unix_like_file.cpp` 141-143. -/
def skipFill (sk : Int → PositionReference → M FileDev Unit) (rr : ReadRequest) :
    M FileDev Unit := do
  let d ← M.get
  if rr = .fillBuffer ∧ d.lastFill > 0 then Res.goForward sk d.lastFill else pure ()

/-- The end of `read_raw`, `unix_like_file.cpp` 174-177. -/
def noteFill (sk : Int → PositionReference → M FileDev Unit) (rr : ReadRequest) (n : Nat) :
    M FileDev Unit :=
  if rr = .fillBuffer then do
    Res.goBack sk n
    M.modify fun d => { d with lastFill := n }
  else pure ()

/-- `read_raw` on Unix, `unix_like_file.cpp` 133-180. -/
def readRaw (n : Nat) (rr : ReadRequest) : M FileDev ReadResult := M.noexcept do
  skipFill seek rr
  let got ← readBlocks readBlock ssizeMax n n
  noteFill seek rr got.count
  pure got

/-- `read_raw` on Windows, `windows_file.cpp` 160-207. -/
def readRawWindows (n : Nat) (rr : ReadRequest) : M FileDev ReadResult := M.noexcept do
  skipFill seekWindows rr
  let got ← readBlocks readBlockWindows dwordMax n n
  noteFill seekWindows rr got.count
  pure got

/-- `write_raw` on Unix, `unix_like_file.cpp` 182-214, with `write_block`, 241-253. -/
def writeRaw (bytes : List Byte) : M FileDev Nat :=
  M.noexcept (writeBlocks ssizeMax bytes bytes.length bytes.length)

/-- `write_raw` on Windows, `windows_file.cpp` 209-241, with `write_block`, 276-292. -/
def writeRawWindows (bytes : List Byte) : M FileDev Nat :=
  M.noexcept (writeBlocks dwordMax bytes bytes.length bytes.length)

end FileDev

/-- Which of the two implementations of `file`: `unix_like_file.cpp` or `windows_file.cpp`. -/
inductive FilePlatform
  | unix
  | windows
  deriving DecidableEq, Repr

namespace FilePlatform

/-- `read_raw` of the platform: `unix_like_file.cpp` 133-180, `windows_file.cpp` 160-207. -/
def readRaw : FilePlatform → Nat → ReadRequest → M FileDev ReadResult
  | .unix => FileDev.readRaw
  | .windows => FileDev.readRawWindows

/-- `write_raw` of the platform: `unix_like_file.cpp` 182-214, `windows_file.cpp` 209-241. -/
def writeRaw : FilePlatform → List Byte → M FileDev Nat
  | .unix => FileDev.writeRaw
  | .windows => FileDev.writeRawWindows

/-- `set_position_raw` of the platform: `unix_like_file.cpp` 105-131, `windows_file.cpp`
124-158. -/
def seek : FilePlatform → Int → PositionReference → M FileDev Unit
  | .unix => FileDev.seek
  | .windows => FileDev.seekWindows

/-- What the system is told to do if the file is not there: `O_CREAT` only if asked for on Unix,
`unix_like_file.cpp` 86-88; always `OPEN_ALWAYS` on Windows, `windows_file.cpp` 105. -/
def disposition : FilePlatform → IfNotThere → IfNotThere
  | .unix, absent => absent
  | .windows, _ => .create

end FilePlatform

/-- A `file` object: `basic_file`'s members (`m_file_path` and `m_access_mode`) and the rest. -/
structure FileObj where
  res : Res FileDev
  path : Option Nat
  mode : AccessMode

namespace FileObj

variable {α : Type}

/-- Run an operation of the resource. -/
def onRes (x : M (Res FileDev) α) : M FileObj α := fun f =>
  ((x f.res).1, { f with res := (x f.res).2 })

/-- `basic_file::read`, `file.cpp` 53-66. -/
def read (P : FilePlatform) (n : Nat) : M FileObj ReadResult := do
  let f ← M.get
  match f.mode with
  | .readOnly => onRes (Res.read P.readRaw n)
  | .readAndWrite => onRes (Res.read P.readRaw n)
  | .writeOnly => M.throw .invalidAccessMode

/-- `basic_file::write`, `file.cpp` 68-81. -/
def write (P : FilePlatform) (bytes : List Byte) : M FileObj Nat := do
  let f ← M.get
  match f.mode with
  | .readOnly => M.throw .invalidAccessMode
  | .writeOnly => onRes (Res.write P.writeRaw bytes)
  | .readAndWrite => onRes (Res.write P.writeRaw bytes)

/-- `output_resource::flush` on a file, `output_resource.cpp` 33-40. -/
def flush (P : FilePlatform) : M FileObj Unit := onRes (Res.flush P.writeRaw)

/-- `seekable_io_resource::set_position` on a file. -/
def setPosition (P : FilePlatform) (p : Int) (pr : PositionReference) : M FileObj Unit :=
  onRes (Res.setPositionIO P.writeRaw P.seek p pr)

/-- `is_open`, `unix_like_file.cpp` 40-45 and `windows_file.cpp` 40-45. -/
def isOpen (f : FileObj) : Bool := f.res.dev.fd.isSome

/-- `get_access_mode`, `file.cpp` 37-42. -/
def getAccessMode (f : FileObj) : AccessMode := f.mode

/-- `get_position`, `unix_like_file.cpp` 47-52 and `windows_file.cpp` 47-61.  For an object that is
not open, `::lseek` returns -1 on Unix; on Windows `SetFilePointerEx` fails and leaves
`position_structure` uninitialised, which is then read. -/
def getPosition (P : FilePlatform) (f : FileObj) : Outcome Int :=
  match f.res.dev.fd, P with
  | some d, _ => .ok ((d.offset : Int) + f.res.buf.position)
  | none, .unix => .ok (-1 + f.res.buf.position)
  | none, .windows => .ub

/-- `basic_file::is_at_end` (`noexcept`), `file.cpp` 44-49: `file_size` throws for a path that is
not there. -/
def isAtEnd (P : FilePlatform) (f : FileObj) : Outcome Bool :=
  match getPosition P f with
  | .ok position =>
    match f.path.bind f.res.dev.files with
    | some content => .ok (position == (content.length : Int))
    | none => .terminate
  | _ => .ub

/-- `close` (`noexcept`), `unix_like_file.cpp` 94-101 and `windows_file.cpp` 113-120. -/
def close (P : FilePlatform) : M FileObj Unit := M.noexcept do
  flush P
  M.modify fun f => { f with res := { f.res with dev := { f.res.dev with fd := none } } }

/-- `::open`, `CreateFileW`. -/
def sysOpen (d : FileDev) (path : Nat) (mode : AccessMode) (absent : IfNotThere) : FileDev :=
  match d.files path with
  | some _ => { d with fd := some ⟨path, 0, mode⟩ }
  | none =>
    if absent = .create then
      { d with
        files := fun p => if p = path then some [] else d.files p
        fd := some ⟨path, 0, mode⟩ }
    else { d with fd := none }

/-- The part of `open` after closing, `unix_like_file.cpp` 67-91 and `windows_file.cpp`
76-110. -/
def openClosed (P : FilePlatform) (path : Nat) (mode : AccessMode) (absent : IfNotThere) :
    M FileObj Bool := do
  let f ← M.get
  if absent = .fail ∧ (f.res.dev.files path).isNone then pure false
  else do
    M.modify fun f => { f with
      res := { f.res with dev := sysOpen f.res.dev path mode (P.disposition absent) }
      mode := mode }
    let f ← M.get
    pure (isOpen f)

/-- `open` (`noexcept`), `unix_like_file.cpp` 56-92 and `windows_file.cpp` 65-111.  The buffer,
`m_last_fill_amount` and `m_file_path` stay as they are. -/
def openFile (P : FilePlatform) (path : Nat) (mode : AccessMode) (absent : IfNotThere) :
    M FileObj Bool :=
  M.noexcept do
    let f ← M.get
    if isOpen f then do
      close P
      openClosed P path mode absent
    else openClosed P path mode absent

/-- The default constructor, `unix_like_file.cpp` 12-18, `windows_file.cpp` 12-18 and `file.cpp`
12-20. -/
def default (cap : Nat) (files : Nat → Option (List Byte)) (reads : List Nat) : FileObj :=
  ⟨⟨IoBuffer.make cap, ⟨files, none, 0, reads⟩⟩, none, .readOnly⟩

/-- The constructor, `unix_like_file.cpp` 20-31, `windows_file.cpp` 20-31 and `file.cpp` 22-33. -/
def make (P : FilePlatform) (cap : Nat) (files : Nat → Option (List Byte)) (reads : List Nat)
    (path : Nat) (mode : AccessMode) (absent : IfNotThere) : FileObj :=
  (openFile P path mode absent
    ⟨⟨IoBuffer.make cap, ⟨files, none, 0, reads⟩⟩, some path, mode⟩).2

end FileObj

end Cmp
