import Verif.Model.File

/-
Several `file` objects at once: `api/src/cmp/io/file.cpp`,
`api/src/cmp/io/impl/unix_like/unix_like_file.cpp` and
`api/src/cmp/io/impl/windows/windows_file.cpp`.  Each object has a descriptor with an offset of its
own and a buffer of its own; the files are common to all of them.  Windows opens files with
`FILE_SHARE_READ | FILE_SHARE_WRITE` (`windows_file.cpp` 103), so that on both systems a file can be
opened by several objects.
-/

namespace Cmp

/-- The files, and the `file` objects of the program by a name it has for each.  The `files` inside an
object (`FileDev`) are not used between operations: each operation is performed on the files as they
are then. -/
structure Disk where
  files : Nat → Option (List Byte)
  objects : Nat → Option FileObj

namespace Disk

variable {α : Type}

/-- The files before any object is constructed. -/
def make (files : Nat → Option (List Byte)) : Disk := ⟨files, fun _ => none⟩

/-- Give the name `i` to an object, or to none. -/
def put (d : Disk) (i : Nat) (f : Option FileObj) : Disk :=
  { d with objects := fun j => if j = i then f else d.objects j }

/-- An object on the files as they are now. -/
def load (files : Nat → Option (List Byte)) (f : FileObj) : FileObj :=
  { f with res := { f.res with dev := { f.res.dev with files := files } } }

/-- An operation of the object called `i`.  Without such an object it is undefined. -/
def use (i : Nat) (x : M FileObj α) : M Disk α := fun d =>
  match d.objects i with
  | none => (.ub, d)
  | some f =>
    let (o, f) := x (load d.files f)
    (o, { d.put i (some f) with files := f.res.dev.files })

/-- The constructor, `unix_like_file.cpp` 20-31, `windows_file.cpp` 20-31.  `calls`: what the
operating system makes of the object's reads. -/
def construct (P : FilePlatform) (i cap : Nat) (calls : List Nat) (path : Nat) (mode : AccessMode)
    (absent : IfNotThere) : M Disk Unit := fun d =>
  let f := FileObj.make P cap d.files calls path mode absent
  (.ok (), { d.put i (some f) with files := f.res.dev.files })

/-- The destructor, `unix_like_file.cpp` 33-36 and `windows_file.cpp` 33-36: the object is closed. -/
def destroy (P : FilePlatform) (i : Nat) : M Disk Unit := do
  use i (FileObj.close P)
  M.modify fun d => d.put i none

/-- `read`, `file.cpp` 53-66. -/
def read (P : FilePlatform) (i n : Nat) : M Disk ReadResult := use i (FileObj.read P n)

/-- `write`, `file.cpp` 68-81. -/
def write (P : FilePlatform) (i : Nat) (bytes : List Byte) : M Disk Nat := use i (FileObj.write P bytes)

/-- `flush`, `output_resource.cpp` 33-40. -/
def flush (P : FilePlatform) (i : Nat) : M Disk Unit := use i (FileObj.flush P)

/-- `set_position`, `seekable_io_resource.ipp` 26-39. -/
def setPosition (P : FilePlatform) (i : Nat) (p : Int) (pr : PositionReference) : M Disk Unit :=
  use i (FileObj.setPosition P p pr)

/-- `get_position`, `unix_like_file.cpp` 47-52 and `windows_file.cpp` 47-61. -/
def getPosition (P : FilePlatform) (i : Nat) : M Disk Int :=
  use i fun f => (FileObj.getPosition P f, f)

/-- `is_at_end`, `file.cpp` 44-49. -/
def isAtEnd (P : FilePlatform) (i : Nat) : M Disk Bool := use i fun f => (FileObj.isAtEnd P f, f)

/-- The content of a file, looked at by other means. -/
def look (path : Nat) : M Disk (List Byte) := fun d => (.ok ((d.files path).getD []), d)

/-- A file is changed by other means. -/
def assign (path : Nat) (content : List Byte) : M Disk Unit := M.modify fun d =>
  { d with files := fun p => if p = path then some content else d.files p }

end Disk

end Cmp
