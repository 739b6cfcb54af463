import Verif.Model.Stream
import Verif.Model.Container
import Verif.Model.File
import Verif.Model.Stdio

/-
The resources the streams are used with, as the members a stream calls.
-/

namespace Cmp

/-- An input container resource: `input_resource::read` (`input_resource.cpp` 22-35) over
`ctr_essence::read_raw`, and `is_at_end` (`ctr_essence.ipp` 54-67). -/
def Ctr.reader : Reader (Res Ctr) := ⟨Res.read Ctr.readRaw, fun r => .ok (Ctr.isAtEnd r)⟩

/-- An output container resource: `output_resource::write` and `flush` (`output_resource.cpp`
21-40) over `ctr_essence::write_raw`. -/
def Ctr.writer : Writer (Res Ctr) := ⟨Res.write Ctr.writeRaw, Res.flush Ctr.writeRaw⟩

/-- A file to read from, `file.cpp` 44-66. -/
def FileObj.reader (P : FilePlatform) : Reader FileObj := ⟨FileObj.read P, FileObj.isAtEnd P⟩

/-- A file to write to, `file.cpp` 68-81. -/
def FileObj.writer (P : FilePlatform) : Writer FileObj := ⟨FileObj.write P, FileObj.flush P⟩

/-- Standard input tied to standard output (Unix), `unix_like_uin.cpp` 12-40: it is never at its
end. -/
def Tied.stdin : Reader (Tied Sys) := ⟨Tied.read Stdin.readRaw Stdout.writeRaw, fun _ => .ok false⟩

/-- Standard output (Unix). -/
def Tied.stdout : Writer (Tied Sys) := ⟨Tied.write Stdout.writeRaw, Tied.flush Stdout.writeRaw⟩

end Cmp
