/-
What a user asks of the build by the variables given to CMake.
-/
import Verif.Model.Cmake
import Verif.Spec.Preprocessor

namespace Cmp.Spec

open Cmp Cmp.Cmake

/-- `part` occurs somewhere in the text. -/
def Occurs (part text : String) : Prop := ∃ a b, text.toList = a ++ part.toList ++ b

/-- The words that stand for yes and for no according to CMake's manual, in capitals. -/
def answers : Bool → List String
  | true => ["1", "ON", "YES", "TRUE", "Y"]
  | false => ["0", "OFF", "NO", "FALSE", "N", "IGNORE", "NOTFOUND", ""]

/-- The user answers the question `name`; what is not answered is answered by default. -/
def Answered (v : Variables) (name : String) (byDefault answer : Bool) : Prop :=
  match v name with
  | none => answer = byDefault
  | some text => text.map Char.toUpper ∈ answers answer

instance (v n d a) : Decidable (Answered v n d a) := by unfold Answered; split <;> infer_instance

/-- The answer, if there is one, is `true` or `false`, in small letters. -/
def Plainly (v : Variables) (name : String) : Prop :=
  v name = none ∨ v name = some "true" ∨ v name = some "false"

/-- The name of the system in CMake. -/
def System.cmakeName : System → String
  | windows => "Windows"
  | macos => "Darwin"
  | linuxBased => "Linux"
  | freebsd => "FreeBSD"

/-- What a program that uses the desktop_gui package has to be linked with beside what every program of the
system is linked with. -/
def System.toolkit : System → Option String
  | windows => none
  | macos => some "-framework AppKit"
  | _ => some "PkgConfig::GTK4"

/-- The toolkits. -/
def toolkits : List String := ["-framework AppKit", "PkgConfig::GTK4"]

/-- The settings that the library is to be compiled with. -/
def settings (v : Variables) : Settings where
  headerOnly := (v "CMP_CONFIG_HEADER_ONLY").bind token
  ioExcluded := token ((v "CMP_CONFIG_IO_PACKAGE_EXCLUDED").getD "false")
  guiExcluded := token ((v "CMP_CONFIG_DESKTOP_GUI_PACKAGE_EXCLUDED").getD "false")
  capacity := (v "CMP_CONFIG_DEFAULT_BUFFER_CAPACITY").bind token
  stdoutCapacity := (v "CMP_CONFIG_DEFAULT_STDOUT_BUFFER_CAPACITY").bind token
  stderrCapacity := (v "CMP_CONFIG_DEFAULT_STDERR_BUFFER_CAPACITY").bind token
  stdinCapacity := (v "CMP_CONFIG_DEFAULT_STDIN_BUFFER_CAPACITY").bind token

/-- The variables that become macros. -/
def passedOn : List String := ["CMP_CONFIG_HEADER_ONLY", "CMP_CONFIG_DEFAULT_BUFFER_CAPACITY",
  "CMP_CONFIG_DEFAULT_STDOUT_BUFFER_CAPACITY", "CMP_CONFIG_DEFAULT_STDERR_BUFFER_CAPACITY",
  "CMP_CONFIG_DEFAULT_STDIN_BUFFER_CAPACITY", "CMP_CONFIG_DESKTOP_GUI_PACKAGE_EXCLUDED",
  "CMP_CONFIG_IO_PACKAGE_EXCLUDED", "CMP_CONFIG_LTO_REQUESTED"]

/-- A compiler for the system: none of its macros is one of the library's, or `true` or `false`. -/
structure CompilerFor (s : System) (m : Macros) : Prop where
  targets : Targets m s
  free : ∀ n, Reserved n → m n = none
  words : m "true" = none ∧ m "false" = none

/-- Each setting is a single token that means something by itself. -/
def Simple (v : Variables) (m : Macros) : Prop :=
  ∀ n ∈ passedOn, ∀ x, v n = some x → ∃ t, token x = some t ∧ Plain m t

/-- The variables that the build description itself sets. -/
def setByBuild : List String := ["CMP_CONFIG_DESKTOP_GUI_PACKAGE_EXCLUDED",
  "CMP_CONFIG_IO_PACKAGE_EXCLUDED", "CMP_BUILD_STATIC", "CMP_CONFIG_LTO_REQUESTED",
  "CMP_CONFIG_LTO_ENABLED", "lto_supported", "CMAKE_INTERPROCEDURAL_OPTIMIZATION", "CMP_BUILD_HO_TESTS"]

/-- The target is a system of this name, which is not the name of a variable too. -/
structure On (v : Variables) (name : String) : Prop where
  named : v "CMAKE_SYSTEM_NAME" = some name
  free : v name = none
  proper : name ≠ "" ∧ name ∉ setByBuild

/-- GTK can be found. -/
def HasGtk (e : Machine) : Prop := "PkgConfig" ∈ e.packages ∧ "gtk4" ∈ e.packages

/-- With these macros each of the headers can be included by itself. -/
def Usable (m : Macros) (headers : List String) : Prop :=
  ∀ h ∈ headers, ∃ u, Headers.translate m [.include h] = .done u

/-- A program can be compiled with the macros that it gets from the build. -/
def Compiles (predefined : Macros) (st : State) (t : Target) : Prop :=
  ∃ m, commandLine predefined (st.definitionsOf t) = some m ∧ Usable m (headersOf t.name)

/-- The desktop_gui package's code for the system is compiled. -/
def CompilesGui (m : Macros) (s : System) : Prop :=
  ∃ u, Headers.translate m Headers.guiDefinitions = .done u ∧
    s.gui ++ s.guiStem ++ "window" ++ s.guiSuffix ∈ u.files

/-- The io package's code for the system is compiled. -/
def CompilesIo (m : Macros) (s : System) : Prop :=
  ∃ u, Headers.translate m Headers.ioDefinitions = .done u ∧ s.io ++ s.ioStem ++ "file.cpp" ∈ u.files

/-- The sources in `tests/automated`. -/
def testSources : List String := ["core/test_core_general.cpp",
  "io/test_container_transfer_resources.cpp", "io/test_data_input_stream.cpp", "io/test_data_io_stream.cpp",
  "io/test_data_output_stream.cpp", "io/test_file.cpp", "io/test_io_general.cpp",
  "io/test_text_input_stream.cpp", "io/test_text_io_stream.cpp", "io/test_text_output_stream.cpp",
  "unicode/test_algorithms.cpp", "unicode/test_by_code_point.cpp", "unicode/test_examiners.cpp",
  "unicode/test_formatters.cpp", "unicode/test_parsers.cpp", "unicode/test_type_traits.cpp"]

end Cmp.Spec
