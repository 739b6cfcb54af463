/-
Which system a compiler targets and what a configuration asks for, in terms of the macros that are
defined before the library's headers are read.
-/
import Verif.Model.Preprocessor

namespace Cmp.Spec

open Cmp

/-- The systems the library supports. -/
inductive System
  | windows
  | macos
  | linuxBased
  | freebsd
  deriving DecidableEq, Repr

/-- The macros by which a compiler tells that it targets the system. -/
def System.marks : System → List String
  | windows => ["_WIN32", "_WIN64", "__WIN32__", "__TOS_WIN__", "__WINDOWS__"]
  | macos => ["__APPLE__", "__MACH__"]
  | linuxBased => ["__linux__", "linux", "__linux"]
  | freebsd => ["__FreeBSD__"]

/-- Its name for the user. -/
def System.title : System → String
  | windows => "Windows"
  | macos => "macOS"
  | linuxBased => "Linux-based"
  | freebsd => "FreeBSD"

/-- The compiler targets `s`: of all the marks it defines one of that system and none of another. -/
def Targets (m : Macros) (s : System) : Prop :=
  (∃ n ∈ s.marks, m n ≠ none) ∧ ∀ t, t ≠ s → ∀ n ∈ t.marks, m n = none

/-- The compiler defines no mark of any supported system. -/
def TargetsNone (m : Macros) : Prop := ∀ s : System, ∀ n ∈ s.marks, m n = none

/-- The name of the compiler for the user; Clang also defines the macro of GCC, and on Windows that of
Visual C++. -/
def compilerTitle (m : Macros) : String :=
  if (m "__clang__").isSome then "Clang" else if (m "__GNUC__").isSome then "GCC"
  else if (m "_MSC_VER").isSome then "Visual C++" else "<Unsupported>"

/-- What the user asks for: the tokens for the settings, if given. -/
structure Settings where
  headerOnly : Option PpToken := none
  ioExcluded : Option PpToken := none
  guiExcluded : Option PpToken := none
  capacity : Option PpToken := none
  stdoutCapacity : Option PpToken := none
  stderrCapacity : Option PpToken := none
  stdinCapacity : Option PpToken := none

/-- The macro that gives each setting. -/
def Settings.given (c : Settings) : List (String × Option PpToken) := [
  ("CMP_CONFIG_HEADER_ONLY", c.headerOnly),
  ("CMP_CONFIG_IO_PACKAGE_EXCLUDED", c.ioExcluded),
  ("CMP_CONFIG_DESKTOP_GUI_PACKAGE_EXCLUDED", c.guiExcluded),
  ("CMP_CONFIG_DEFAULT_BUFFER_CAPACITY", c.capacity),
  ("CMP_CONFIG_DEFAULT_STDOUT_BUFFER_CAPACITY", c.stdoutCapacity),
  ("CMP_CONFIG_DEFAULT_STDERR_BUFFER_CAPACITY", c.stderrCapacity),
  ("CMP_CONFIG_DEFAULT_STDIN_BUFFER_CAPACITY", c.stdinCapacity)]

/-- Names that belong to the library: every one that begins like this. -/
def Reserved (n : String) : Prop := n.toList.take 4 = ['C', 'M', 'P', '_']

instance : DecidablePred Reserved := fun n => by unfold Reserved; infer_instance

/-- A token that means something by itself: a number, or a name that is neither a macro nor one of the
library's. -/
def Plain (m : Macros) : PpToken → Prop
  | .int _ => True
  | .name n => m n = none ∧ ¬ Reserved n
  | .text _ => False

/-- The settings that have no part in what is chosen here. -/
def unrelated : List String := ["CMP_CONFIG_IS_STATIC", "CMP_CONFIG_IS_DYNAMIC",
  "CMP_CONFIG_LTO_REQUESTED", "CMP_CONFIG_LTO_ENABLED"]

/-- The macros before the first header: of the library's names only settings are defined, as the user
gave them, and `true` and `false` are not macros. -/
structure Before (m : Macros) (c : Settings) : Prop where
  given : ∀ p ∈ c.given, m p.1 = p.2.map some
  plain : ∀ p ∈ c.given, ∀ t, p.2 = some t → Plain m t
  others : ∀ n, Reserved n → (∀ p ∈ c.given, n ≠ p.1) → n ∉ unrelated → m n = none
  words : m "true" = none ∧ m "false" = none

/-- The number of a setting in a condition. -/
def number : PpToken → Int
  | .int n => n
  | .name n => if n = "true" then 1 else 0
  | .text _ => 0

/-- Whether a setting is understood as no by a `static_assert` as well. -/
def IsNo (t : PpToken) : Prop := t = .int 0 ∨ t = .name "false"

/-- The capacity that the user asked for. -/
def asked (own general : Option PpToken) : PpToken := (own.or general).getD (.int 1024)

/-- The system the macros point to when they may be marks of several: the first of them in the order in
which they are listed. -/
def firstMarked (m : Macros) : Option System :=
  if ∃ n ∈ System.windows.marks, m n ≠ none then some .windows
  else if ∃ n ∈ System.macos.marks, m n ≠ none then some .macos
  else if ∃ n ∈ System.linuxBased.marks, m n ≠ none then some .linuxBased
  else if ∃ n ∈ System.freebsd.marks, m n ≠ none then some .freebsd
  else none

/-- Where the implementations of the io package are. -/
def ioDirectories : List String := ["cmp/io/impl/windows/", "cmp/io/impl/unix_like/"]

/-- Where those of the desktop_gui package are. -/
def guiDirectories : List String :=
  ["cmp/desktop_gui/impl/windows/", "cmp/desktop_gui/impl/macos/", "cmp/desktop_gui/impl/gtk/"]

/-- The directory for each system. -/
def System.io : System → String
  | windows => "cmp/io/impl/windows/"
  | _ => "cmp/io/impl/unix_like/"

/-- What the names of the files there begin with. -/
def System.ioStem : System → String
  | windows => "windows_"
  | _ => "unix_like_"

/-- The same for the desktop_gui package. -/
def System.gui : System → String
  | windows => "cmp/desktop_gui/impl/windows/"
  | macos => "cmp/desktop_gui/impl/macos/"
  | _ => "cmp/desktop_gui/impl/gtk/"

def System.guiStem : System → String
  | windows => "windows_"
  | macos => "macos_"
  | _ => "gtk_"

/-- The sources for macOS are in Objective-C++. -/
def System.guiSuffix : System → String
  | macos => ".mm"
  | _ => ".cpp"

/-- The file is in the directory. -/
def In (directory file : String) : Prop :=
  file.toList.take directory.toList.length = directory.toList

instance (d f) : Decidable (In d f) := by unfold In; infer_instance

/-- Of the implementations in `directories`, the files belong to no other than the one in `d`. -/
def Only (directories : List String) (d : String) (files : List String) : Prop :=
  ∀ f ∈ files, ∀ e ∈ directories, In e f → e = d

instance (a d f) : Decidable (Only a d f) := by unfold Only; infer_instance

/-- The files belong to none of the implementations in `directories`. -/
def NoneOf (directories : List String) (files : List String) : Prop :=
  ∀ f ∈ files, ∀ e ∈ directories, ¬ In e f

instance (a f) : Decidable (NoneOf a f) := by unfold NoneOf; infer_instance

/-- The files that are compiled rather than included for their declarations. -/
def sourcesOf (files : List String) : List String :=
  files.filter fun f => f.toList.drop (f.toList.length - 4) = ".cpp".toList ∨
    f.toList.drop (f.toList.length - 3) = ".mm".toList

/-- The setting for header-only use as a number. -/
def Settings.mode (c : Settings) : Int := number (c.headerOnly.getD (.name "false"))

/-- The io package is not excluded. -/
def Settings.UsesIo (c : Settings) : Prop := IsNo (c.ioExcluded.getD (.name "false"))

/-- The desktop_gui package is not excluded and the library is compiled. -/
def Settings.UsesGui (c : Settings) : Prop :=
  IsNo (c.guiExcluded.getD (.name "false")) ∧ IsNo (c.headerOnly.getD (.name "false"))

/-- The three resources and the three streams, each defined once and with the capacity that was asked for,
and every stream after its resource. -/
def Six (c : Settings) (isInline : Bool) (l : List ObjectDefinition) : Prop :=
  l.Perm [⟨"uin_resource", isInline, some (asked c.stdinCapacity c.capacity)⟩,
    ⟨"uout_resource", isInline, some (asked c.stdoutCapacity c.capacity)⟩,
    ⟨"uerr_resource", isInline, some (asked c.stderrCapacity c.capacity)⟩,
    ⟨"uin", isInline, none⟩, ⟨"uout", isInline, none⟩, ⟨"uerr", isInline, none⟩] ∧
  ["uin_resource", "uin"].Sublist (l.map ObjectDefinition.name) ∧
  ["uout_resource", "uout"].Sublist (l.map ObjectDefinition.name) ∧
  ["uerr_resource", "uerr"].Sublist (l.map ObjectDefinition.name)

end Cmp.Spec
