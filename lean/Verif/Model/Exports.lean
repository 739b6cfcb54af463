/-
Model of how the declarations of the library are marked for the linker: lines 53-59 of
`api/include/cmp/core/config.hpp`, the header that CMake's `generate_export_header` writes
(`api/CMakeLists.txt` 212-216), and what CMake defines when it compiles a shared library.
-/
import Verif.Model.Cmake

namespace Cmp

/-- The macros that get another replacement than the one they have while directives are preprocessed, which
the language forbids ([cpp.replace]); the steps are those of `preprocess`. -/
def redefinitions (file : String → List Directive) : Nat → List Directive → TranslationUnit → List String
  | _, [], _ => []
  | 0, _ :: _, _ => []
  | fuel + 1, .define n b :: ds, u =>
    (match u.macros n with
      | some b' => if b' = b then [] else [n]
      | none => []) ++ redefinitions file fuel ds { u with macros := u.macros.set n b }
  | fuel + 1, .include f :: ds, u =>
    redefinitions file fuel (file f ++ ds) { u with files := u.files ++ [f] }
  | fuel + 1, .choose bs o :: ds, u =>
    match Directive.branch u.macros bs o with
    | none => []
    | some chosen => redefinitions file fuel (chosen ++ ds) u
  | fuel + 1, .assert _ _ :: ds, u => redefinitions file fuel ds u
  | fuel + 1, .object _ _ _ :: ds, u => redefinitions file fuel ds u

namespace Headers

/-- What the compiler marks declarations with, each as one piece of text: of what a library offers, of what
is taken from a library, and of what is of no concern outside. -/
structure Marks where
  exported : String
  imported : String
  hidden : String

/-- The header that `api/CMakeLists.txt` 212-216 has written, as CMake's manual describes it.  Left out: the
marks for what is deprecated, which nothing uses. -/
def exportHeader (marks : Marks) : List Directive := guarded "CMP_EXPORT_H" [
  .choose [(.defined "CMP_STATIC_DEFINE", [.define "CMP_EXPORT" none, .define "CMP_NO_EXPORT" none])] [
    .choose [(.undefined "CMP_EXPORT", [
      .choose [(.defined "cmp_EXPORTS", [.define "CMP_EXPORT" (some (.text marks.exported))])]
        [.define "CMP_EXPORT" (some (.text marks.imported))]])] [],
    .choose [(.undefined "CMP_NO_EXPORT", [.define "CMP_NO_EXPORT" (some (.text marks.hidden))])] []]]

/-- The files that `core/config.hpp` may include. -/
def exportFiles (marks : Marks) (name : String) : List Directive :=
  if name = "cmp_export.hpp" then exportHeader marks else []

/-- `core/config.hpp` 54-59; `found` says whether there is a `cmp_export.hpp`. -/
def exportChoice (found : Bool) : Directive :=
  .choose [(equalsTrue "CMP_CONFIG_IS_DYNAMIC",
    if found then [.include "cmp_export.hpp", .define "CMP_LIBRARY_NAME" (some (.name "CMP_EXPORT"))]
    else [])] []

/-- The defaults in `core/config.hpp` 7-51. -/
def configDefaults : List Directive := [
  byDefault "CMP_CONFIG_IS_STATIC" (.name "false"),
  byDefault "CMP_CONFIG_IS_DYNAMIC" (.name "false"),
  byDefault "CMP_CONFIG_LTO_REQUESTED" (.name "true"),
  byDefault "CMP_CONFIG_LTO_ENABLED" (.name "false"),
  byDefault "CMP_CONFIG_HEADER_ONLY" (.name "false"),
  byDefault "CMP_CONFIG_DEFAULT_BUFFER_CAPACITY" (.int 1024),
  byDefault "CMP_CONFIG_DEFAULT_STDOUT_BUFFER_CAPACITY" (.name "CMP_CONFIG_DEFAULT_BUFFER_CAPACITY"),
  byDefault "CMP_CONFIG_DEFAULT_STDERR_BUFFER_CAPACITY" (.name "CMP_CONFIG_DEFAULT_BUFFER_CAPACITY"),
  byDefault "CMP_CONFIG_DEFAULT_STDIN_BUFFER_CAPACITY" (.name "CMP_CONFIG_DEFAULT_BUFFER_CAPACITY"),
  byDefault "CMP_CONFIG_DESKTOP_GUI_PACKAGE_EXCLUDED" (.name "false"),
  byDefault "CMP_CONFIG_IO_PACKAGE_EXCLUDED" (.name "false")]

/-- `core/config.hpp` 61-65. -/
def inlineChoice : Directive :=
  .choose [(equalsTrue "CMP_CONFIG_HEADER_ONLY", [.define "CMP_CONDITIONAL_INLINE" (some (.name "inline"))])]
    [.define "CMP_CONDITIONAL_INLINE" none]

/-- `core/config.hpp` 4-67, with the part for dynamic libraries that `config` leaves out.  Left out:
`CMP_CONFIG_IS_BUILDING` (15), which nothing uses. -/
def wholeConfig (found : Bool) : List Directive := guarded "CMP_CORE_CONFIG_HPP_INCLUDED"
  (configDefaults ++ [.define "CMP_LIBRARY_NAME" none, exportChoice found, inlineChoice])

/-- What `#include <cmp/core/config.hpp>` comes to at the start of a translation unit. -/
def readConfig (marks : Marks) (found : Bool) (m : Macros) : Preprocessed :=
  preprocess (exportFiles marks) 100 (wholeConfig found) ⟨m, [], []⟩

/-- The macros that it defines once more in another way. -/
def configRedefinitions (marks : Marks) (found : Bool) (m : Macros) : List String :=
  redefinitions (exportFiles marks) 100 (wholeConfig found) ⟨m, [], []⟩

end Headers

namespace Cmake

/-- While a shared library is compiled CMake defines a macro that says so. -/
def exporting (t : Target) (p : Macros) : Macros :=
  if t.kind = .sharedLibrary then p.set (t.name ++ "_EXPORTS") (some (.int 1)) else p

/-- `api/CMakeLists.txt` 148-154: the directory of the header is searched for the library and for what
links with it.  It is that in which the header is written: `project` is called in this file. -/
def findsExports (t : Target) : Bool := t.name = "cmp" || t.links.contains "cmp"

/-- The macros with which a target is compiled by a compiler that predefines `p`. -/
def State.macrosOf (s : State) (t : Target) (p : Macros) : Option Macros :=
  commandLine (exporting t p) (s.definitionsOf t)

end Cmake

end Cmp
