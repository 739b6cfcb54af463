/-
Model of the build description: `CMakeLists.txt`, `api/CMakeLists.txt`, `tests/CMakeLists.txt`,
`tests/automated/CMakeLists.txt`, `tests/manual/CMakeLists.txt`, `examples/CMakeLists.txt` and those of
the two examples, as far as it decides what is built, with which settings, and what it is linked with.
-/
import Verif.Model.Preprocessor

namespace Cmp.Cmake

/-- The variables that are defined and their values.  Those given on the command line of CMake and those
that are set are not told apart: a script reads the latter first, and none here changes the former. -/
abbrev Variables := String → Option String

/-- `set(NAME value)`. -/
def Variables.set (v : Variables) (name value : String) : Variables :=
  fun n => if n = name then some value else v n

/-- An argument of a command: text, or `${NAME}`. -/
inductive Argument
  | word (text : String)
  | reference (name : String)

/-- What an argument stands for; a variable that is not defined stands for nothing. -/
def Argument.text (v : Variables) : Argument → String
  | word t => t
  | reference n => (v n).getD ""

/-- The left side of `MATCHES` and `STREQUAL`: if it names a variable, it stands for its value. -/
def operand (v : Variables) (a : Argument) : String := (v (a.text v)).getD (a.text v)

/-- `MATCHES`, for patterns of letters only: they match anywhere. -/
def matchesPart (pattern : List Char) : List Char → Bool
  | [] => pattern.isEmpty
  | c :: cs => pattern.isPrefixOf (c :: cs) || matchesPart pattern cs

/-- The values that a variable in a condition is false with; that the rest of the documented rule (names
that end in `-NOTFOUND`) is left out does not matter here. -/
def falseValues : List String := ["", "0", "OFF", "NO", "FALSE", "N", "IGNORE", "NOTFOUND"]

/-- The conditions of `if`. -/
inductive Condition
  | defined (name : String)
  | notDefined (name : String)
  /-- a variable by itself -/
  | truth (name : String)
  /-- `left MATCHES pattern`; that it also sets `CMAKE_MATCH_0` is left out -/
  | matching (left : Argument) (pattern : String)
  /-- `left STREQUAL "text"` -/
  | equal (left : Argument) (text : String)
  | and (a b : Condition)
  | or (a b : Condition)

/-- Whether a condition holds; `none` if it is an error, as when an argument that is not quoted stands for
nothing. -/
def Condition.holds (v : Variables) : Condition → Option Bool
  | defined n => some (v n).isSome
  | notDefined n => some (v n).isNone
  | truth n => some !(falseValues.contains ((v n).getD ""))
  | matching l p => if l.text v = "" then none else some (matchesPart p.toList (operand v l).toList)
  | equal l t => if l.text v = "" then none else some (operand v l = t)
  | and a b =>
    match a.holds v, b.holds v with
    | some x, some y => some (x && y)
    | _, _ => none
  | or a b =>
    match a.holds v, b.holds v with
    | some x, some y => some (x || y)
    | _, _ => none

/-- What a target is. -/
inductive Kind
  | staticLibrary
  | sharedLibrary
  | program
  deriving DecidableEq, Repr

/-- A target. -/
structure Target where
  name : String
  kind : Kind
  sources : List String
  /-- the macros that it and what links with it are compiled with -/
  definitions : List (String × String) := []
  /-- the options that it and what links with it are compiled with -/
  options : List String := []
  links : List String := []
  /-- optimised when it is linked -/
  linkTime : Bool := false
  /-- the directories that its file is copied to -/
  copies : List String := []
  deriving DecidableEq, Repr

/-- What CMake finds on the machine. -/
structure Machine where
  /-- the compiler can optimise when it links -/
  linkTime : Bool
  /-- the packages that are installed -/
  packages : List String

/-- The commands. -/
inductive Command
  | set (name value : String)
  | choose (c : Condition) (yes no : List Command)
  | addTarget (name : String) (kind : Kind) (sources : List String)
  /-- `target_compile_definitions(target PUBLIC name=value)` -/
  | define (target name : String) (value : Argument)
  /-- `target_compile_options(target PUBLIC option)` -/
  | option (target option : String)
  /-- `target_link_libraries(target item)` -/
  | link (target item : String)
  /-- `set_target_properties(target PROPERTIES INTERPROCEDURAL_OPTIMIZATION TRUE)` -/
  | linkTime (target : String)
  /-- `check_ipo_supported(RESULT result …)` -/
  | checkLinkTime (result : String)
  /-- `find_package(package REQUIRED)`, `pkg_check_modules(… REQUIRED … package)` -/
  | require (package : String)
  /-- `add_custom_command(TARGET target POST_BUILD … copy …)` -/
  | copy (target directory : String)
  | test (name target : String)
  /-- `add_subdirectory`: variables that are set there are set only there -/
  | subdirectory (script : List Command)

/-- What was configured so far. -/
structure State where
  variables : Variables
  targets : List Target := []
  /-- the tests and the programs that carry them out -/
  tests : List (String × String) := []

/-- Change a target; `none` if there is no such. -/
def State.modify (s : State) (name : String) (f : Target → Target) : Option State :=
  if s.targets.any (·.name = name) then
    some { s with targets := s.targets.map fun t => if t.name = name then f t else t }
  else none

/-- Add a target; `none` if there is one of that name.  It is optimised when it is linked if the variable
`CMAKE_INTERPROCEDURAL_OPTIMIZATION` says so. -/
def State.add (s : State) (name : String) (kind : Kind) (sources : List String) : Option State :=
  if s.targets.any (·.name = name) then none
  else
    let linkTime := !(falseValues.contains
      ((s.variables "CMAKE_INTERPROCEDURAL_OPTIMIZATION").getD ""))
    some { s with targets := s.targets ++ [{ name, kind, sources, linkTime }] }

mutual

/-- Carry out a command; `none` if configuring fails. -/
def Command.run (e : Machine) : Command → State → Option State
  | .set n x, s => some { s with variables := s.variables.set n x }
  | .choose c yes no, s =>
    match c.holds s.variables with
    | some true => runAll e yes s
    | some false => runAll e no s
    | none => none
  | .addTarget n k fs, s => s.add n k fs
  | .define t n x, s =>
    s.modify t fun t => { t with definitions := t.definitions ++ [(n, x.text s.variables)] }
  | .option t o, s => s.modify t fun t => { t with options := t.options ++ [o] }
  | .link t i, s => s.modify t fun t => { t with links := t.links ++ [i] }
  | .linkTime t, s => s.modify t fun t => { t with linkTime := true }
  | .checkLinkTime r, s =>
    some { s with variables := s.variables.set r (if e.linkTime then "YES" else "NO") }
  | .require p, s => if e.packages.contains p then some s else none
  | .copy t d, s => s.modify t fun t => { t with copies := t.copies ++ [d] }
  | .test n t, s => some { s with tests := s.tests ++ [(n, t)] }
  | .subdirectory cs, s =>
    match runAll e cs s with
    | some s' => some { s' with variables := s.variables }
    | none => none

/-- Carry out commands one after the other. -/
def runAll (e : Machine) : List Command → State → Option State
  | [], s => some s
  | c :: cs, s =>
    match c.run e s with
    | some s' => runAll e cs s'
    | none => none

end

/-- `if (NOT DEFINED NAME)`, `set(NAME value)`, `endif ()`. -/
def byDefault (name value : String) : Command := .choose (.notDefined name) [.set name value] []

/-- `if (NAME MATCHES pattern)`. -/
def ifMatches (name pattern : String) (yes no : List Command) : Command :=
  .choose (.matching (.word name) pattern) yes no

/-- `api/CMakeLists.txt` 83-121: the defaults.  Left out: the lists of headers (10-82, 88-94, 101-107),
which nothing uses. -/
def defaults : List Command := [
  byDefault "CMP_CONFIG_DESKTOP_GUI_PACKAGE_EXCLUDED" "false",
  byDefault "CMP_CONFIG_IO_PACKAGE_EXCLUDED" "false",
  byDefault "CMP_BUILD_STATIC" "false"]

/-- `api/CMakeLists.txt` 110-116. -/
def librarySources : List String := ["src/cmp/core/definitions.cpp",
  "src/cmp/desktop_gui/definitions.cpp", "src/cmp/io/definitions.cpp", "src/cmp/unicode/definitions.cpp"]

/-- `api/CMakeLists.txt` 123-165.  Left out: include directories and the properties that choose the
language. -/
def library : List Command := [
  ifMatches "CMP_BUILD_STATIC" "true" [
      .addTarget "cmp" .staticLibrary librarySources,
      .define "cmp" "CMP_CONFIG_IS_STATIC" (.word "true"),
      .define "cmp" "CMP_CONFIG_IS_DYNAMIC" (.word "false")]
    [.addTarget "cmp" .sharedLibrary librarySources,
      .define "cmp" "CMP_CONFIG_IS_STATIC" (.word "false"),
      .define "cmp" "CMP_CONFIG_IS_DYNAMIC" (.word "true")]]

/-- `api/CMakeLists.txt` 167-183, `tests/CMakeLists.txt` 7-18 and `examples/CMakeLists.txt` 7-18; `enable`
is what differs. -/
def linkTimeOptimisation (enable : Command) : List Command := [
  byDefault "CMP_CONFIG_LTO_REQUESTED" "true",
  .set "CMP_CONFIG_LTO_ENABLED" "false",
  ifMatches "CMP_CONFIG_LTO_REQUESTED" "true" [
    .checkLinkTime "lto_supported",
    .choose (.truth "lto_supported") [enable, .set "CMP_CONFIG_LTO_ENABLED" "true"] []] []]

/-- `api/CMakeLists.txt` 185-210. -/
def compilerOptions : List Command := [
  .choose (.equal (.word "CMAKE_CXX_COMPILER_ID") "MSVC") [.option "cmp" "/utf-8"] [],
  .choose (.defined "CMP_DEV") [
    .choose (.equal (.word "CMAKE_CXX_COMPILER_ID") "MSVC") [.option "cmp" "/W4"]
      [.option "cmp" "-Wall", .option "cmp" "-Wextra", .option "cmp" "-pedantic"]] []]

/-- `if (DEFINED NAME)`, `target_compile_definitions(cmp PUBLIC NAME=${NAME})`, `endif ()`. -/
def passOn (name : String) : Command :=
  .choose (.defined name) [.define "cmp" name (.reference name)] []

/-- `target_compile_definitions(cmp PUBLIC NAME=${NAME})`. -/
def passOnAlways (name : String) : Command := .define "cmp" name (.reference name)

/-- `api/CMakeLists.txt` 233-274. -/
def constants : List Command := [
  passOn "CMP_CONFIG_HEADER_ONLY", passOn "CMP_CONFIG_DEFAULT_BUFFER_CAPACITY",
  passOn "CMP_CONFIG_DEFAULT_STDOUT_BUFFER_CAPACITY", passOn "CMP_CONFIG_DEFAULT_STDERR_BUFFER_CAPACITY",
  passOn "CMP_CONFIG_DEFAULT_STDIN_BUFFER_CAPACITY",
  passOnAlways "CMP_CONFIG_DESKTOP_GUI_PACKAGE_EXCLUDED", passOnAlways "CMP_CONFIG_IO_PACKAGE_EXCLUDED",
  passOnAlways "CMP_CONFIG_LTO_REQUESTED", passOnAlways "CMP_CONFIG_LTO_ENABLED"]

/-- `${CMAKE_SYSTEM_NAME} MATCHES "name"`. -/
def system (name : String) : Condition := .matching (.reference "CMAKE_SYSTEM_NAME") name

/-- `CMP_CONFIG_DESKTOP_GUI_PACKAGE_EXCLUDED MATCHES false`. -/
def usesGui : Condition := .matching (.word "CMP_CONFIG_DESKTOP_GUI_PACKAGE_EXCLUDED") "false"

/-- `api/CMakeLists.txt` 276-307. -/
def dependencies : List Command := [
  .choose (.and (system "Darwin") usesGui)
    [.link "cmp" "-framework AppKit", .option "cmp" "-ObjC++"] [],
  .choose (.and (.or (system "Linux") (system "FreeBSD")) usesGui)
    [.require "PkgConfig", .require "gtk4", .link "cmp" "PkgConfig::GTK4"] []]

/-- `api/CMakeLists.txt` 309-358; the directories are relative to that of the build.  Left out: that the
data of the tests is copied (360-368). -/
def copies : List Command := [
  ifMatches "CMP_BUILD_STATIC" "false" [
    .copy "cmp" "tests/automated", .copy "cmp" "tests/manual", .copy "cmp" ".",
    .choose (.defined "CMP_DEV") [
      .copy "cmp" "examples/unicode_stdio_example", .copy "cmp" "examples/desktop_gui_example",
      .copy "cmp" "../[unreleased]/lib", .copy "cmp" "../[unreleased]/app"] []] []]

/-- `api/CMakeLists.txt`. -/
def api : List Command :=
  defaults ++ library ++ linkTimeOptimisation (.linkTime "cmp") ++ compilerOptions ++ constants ++
    dependencies ++ copies

/-- The automated tests: the directory of the source and the name. -/
def automatedTests : List (String × String) := [
  ("core", "core_general"),
  ("io", "container_transfer_resources"), ("io", "data_input_stream"), ("io", "data_io_stream"),
  ("io", "data_output_stream"), ("io", "file"), ("io", "io_general"), ("io", "text_input_stream"),
  ("io", "text_io_stream"), ("io", "text_output_stream"),
  ("unicode", "algorithms"), ("unicode", "by_code_point"), ("unicode", "examiners"),
  ("unicode", "formatters"), ("unicode", "parsers"), ("unicode", "type_traits")]

/-- The file of an automated test in `tests/automated`. -/
def sourceOf (t : String × String) : String := t.1 ++ "/test_" ++ t.2 ++ ".cpp"

/-- A program that uses the library. -/
def program (name source : String) : List Command := [.addTarget name .program [source], .link name "cmp"]

/-- A program that uses the headers only. -/
def headerOnlyProgram (name source : String) : List Command := [
  .addTarget name .program [source], .define name "CMP_CONFIG_HEADER_ONLY" (.word "true"),
  .choose (.equal (.word "CMAKE_CXX_COMPILER_ID") "MSVC") [.option name "/utf-8"] []]

/-- `tests/automated/CMakeLists.txt` 349-359 and `tests/manual/CMakeLists.txt` 42-52. -/
def headerOnlyTests (tests : List Command) : List Command := [
  byDefault "CMP_BUILD_HO_TESTS" "false",
  .choose (.defined "CMP_DEV") [.set "CMP_BUILD_HO_TESTS" "true"] [],
  ifMatches "CMP_BUILD_HO_TESTS" "true" tests []]

/-- `tests/automated/CMakeLists.txt`. -/
def automated : List Command :=
  automatedTests.flatMap (fun t => program ("test_" ++ t.2) (sourceOf t) ++
    [.test (t.2 ++ "_test") ("test_" ++ t.2)]) ++
  headerOnlyTests (automatedTests.flatMap fun t => headerOnlyProgram ("ho_test_" ++ t.2) (sourceOf t) ++
    [.test ("ho_" ++ t.2 ++ "_test") ("ho_test_" ++ t.2)])

/-- `tests/manual/CMakeLists.txt`. -/
def manual : List Command :=
  program "test_platform" "test_platform.cpp" ++ program "test_uio" "test_uio.cpp" ++
  headerOnlyTests (headerOnlyProgram "ho_test_platform" "test_platform.cpp" ++
    headerOnlyProgram "ho_test_uio" "test_uio.cpp")

/-- `tests/CMakeLists.txt`. -/
def tests : List Command :=
  linkTimeOptimisation (.set "CMAKE_INTERPROCEDURAL_OPTIMIZATION" "TRUE") ++
    [.subdirectory automated, .subdirectory manual]

/-- `examples/desktop_gui_example/CMakeLists.txt` and `examples/unicode_stdio_example/CMakeLists.txt`. -/
def exampleProgram (name : String) : List Command :=
  .choose (.notDefined "CMP_DEV") [.subdirectory api] [] :: program name "src/main.cpp"

/-- `examples/CMakeLists.txt`. -/
def examples : List Command :=
  linkTimeOptimisation (.set "CMAKE_INTERPROCEDURAL_OPTIMIZATION" "TRUE") ++
    [.subdirectory (exampleProgram "desktop_gui_example"),
      .subdirectory (exampleProgram "unicode_stdio_example")]

/-- `CMakeLists.txt`. -/
def project : List Command := [.subdirectory api, .subdirectory tests,
  .choose (.defined "CMP_DEV") [.subdirectory examples] []]

/-- The headers of the library that the sources of the tests include (lines 4-10 of each, beside
`cmp/core/test_module.hpp`).  For a header of the io package other than `file.hpp` and `uio.hpp` stands
`inclusion_assert.hpp`, which every one of them includes first. -/
def testHeaders : List (String × List String) := [
  ("core_general", ["cmp/core/general.hpp"]),
  ("container_transfer_resources", ["cmp/io/inclusion_assert.hpp"]),
  ("data_input_stream", ["cmp/io/inclusion_assert.hpp", "cmp/io/file.hpp"]),
  ("data_io_stream", ["cmp/io/inclusion_assert.hpp"]),
  ("data_output_stream", ["cmp/io/inclusion_assert.hpp", "cmp/io/file.hpp"]),
  ("file", ["cmp/io/file.hpp"]),
  ("io_general", ["cmp/io/inclusion_assert.hpp"]),
  ("text_input_stream", ["cmp/io/inclusion_assert.hpp", "cmp/io/file.hpp"]),
  ("text_io_stream", ["cmp/io/inclusion_assert.hpp", "cmp/io/file.hpp"]),
  ("text_output_stream", ["cmp/io/inclusion_assert.hpp", "cmp/io/file.hpp"]),
  ("algorithms", ["cmp/unicode/algorithms.hpp"]), ("by_code_point", ["cmp/unicode/by_code_point.hpp"]),
  ("examiners", ["cmp/unicode/examiners.hpp"]), ("formatters", ["cmp/unicode/formatters.hpp"]),
  ("parsers", ["cmp/unicode/parsers.hpp"]), ("type_traits", ["cmp/unicode/type_traits.hpp"]),
  ("platform", ["cmp/core/platform.hpp"]), ("uio", ["cmp/io/uio.hpp"])]

/-- The headers of the library that each program includes; those of the examples are in lines 4-7 and 5 of
their `src/main.cpp`, where `cmp/desktop_gui/main.hpp` is left out, which includes only `platform.hpp`. -/
def programHeaders : List (String × List String) :=
  testHeaders.map (fun t => ("test_" ++ t.1, t.2)) ++ testHeaders.map (fun t => ("ho_test_" ++ t.1, t.2)) ++
  [("desktop_gui_example", ["cmp/desktop_gui/desktop_gui_application.hpp",
      "cmp/desktop_gui/window.hpp", "cmp/io/uio.hpp"]),
    ("unicode_stdio_example", ["cmp/io/uio.hpp"])]

/-- The headers that a program includes. -/
def headersOf (name : String) : List String := (programHeaders.lookup name).getD []

/-- Configure: the variables are those given by the user and those that `project` finds out, which are
`CMAKE_SYSTEM_NAME` and `CMAKE_CXX_COMPILER_ID`. -/
def configure (e : Machine) (script : List Command) (v : Variables) : Option State :=
  runAll e script { variables := v }

/-- The macros that a target is compiled with: its own and those of the libraries it links with. -/
def State.definitionsOf (s : State) (t : Target) : List (String × String) :=
  t.definitions ++ t.links.flatMap fun n =>
    (s.targets.filter (·.name = n)).flatMap Target.definitions

/-- The options that a target is compiled with, likewise. -/
def State.optionsOf (s : State) (t : Target) : List String :=
  t.options ++ t.links.flatMap fun n => (s.targets.filter (·.name = n)).flatMap Target.options

/-- A letter or an underscore of the basic characters; identifiers with others are left out. -/
def isWordStart (c : Char) : Bool := c.isAlpha || c = '_'

/-- A text as one token: an identifier or a decimal number.  `none` for anything else, such as octal
numbers, literals with suffixes or more tokens. -/
def token (s : String) : Option PpToken :=
  match s.toList with
  | [] => none
  | c :: cs =>
    if isWordStart c then
      if cs.all fun d => isWordStart d || d.isDigit then some (.name s) else none
    else if (c :: cs).all Char.isDigit && (c ≠ '0' || cs.isEmpty) then
      some (.int ((c :: cs).foldl (fun n d => 10 * n + (d.toNat - '0'.toNat)) 0))
    else none

/-- The macros with which a compiler that predefines `predefined` starts, with `-DNAME=text` for each
definition.  `none` if a text is not one token. -/
def commandLine (predefined : Macros) : List (String × String) → Option Macros
  | [] => some predefined
  | (n, x) :: rest =>
    match token x with
    | some t => commandLine (predefined.set n (some t)) rest
    | none => none

end Cmp.Cmake
