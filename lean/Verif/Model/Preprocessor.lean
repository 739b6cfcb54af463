/-
Model of the preprocessing of the headers that choose the platform and the configuration:
`api/include/cmp/core/config.hpp`, `compiler.hpp`, `operating_system.hpp`, `platform.hpp`, the headers
and sources of the io and desktop_gui packages that choose among the implementations, and the
`inclusion_assert.hpp` of both packages.
-/

namespace Cmp

/-- A preprocessing token, as far as macros here stand for single tokens. -/
inductive PpToken
  | int (n : Int)
  | name (name : String)
  /-- a string literal -/
  | text (text : String)
  deriving DecidableEq, Repr

/-- The object-like macros that are defined and what they stand for; `none` for nothing, as with
`#define NAME`. -/
abbrev Macros := String → Option (Option PpToken)

namespace Macros

/-- `#define`; a macro that is defined already gets the new replacement (compilers warn). -/
def set (m : Macros) (name : String) (body : Option PpToken) : Macros :=
  fun n => if n = name then some body else m n

/-- The value of a token in a condition: macros are replaced, `true` and `false` are 1 and 0, and other
identifiers that are left are 0 ([cpp.cond]).  `none`: not an expression, an error.  `fuel` bounds the
number of replacements; a macro is not replaced within its own replacement (here only if that is the
whole of it: longer cycles are errors in the model). -/
def value (m : Macros) : Nat → PpToken → Option Int
  | _, .int n => some n
  | _, .text _ => none
  | 0, .name _ => none
  | fuel + 1, .name n =>
    match m n with
    | some (some t) => if t = .name n then some 0 else value m fuel t
    | some none => none
    | none => some (if n = "true" then 1 else 0)

/-- What a token is replaced by in the text of the program. -/
def expand (m : Macros) : Nat → PpToken → Option PpToken
  | _, .int n => some (.int n)
  | _, .text s => some (.text s)
  | 0, .name _ => none
  | fuel + 1, .name n =>
    match m n with
    | some (some t) => if t = .name n then some t else expand m fuel t
    | some none => none
    | none => some (.name n)

/-- The value of a token in a constant expression of the program: there `true` and `false` are the only
identifiers with a value; that the program may declare others as constants is left out. -/
def constant (m : Macros) (t : PpToken) : Option Int :=
  match m.expand 4 t with
  | some (.int n) => some n
  | some (.name n) => if n = "true" then some 1 else if n = "false" then some 0 else none
  | _ => none

end Macros

/-- The conditions of `#if`, `#elif`, `#ifdef` and `#ifndef`. -/
inductive PpCond
  | defined (name : String)
  | undefined (name : String)
  | or (a b : PpCond)
  | and (a b : PpCond)
  | equal (a b : PpToken)

/-- The number of replacements that are enough for the macros here. -/
def replacements : Nat := 4

/-- The value of a condition; `none` if it is an error. -/
def PpCond.holds (m : Macros) : PpCond → Option Bool
  | defined n => some (m n).isSome
  | undefined n => some (m n).isNone
  | or a b =>
    match a.holds m, b.holds m with
    | some x, some y => some (x || y)
    | _, _ => none
  | and a b =>
    match a.holds m, b.holds m with
    | some x, some y => some (x && y)
    | _, _ => none
  | equal a b =>
    match m.value replacements a, m.value replacements b with
    | some x, some y => some (decide (x = y))
    | _, _ => none

/-- A directive, or an assertion in the text between them. -/
inductive Directive
  | define (name : String) (body : Option PpToken)
  | include (file : String)
  /-- `#if`, any number of `#elif`, `#else`, `#endif` -/
  | choose (branches : List (PpCond × List Directive)) (otherwise : List Directive)
  /-- `static_assert(a == b, …)` -/
  | assert (a b : PpToken)
  /-- the definition of an object, with the capacity of its buffer if it has one -/
  | object (name : String) (isInline : Bool) (capacity : Option PpToken)

/-- An object that a translation unit defines. -/
structure ObjectDefinition where
  name : String
  isInline : Bool
  /-- what is left of the capacity after macros are replaced -/
  capacity : Option PpToken
  deriving DecidableEq, Repr

/-- A translation unit while it is preprocessed: the macros, the files that were entered, and the objects
that were defined. -/
structure TranslationUnit where
  macros : Macros
  files : List String
  objects : List ObjectDefinition

/-- What comes of a translation unit. -/
inductive Preprocessed
  | done (u : TranslationUnit)
  /-- an error in a directive or an assertion that does not hold -/
  | error
  /-- `fuel` was not enough -/
  | unfinished

/-- The branch that is taken. -/
def Directive.branch (m : Macros) : List (PpCond × List Directive) → List Directive →
    Option (List Directive)
  | [], otherwise => some otherwise
  | (c, ds) :: branches, otherwise =>
    match c.holds m with
    | none => none
    | some true => some ds
    | some false => branch m branches otherwise

/-- Preprocess directives; `file` gives those of a file, `fuel` bounds the number of directives. -/
def preprocess (file : String → List Directive) : Nat → List Directive → TranslationUnit → Preprocessed
  | _, [], u => .done u
  | 0, _ :: _, _ => .unfinished
  | fuel + 1, .define n b :: ds, u => preprocess file fuel ds { u with macros := u.macros.set n b }
  | fuel + 1, .include f :: ds, u =>
    preprocess file fuel (file f ++ ds) { u with files := u.files ++ [f] }
  | fuel + 1, .choose bs o :: ds, u =>
    match Directive.branch u.macros bs o with
    | none => .error
    | some chosen => preprocess file fuel (chosen ++ ds) u
  | fuel + 1, .assert a b :: ds, u =>
    match u.macros.constant a, u.macros.constant b with
    | some x, some y => if x = y then preprocess file fuel ds u else .error
    | _, _ => .error
  | fuel + 1, .object n i c :: ds, u =>
    preprocess file fuel ds { u with objects := u.objects ++ [⟨n, i, c.bind (u.macros.expand 4)⟩] }

namespace Headers

/-- An include guard. -/
def guarded (name : String) (ds : List Directive) : List Directive :=
  [.choose [(.undefined name, .define name none :: ds)] []]

/-- `#ifndef NAME`, `#define NAME body`, `#endif`. -/
def byDefault (name : String) (body : PpToken) : Directive :=
  .choose [(.undefined name, [.define name (some body)])] []

/-- `NAME == true`. -/
def equalsTrue (name : String) : PpCond := .equal (.name name) (.name "true")

/-- `NAME == false`. -/
def equalsFalse (name : String) : PpCond := .equal (.name name) (.name "false")

/-- `core/config.hpp` 4-67.  Left out: `CMP_CONFIG_IS_BUILDING` (15), which nothing uses, and the part
for dynamic libraries (54-59), which gives `CMP_LIBRARY_NAME` another replacement. -/
def config : List Directive := guarded "CMP_CORE_CONFIG_HPP_INCLUDED" [
  byDefault "CMP_CONFIG_IS_STATIC" (.name "false"),
  byDefault "CMP_CONFIG_IS_DYNAMIC" (.name "false"),
  byDefault "CMP_CONFIG_LTO_REQUESTED" (.name "true"),
  byDefault "CMP_CONFIG_LTO_ENABLED" (.name "false"),
  byDefault "CMP_CONFIG_HEADER_ONLY" (.name "false"),
  byDefault "CMP_CONFIG_DEFAULT_BUFFER_CAPACITY" (.int 1024),
  byDefault "CMP_CONFIG_DEFAULT_STDOUT_BUFFER_CAPACITY" (.name "CMP_CONFIG_DEFAULT_BUFFER_CAPACITY"),
  byDefault "CMP_CONFIG_DEFAULT_STDERR_BUFFER_CAPACITY" (.name "CMP_CONFIG_DEFAULT_BUFFER_CAPACITY"),
  byDefault "CMP_CONFIG_DEFAULT_STDIN_BUFFER_CAPACITY" (.name "CMP_CONFIG_DEFAULT_BUFFER_CAPACITY"),
  byDefault "CMP_CONFIG_DESKTOP_GUI_PACKAGE_EXCLUDED" (.name "false"),
  byDefault "CMP_CONFIG_IO_PACKAGE_EXCLUDED" (.name "false"),
  .define "CMP_LIBRARY_NAME" none,
  .choose [(equalsTrue "CMP_CONFIG_HEADER_ONLY", [.define "CMP_CONDITIONAL_INLINE" (some (.name "inline"))])]
    [.define "CMP_CONDITIONAL_INLINE" none]]

/-- `core/compiler.hpp` 4-49.  Left out: the macros for warnings. -/
def compiler : List Directive := guarded "CMP_CORE_COMPILER_HPP_INCLUDED" [
  .choose [
    (.defined "__clang__", [.define "CMP_COMPILER_CLANG" none,
      .define "CMP_COMPILER_NAME" (some (.text "Clang"))]),
    (.defined "__GNUC__", [.define "CMP_COMPILER_GCC" none,
      .define "CMP_COMPILER_NAME" (some (.text "GCC"))]),
    (.defined "_MSC_VER", [.define "CMP_COMPILER_MSVC" none,
      .define "CMP_COMPILER_NAME" (some (.text "Visual C++"))])]
    [.define "CMP_COMPILER_UNSUPPORTED" none,
      .define "CMP_COMPILER_NAME" (some (.text "<Unsupported>"))]]

/-- The first choice of `core/operating_system.hpp`, 7-34. -/
def chooseSystem : Directive :=
  .choose [
    (.or (.or (.or (.or (.defined "_WIN32") (.defined "_WIN64")) (.defined "__WIN32__"))
        (.defined "__TOS_WIN__")) (.defined "__WINDOWS__"),
      [.define "CMP_OS_WINDOWS" none, .define "CMP_OS_NAME" (some (.text "Windows"))]),
    (.or (.defined "__APPLE__") (.defined "__MACH__"),
      [.define "CMP_OS_MACOS" none, .define "CMP_OS_NAME" (some (.text "macOS"))]),
    (.or (.or (.defined "__linux__") (.defined "linux")) (.defined "__linux"),
      [.define "CMP_OS_LINUX_BASED" none, .define "CMP_OS_NAME" (some (.text "Linux-based"))]),
    (.defined "__FreeBSD__",
      [.define "CMP_OS_FREEBSD" none, .define "CMP_OS_NAME" (some (.text "FreeBSD"))])] []

/-- `core/operating_system.hpp` 4-44. -/
def operatingSystem : List Directive := guarded "CMP_CORE_OPERATING_SYSTEM_HPP_INCLUDED" [
  chooseSystem,
  .choose [(.or (.or (.defined "CMP_OS_MACOS") (.defined "CMP_OS_LINUX_BASED")) (.defined "CMP_OS_FREEBSD"),
    [.define "CMP_OS_UNIX_LIKE" none])] []]

/-- `core/platform.hpp` 4-11. -/
def platform : List Directive := guarded "CMP_CORE_PLATFORM_HPP_INCLUDED" [
  .include "cmp/core/config.hpp", .include "cmp/core/compiler.hpp",
  .include "cmp/core/operating_system.hpp"]

/-- `io/inclusion_assert.hpp` 4-23; that the byte order is little or big holds of the model. -/
def ioAssert : List Directive := guarded "CMP_IO_INCLUSION_ASSERT_HPP_INCLUDED" [
  .include "cmp/core/config.hpp", .assert (.name "CMP_CONFIG_IO_PACKAGE_EXCLUDED") (.name "false")]

/-- `desktop_gui/inclusion_assert.hpp` 4-19. -/
def guiAssert : List Directive := guarded "CMP_DESKTOP_GUI_INCLUSION_ASSERT_HPP_INCLUDED" [
  .include "cmp/core/config.hpp", .assert (.name "CMP_CONFIG_DESKTOP_GUI_PACKAGE_EXCLUDED") (.name "false"),
  .assert (.name "CMP_CONFIG_HEADER_ONLY") (.name "false")]

/-- The choice between the two implementations of the io package. -/
def ioChoice (windows unixLike : String) : Directive :=
  .choose [(.defined "CMP_OS_WINDOWS", [.include windows]),
    (.defined "CMP_OS_UNIX_LIKE", [.include unixLike])] []

/-- `#if CMP_CONFIG_HEADER_ONLY == true`, `#include`, `#endif`. -/
def source (file : String) : Directive :=
  .choose [(equalsTrue "CMP_CONFIG_HEADER_ONLY", [.include file])] []

/-- `io/file.hpp` 4-264.  Here and below the other headers of the library that are included are left
out, and those of the system. -/
def file : List Directive := guarded "CMP_IO_FILE_HPP_INCLUDED" [
  .include "cmp/io/inclusion_assert.hpp", .include "cmp/core/platform.hpp", source "cmp/io/file.cpp",
  ioChoice "cmp/io/impl/windows/windows_file.hpp" "cmp/io/impl/unix_like/unix_like_file.hpp"]

/-- `windows_file.hpp` 4-150 and `unix_like_file.hpp` 4-151. -/
def systemFile (guard own : String) : List Directive := guarded guard [
  .include "cmp/io/inclusion_assert.hpp", .include "cmp/io/file.hpp", source own]

/-- `uout_resource` and `uerr_resource`. -/
def outputResources (isInline : Bool) : List Directive := [
  .object "uout_resource" isInline (some (.name "CMP_CONFIG_DEFAULT_STDOUT_BUFFER_CAPACITY")),
  .object "uerr_resource" isInline (some (.name "CMP_CONFIG_DEFAULT_STDERR_BUFFER_CAPACITY"))]

/-- `uin_resource`. -/
def inputResource (isInline : Bool) : List Directive := [
  .object "uin_resource" isInline (some (.name "CMP_CONFIG_DEFAULT_STDIN_BUFFER_CAPACITY"))]

/-- `uin`, `uout` and `uerr`. -/
def standardStreams (isInline : Bool) : List Directive := [
  .object "uin" isInline none, .object "uout" isInline none, .object "uerr" isInline none]

/-- `windows_uout.hpp` and `unix_like_uout.hpp`, 4-81. -/
def systemUout (guard own : String) : List Directive := guarded guard [
  .include "cmp/io/inclusion_assert.hpp", .include "cmp/core/platform.hpp",
  .choose [(equalsTrue "CMP_CONFIG_HEADER_ONLY", outputResources true)] [], source own]

/-- `windows_uout.cpp` 4-65 and `unix_like_uout.cpp` 4-60. -/
def systemUoutSource (header : String) : List Directive := [
  .include header, .choose [(equalsFalse "CMP_CONFIG_HEADER_ONLY", outputResources false)] []]

/-- `windows_uin.cpp` 4-69 and `unix_like_uin.cpp` 4-60. -/
def systemUinSource (header : String) : List Directive := [
  .include header, .choose [(equalsFalse "CMP_CONFIG_HEADER_ONLY", inputResource false)] []]

/-- `windows_uin.hpp` 4-95 and `unix_like_uin.hpp` 4-90. -/
def systemUin (guard uout own : String) : List Directive := guarded guard [
  .include "cmp/io/inclusion_assert.hpp", .include "cmp/core/platform.hpp", .include uout,
  .choose [(equalsTrue "CMP_CONFIG_HEADER_ONLY", inputResource true)] [], source own]

/-- `common_uio.hpp` 4-50. -/
def commonUio : List Directive := guarded "CMP_IO_COMMON_UIO_HPP_INCLUDED" [
  .include "cmp/io/inclusion_assert.hpp", .include "cmp/core/platform.hpp",
  ioChoice "cmp/io/impl/windows/windows_uin.hpp" "cmp/io/impl/unix_like/unix_like_uin.hpp",
  source "cmp/io/impl/common/common_uio.cpp"]

/-- `io/uio.hpp` 4-28. -/
def uio : List Directive := guarded "CMP_IO_UIO_HPP_INCLUDED" [
  .include "cmp/io/inclusion_assert.hpp", .include "cmp/io/impl/common/common_uio.hpp",
  .choose [(equalsTrue "CMP_CONFIG_HEADER_ONLY", standardStreams true)] []]

/-- `io/uio.cpp` 4-12. -/
def uioSource : List Directive := .include "cmp/io/uio.hpp" :: standardStreams false

/-- The choice among the three implementations of the desktop_gui package. -/
def guiChoice (windows macos gtk : List String) : Directive :=
  .choose [(.defined "CMP_OS_WINDOWS", windows.map .include),
    (.defined "CMP_OS_MACOS", macos.map .include),
    (.or (.defined "CMP_OS_LINUX_BASED") (.defined "CMP_OS_FREEBSD"), gtk.map .include)] []

/-- `desktop_gui/window_native_handle.hpp` 4-18. -/
def nativeHandle : List Directive := guarded "CMP_DESKTOP_GUI_WINDOW_NATIVE_HANDLE_HPP_INCLUDED" [
  .include "cmp/desktop_gui/inclusion_assert.hpp", .include "cmp/core/platform.hpp",
  guiChoice ["cmp/desktop_gui/impl/windows/windows_window_native_handle.hpp"]
    ["cmp/desktop_gui/impl/macos/macos_window_native_handle.hpp"]
    ["cmp/desktop_gui/impl/gtk/gtk_window_native_handle.hpp"]]

/-- `common_window.hpp` 4-17. -/
def commonWindow : List Directive := guarded "CMP_DESKTOP_GUI_COMMON_WINDOW_HPP_INCLUDED" [
  .include "cmp/core/platform.hpp",
  guiChoice ["cmp/desktop_gui/impl/windows/windows_window.hpp"]
    ["cmp/desktop_gui/impl/macos/macos_window.hpp"] ["cmp/desktop_gui/impl/gtk/gtk_window.hpp"]]

/-- `common_desktop_gui_application.hpp` 4-28. -/
def commonApplication : List Directive :=
  guarded "CMP_DESKTOP_GUI_COMMON_DESKTOP_GUI_APPLICATION_HPP_INCLUDED" [
    .include "cmp/core/platform.hpp",
    guiChoice ["cmp/desktop_gui/impl/windows/windows_desktop_gui_application.hpp"]
      ["cmp/desktop_gui/impl/macos/macos_desktop_gui_application.hpp"]
      ["cmp/desktop_gui/impl/gtk/gtk_desktop_gui_application.hpp"]]

/-- `desktop_gui/window.hpp` 4-10. -/
def window : List Directive := guarded "CMP_DESKTOP_GUI_WINDOW_HPP_INCLUDED" [
  .include "cmp/desktop_gui/inclusion_assert.hpp",
  .include "cmp/desktop_gui/impl/common/common_window.hpp"]

/-- `desktop_gui/desktop_gui_application.hpp` 4-10. -/
def application : List Directive := guarded "CMP_DESKTOP_GUI_DESKTOP_GUI_APPLICATION_HPP_INCLUDED" [
  .include "cmp/desktop_gui/inclusion_assert.hpp",
  .include "cmp/desktop_gui/impl/common/common_desktop_gui_application.hpp"]

/-- `io/definitions.cpp` 4-27, one of the translation units of the compiled library. -/
def ioDefinitions : List Directive := [
  .include "cmp/core/config.hpp", .include "cmp/core/platform.hpp",
  .choose [(.and (equalsFalse "CMP_CONFIG_HEADER_ONLY") (equalsFalse "CMP_CONFIG_IO_PACKAGE_EXCLUDED"), [
    .include "cmp/io/impl/common/common_uio.cpp",
    .choose [(.defined "CMP_OS_WINDOWS", [.include "cmp/io/impl/windows/windows_file.cpp",
        .include "cmp/io/impl/windows/windows_uin.cpp", .include "cmp/io/impl/windows/windows_uout.cpp"]),
      (.defined "CMP_OS_UNIX_LIKE", [.include "cmp/io/impl/unix_like/unix_like_file.cpp",
        .include "cmp/io/impl/unix_like/unix_like_uin.cpp",
        .include "cmp/io/impl/unix_like/unix_like_uout.cpp"])] [],
    .include "cmp/io/exceptions.cpp", .include "cmp/io/file.cpp", .include "cmp/io/general.cpp",
    .include "cmp/io/input_resource.cpp", .include "cmp/io/io_buffer.cpp",
    .include "cmp/io/io_resource.cpp", .include "cmp/io/output_resource.cpp",
    .include "cmp/io/transfer_resource.cpp", .include "cmp/io/uio.cpp"])] []]

/-- `desktop_gui/definitions.cpp` 4-24, another one. -/
def guiDefinitions : List Directive := [
  .include "cmp/core/config.hpp", .include "cmp/core/platform.hpp",
  .choose [(.and (equalsFalse "CMP_CONFIG_HEADER_ONLY") (equalsFalse "CMP_CONFIG_DESKTOP_GUI_PACKAGE_EXCLUDED"), [
    .include "cmp/desktop_gui/impl/common/common_desktop_gui_application.cpp",
    .include "cmp/desktop_gui/impl/common/common_window.cpp",
    guiChoice ["cmp/desktop_gui/impl/windows/windows_desktop_gui_application.cpp",
        "cmp/desktop_gui/impl/windows/windows_window.cpp"]
      ["cmp/desktop_gui/impl/macos/macos_desktop_gui_application.mm",
        "cmp/desktop_gui/impl/macos/macos_window.mm"]
      ["cmp/desktop_gui/impl/gtk/gtk_desktop_gui_application.cpp",
        "cmp/desktop_gui/impl/gtk/gtk_window.cpp"],
    .include "cmp/desktop_gui/close_event.cpp", .include "cmp/desktop_gui/event.cpp",
    .include "cmp/desktop_gui/general.cpp", .include "cmp/desktop_gui/key_event.cpp"])] []]

/-- The files of the library whose directives are modelled; of the others only that they were
entered. -/
def files : List (String × List Directive) := [
  ("cmp/core/config.hpp", config),
  ("cmp/core/compiler.hpp", compiler),
  ("cmp/core/operating_system.hpp", operatingSystem),
  ("cmp/core/platform.hpp", platform),
  ("cmp/io/inclusion_assert.hpp", ioAssert),
  ("cmp/desktop_gui/inclusion_assert.hpp", guiAssert),
  ("cmp/io/file.hpp", file),
  ("cmp/io/impl/windows/windows_file.hpp",
    systemFile "CMP_IO_WINDOWS_FILE_HPP_INCLUDED" "cmp/io/impl/windows/windows_file.cpp"),
  ("cmp/io/impl/unix_like/unix_like_file.hpp",
    systemFile "CMP_IO_UNIX_LIKE_FILE_HPP_INCLUDED" "cmp/io/impl/unix_like/unix_like_file.cpp"),
  ("cmp/io/impl/windows/windows_uout.hpp",
    systemUout "CMP_IO_WINDOWS_UOUT_HPP_INCLUDED" "cmp/io/impl/windows/windows_uout.cpp"),
  ("cmp/io/impl/unix_like/unix_like_uout.hpp",
    systemUout "CMP_IO_UNIX_LIKE_UOUT_HPP_INCLUDED" "cmp/io/impl/unix_like/unix_like_uout.cpp"),
  ("cmp/io/impl/windows/windows_uin.hpp",
    systemUin "CMP_IO_WINDOWS_UIN_HPP_INCLUDED" "cmp/io/impl/windows/windows_uout.hpp"
      "cmp/io/impl/windows/windows_uin.cpp"),
  ("cmp/io/impl/unix_like/unix_like_uin.hpp",
    systemUin "CMP_IO_UNIX_LIKE_UIN_HPP_INCLUDED" "cmp/io/impl/unix_like/unix_like_uout.hpp"
      "cmp/io/impl/unix_like/unix_like_uin.cpp"),
  ("cmp/io/impl/common/common_uio.hpp", commonUio),
  ("cmp/io/uio.hpp", uio),
  ("cmp/io/file.cpp", [.include "cmp/io/file.hpp"]),
  ("cmp/io/impl/windows/windows_file.cpp", [.include "cmp/io/impl/windows/windows_file.hpp"]),
  ("cmp/io/impl/unix_like/unix_like_file.cpp", [.include "cmp/io/impl/unix_like/unix_like_file.hpp"]),
  ("cmp/io/impl/windows/windows_uout.cpp", systemUoutSource "cmp/io/impl/windows/windows_uout.hpp"),
  ("cmp/io/impl/unix_like/unix_like_uout.cpp",
    systemUoutSource "cmp/io/impl/unix_like/unix_like_uout.hpp"),
  ("cmp/io/impl/windows/windows_uin.cpp", systemUinSource "cmp/io/impl/windows/windows_uin.hpp"),
  ("cmp/io/impl/unix_like/unix_like_uin.cpp",
    systemUinSource "cmp/io/impl/unix_like/unix_like_uin.hpp"),
  ("cmp/io/impl/common/common_uio.cpp", [.include "cmp/io/impl/common/common_uio.hpp"]),
  ("cmp/io/uio.cpp", uioSource),
  ("cmp/desktop_gui/window_native_handle.hpp", nativeHandle),
  ("cmp/desktop_gui/impl/common/common_window.hpp", commonWindow),
  ("cmp/desktop_gui/impl/common/common_desktop_gui_application.hpp", commonApplication),
  ("cmp/desktop_gui/window.hpp", window),
  ("cmp/desktop_gui/desktop_gui_application.hpp", application)]

/-- The directives of a file. -/
def contents (name : String) : List Directive := (files.lookup name).getD []

/-- A translation unit, preprocessed with the macros `predefined` (by the compiler and on its command
line).  No translation unit here has more than 1000 directives in it. -/
def translate (predefined : Macros) (ds : List Directive) : Preprocessed :=
  preprocess contents 1000 ds ⟨predefined, [], []⟩

/-- `tests/manual/test_platform.cpp` 29-59: the lines that its two tests print between those of the test
module.  `none`: the program does not compile, since what follows `<<` is not a string literal but an
identifier that is not declared. -/
def platformTest (predefined : Macros) : Option (List String) :=
  match translate predefined [.include "cmp/core/test_module.hpp", .include "cmp/core/platform.hpp"] with
  | .done u =>
    match u.macros.expand 4 (.name "CMP_COMPILER_NAME"), u.macros.expand 4 (.name "CMP_OS_NAME") with
    | some (.text compiler), some (.text system) =>
      some ["This target was compiled by " ++ compiler ++ ".",
        "This machine's operating system is " ++ system ++ "."]
    | _, _ => none
  | _ => none

end Headers

end Cmp
