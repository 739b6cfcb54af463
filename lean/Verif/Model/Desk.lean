import Verif.Model.Gui
import Verif.Model.Unicode
import Verif.Spec.Desk

/-
Model of the looks of windows: titles, `show` and `hide` of the three toolkits (`gtk_window.cpp`,
`macos_window.mm`, `windows_window.cpp` under `api/src/cmp/desktop_gui/impl`).

What is assumed of the toolkits: they keep a title as it is given up to the first NUL; `NSString`
accepts exactly what `valid` says; windows appear when asked to and disappear when asked to;
`ShowWindow` puts a window into the mode it is told, and hiding leaves the mode as it is.
-/

namespace Cmp

/-- The title as the toolkit keeps it. -/
inductive NativeTitle
  | utf8 (s : Str .char8)
  | utf16 (s : Str .wide2)

/-- A window of the toolkit.  `command` is `show_command` of the object that has the window
(`windows_window_native_handle.hpp`), which is moved with the handle. -/
structure Native where
  title : NativeTitle
  visible : Bool
  mode : WindowMode
  command : WindowMode

/-- The window objects, and the windows of the toolkit by their handle. -/
structure Desk where
  gui : Gui
  native : Nat → Option Native

namespace Desk

def empty : Desk := ⟨Gui.empty, fun _ => none⟩

/-- A string as a function sees it that is given a pointer to its first unit. -/
def cString {w : Nat} (s : List (BitVec w)) : List (BitVec w) := s.takeWhile (· ≠ 0)

/-- Handing a title to the toolkit: `gtk_window.cpp` 385-388, `macos_window.mm` 360-364 and 406-410,
`windows_window.cpp` 383-384 and 402-417.  For malformed UTF-8 `stringWithUTF8String` returns `nil`,
and `setTitle` raises an exception nobody handles. -/
def handOver (valid : Str .char8 → Bool) : Toolkit → Str .char8 → Outcome NativeTitle
  | .gtk, s => .ok (.utf8 (cString s))
  | .macos, s => if valid (cString s) then .ok (.utf8 (cString s)) else .terminate
  | .windows, s => do
    let w ← convertString .char8 .wide2 s
    .ok (.utf16 (cString w))

/-- Getting it back: `gtk_window.cpp` 364-378, `macos_window.mm` 341-354, `windows_window.cpp`
369-376. -/
def fetch : NativeTitle → Outcome (Str .char8)
  | .utf8 s => .ok s
  | .utf16 s => convertString .wide2 .char8 s

/-- A new window is not visible.  GTK and macOS put it into its mode in `open` (`gtk_window.cpp`
415-423, `macos_window.mm` 412-417), Windows keeps the mode for `show` (`windows_window.cpp`
433-438). -/
def fresh (t : Toolkit) (title : NativeTitle) (mode : WindowMode) : Native :=
  ⟨title, false, if t = .windows then .standard else mode, mode⟩

/-- There is a window with the handle `h`. -/
def has (s : Gui) (h : Nat) : Bool := s.assoc.any fun a => a.1 = h

/-- The windows of the toolkit after the objects went from `s` to `s'`: windows that are no longer
associated are gone, new ones are there with the title they were given.  This gathers what `open` and
the closing of windows do to the toolkit; the exception for a title that cannot be converted leaves
the state as it was. -/
def settle (valid : Str .char8 → Bool) (t : Toolkit) (title : Str .char8) (mode : WindowMode)
    (s s' : Gui) (native : Nat → Option Native) : Outcome (Nat → Option Native) :=
  if s'.assoc.all fun a => has s a.1 then .ok fun h => if has s' h then native h else none
  else do
    let x ← handOver valid t title
    .ok fun h => if has s' h then (if has s h then native h else some (fresh t x mode)) else none

/-- What happens to the window objects, `step`. -/
def onGui (valid : Str .char8 → Bool) (t : Toolkit) (sec : Int → ℚ) (op : GuiOp) (title : Str .char8)
    (mode : WindowMode) : M Desk DeskResult := fun d =>
  match Gui.step t sec op d.gui with
  | (.ok r, s') =>
    match settle valid t title mode d.gui s' d.native with
    | .ok native => (.ok (.opened r), ⟨s', native⟩)
    | .throw e => (.throw e, d)
    | .terminate => (.terminate, d)
    | .ub => (.ub, d)
    | .hang => (.hang, d)
  | (.throw e, s') => (.throw e, ⟨s', d.native⟩)
  | (.terminate, s') => (.terminate, ⟨s', d.native⟩)
  | (.ub, s') => (.ub, ⟨s', d.native⟩)
  | (.hang, s') => (.hang, ⟨s', d.native⟩)

/-- What a function of the toolkit does with the window of an object.  Null handles are ignored by
all toolkits (`g_return_if_fail`, messages to `nil`, invalid handles); the handle of a window that is
gone is a dangling pointer for GTK and macOS, and an invalid handle for Windows. -/
def onNative (t : Toolkit) (i : Nat) (f : Native → Native) : M Desk Unit := fun d =>
  match d.gui.objs i with
  | none => (.ub, d)
  | some w =>
    match w.handle with
    | none => (.ok (), d)
    | some h =>
      match d.native h with
      | some n => (.ok (), { d with native := fun k => if k = h then some (f n) else d.native k })
      | none => if t = .windows then (.ok (), d) else (.ub, d)

/-- `set_title`, `gtk_window.cpp` 381-389, `macos_window.mm` 356-365, `windows_window.cpp` 379-385.
A message to `nil` is not looked at, so a malformed title does no harm there; the model has it
terminate. -/
def setTitle (valid : Str .char8 → Bool) (t : Toolkit) (i : Nat) (title : Str .char8) : M Desk Unit := do
  let x ← M.lift (handOver valid t title)
  onNative t i fun n => { n with title := x }

/-- `get_title`, `gtk_window.cpp` 360-379, `macos_window.mm` 337-354, `windows_window.cpp` 365-377.
GTK returns a null pointer for a null handle, which is looked at; on macOS `UTF8String` of `nil` is a
null pointer, which is followed; on Windows the length of the title of an invalid handle is 0. -/
def getTitle (t : Toolkit) (i : Nat) : M Desk (Str .char8) := fun d =>
  match d.gui.objs i with
  | none => (.ub, d)
  | some w =>
    match w.handle with
    | none => if t = .macos then (.ub, d) else (.ok [], d)
    | some h =>
      match d.native h with
      | some n => (fetch n.title, d)
      | none => if t = .windows then (.ok [], d) else (.ub, d)

/-- What `show` does to a window: nothing if it is visible; Windows puts it into the mode kept for
it, which is `standard` from then on. -/
def appear (t : Toolkit) (n : Native) : Native :=
  if n.visible then n
  else if t = .windows then { n with visible := true, mode := n.command, command := .standard }
  else { n with visible := true }

/-- `show`, `gtk_window.cpp` 472-480, `macos_window.mm` 430-441, `windows_window.cpp` 451-464. -/
def «show» (t : Toolkit) (i : Nat) : M Desk Unit := onNative t i (appear t)

/-- `hide`, `gtk_window.cpp` 482-486, `macos_window.mm` 443-449, `windows_window.cpp` 466-470. -/
def hide (t : Toolkit) (i : Nat) : M Desk Unit := onNative t i fun n => { n with visible := false }

/-- The user changes the mode of a window. -/
def user (h : Nat) (mode : WindowMode) : M Desk Unit := M.modify fun d =>
  { d with native := fun k => if k = h then (d.native k).map fun n => { n with mode := mode }
    else d.native k }

/-- One thing that happens in a program. -/
def step (valid : Str .char8 → Bool) (t : Toolkit) (sec : Int → ℚ) : DeskOp → M Desk DeskResult
  | .gui op title mode => onGui valid t sec op title mode
  | .setTitle i title => do setTitle valid t i title; pure .nothing
  | .getTitle i => do
    let s ← getTitle t i
    pure (.title s)
  | .show i => do «show» t i; pure .nothing
  | .hide i => do hide t i; pure .nothing
  | .user h mode => do user h mode; pure .nothing

end Desk

end Cmp
