import Verif.Model.Desk
import Verif.Model.Loop
import Verif.Model.Number
import Verif.Model.StdioExample

/-
Model of `examples/desktop_gui_example/src/main.cpp`: a window that reports on the terminal what
happens to it and counts seconds in its title.
-/

namespace Cmp

open OutStream

/-- The windows, the standard streams and the data members of the `demo_window`, `main.cpp` 96-97.
The window object is the only one; its address is 0. -/
structure Demo where
  desk : Desk
  console : Console
  counting : Bool
  last : Int

/-- What the program runs on: the toolkit, what `NSString` accepts, the conversion of clock readings to
seconds, the standard streams and the byte order of the machine. -/
structure DemoHost where
  toolkit : Toolkit
  valid : Str .char8 → Bool
  sec : Int → ℚ
  std : StdPlatform
  native : Endian

/-- What the environment has in store: events for the window with the handle `h`, and idle turns with
the reading of the clock. -/
inductive DemoTurn
  | keyDown (h code : Nat)
  | keyUp (h code : Nat)
  | resize (h : Nat)
  | closeRequest (h : Nat)
  | idle (now : Int)
  deriving DecidableEq

namespace Demo

variable {α : Type}

/-- Something done with the windows. -/
def onDesk (x : M Desk α) : M Demo α := fun d => ((x d.desk).1, { d with desk := (x d.desk).2 })

/-- Something done with the standard streams. -/
def onConsole (x : M Console α) : M Demo α := fun d =>
  ((x d.console).1, { d with console := (x d.console).2 })

/-- A `std::u8string` made of a literal: what is in front of the null. -/
def string (text : String) : Str .char8 := Desk.cString (literal .char8 text)

/-- `demo_window::demo_window`, `main.cpp` 13-24, with the handle the system gives out and the reading
of the clock. -/
def construct (x : DemoHost) (h : Nat) (now : Int) : M Demo Unit := do
  let _ ← onDesk (Desk.step x.valid x.toolkit x.sec
    (.gui (.construct 0 (some h) now) (string "Demo Window") .standard))
  M.modify fun d => { d with counting := false, last := -1 }
  let title ← onDesk (Desk.getTitle x.toolkit 0)
  onDesk (Desk.setTitle x.valid x.toolkit 0 (title ++ string " ¯\\_(ツ)_/¯"))

/-- `demo_window::update`, `main.cpp` 26-51.  Converting a value outside the range of `int` to `int` is
undefined. -/
def update (x : DemoHost) (total : ℚ) : M Demo Unit := do
  let d ← M.get
  if d.counting then
    if ¬ IntTy.int.Has total.floor then M.ub
    else if total.floor > d.last then do
      M.modify fun d => { d with last := total.floor }
      let f ← M.lift (IntegerFormat.make 10 .onlyWhenNegative .comma)
      let s ← M.lift (formatInteger .char8 .int total.floor f)
      onDesk (Desk.setTitle x.valid x.toolkit 0 (s ++ [0x73#8]))
    else pure ()
  else pure ()

/-- Writing something and `flush`. -/
def report (x : DemoHost) (words : M Console Unit) : M Demo Unit := onConsole do
  words
  Console.uout (OutStream.flush x.std.stdout)

/-- `demo_window::handle_key_down_event`, `main.cpp` 53-69. -/
def keyDown (x : DemoHost) (k : Key) : M Demo Unit := do
  report x do
    Console.uout (writeString x.native x.std.stdout .char8 (string k.name))
    Console.uout (writeArray x.native x.std.stdout .narrow (literal .narrow " down.\n"))
  if k = .spaceBar then do
    let d ← M.get
    if d.counting then do
      M.modify fun d => { d with counting := false }
      onDesk (Desk.setTitle x.valid x.toolkit 0 (string "Demo Window ¯\\_(ツ)_/¯"))
    else M.modify fun d => { d with counting := true }
  else pure ()

/-- `demo_window::handle_key_up_event`, `main.cpp` 71-77. -/
def keyUp (x : DemoHost) (k : Key) : M Demo Unit :=
  report x do
    Console.uout (writeString x.native x.std.stdout .char8 (string k.name))
    Console.uout (writeArray x.native x.std.stdout .narrow (literal .narrow " up.\n"))

/-- `demo_window::handle_resize_event`, `main.cpp` 79-84. -/
def resize (x : DemoHost) : M Demo Unit :=
  report x (Console.uout (writeArray x.native x.std.stdout .narrow (literal .narrow "Resized.\n")))

/-- `demo_window::handle_close_event`, `main.cpp` 86-92; the event says that the window shall close
(`gtk_window.cpp` 276, `macos_window.mm` 253, `windows_window.cpp` 232). -/
def close (x : DemoHost) : M Demo Unit :=
  report x (Console.uout (writeArray x.native x.std.stdout .narrow (literal .narrow "Closing.\n")))

/-- The loops that call a handler (see `Desk.forwardActing`). -/
def forward (h : Nat) (e : GuiEvent) (handler : M Demo Unit) : M Demo Unit := fun d =>
  match d.desk.gui.assoc.find? fun a => a.1 = h with
  | none => (.ok (), d)
  | some a =>
    (do
      onDesk (Desk.onlyGui (Gui.call a.2 e))
      handler) d

/-- `forward_close_event_to_window` (see `Gui.forwardClose`): without an association it has no return
statement. -/
def forwardClose (x : DemoHost) (h : Nat) : M Demo Unit := fun d =>
  match d.desk.gui.assoc.find? fun a => a.1 = h with
  | none => (.ub, d)
  | some _ =>
    (do
      close x
      let _ ← onDesk (Desk.step x.valid x.toolkit x.sec
        (.gui (.closeRequest h { accept := true }) [] .standard))
      pure ()) d

/-- The idle branch of the loop (see `Desk.updateEach`); the handler does not change the
associations. -/
def updateEach (x : DemoHost) (now : Int) : List (Nat × Nat) → M Demo Unit
  | [] => pure ()
  | a :: as => do
    onDesk (Desk.onlyGui (Gui.updateWindow x.sec a.2 now))
    let d ← M.get
    match d.desk.gui.objs a.2 with
    | none => M.ub
    | some w => do
      update x (x.sec (now - w.start))
      updateEach x now as

/-- One turn of the loop. -/
def turn (x : DemoHost) : DemoTurn → M Demo Unit
  | .keyDown h code => forward h (.keyDown (Gui.keyOf x.toolkit code)) (keyDown x (Gui.keyOf x.toolkit code))
  | .keyUp h code => forward h (.keyUp (Gui.keyOf x.toolkit code)) (keyUp x (Gui.keyOf x.toolkit code))
  | .resize h => forward h .resize (resize x)
  | .closeRequest h => forwardClose x h
  | .idle now => fun d => updateEach x now d.desk.gui.assoc d

/-- `desktop_gui_application::run` (see `Desk.run`). -/
def run (x : DemoHost) : List DemoTurn → M Demo Int
  | [] => fun d => if d.desk.gui.assoc.isEmpty then (.ok 0, d) else (.hang, d)
  | y :: ys => fun d =>
    if d.desk.gui.assoc.isEmpty then (.ok 0, d)
    else (do
      turn x y
      run x ys) d

/-- `main`, `main.cpp` 100-109, up to the loop. -/
def begin (x : DemoHost) (h : Nat) (now : Int) : M Demo Unit := do
  construct x h now
  onDesk (Desk.show x.toolkit 0)

/-- `main`, `main.cpp` 100-109, and the end of the process: the window object is destroyed, and the
destructor of `uout` flushes.  The application object (C85) is left out. -/
def main (x : DemoHost) (h : Nat) (now : Int) (ys : List DemoTurn) : M Demo Int := do
  begin x h now
  let r ← run x ys
  let _ ← onDesk (Desk.step x.valid x.toolkit x.sec (.gui (.destroy 0) [] .standard))
  onConsole (M.noexcept (Console.uout (OutStream.flush x.std.stdout)))
  pure r

/-- Before `main`. -/
def before (x : DemoHost) (capIn capOut : Nat) (sys : Sys) : Demo :=
  ⟨Desk.empty, Console.make x.std x.native capIn capOut sys, false, 0⟩

end Demo

end Cmp
