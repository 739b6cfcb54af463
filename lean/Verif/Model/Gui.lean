import Verif.Base.History
import Verif.Spec.Gui

/-
Model of the windows of the three toolkits: `gtk_window.cpp`, `macos_window.mm`,
`windows_window.cpp`, `common_window.cpp` and the loops of the applications, all under
`api/src/cmp/desktop_gui/impl`.

The handlers of a window object only record what they are told; the close handler decides, and may
construct another window object.  The toolkits ask the close handler while `close` runs and destroy
the window at once if it accepts.  GTK ignoring `close` for a window that was never shown is not
modelled.
-/

namespace Cmp

/-- `window`, `gtk_window.hpp` 138-140: `m_native_handle`, `m_start_time`, `m_last_time`.  A null
handle is `none`.  Times are in ticks of the clock. -/
structure Win where
  handle : Option Nat
  start : Int
  last : Int
  deriving DecidableEq

/-- The window objects by their address, `window_associations` of the application, and what the
handlers were told. -/
structure Gui where
  objs : Nat → Option Win
  assoc : List (Nat × Nat)
  log : List (Nat × GuiEvent)

namespace Gui

def empty : Gui := ⟨fun _ => none, [], []⟩

def put (s : Gui) (i : Nat) (o : Option Win) : Gui :=
  { s with objs := fun k => if k = i then o else s.objs k }

/-- Calling a handler of the object at `i`. -/
def call (i : Nat) (e : GuiEvent) : M Gui Unit := fun s =>
  match s.objs i with
  | none => (.ub, s)
  | some _ => (.ok (), { s with log := s.log ++ [(i, e)] })

/-- The loops of `forward_key_down_event_to_window`, `forward_key_up_event_to_window` and
`forward_resize_event_to_window`: `gtk_window.cpp` 192-259, `macos_window.mm` 185-238,
`windows_window.cpp` 164-217. -/
def forward (h : Nat) (e : GuiEvent) : M Gui Unit := fun s =>
  match s.assoc.find? fun a => a.1 = h with
  | none => (.ok (), s)
  | some a => call a.2 e s

/-- `window::open`, `gtk_window.cpp` 393-470, `macos_window.mm` 369-428, `windows_window.cpp`
389-449.  Only Windows handles the refusal of a window (`show_command` then stays uninitialised, which is
not looked at when it is copied or used); the other toolkits do not refuse. -/
def «open» (t : Toolkit) (i : Nat) (h : Option Nat) (now : Int) : M Gui Bool := fun s =>
  match s.objs i with
  | none => (.ub, s)
  | some w =>
    match w.handle with
    | some _ => (.ok false, s)
    | none =>
      match h with
      | none => if t = .windows then (.ok false, s) else (.ub, s)
      | some h =>
        (.ok true, { s.put i (some ⟨some h, now, now⟩) with assoc := s.assoc ++ [(h, i)] })

/-- `window::window`, `gtk_window.cpp` 294-302, `macos_window.mm` 271-279, `windows_window.cpp`
299-307.  The times are not initialised before `open`; they are not looked at without a handle. -/
def construct (t : Toolkit) (i : Nat) (h : Option Nat) (now : Int) : M Gui Unit := fun s =>
  match s.objs i with
  | some _ => (.ub, s)
  | none => (do let _ ← «open» t i h now; pure ()) (s.put i (some ⟨none, 0, 0⟩))

/-- The close handler: it is told, and it may construct another window. -/
def closeHandler (t : Toolkit) (i : Nat) (r : CloseReply) : M Gui Unit := do
  call i .closeRequest
  match r.dialog with
  | none => pure ()
  | some (k, h', now, _) => construct t k (some h') now

/-- The list of windows outgrew its memory while the handler ran, so iterators into it are
invalid. -/
def CloseReply.moved (r : CloseReply) : Bool :=
  match r.dialog with
  | some (_, _, _, grows) => grows
  | none => false

/-- `window_associations.erase` through an iterator. -/
def eraseAt (n : Nat) : M Gui Unit := M.modify fun s => { s with assoc := s.assoc.eraseIdx n }

/-- `forward_close_event_to_window` with what the toolkit does with its answer: `gtk_window.cpp`
261-286, `macos_window.mm` 240-263, `windows_window.cpp` 219-242 and `close_window` 259-266.  Without
an association the function has no return statement.  The association is erased through the iterator
that was found before the handler ran. -/
def forwardClose (t : Toolkit) (h : Nat) (r : CloseReply) : M Gui Unit := fun s =>
  match s.assoc.find? fun a => a.1 = h with
  | none => (.ub, s)
  | some a =>
    (do
      closeHandler t a.2 r
      if r.accept then
        if CloseReply.moved r then M.ub
        else eraseAt (s.assoc.findIdx fun (a : Nat × Nat) => a.1 = h)
      else pure ()) s

/-- `window::close`, `gtk_window.cpp` 488-492, `macos_window.mm` 451-457, `windows_window.cpp`
472-476.  GTK and macOS ignore a null handle.  A handle of a window that is gone is a dangling pointer
for them, and Windows finds no association. -/
def close (t : Toolkit) (i : Nat) (r : CloseReply) : M Gui Unit := fun s =>
  match s.objs i with
  | none => (.ub, s)
  | some w =>
    match w.handle with
    | none => if t = .windows then (.ub, s) else (.ok (), s)
    | some h => forwardClose t h r s

/-- `window::fix_association`, `gtk_window.cpp` 526-543, `macos_window.mm` 491-508,
`windows_window.cpp` 510-527: the end iterator is written to if nothing is found. -/
def fixAssociation (i h : Nat) : M Gui Unit := fun s =>
  if s.assoc.any fun a => a.1 = h then
    (.ok (), { s with assoc := s.assoc.modify (s.assoc.findIdx fun a => a.1 = h) fun a => (a.1, i) })
  else (.ub, s)

/-- What both move operations do: take over the members, fix the association, clear the handle of the
other object. -/
def take (i j : Nat) (w : Win) : M Gui Unit := fun s =>
  (do
    match w.handle with
    | some h => fixAssociation i h
    | none => pure ()
    M.modify fun s' => s'.put j (some { w with handle := none })) (s.put i (some w))

/-- `window::window(window&&)`, `gtk_window.cpp` 306-319, `macos_window.mm` 283-296,
`windows_window.cpp` 311-324. -/
def moveConstruct (i j : Nat) : M Gui Unit := fun s =>
  match s.objs i, s.objs j with
  | none, some w => take i j w s
  | _, _ => (.ub, s)

/-- The tail of the move assignment: the other object is read after `close` has run. -/
def takeFrom (i j : Nat) : M Gui Unit := fun s =>
  match s.objs i, s.objs j with
  | some _, some w => take i j w s
  | _, _ => (.ub, s)

/-- `window::operator=(window&&)`, `gtk_window.cpp` 321-342, `macos_window.mm` 298-319,
`windows_window.cpp` 326-347. -/
def moveAssign (t : Toolkit) (i j : Nat) (r : CloseReply) : M Gui Unit := fun s =>
  match s.objs i, s.objs j with
  | some _, some _ =>
    if i = j then (.ok (), s)
    else (do close t i r; takeFrom i j) s
  | _, _ => (.ub, s)

/-- `~window`, `gtk_window.hpp` 31-32: defaulted, the association stays. -/
def destroy (i : Nat) : M Gui Unit := fun s =>
  match s.objs i with
  | none => (.ub, s)
  | some _ => (.ok (), s.put i none)

/-- `update_window`, `common_window.cpp` 12-33.  `sec` is the conversion of a difference of readings
to `double` seconds. -/
def updateWindow (sec : Int → ℚ) (i : Nat) (now : Int) : M Gui Unit := fun s =>
  match s.objs i with
  | none => (.ub, s)
  | some w =>
    call i (.update (sec (now - w.last)) (sec (now - w.start))) (s.put i (some { w with last := now }))

/-- The idle branch of the loops: `gtk_desktop_gui_application.cpp` 90-96,
`macos_desktop_gui_application.mm` 129-135, `windows_desktop_gui_application.cpp` 76-82. -/
def updateAll (sec : Int → ℚ) (clock : Nat → Int) : List (Nat × Nat) → M Gui Unit
  | [] => pure ()
  | a :: as => do
    updateWindow sec a.2 (clock a.1)
    updateAll sec clock as

/-- The translation of the toolkit. -/
def keyOf : Toolkit → Nat → Key
  | .gtk, code => Key.translateGtk (BitVec.ofNat 32 code)
  | .macos, code => Key.translateMacos (BitVec.ofNat 16 code)
  | .windows, code => Key.translateWindows (BitVec.ofNat 64 code)

/-- One thing that happens in a program.  `closeRequest`: the toolkit calls
`forward_close_event_to_window` (`gtk_window.cpp` 432-437, `macos_window.mm` 540-547,
`windows_window.cpp` 275-277). -/
def step (t : Toolkit) (sec : Int → ℚ) : GuiOp → M Gui (Option Bool)
  | .construct i h now => do construct t i h now; pure none
  | .open i h now => do
    let b ← «open» t i h now
    pure (some b)
  | .close i r => do close t i r; pure none
  | .moveConstruct i j => do moveConstruct i j; pure none
  | .moveAssign i j r => do moveAssign t i j r; pure none
  | .destroy i => do destroy i; pure none
  | .closeRequest h r => do forwardClose t h r; pure none
  | .keyDown h code => do forward h (.keyDown (keyOf t code)); pure none
  | .keyUp h code => do forward h (.keyUp (keyOf t code)); pure none
  | .resize h => do forward h .resize; pure none
  | .idle clock => fun s => (do updateAll sec clock s.assoc; pure none) s

end Gui

end Cmp
