import Verif.Model.Desk
import Verif.Spec.Loop

/-
Model of the loops of desktop programs with handlers that do something:
`gtk_desktop_gui_application.cpp` 83-100, `macos_desktop_gui_application.mm` 111-139,
`windows_desktop_gui_application.cpp` 67-86, and the loops over `window_associations` that call the
handlers.

The associations are in a `std::vector`: adding or removing one invalidates the end iterator of a
loop over it, which the loop compares with after the call of a handler unless it is left by `break`.
-/

namespace Cmp

namespace Desk

/-- Something that only concerns the window objects. -/
def onlyGui {α : Type} (x : M Gui α) : M Desk α := fun d =>
  match x d.gui with
  | (o, s) => (o, { d with gui := s })

/-- The handles of the associations. -/
def handles (d : Desk) : List Nat := d.gui.assoc.map (·.1)

/-- What a handler does.  The result is whether an association was added or removed meanwhile. -/
def acting (valid : Str .char8 → Bool) (t : Toolkit) (sec : Int → ℚ) : List DeskOp → M Desk Bool
  | [] => pure false
  | op :: ops => fun d =>
    (do
      let _ ← step valid t sec op
      let d' ← M.get
      let b ← acting valid t sec ops
      pure (b || handles d' ≠ handles d)) d

/-- The loops of `forward_key_down_event_to_window`, `forward_key_up_event_to_window` and
`forward_resize_event_to_window` (see `Gui.forward`): they are left after the call. -/
def forwardActing (valid : Str .char8 → Bool) (t : Toolkit) (sec : Int → ℚ) (h : Nat) (e : GuiEvent)
    (acts : List DeskOp) : M Desk Unit := fun d =>
  match d.gui.assoc.find? fun a => a.1 = h with
  | none => (.ok (), d)
  | some a =>
    (do
      onlyGui (Gui.call a.2 e)
      let _ ← acting valid t sec acts
      pure ()) d

/-- The idle branch, a loop over the associations with iterators: `n` is the position, `k` the number
of associations to go when the loop began. -/
def updateEach (valid : Str .char8 → Bool) (t : Toolkit) (sec : Int → ℚ) (clock : Nat → Int)
    (acts : Nat → List Act) : Nat → Nat → M Desk Unit
  | _, 0 => pure ()
  | n, k + 1 => fun d =>
    match d.gui.assoc[n]? with
    | none => (.ub, d)
    | some a =>
      (do
        onlyGui (Gui.updateWindow sec a.2 (clock a.1))
        let moved ← acting valid t sec ((acts a.1).map (Act.on a.2))
        if moved then M.ub else updateEach valid t sec clock acts (n + 1) k) d

/-- One turn of the loop.  Closing a window by its user is an operation of `step`. -/
def turn (valid : Str .char8 → Bool) (t : Toolkit) (sec : Int → ℚ) : GuiTurn → M Desk Unit
  | .keyDown h code acts => forwardActing valid t sec h (.keyDown (Gui.keyOf t code)) acts
  | .keyUp h code acts => forwardActing valid t sec h (.keyUp (Gui.keyOf t code)) acts
  | .resize h acts => forwardActing valid t sec h .resize acts
  | .closeRequest h r title mode => do
    let _ ← step valid t sec (.gui (.closeRequest h r) title mode)
    pure ()
  | .idle clock acts => fun d => updateEach valid t sec clock acts 0 d.gui.assoc.length d

/-- `desktop_gui_application::run`: `gtk_desktop_gui_application.cpp` 83-100,
`macos_desktop_gui_application.mm` 111-139, `windows_desktop_gui_application.cpp` 67-86.  GTK is asked
for the number of its windows, which are those with an association.  The turns are what the
environment has in store; when they are used up, the loop is still running. -/
def run (valid : Str .char8 → Bool) (t : Toolkit) (sec : Int → ℚ) : List GuiTurn → M Desk Int
  | [] => fun d => if d.gui.assoc.isEmpty then (.ok 0, d) else (.hang, d)
  | x :: xs => fun d =>
    if d.gui.assoc.isEmpty then (.ok 0, d)
    else (do
      turn valid t sec x
      run valid t sec xs) d

end Desk

end Cmp
