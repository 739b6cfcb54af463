import Verif.Spec.Gui

/-
What windows look like: titles, visibility and mode, in the abstract world of window objects.
-/

namespace Cmp

/-- `window_mode`, `general.hpp` 26-30. -/
inductive WindowMode
  | standard
  | maximized
  | minimized
  deriving DecidableEq, Repr

/-- What happens in a program with windows, with their looks.  The title and the mode of a `gui`
operation are those given for the window it opens, if it opens one. -/
inductive DeskOp
  | gui (op : GuiOp) (title : List (BitVec 8)) (mode : WindowMode)
  | setTitle (i : Nat) (title : List (BitVec 8))
  | getTitle (i : Nat)
  | show (i : Nat)
  | hide (i : Nat)
  /-- the user changes the mode of the window `h` -/
  | user (h : Nat) (mode : WindowMode)

/-- What an operation returns. -/
inductive DeskResult
  | opened (b : Option Bool)
  | title (s : List (BitVec 8))
  | nothing
  deriving DecidableEq

namespace Spec

/-- The looks of a window. -/
structure Face where
  title : List (BitVec 8)
  visible : Bool
  mode : WindowMode
  deriving DecidableEq

/-- The world of window objects, and the looks of the windows. -/
structure DeskWorld where
  gui : GuiWorld
  face : Nat → Face

namespace DeskWorld

def start : DeskWorld := ⟨.start, fun _ => ⟨[], false, .standard⟩⟩

/-- The window the object `i` shows. -/
def window (w : DeskWorld) (i : Nat) : Option Nat :=
  match w.gui.objs i with
  | some (.showing h _) => some h
  | _ => none

/-- Change the looks of the window of an object. -/
def change (w : DeskWorld) (i : Nat) (f : Face → Face) : DeskWorld :=
  match w.window i with
  | some h => { w with face := fun k => if k = h then f (w.face k) else w.face k }
  | none => w

end DeskWorld

/-- The window a close handler opens. -/
def replyBorn (r : CloseReply) : Option Nat := r.dialog.map (·.2.1)

/-- The window that is opened by an operation. -/
def born (w : GuiWorld) : GuiOp → Option Nat
  | .construct _ h _ => h
  | .open i h _ => if w.objs i = some .empty then h else none
  | .close i r =>
    match w.objs i with
    | some (.showing _ _) => replyBorn r
    | _ => none
  | .moveAssign i j r =>
    if i = j then none
    else match w.objs i with
      | some (.showing _ _) => replyBorn r
      | _ => none
  | .closeRequest _ r => replyBorn r
  | _ => none

/-- What becomes of the world: new windows have the title and mode they were given and are not
visible. -/
def deskNext (keyOf : Nat → Key) (sec : Int → ℚ) (w : DeskWorld) : DeskOp → DeskWorld
  | .gui op title mode =>
    ⟨guiNext keyOf sec w.gui op, fun h =>
      if born w.gui op = some h then ⟨title, false, mode⟩ else w.face h⟩
  | .setTitle i title => w.change i fun f => { f with title := title }
  | .getTitle _ => w
  | .show i => w.change i fun f => { f with visible := true }
  | .hide i => w.change i fun f => { f with visible := false }
  | .user h mode => { w with face := fun k => if k = h then { w.face k with mode := mode } else w.face k }

/-- What an operation returns: the title of an object without a window is empty. -/
def deskResult (w : DeskWorld) : DeskOp → DeskResult
  | .gui op _ _ => .opened (guiResult w.gui op)
  | .getTitle i =>
    match w.window i with
    | some h => .title (w.face h).title
    | none => .title []
  | _ => .nothing

/-- What programs may do: besides what is said in `guiAllowed`, titles must satisfy `ok`, and objects
must have a window or, except for asking for the title on macOS, have had none.  Users change the
modes of windows they see. -/
def deskAllowed (t : Toolkit) (ok : List (BitVec 8) → Prop) (w : DeskWorld) : DeskOp → Prop
  | .gui op title _ => guiAllowed t w.gui op ∧ (born w.gui op ≠ none → ok title)
  | .setTitle i title =>
    ok title ∧ (w.gui.objs i = some .empty ∨ ∃ h r, w.gui.objs i = some (.showing h r))
  | .getTitle i =>
    (t ≠ .macos ∧ w.gui.objs i = some .empty) ∨ ∃ h r, w.gui.objs i = some (.showing h r)
  | .show i | .hide i => w.gui.objs i = some .empty ∨ ∃ h r, w.gui.objs i = some (.showing h r)
  | .user h _ => (∃ i, w.gui.shows h i = true) ∧ (w.face h).visible = true

def deskLegal (t : Toolkit) (ok : List (BitVec 8) → Prop) (keyOf : Nat → Key) (sec : Int → ℚ)
    (w : DeskWorld) : List DeskOp → Prop
  | [] => True
  | op :: ops => deskAllowed t ok w op ∧ deskLegal t ok keyOf sec (deskNext keyOf sec w op) ops

def deskAfter (keyOf : Nat → Key) (sec : Int → ℚ) (w : DeskWorld) (ops : List DeskOp) : DeskWorld :=
  ops.foldl (deskNext keyOf sec) w

def deskResults (keyOf : Nat → Key) (sec : Int → ℚ) (w : DeskWorld) : List DeskOp → List DeskResult
  | [] => []
  | op :: ops => deskResult w op :: deskResults keyOf sec (deskNext keyOf sec w op) ops

end Spec

end Cmp
