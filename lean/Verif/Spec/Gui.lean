import Mathlib.Data.Rat.Defs
import Verif.Model.Key

/-
What window objects are supposed to do: the vocabulary of programs with windows, and an abstract
world in which each window object shows at most one window of the system.
-/

namespace Cmp

/-- What a window object is told. -/
inductive GuiEvent
  | keyDown (k : Key)
  | keyUp (k : Key)
  | resize
  | closeRequest
  | update (delta total : ℚ)
  deriving DecidableEq

/-- What a close handler does: `accept` is whether it lets the window close.  Before, it may construct
another window object, say to ask the user: at which address, with which handle of the system, at
which time, and whether the list of windows outgrows its memory by that. -/
structure CloseReply where
  accept : Bool
  dialog : Option (Nat × Nat × Int × Bool) := none

/-- What happens in a program with windows.  `h` is the handle the system gives out for a new window,
`none` if it refuses; `now` is the reading of the clock, and in `idle` the reading at the time the
window with a given handle is updated. -/
inductive GuiOp
  | construct (i : Nat) (h : Option Nat) (now : Int)
  | «open» (i : Nat) (h : Option Nat) (now : Int)
  | close (i : Nat) (reply : CloseReply)
  | moveConstruct (i j : Nat)
  | moveAssign (i j : Nat) (reply : CloseReply)
  | destroy (i : Nat)
  /-- the user closes the window `h` -/
  | closeRequest (h : Nat) (reply : CloseReply)
  | keyDown (h : Nat) (code : Nat)
  | keyUp (h : Nat) (code : Nat)
  | resize (h : Nat)
  | idle (clock : Nat → Int)

/-- The three implementations. -/
inductive Toolkit
  | gtk
  | macos
  | windows
  deriving DecidableEq, Repr

namespace Spec

/-- A window object: without a window, with the window `h` and the readings of the clock since it was
opened, latest first, or with a window that has been closed. -/
inductive Shown
  | empty
  | showing (h : Nat) (readings : List Int)
  | closed
  deriving DecidableEq

/-- The object shows the window `h`. -/
def Shown.is (h : Nat) : Option Shown → Bool
  | some (.showing h' _) => h' = h
  | _ => false

/-- The window objects that are alive, and what every address has been told. -/
structure GuiWorld where
  objs : Nat → Option Shown
  told : Nat → List GuiEvent

namespace GuiWorld

def start : GuiWorld := ⟨fun _ => none, fun _ => []⟩

/-- The object `i` shows the window `h`. -/
def shows (w : GuiWorld) (h i : Nat) : Bool := Shown.is h (w.objs i)

/-- No object shows the window `h`. -/
def Fresh (w : GuiWorld) (h : Nat) : Prop := ∀ i, w.shows h i = false

def put (w : GuiWorld) (i : Nat) (o : Option Shown) : GuiWorld :=
  { w with objs := fun k => if k = i then o else w.objs k }

/-- Tell whoever shows the window `h`. -/
def tell (w : GuiWorld) (h : Nat) (e : GuiEvent) : GuiWorld :=
  { w with told := fun i => if w.shows h i then w.told i ++ [e] else w.told i }

/-- The window `h` disappears. -/
def vanish (w : GuiWorld) (h : Nat) : GuiWorld :=
  { w with objs := fun i => if w.shows h i then some .closed else w.objs i }

/-- The window `h` is asked to close. -/
def request (w : GuiWorld) (h : Nat) (r : CloseReply) : GuiWorld :=
  let w1 := w.tell h .closeRequest
  let w2 := match r.dialog with
    | none => w1
    | some (k, h', now, _) => w1.put k (some (.showing h' [now]))
  if r.accept then w2.vanish h else w2

end GuiWorld

/-- The time that has passed over a list of readings, latest first: the sum of the differences of
neighbours. -/
def elapsed : List Int → Int
  | now :: before :: rest => (now - before) + elapsed (before :: rest)
  | _ => 0

/-- The event of an update at the time `now`: the time since the last reading and the time since the
window was opened.  `sec` turns ticks of the clock into seconds. -/
def updateEvent (sec : Int → ℚ) (now : Int) (readings : List Int) : GuiEvent :=
  .update (sec (elapsed (now :: readings.take 1))) (sec (elapsed (now :: readings)))

/-- A handler may only construct its dialog where there is nothing, the system gives out a handle no
window has, and the list of windows does not move if the window is to close. -/
def replyAllowed (w : GuiWorld) (r : CloseReply) : Prop :=
  match r.dialog with
  | none => True
  | some (k, h', _, grows) => w.objs k = none ∧ w.Fresh h' ∧ (grows = false ∨ r.accept = false)

/-- The handle the system gives out: no window has it, and only Windows refuses. -/
def handleAllowed (t : Toolkit) (w : GuiWorld) : Option Nat → Prop
  | none => t = .windows
  | some h => w.Fresh h

/-- What programs may do.  Objects whose window has been closed can only be asked to open and be
destroyed, objects that show a window cannot be destroyed, and objects without a window cannot be
closed on Windows. -/
def guiAllowed (t : Toolkit) (w : GuiWorld) : GuiOp → Prop
  | .construct i h _ => w.objs i = none ∧ handleAllowed t w h
  | .open i h _ => w.objs i ≠ none ∧ handleAllowed t w h
  | .close i r =>
    match w.objs i with
    | some (.showing _ _) => replyAllowed w r
    | some .empty => t ≠ .windows
    | _ => False
  | .moveConstruct i j => w.objs i = none ∧ w.objs j ≠ none ∧ w.objs j ≠ some .closed
  | .moveAssign i j r =>
    if i = j then w.objs i ≠ none
    else w.objs j ≠ none ∧ w.objs j ≠ some .closed ∧
      match w.objs i with
      | some (.showing _ _) => replyAllowed w r ∧ r.accept = true
      | some .empty => t ≠ .windows
      | _ => False
  | .destroy i => w.objs i = some .empty ∨ w.objs i = some .closed
  | .closeRequest h r => (∃ i, w.shows h i = true) ∧ replyAllowed w r
  | .keyDown _ _ | .keyUp _ _ | .resize _ | .idle _ => True

/-- An object that is alive opens a window. -/
def GuiWorld.opened (w : GuiWorld) (i : Nat) : Option Nat → Int → GuiWorld
  | some h, now => if w.objs i = some .empty then w.put i (some (.showing h [now])) else w
  | none, _ => w

/-- What becomes of the world. -/
def guiNext (keyOf : Nat → Key) (sec : Int → ℚ) (w : GuiWorld) : GuiOp → GuiWorld
  | .construct i h now => (w.put i (some .empty)).opened i h now
  | .open i h now => w.opened i h now
  | .close i r =>
    match w.objs i with
    | some (.showing h _) => w.request h r
    | _ => w
  | .moveConstruct i j => (w.put i (w.objs j)).put j (some .empty)
  | .moveAssign i j r =>
    if i = j then w
    else
      let w' := match w.objs i with
        | some (.showing h _) => w.request h r
        | _ => w
      (w'.put i (w.objs j)).put j (some .empty)
  | .destroy i => w.put i none
  | .closeRequest h r => w.request h r
  | .keyDown h code => w.tell h (.keyDown (keyOf code))
  | .keyUp h code => w.tell h (.keyUp (keyOf code))
  | .resize h => w.tell h .resize
  | .idle clock =>
    { objs := fun i =>
        match w.objs i with
        | some (.showing h readings) => some (.showing h (clock h :: readings))
        | o => o
      told := fun i =>
        match w.objs i with
        | some (.showing h readings) => w.told i ++ [updateEvent sec (clock h) readings]
        | _ => w.told i }

/-- What an operation returns: `open` whether it opened a window. -/
def guiResult (w : GuiWorld) : GuiOp → Option Bool
  | .open i h _ => some (h.isSome && w.objs i = some .empty)
  | _ => none

/-- Every operation is allowed when it comes. -/
def guiLegal (t : Toolkit) (keyOf : Nat → Key) (sec : Int → ℚ) (w : GuiWorld) : List GuiOp → Prop
  | [] => True
  | op :: ops => guiAllowed t w op ∧ guiLegal t keyOf sec (guiNext keyOf sec w op) ops

/-- The world after a program. -/
def guiAfter (keyOf : Nat → Key) (sec : Int → ℚ) (w : GuiWorld) (ops : List GuiOp) : GuiWorld :=
  ops.foldl (guiNext keyOf sec) w

/-- What a program sees. -/
def guiResults (keyOf : Nat → Key) (sec : Int → ℚ) (w : GuiWorld) : List GuiOp → List (Option Bool)
  | [] => []
  | op :: ops => guiResult w op :: guiResults keyOf sec (guiNext keyOf sec w op) ops

end Spec

end Cmp
