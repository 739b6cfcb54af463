import Verif.Spec.Desk

/-
What the loop of a desktop program is supposed to do: the turns of the environment, and what becomes
of the abstract world in a turn when handlers do something.
-/

namespace Cmp

/-- What a window object does to its own looks. -/
inductive Look
  | setTitle (s : List (BitVec 8))
  | show
  | hide

/-- The same as an operation of the program, done by the object at `i`. -/
def Look.on (i : Nat) : Look → DeskOp
  | .setTitle s => .setTitle i s
  | .show => .show i
  | .hide => .hide i

/-- What an update handler does: something to its own looks, or something else. -/
inductive Act
  | look (l : Look)
  | op (o : DeskOp)

def Act.on (i : Nat) : Act → DeskOp
  | .look l => l.on i
  | .op o => o

/-- One turn of the loop: an event is pending for the window `h`, whose handler does `acts`, or
nothing is pending, and all windows are updated; `acts h` is what the update handler of the object
with the window `h` does.  `title` and `mode` are for a window a close handler opens. -/
inductive GuiTurn
  | keyDown (h : Nat) (code : Nat) (acts : List DeskOp)
  | keyUp (h : Nat) (code : Nat) (acts : List DeskOp)
  | resize (h : Nat) (acts : List DeskOp)
  | closeRequest (h : Nat) (reply : CloseReply) (title : List (BitVec 8)) (mode : WindowMode)
  | idle (clock : Nat → Int) (acts : Nat → List Act)

namespace Spec

def lookFace (f : Face) : Look → Face
  | .setTitle s => { f with title := s }
  | .show => { f with visible := true }
  | .hide => { f with visible := false }

def actFace (f : Face) : Act → Face
  | .look l => lookFace f l
  | .op _ => f

/-- What becomes of the world in a turn: what a handler of an event does happens after the event. -/
def turnNext (keyOf : Nat → Key) (sec : Int → ℚ) (w : DeskWorld) : GuiTurn → DeskWorld
  | .keyDown h code acts => deskAfter keyOf sec w (.gui (.keyDown h code) [] .standard :: acts)
  | .keyUp h code acts => deskAfter keyOf sec w (.gui (.keyUp h code) [] .standard :: acts)
  | .resize h acts => deskAfter keyOf sec w (.gui (.resize h) [] .standard :: acts)
  | .closeRequest h r title mode => deskNext keyOf sec w (.gui (.closeRequest h r) title mode)
  | .idle clock acts =>
    ⟨guiNext keyOf sec w.gui (.idle clock), fun h => (acts h).foldl actFace (w.face h)⟩

/-- An update handler only changes the looks of its own window, with titles that satisfy `ok`. -/
def OwnLook (ok : List (BitVec 8) → Prop) : Act → Prop
  | .look (.setTitle s) => ok s
  | .look .show => True
  | .look .hide => True
  | .op _ => False

/-- Events come for windows that are there; what handlers of events do is allowed after the event. -/
def turnAllowed (t : Toolkit) (ok : List (BitVec 8) → Prop) (keyOf : Nat → Key) (sec : Int → ℚ)
    (w : DeskWorld) : GuiTurn → Prop
  | .keyDown h code acts => (∃ i, w.gui.shows h i = true) ∧
    deskLegal t ok keyOf sec w (.gui (.keyDown h code) [] .standard :: acts)
  | .keyUp h code acts => (∃ i, w.gui.shows h i = true) ∧
    deskLegal t ok keyOf sec w (.gui (.keyUp h code) [] .standard :: acts)
  | .resize h acts => (∃ i, w.gui.shows h i = true) ∧
    deskLegal t ok keyOf sec w (.gui (.resize h) [] .standard :: acts)
  | .closeRequest h r title mode => deskAllowed t ok w (.gui (.closeRequest h r) title mode)
  | .idle _ acts => ∀ h i, w.gui.shows h i = true → ∀ a ∈ acts h, OwnLook ok a

def turnsLegal (t : Toolkit) (ok : List (BitVec 8) → Prop) (keyOf : Nat → Key) (sec : Int → ℚ)
    (w : DeskWorld) : List GuiTurn → Prop
  | [] => True
  | x :: xs => turnAllowed t ok keyOf sec w x ∧ turnsLegal t ok keyOf sec (turnNext keyOf sec w x) xs

def turnsAfter (keyOf : Nat → Key) (sec : Int → ℚ) (w : DeskWorld) (xs : List GuiTurn) : DeskWorld :=
  xs.foldl (turnNext keyOf sec) w

/-- There is a window. -/
def AnyWindow (w : DeskWorld) : Prop := ∃ h i, w.gui.shows h i = true

end Spec

end Cmp
