import Verif.Spec.Loop

/-
What the loop of a desktop program does when update handlers do anything programs may do: windows are
updated in the order in which they were opened, and nothing can be said once a handler of an update
opens or closes a window.
-/

namespace Cmp.Spec

/-- The window `h` is open. -/
def DeskWorld.Open (w : DeskWorld) (h : Nat) : Prop := ∃ i, w.gui.shows h i = true

/-- The window an operation opens. -/
def deskBorn (w : DeskWorld) : DeskOp → Option Nat
  | .gui op _ _ => born w.gui op
  | _ => none

open Classical in
/-- The order in which the windows that are open were opened, after an operation. -/
noncomputable def orderNext (keyOf : Nat → Key) (sec : Int → ℚ) (w : DeskWorld) (op : DeskOp)
    (order : List Nat) : List Nat :=
  (order ++ (deskBorn w op).toList).filter fun h => decide ((deskNext keyOf sec w op).Open h)

/-- The same after several operations. -/
noncomputable def orderAfter (keyOf : Nat → Key) (sec : Int → ℚ) (w : DeskWorld) (order : List Nat) :
    List DeskOp → List Nat
  | [] => order
  | op :: ops => orderAfter keyOf sec (deskNext keyOf sec w op) (orderNext keyOf sec w op order) ops

/-- No operation opens or closes a window. -/
def Steady (keyOf : Nat → Key) (sec : Int → ℚ) (w : DeskWorld) : List DeskOp → Prop
  | [] => True
  | op :: ops => (∀ h, (deskNext keyOf sec w op).Open h ↔ w.Open h) ∧
    Steady keyOf sec (deskNext keyOf sec w op) ops

/-- The object with the window `h` is told of an update. -/
def DeskWorld.updated (sec : Int → ℚ) (clock : Nat → Int) (w : DeskWorld) (h : Nat) : DeskWorld :=
  { w with gui :=
    { objs := fun i =>
        match w.gui.objs i with
        | some (.showing h' readings) =>
          some (.showing h' (if h' = h then clock h :: readings else readings))
        | o => o
      told := fun i =>
        match w.gui.objs i with
        | some (.showing h' readings) =>
          if h' = h then w.gui.told i ++ [updateEvent sec (clock h) readings] else w.gui.told i
        | _ => w.gui.told i } }

open Classical in
/-- The object with the window `h`. -/
noncomputable def DeskWorld.owner (w : DeskWorld) (h : Nat) : Nat :=
  if H : w.Open h then H.choose else 0

/-- What the update handler of the object with the window `h` does. -/
noncomputable def handlerOps (w : DeskWorld) (acts : Nat → List Act) (h : Nat) : List DeskOp :=
  (acts h).map (Act.on (w.owner h))

open Classical in
/-- The windows are updated one after the other; `none` if a handler opens or closes a window. -/
noncomputable def updatesAfter (keyOf : Nat → Key) (sec : Int → ℚ) (clock : Nat → Int)
    (acts : Nat → List Act) (w : DeskWorld) : List Nat → Option DeskWorld
  | [] => some w
  | h :: hs =>
    if Steady keyOf sec (w.updated sec clock h) (handlerOps w acts h) then
      updatesAfter keyOf sec clock acts
        (deskAfter keyOf sec (w.updated sec clock h) (handlerOps w acts h)) hs
    else none

/-- What the handlers do is allowed, as long as the turn is defined. -/
def updatesLegal (t : Toolkit) (ok : List (BitVec 8) → Prop) (keyOf : Nat → Key) (sec : Int → ℚ)
    (clock : Nat → Int) (acts : Nat → List Act) (w : DeskWorld) : List Nat → Prop
  | [] => True
  | h :: hs => deskLegal t ok keyOf sec (w.updated sec clock h) (handlerOps w acts h) ∧
    (Steady keyOf sec (w.updated sec clock h) (handlerOps w acts h) →
      updatesLegal t ok keyOf sec clock acts
        (deskAfter keyOf sec (w.updated sec clock h) (handlerOps w acts h)) hs)

/-- The operations of an event and its handler; events of windows that are not there are not
handled. -/
def turnEvent : GuiTurn → Option (Nat × List DeskOp)
  | .keyDown h code acts => some (h, .gui (.keyDown h code) [] .standard :: acts)
  | .keyUp h code acts => some (h, .gui (.keyUp h code) [] .standard :: acts)
  | .resize h acts => some (h, .gui (.resize h) [] .standard :: acts)
  | .closeRequest h r title mode => some (h, [.gui (.closeRequest h r) title mode])
  | .idle _ _ => none

def isClose : GuiTurn → Bool
  | .closeRequest _ _ _ _ => true
  | _ => false

open Classical in
/-- A turn; `none` if nothing can be said. -/
noncomputable def turnDo (keyOf : Nat → Key) (sec : Int → ℚ) (s : DeskWorld × List Nat) (x : GuiTurn) :
    Option (DeskWorld × List Nat) :=
  match turnEvent x, x with
  | some (h, ops), _ =>
    if s.1.Open h then some (deskAfter keyOf sec s.1 ops, orderAfter keyOf sec s.1 s.2 ops)
    else if isClose x then none else some s
  | none, .idle clock acts => (updatesAfter keyOf sec clock acts s.1 s.2).map fun w => (w, s.2)
  | none, _ => none

/-- What handlers do is allowed. -/
def turnGood (t : Toolkit) (ok : List (BitVec 8) → Prop) (keyOf : Nat → Key) (sec : Int → ℚ)
    (s : DeskWorld × List Nat) (x : GuiTurn) : Prop :=
  match turnEvent x, x with
  | some (h, ops), _ => s.1.Open h → deskLegal t ok keyOf sec s.1 ops
  | none, .idle clock acts => updatesLegal t ok keyOf sec clock acts s.1 s.2
  | none, _ => True

/-- How a loop ends. -/
inductive LoopEnd
  | returned (w : DeskWorld)
  | undefined
  | running (w : DeskWorld)

open Classical in
/-- The loop: it returns as soon as no window is open. -/
noncomputable def loop (keyOf : Nat → Key) (sec : Int → ℚ) (s : DeskWorld × List Nat) :
    List GuiTurn → LoopEnd
  | [] => if AnyWindow s.1 then .running s.1 else .returned s.1
  | x :: xs =>
    if AnyWindow s.1 then
      match turnDo keyOf sec s x with
      | none => .undefined
      | some s' => loop keyOf sec s' xs
    else .returned s.1

/-- What handlers do is allowed as long as the loop runs. -/
def loopGood (t : Toolkit) (ok : List (BitVec 8) → Prop) (keyOf : Nat → Key) (sec : Int → ℚ)
    (s : DeskWorld × List Nat) : List GuiTurn → Prop
  | [] => True
  | x :: xs => AnyWindow s.1 → turnGood t ok keyOf sec s x ∧
    ∀ s', turnDo keyOf sec s x = some s' → loopGood t ok keyOf sec s' xs

end Cmp.Spec
