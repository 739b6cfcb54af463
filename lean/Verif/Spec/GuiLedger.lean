import Verif.Spec.Gui

/-
What programs with windows do that keep to no discipline: which address hears of a window, and when
nothing can be said.  Times are left out.
-/

namespace Cmp.Spec

/-- The window objects that are alive with the handle they hold, the windows that are open with the
address that opened them or took them over last, and what was told at every address but for updates. -/
structure GuiLedger where
  holds : Nat → Option (Option Nat)
  taker : Nat → Option Nat
  told : Nat → List GuiEvent

namespace GuiLedger

def start : GuiLedger := ⟨fun _ => none, fun _ => none, fun _ => []⟩

def setHolds (w : GuiLedger) (i : Nat) (o : Option (Option Nat)) : GuiLedger :=
  { w with holds := fun k => if k = i then o else w.holds k }

def setTaker (w : GuiLedger) (h : Nat) (a : Option Nat) : GuiLedger :=
  { w with taker := fun k => if k = h then a else w.taker k }

/-- Somebody has to live at the address. -/
def tell (w : GuiLedger) (a : Nat) (e : GuiEvent) : Option GuiLedger :=
  match w.holds a with
  | none => none
  | some _ => some { w with told := fun k => if k = a then w.told k ++ [e] else w.told k }

/-- An object without a window opens one; only Windows may refuse. -/
def opens (t : Toolkit) (w : GuiLedger) (i : Nat) : Option Nat → Option GuiLedger
  | none => if t = .windows then some w else none
  | some h => some ((w.setHolds i (some (some h))).setTaker h (some i))

/-- An object is constructed where nothing lives. -/
def born (t : Toolkit) (w : GuiLedger) (i : Nat) (h : Option Nat) : Option GuiLedger :=
  match w.holds i with
  | some _ => none
  | none => (w.setHolds i (some none)).opens t i h

/-- Something is reported for a window: nobody hears of it if the window is not open. -/
def report (w : GuiLedger) (h : Nat) (e : GuiEvent) : Option GuiLedger :=
  match w.taker h with
  | none => some w
  | some a => w.tell a e

/-- The dialog of a close handler. -/
def dialog (t : Toolkit) (w : GuiLedger) : Option (Nat × Nat × Int × Bool) → Option GuiLedger
  | none => some w
  | some (k, h', _, _) => w.born t k (some h')

/-- Somebody asks the window to close: it has to be open, and the list of windows must not move under a
handler that accepts. -/
def request (t : Toolkit) (w : GuiLedger) (h : Nat) (r : CloseReply) : Option GuiLedger :=
  match w.taker h with
  | none => none
  | some a =>
    (w.tell a .closeRequest).bind fun w1 =>
    (w1.dialog t r.dialog).bind fun w2 =>
      if r.accept = false then some w2
      else if r.dialog.any (·.2.2.2) then none
      else some (w2.setTaker h none)

/-- `close`: whoever holds no handle is ignored by GTK and macOS; whoever holds one asks that window,
whether or not it hears of it. -/
def closes (t : Toolkit) (w : GuiLedger) (i : Nat) (r : CloseReply) : Option GuiLedger :=
  match w.holds i with
  | none => none
  | some none => if t = .windows then none else some w
  | some (some h) => w.request t h r

/-- The object at `i` becomes what the one at `j` is: a handle has to be of an open window. -/
def takes (w : GuiLedger) (i j : Nat) : Option GuiLedger :=
  match w.holds j with
  | none => none
  | some none => some ((w.setHolds i (some none)).setHolds j (some none))
  | some (some h) =>
    if (w.taker h).isSome then
      some (((w.setHolds i (some (some h))).setTaker h (some i)).setHolds j (some none))
    else none

open Classical in
/-- One thing that happens; `none` if the behaviour is undefined. -/
noncomputable def next (t : Toolkit) (keyOf : Nat → Key) (w : GuiLedger) : GuiOp → Option GuiLedger
  | .construct i h _ => w.born t i h
  | .open i h _ =>
    match w.holds i with
    | none => none
    | some (some _) => some w
    | some none => w.opens t i h
  | .close i r => w.closes t i r
  | .moveConstruct i j => if w.holds i = none then w.takes i j else none
  | .moveAssign i j r =>
    if w.holds i = none ∨ w.holds j = none then none
    else if i = j then some w
    else (w.closes t i r).bind fun w' => w'.takes i j
  | .destroy i => if w.holds i = none then none else some (w.setHolds i none)
  | .closeRequest h r => w.request t h r
  | .keyDown h code => w.report h (.keyDown (keyOf code))
  | .keyUp h code => w.report h (.keyUp (keyOf code))
  | .resize h => w.report h .resize
  | .idle _ => if ∀ h a, w.taker h = some a → w.holds a ≠ none then some w else none

/-- What it returns. -/
def result (w : GuiLedger) : GuiOp → Option Bool
  | .open i h _ => some (h.isSome && w.holds i = some none)
  | _ => none

/-- A handle the system gives out is of no open window. -/
def freshDialog (w : GuiLedger) (r : CloseReply) : Prop :=
  ∀ k h' now grows, r.dialog = some (k, h', now, grows) → w.taker h' = none

def fresh (w : GuiLedger) : GuiOp → Prop
  | .construct _ h _ | .open _ h _ => ∀ h', h = some h' → w.taker h' = none
  | .close _ r | .moveAssign _ _ r | .closeRequest _ r => w.freshDialog r
  | _ => True

/-- The system gives out such handles for as long as the program is defined. -/
noncomputable def allFresh (t : Toolkit) (keyOf : Nat → Key) (w : GuiLedger) : List GuiOp → Prop
  | [] => True
  | op :: ops => w.fresh op ∧ ∀ w', w.next t keyOf op = some w' → w'.allFresh t keyOf ops

/-- A whole program: what it sees and the ledger at its end, `none` if it is undefined. -/
noncomputable def run (t : Toolkit) (keyOf : Nat → Key) (w : GuiLedger) :
    List GuiOp → Option (List (Option Bool) × GuiLedger)
  | [] => some ([], w)
  | op :: ops =>
    (w.next t keyOf op).bind fun w' =>
    (w'.run t keyOf ops).map fun p => (w.result op :: p.1, p.2)

end GuiLedger

end Cmp.Spec
