import Verif.Spec.Desk
import Verif.Base.Outcome

/-
What the windows of the three toolkits really look like and what is returned for their titles: the
abstract world of `Desk`, with the peculiarities of the toolkits.
-/

namespace Cmp.Spec

/-- What can be seen of a window, and whether it has been seen before. -/
structure Sight where
  title : List (BitVec 8)
  visible : Bool
  mode : WindowMode
  shown : Bool
  deriving DecidableEq

/-- The world of window objects, and what can be seen of the windows. -/
structure SightWorld where
  gui : GuiWorld
  sight : Nat → Sight

namespace SightWorld

def start : SightWorld := ⟨.start, fun _ => ⟨[], false, .standard, false⟩⟩

/-- The window the object `i` shows. -/
def window (w : SightWorld) (i : Nat) : Option Nat :=
  match w.gui.objs i with
  | some (.showing h _) => some h
  | _ => none

/-- Something becomes of the window of an object. -/
def change (w : SightWorld) (i : Nat) (f : Sight → Sight) : SightWorld :=
  match w.window i with
  | some h => { w with sight := fun k => if k = h then f (w.sight k) else w.sight k }
  | none => w

end SightWorld

/-- A window appears: on Windows in the mode it was given if it appears for the first time, and as a
standard window otherwise; in the mode it has on GTK and macOS. -/
def Sight.appear (t : Toolkit) (s : Sight) : Sight :=
  if s.visible then s
  else { s with
    visible := true
    shown := true
    mode := if t = .windows ∧ s.shown = true then .standard else s.mode }

/-- What becomes of the world. -/
def sightNext (t : Toolkit) (keyOf : Nat → Key) (sec : Int → ℚ) (w : SightWorld) : DeskOp → SightWorld
  | .gui op title mode =>
    ⟨guiNext keyOf sec w.gui op, fun h =>
      if born w.gui op = some h then ⟨title, false, mode, false⟩ else w.sight h⟩
  | .setTitle i title => w.change i fun s => { s with title := title }
  | .getTitle _ => w
  | .show i => w.change i (Sight.appear t)
  | .hide i => w.change i fun s => { s with visible := false }
  | .user h mode =>
    { w with sight := fun k => if k = h then { w.sight k with mode := mode } else w.sight k }

/-- What is returned for a title: what stands before the first NUL.  On Windows the first character in
it that is outside of the Basic Multilingual Plane makes reading fail.  `text` says which text the
bytes of a title denote. -/
def titleBack (t : Toolkit) (text : List (BitVec 8) → List Nat) (title : List (BitVec 8)) :
    Outcome (List (BitVec 8)) :=
  match ((text title).takeWhile (· ≠ 0)).find? (0x10000 ≤ ·) with
  | some c =>
    if t ≠ .windows then .ok (title.takeWhile (· ≠ 0))
    else if 0xD800 ≤ c % 0x10000 ∧ c % 0x10000 < 0xE000 then .throw .invalidCodePoint
    else .throw .invalidUnicodeEncoding
  | none => .ok (title.takeWhile (· ≠ 0))

/-- What an operation returns. -/
def sightOutcome (t : Toolkit) (text : List (BitVec 8) → List Nat) (w : SightWorld) : DeskOp → Outcome DeskResult
  | .gui op _ _ => .ok (.opened (guiResult w.gui op))
  | .getTitle i =>
    match w.window i with
    | some h => do
      let s ← titleBack t text (w.sight h).title
      .ok (.title s)
    | none => .ok (.title [])
  | _ => .ok .nothing

/-- What programs may do, as in `deskAllowed`. -/
def sightAllowed (t : Toolkit) (ok : List (BitVec 8) → Prop) (w : SightWorld) : DeskOp → Prop
  | .gui op title _ => guiAllowed t w.gui op ∧ (born w.gui op ≠ none → ok title)
  | .setTitle i title =>
    ok title ∧ (w.gui.objs i = some .empty ∨ ∃ h r, w.gui.objs i = some (.showing h r))
  | .getTitle i =>
    (t ≠ .macos ∧ w.gui.objs i = some .empty) ∨ ∃ h r, w.gui.objs i = some (.showing h r)
  | .show i | .hide i => w.gui.objs i = some .empty ∨ ∃ h r, w.gui.objs i = some (.showing h r)
  | .user h _ => (∃ i, w.gui.shows h i = true) ∧ (w.sight h).visible = true

def sightLegal (t : Toolkit) (ok : List (BitVec 8) → Prop) (keyOf : Nat → Key) (sec : Int → ℚ)
    (w : SightWorld) : List DeskOp → Prop
  | [] => True
  | op :: ops => sightAllowed t ok w op ∧ sightLegal t ok keyOf sec (sightNext t keyOf sec w op) ops

def sightAfter (t : Toolkit) (keyOf : Nat → Key) (sec : Int → ℚ) (w : SightWorld) (ops : List DeskOp) :
    SightWorld :=
  ops.foldl (sightNext t keyOf sec) w

def sightOutcomes (t : Toolkit) (text : List (BitVec 8) → List Nat) (keyOf : Nat → Key) (sec : Int → ℚ)
    (w : SightWorld) : List DeskOp → List (Outcome DeskResult)
  | [] => []
  | op :: ops => sightOutcome t text w op :: sightOutcomes t text keyOf sec (sightNext t keyOf sec w op) ops

end Cmp.Spec
