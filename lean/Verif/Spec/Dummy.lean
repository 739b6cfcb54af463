import Verif.Spec.TestRun

/-
Specification of the objects a test uses to see which special member functions are called.
-/

namespace Cmp

namespace Spec

/-- What a test does: with its objects, which are numbered in the order in which they are made, and
with the messages. -/
inductive DummyOp
  | construct (v : Int)
  | copy (i : Nat)
  | move (i : Nat)
  | destroy (i : Nat)
  | get (i : Nat)
  | set (i : Nat) (v : Int)
  | queue (op : MessageOp)
  deriving DecidableEq

/-- How many objects have been made. -/
def made : List DummyOp → Nat
  | [] => 0
  | .construct _ :: past => made past + 1
  | .copy _ :: past => made past + 1
  | .move _ :: past => made past + 1
  | _ :: past => made past

/-- The value of an object, looking back from the latest operation: it has the value it was given
last; if it was made from another object, the value of that at the time; if it was last moved from,
zero.  `none`: it was destroyed or has not been made. -/
def valueOf : List DummyOp → Nat → Option Int
  | [], _ => none
  | .construct v :: past, i => if i = made past then some v else valueOf past i
  | .copy j :: past, i => if i = made past then valueOf past j else valueOf past i
  | .move j :: past, i =>
    if i = made past then valueOf past j else if i = j then some 0 else valueOf past i
  | .destroy j :: past, i => if i = j then none else valueOf past i
  | .set j v :: past, i => if i = j then some v else valueOf past i
  | .get _ :: past, i => valueOf past i
  | .queue _ :: past, i => valueOf past i

/-- The object that an operation uses. -/
def DummyOp.uses : DummyOp → Option Nat
  | .copy i => some i
  | .move i => some i
  | .destroy i => some i
  | .get i => some i
  | .set i _ => some i
  | _ => none

/-- No operation uses an object that is not there; the first argument is the past, latest first. -/
def Proper : List DummyOp → List DummyOp → Prop
  | _, [] => True
  | past, op :: ops => (∀ i, op.uses = some i → valueOf past i ≠ none) ∧ Proper (op :: past) ops

/-- The values that are read. -/
def valuesRead : List DummyOp → List DummyOp → List (Option Int)
  | _, [] => []
  | past, .get i :: ops => valueOf past i :: valuesRead (.get i :: past) ops
  | past, op :: ops => valuesRead (op :: past) ops

/-- The special member function that is called by an operation, if any, as a message; and what the
test itself does with the messages. -/
def DummyOp.messages : DummyOp → List MessageOp
  | .construct _ => [.push .constructorCalled]
  | .copy _ => [.push .copyConstructorCalled]
  | .move _ => [.push .moveConstructorCalled]
  | .destroy _ => [.push .destructorCalled]
  | .queue op => [op]
  | _ => []

/-- How many objects there are. -/
def living (past : List DummyOp) : Nat :=
  ((List.range (made past)).filter fun i => (valueOf past i).isSome).length

/-- The messages among what is seen. -/
def messagesIn : List MessageObs → List Message
  | [] => []
  | .message m :: seen => m :: messagesIn seen
  | _ :: seen => messagesIn seen

end Spec

end Cmp
