import Verif.Spec.Resource
import Verif.Model.Shared

/-
Specification of what streams that share a resource put on it and take from it.
-/

namespace Cmp

namespace Spec

/-- What a program does with streams, which are numbered in the order in which they are made. -/
inductive StreamStep
  | construct (e : Endian) (f : EncodingForm)
  | copy (i : Nat)
  | setEndian (i : Nat) (e : Endian)
  | setForm (i : Nat) (f : EncodingForm)
  /-- an object of a fundamental type, given by its bytes in memory -/
  | value (i : Nat) (object : List Byte)
  | codePoint (i : Nat) (c : Nat)
  | flush (i : Nat)
  | destroy (i : Nat)

/-- What is transferred. -/
inductive StreamItem
  | value (object : List Byte)
  | codePoint (c : Nat)
  deriving DecidableEq

/-- The items of a program in order, each with the settings in force for it: those the stream was
made with or given last.  `none` if the program uses a stream that is not there. -/
def itemsOf : List (Option Settings) → List StreamStep → Option (List (Settings × StreamItem))
  | _, [] => some []
  | ts, .construct e f :: rest => itemsOf (ts ++ [some ⟨e, f⟩]) rest
  | ts, .copy i :: rest => do
    let t ← ts.getD i none
    itemsOf (ts ++ [some t]) rest
  | ts, .setEndian i e :: rest => do
    let t ← ts.getD i none
    itemsOf (ts.set i (some ⟨e, t.form⟩)) rest
  | ts, .setForm i f :: rest => do
    let t ← ts.getD i none
    itemsOf (ts.set i (some ⟨t.endian, f⟩)) rest
  | ts, .value i object :: rest => do
    let t ← ts.getD i none
    let items ← itemsOf ts rest
    pure ((t, .value object) :: items)
  | ts, .codePoint i c :: rest => do
    let t ← ts.getD i none
    let items ← itemsOf ts rest
    pure ((t, .codePoint c) :: items)
  | ts, .flush i :: rest => do
    let _ ← ts.getD i none
    itemsOf ts rest
  | ts, .destroy i :: rest => do
    let _ ← ts.getD i none
    itemsOf (ts.set i none) rest

/-- The bytes of an item: an object in the byte order of its stream, a code point in the encoding
form and byte order of its stream. -/
def itemBytes (native : Endian) : Settings × StreamItem → List Byte
  | (t, .value object) => if t.endian = native then object else object.reverse
  | (t, .codePoint c) => textBytes t.form t.endian [c]

end Spec

end Cmp
