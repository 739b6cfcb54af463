import Verif.Model.Unicode

/-
Model of what becomes of strings when memory runs out: `insert_code_point` and `convert_string` of
`api/src/cmp/unicode/algorithms.ipp`, and the strings of `bool_format` in `formats.cpp`.  The other
models have unlimited memory.

A string has a capacity, and asks for memory when it outgrows it.  As the standard demands of
`std::basic_string`, an operation that is refused memory throws and leaves the string as it was.
-/

namespace Cmp

/-- The memory of the program: which requests are granted (the first is number 0), the capacity that a
string takes when it needs a capacity of `n`, and the size that no string can exceed. -/
structure Heap where
  grants : Nat → Bool
  grow : Nat → Nat
  maxSize : Nat

/-- A string, and the number of requests for memory that were made. -/
structure MStr (α : Type) where
  units : List α
  capacity : Nat
  asked : Nat
deriving DecidableEq

/-- How an operation ends: as in unlimited memory, or with `std::bad_alloc` or `std::length_error`. -/
inductive Ends
  | as (o : Outcome Unit)
  | noMemory
deriving DecidableEq

/-- An operation on a string in limited memory. -/
abbrev MemOp (α : Type) := MStr α → Ends × MStr α

namespace MemOp

/-- One statement after another. -/
def andThen {α : Type} (a b : MemOp α) : MemOp α := fun m =>
  match a m with
  | (.as (.ok ()), m') => b m'
  | r => r

/-- An evaluation that needs no memory and does not touch the string. -/
def eval {α β : Type} (o : Outcome β) (k : β → MemOp α) : MemOp α := fun m =>
  match o with
  | .ok b => k b m
  | .throw x => (.as (.throw x), m)
  | .terminate => (.as .terminate, m)
  | .ub => (.as .ub, m)
  | .hang => (.as .hang, m)

end MemOp

/-- Make room for `n` units (allocation in `std::basic_string`); what there is is kept. -/
def MStr.room {α : Type} (H : Heap) (n : Nat) : MemOp α := fun m =>
  if n ≤ m.capacity then (.as (.ok ()), m)
  else if H.maxSize < n then (.noMemory, m)
  else if H.grants m.asked then (.as (.ok ()), { m with capacity := H.grow n, asked := m.asked + 1 })
  else (.noMemory, { m with asked := m.asked + 1 })

/-- `std::basic_string::insert(index, 1, u)`: the index is checked first. -/
def strInsertMem {α : Type} (H : Heap) (index : Nat) (u : α) : MemOp α := fun m =>
  if m.units.length < index then (.as (.throw .outOfRange), m)
  else MemOp.andThen (MStr.room H (m.units.length + 1))
    (fun m' => (.as (.ok ()), { m' with units := m'.units.take index ++ u :: m'.units.drop index })) m

/-- The UTF-16 branch of `insert_code_point`, `algorithms.ipp` 153-176. -/
def insert16Mem (H : Heap) (c : Char32) (index : Nat) : MemOp Char16 :=
  if !isSurrogate (c.setWidth 16) && c ≤ maximumBmpCodePoint then
    strInsertMem H index (c.setWidth 16)
  else
    let c' := c - 0x10000#32
    (strInsertMem H index ((((0b11111111110000000000#32 &&& c') >>> 10) + 0xD800#32).setWidth 16)).andThen
    (strInsertMem H (index + 1) (((0b00000000001111111111#32 &&& c') + 0xDC00#32).setWidth 16))

/-- `insert_code_point`, `unicode/algorithms.ipp` 62-186, in limited memory. -/
def insertCodePointMem (H : Heap) (e : Enc) (c : Char32) (index : Nat) : MemOp (BitVec e.width) :=
  match e with
  | .narrow => strInsertMem H index (c.setWidth 8)
  | .char8 =>
    if !isCodePointValid c then fun m => (.as (.throw .invalidCodePoint), m)
    else if fitsIn7Bits c then strInsertMem H index (c.setWidth 8)
    else if c ≤ 0b011111111111#32 then
      (strInsertMem H index (((c >>> 6) ||| 0b11000000#32).setWidth 8)).andThen
      (strInsertMem H (index + 1) (((c &&& 0b00111111#32) ||| 0b10000000#32).setWidth 8))
    else if c ≤ 0xFFFF#32 then
      (strInsertMem H index (((c >>> 12) ||| 0b11100000#32).setWidth 8)).andThen
      ((strInsertMem H (index + 1) ((((c >>> 6) &&& 0b00111111#32) ||| 0b10000000#32).setWidth 8)).andThen
      (strInsertMem H (index + 2) (((c &&& 0b00111111#32) ||| 0b10000000#32).setWidth 8)))
    else
      (strInsertMem H index (((c >>> 18) ||| 0b11110000#32).setWidth 8)).andThen
      ((strInsertMem H (index + 1) ((((c >>> 12) &&& 0b00111111#32) ||| 0b10000000#32).setWidth 8)).andThen
      ((strInsertMem H (index + 2) ((((c >>> 6) &&& 0b00111111#32) ||| 0b10000000#32).setWidth 8)).andThen
      (strInsertMem H (index + 3) (((c &&& 0b00111111#32) ||| 0b10000000#32).setWidth 8))))
  | .char16 => insert16Mem H c index
  | .wide2 => insert16Mem H c index
  | .char32 => strInsertMem H index c
  | .wide4 => strInsertMem H index c

/-- `append_code_point`, `algorithms.ipp` 188-197, in limited memory. -/
def appendCodePointMem (H : Heap) (e : Enc) (c : Char32) : MemOp (BitVec e.width) := fun m =>
  insertCodePointMem H e c m.units.length m

/-- The loop of `convert_string`, `algorithms.ipp` 220-222, from the iterator `i`. -/
def convertFromMem (H : Heap) (src dst : Enc) (s : Str src) : Nat → Nat → MemOp (BitVec dst.width)
  | 0, _ => fun m => (.as .hang, m)
  | fuel + 1, i =>
    if i = s.length then fun m => (.as (.ok ()), m)
    else MemOp.eval (deref src s i) fun c =>
      (appendCodePointMem H dst c).andThen
      (MemOp.eval (advance src s i) fun j => convertFromMem H src dst s fuel j)

/-- `convert_string`, `algorithms.ipp` 210-224, in limited memory: a new string has the capacity
`small` without asking, and `reserve` makes room for as many units as the source has. -/
def convertStringMem (H : Heap) (small : Nat) (src dst : Enc) (s : Str src) :
    Ends × MStr (BitVec dst.width) :=
  MemOp.andThen (MStr.room H s.length) (convertFromMem H src dst s (s.length + 1) 0) ⟨[], small, 0⟩

/-- `bool_format::set_true_string` and `set_false_string` (`noexcept`), `formats.cpp` 48-55 and 64-71:
the assignment needs room for the new units, and an exception ends the program. -/
def setBoolString {α : Type} (H : Heap) (new : List α) : MemOp α := fun m =>
  match MStr.room H new.length m with
  | (.as (.ok ()), m') => (.as (.ok ()), { m' with units := new })
  | (_, m') => (.as .terminate, m')

/-- `bool_format::get_true_string` and `get_false_string` (`noexcept`), `formats.cpp` 41-46 and 57-62:
a new string that has the same units.  The state that is returned is that of the new string. -/
def getBoolString {α : Type} (H : Heap) (small : Nat) (m : MStr α) : Ends × MStr α :=
  setBoolString H m.units ⟨[], small, m.asked⟩

end Cmp
