import Verif.Model.Target
import Verif.Model.Memory

/-
Model of text input into strings when memory runs out: `text_input_stream.ipp` 66-127 and 412-468, as in
`Model/Target`, with the strings of `Model/Memory`.
-/

namespace Cmp

/-- `append_code_point`, `algorithms.ipp` 188-197, in limited memory; `x` stands for `std::bad_alloc` and
`std::length_error`, which no code of the library distinguishes from other exceptions. -/
def appendMem (H : Heap) (x : Exn) (e : Enc) (c : Char32) : M (MStr (BitVec e.width)) Unit := fun m =>
  match appendCodePointMem H e c m with
  | (.as o, m') => (o, m')
  | (.noMemory, m') => (.throw x, m')

/-- `clear` of a string (`std::basic_string`): it keeps its memory. -/
def clearMem (e : Enc) : M (MStr (BitVec e.width)) Unit := M.modify fun m => { m with units := [] }

namespace InStream

variable {ρ : Type}

/-- The loop of `append_line`, `text_input_stream.ipp` 77-83; `fuel` bounds the number of code
points. -/
def appendLineMem (H : Heap) (x : Exn) (native : Endian) (R : Reader ρ) (e : Enc) :
    Nat → M (InStream ρ × MStr (BitVec e.width)) Unit
  | 0 => M.hang
  | fuel + 1 => do
    let atEnd ← onStream (isAtEnd R)
    if atEnd then pure ()
    else do
      let c ← onStream (readFiltered native R)
      if c = 10#32 then pure ()
      else do
        onTarget (appendMem H x e c)
        appendLineMem H x native R e fuel

/-- `read_line`, `text_input_stream.ipp` 86-98. -/
def readLineMem (H : Heap) (x : Exn) (native : Endian) (R : Reader ρ) (e : Enc) (fuel : Nat) :
    M (InStream ρ × MStr (BitVec e.width)) Unit := do
  onTarget (clearMem e)
  appendLineMem H x native R e fuel

/-- The loop of `append_all`, `text_input_stream.ipp` 110-112. -/
def appendAllMem (H : Heap) (x : Exn) (native : Endian) (R : Reader ρ) (e : Enc) :
    Nat → M (InStream ρ × MStr (BitVec e.width)) Unit
  | 0 => M.hang
  | fuel + 1 => do
    let atEnd ← onStream (isAtEnd R)
    if atEnd then pure ()
    else do
      let c ← onStream (readFiltered native R)
      onTarget (appendMem H x e c)
      appendAllMem H x native R e fuel

/-- `read_all`, `text_input_stream.ipp` 115-127. -/
def readAllMem (H : Heap) (x : Exn) (native : Endian) (R : Reader ρ) (e : Enc) (fuel : Nat) :
    M (InStream ρ × MStr (BitVec e.width)) Unit := do
  onTarget (clearMem e)
  appendAllMem H x native R e fuel

/-- The first loop of `operator >>` for strings, `text_input_stream.ipp` 439-449. -/
def skipSpaceMem (H : Heap) (x : Exn) (native : Endian) (R : Reader ρ) (e : Enc) :
    Nat → M (InStream ρ × MStr (BitVec e.width)) Unit
  | 0 => M.hang
  | fuel + 1 => do
    let atEnd ← onStream (isAtEnd R)
    if atEnd then pure ()
    else do
      let c ← onStream (readFiltered native R)
      if isWhitespace c then skipSpaceMem H x native R e fuel else onTarget (appendMem H x e c)

/-- The second loop of `operator >>` for strings, `text_input_stream.ipp` 454-465. -/
def takeWordMem (H : Heap) (x : Exn) (native : Endian) (R : Reader ρ) (e : Enc) :
    Nat → M (InStream ρ × MStr (BitVec e.width)) Unit
  | 0 => M.hang
  | fuel + 1 => do
    let atEnd ← onStream (isAtEnd R)
    if atEnd then pure ()
    else do
      let c ← onStream (readFiltered native R)
      if isWhitespace c then pure ()
      else do
        onTarget (appendMem H x e c)
        takeWordMem H x native R e fuel

/-- `operator >>` for strings, `text_input_stream.ipp` 412-468. -/
def readWordMem (H : Heap) (x : Exn) (native : Endian) (R : Reader ρ) (e : Enc) (fuel : Nat) :
    M (InStream ρ × MStr (BitVec e.width)) Unit := do
  onTarget (clearMem e)
  skipSpaceMem H x native R e fuel
  takeWordMem H x native R e fuel

end InStream

end Cmp
