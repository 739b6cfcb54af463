import Verif.Model.Text

/-
Model of text input together with the variable that is read into: `text_input_stream.ipp` 66-127 and
398-512.  `Model/Text.lean` has the same functions with the result passed back, where what is in the
variable after an exception does not show; `Proofs/Target.lean` proves that the two agree.
-/

namespace Cmp

namespace InStream

variable {ρ τ : Type}

/-- Something done with the stream that does not touch the variable. -/
def onStream {α : Type} (m : M (InStream ρ) α) : M (InStream ρ × τ) α := fun s =>
  ((m s.1).1, ((m s.1).2, s.2))

/-- Something done with the variable that does not touch the stream. -/
def onTarget {α : Type} (m : M τ α) : M (InStream ρ × τ) α := fun s =>
  ((m s.2).1, (s.1, (m s.2).2))

/-- The loop of `append_line`, `text_input_stream.ipp` 77-83; `fuel` bounds the number of code
points. -/
def appendLineTo (native : Endian) (R : Reader ρ) (e : Enc) : Nat → M (InStream ρ × Str e) Unit
  | 0 => M.hang
  | fuel + 1 => do
    let atEnd ← onStream (isAtEnd R)
    if atEnd then pure ()
    else do
      let c ← onStream (readFiltered native R)
      if c = 10#32 then pure ()
      else do
        onTarget (appendCodePoint e c)
        appendLineTo native R e fuel

/-- `read_line`, `text_input_stream.ipp` 86-98. -/
def readLineTo (native : Endian) (R : Reader ρ) (e : Enc) (fuel : Nat) :
    M (InStream ρ × Str e) Unit := do
  onTarget (M.set [])
  appendLineTo native R e fuel

/-- The loop of `append_all`, `text_input_stream.ipp` 110-112. -/
def appendAllTo (native : Endian) (R : Reader ρ) (e : Enc) : Nat → M (InStream ρ × Str e) Unit
  | 0 => M.hang
  | fuel + 1 => do
    let atEnd ← onStream (isAtEnd R)
    if atEnd then pure ()
    else do
      let c ← onStream (readFiltered native R)
      onTarget (appendCodePoint e c)
      appendAllTo native R e fuel

/-- `read_all`, `text_input_stream.ipp` 115-127. -/
def readAllTo (native : Endian) (R : Reader ρ) (e : Enc) (fuel : Nat) :
    M (InStream ρ × Str e) Unit := do
  onTarget (M.set [])
  appendAllTo native R e fuel

/-- The first loop of `operator >>` for strings, `text_input_stream.ipp` 439-449. -/
def skipSpaceTo (native : Endian) (R : Reader ρ) (e : Enc) : Nat → M (InStream ρ × Str e) Unit
  | 0 => M.hang
  | fuel + 1 => do
    let atEnd ← onStream (isAtEnd R)
    if atEnd then pure ()
    else do
      let c ← onStream (readFiltered native R)
      if isWhitespace c then skipSpaceTo native R e fuel else onTarget (appendCodePoint e c)

/-- The second loop of `operator >>` for strings, `text_input_stream.ipp` 454-465. -/
def takeWordTo (native : Endian) (R : Reader ρ) (e : Enc) : Nat → M (InStream ρ × Str e) Unit
  | 0 => M.hang
  | fuel + 1 => do
    let atEnd ← onStream (isAtEnd R)
    if atEnd then pure ()
    else do
      let c ← onStream (readFiltered native R)
      if isWhitespace c then pure ()
      else do
        onTarget (appendCodePoint e c)
        takeWordTo native R e fuel

/-- `operator >>` for strings, `text_input_stream.ipp` 412-468. -/
def readWordTo (native : Endian) (R : Reader ρ) (e : Enc) (fuel : Nat) :
    M (InStream ρ × Str e) Unit := do
  onTarget (M.set [])
  skipSpaceTo native R e fuel
  takeWordTo native R e fuel

/-- `operator >>` for `char32_t`, `text_input_stream.ipp` 400-410. -/
def readCharTo (native : Endian) (R : Reader ρ) : M (InStream ρ × Char32) Unit := do
  let c ← onStream (readFiltered native R)
  onTarget (M.set c)

/-- The string `input` local to the operators below: it starts empty, is read into, and is gone when
they return or throw. -/
def readLocalWord (native : Endian) (R : Reader ρ) (fuel : Nat) : M (InStream ρ) (Str .char8) :=
  fun s =>
    match readWordTo native R .char8 fuel (s, []) with
    | (.ok (), s') => (.ok s'.2, s'.1)
    | (.throw x, s') => (.throw x, s'.1)
    | (.terminate, s') => (.terminate, s'.1)
    | (.ub, s') => (.ub, s'.1)
    | (.hang, s') => (.hang, s'.1)

/-- `operator >>` for `bool`, `text_input_stream.ipp` 470-482. -/
def readBoolTo (native : Endian) (R : Reader ρ) (fuel : Nat) : M (InStream ρ × Bool) Unit := do
  let input ← onStream (readLocalWord native R fuel)
  let b ← M.lift (parseBool .char8 input BoolFormat.default)
  onTarget (M.set b)

/-- `operator >>` for integers, `text_input_stream.ipp` 484-497. -/
def readIntegerTo (native : Endian) (R : Reader ρ) (T : IntTy) (fuel : Nat) :
    M (InStream ρ × Int) Unit := do
  let input ← onStream (readLocalWord native R fuel)
  let v ← M.lift (parseInteger .char8 T input IntegerFormat.default)
  onTarget (M.set v)

/-- `operator >>` for floating-point numbers, `text_input_stream.ipp` 499-512.  `rnd` is the rounding
of the machine. -/
def readFloatTo (native : Endian) (R : Reader ρ) (rnd : ℚ → ℚ) (fuel : Nat) :
    M (InStream ρ × ℚ) Unit := do
  let input ← onStream (readLocalWord native R fuel)
  let x ← M.lift (parseFloat .char8 rnd input FloatFormat.default)
  onTarget (M.set x)

end InStream

end Cmp
