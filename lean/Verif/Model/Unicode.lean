import Verif.Base.Outcome

/-
Model of `api/src/cmp/unicode`: examiners, sequence initialisation, the
`by_code_point` iterators and the string algorithms.

Code units and code points are bit vectors of the C++ types' widths
(`char8_t` 8, `char16_t` 16, `char32_t` 32 bits), so every implicit narrowing or
widening conversion of the C++ is an explicit `setWidth`/`signExtend` here.
A string (view) is the list of its code units and an iterator is the index of the
unit it points to; the end iterator is the length.  Accessing a unit at or past the
end, or moving before the beginning, is undefined behaviour.
-/

namespace Cmp

abbrev Char8 := BitVec 8
abbrev Char16 := BitVec 16
abbrev Char32 := BitVec 32

/-! ### Constants and examiners -/

/-- `maximum_code_point`, `api/include/cmp/unicode/constants.hpp`. -/
def maximumCodePoint : Char32 := 0x10FFFF#32

/-- `maximum_bmp_code_point`, `constants.hpp`. -/
def maximumBmpCodePoint : Char32 := 0xFFFF#32

/-- `bom`, `constants.hpp`. -/
def bom : Char32 := 0xFEFF#32

/-- `fits_in_7_bits`, `unicode/examiners.ipp` 10-18. -/
def fitsIn7Bits (c : Char32) : Bool := c ≤ 0x7F#32

/-- `is_standalone_byte`, `examiners.ipp` 20-28. -/
def isStandaloneByte (u : Char8) : Bool := fitsIn7Bits (u.setWidth 32)

/-- `is_leading_byte`, `examiners.ipp` 30-40. -/
def isLeadingByte (u : Char8) : Bool :=
  u >>> 5 == 0b110#8 || u >>> 4 == 0b1110#8 || u >>> 3 == 0b11110#8

/-- `is_trailing_byte`, `examiners.ipp` 42-50. -/
def isTrailingByte (u : Char8) : Bool := u >>> 6 == 0b10#8

/-- `is_leading_surrogate`, `examiners.ipp` 52-61 (constants from `constants.hpp`). -/
def isLeadingSurrogate (u : Char16) : Bool := 0xD800#16 ≤ u && u ≤ 0xDBFF#16

/-- `is_trailing_surrogate`, `examiners.ipp` 63-72. -/
def isTrailingSurrogate (u : Char16) : Bool := 0xDC00#16 ≤ u && u ≤ 0xDFFF#16

/-- `is_surrogate`, `examiners.ipp` 74-83. -/
def isSurrogate (u : Char16) : Bool := 0xD800#16 ≤ u && u ≤ 0xDFFF#16

/-- `is_code_point_valid`, `examiners.ipp` 85-94.  The call `is_surrogate(code_point)`
converts the `char32_t` to `char16_t`, dropping the upper 16 bits. -/
def isCodePointValid (c : Char32) : Bool :=
  c ≤ maximumCodePoint && !isSurrogate (c.setWidth 16)

/-- `is_whitespace`, `examiners.ipp` 96-128. -/
def isWhitespace (c : Char32) : Bool :=
  c == 9#32 || c == 10#32 || c == 11#32 || c == 12#32 || c == 13#32 || c == 32#32
    || c == 133#32 || c == 160#32 || c == 5760#32 || c == 8192#32 || c == 8193#32
    || c == 8194#32 || c == 8195#32 || c == 8196#32 || c == 8197#32 || c == 8198#32
    || c == 8199#32 || c == 8200#32 || c == 8201#32 || c == 8202#32 || c == 8232#32
    || c == 8233#32 || c == 8239#32 || c == 8287#32 || c == 12288#32

/-- `std::tolower` on `static_cast<int>(character)` in the "C" locale: undefined unless
the argument is representable as `unsigned char` or is `EOF` (-1). -/
def tolower (c : Char32) : Outcome Char32 :=
  if c.toNat ≤ 255 ∨ c = 0xFFFFFFFF#32 then
    .ok (if 65 ≤ c.toNat ∧ c.toNat ≤ 90 then c + 32#32 else c)
  else .ub

/-- `is_radix_digit`, `examiners.ipp` 130-152.  `radix` is the value of an
`unsigned int` (below `2^32`); `'a' + radix - 10` is computed modulo `2^32`. -/
def isRadixDigit (c : Char32) (radix : Nat) : Outcome Bool :=
  if radix < 10 then
    .ok (48 ≤ c.toNat && c.toNat < 48 + radix)
  else do
    let lower ← tolower c
    .ok ((48 ≤ c.toNat && c.toNat ≤ 57)
      || (97 ≤ lower.toNat && lower.toNat < (97 + radix - 10) % 2 ^ 32))

/-! ### Sequence initialisation -/

/-- `impl::initialize_utf8_sequence`, `unicode/impl/impl.cpp` 12-32; returns the sequence
length and the initial code point value. -/
def initializeUtf8Sequence (u : Char8) : Outcome (Nat × Char32) :=
  if isStandaloneByte u then .ok (1, u.setWidth 32)
  else if u >>> 5 == 0b110#8 then .ok (2, (u &&& 0b00011111#8).setWidth 32)
  else if u >>> 4 == 0b1110#8 then .ok (3, (u &&& 0b00001111#8).setWidth 32)
  else if u >>> 3 == 0b11110#8 then .ok (4, (u &&& 0b00000111#8).setWidth 32)
  else .throw .invalidUnicodeEncoding

/-- `impl::initialize_utf16_sequence`, `impl.cpp` 34-49. -/
def initializeUtf16Sequence (u : Char16) : Outcome (Nat × Char32) :=
  if isLeadingSurrogate u then .ok (2, (u.setWidth 32 - 0xD800#32) <<< 10)
  else if isTrailingSurrogate u then .throw .invalidUnicodeEncoding
  else .ok (1, u.setWidth 32)

/-- Reading the unit an iterator points to; undefined at or past the end. -/
def unitAt {α : Type} (s : List α) (i : Nat) : Outcome α :=
  match s[i]? with
  | some u => .ok u
  | none => .ub

/-! ### `by_code_point<char8_t>` -/

namespace Utf8

/-- Loop of `reference::finish_sequence`, `by_code_point.cpp` 275-287; `n` is the number of
trailing bytes still to come. -/
def refFinish (s : List Char8) : Nat → Char32 → Nat → Outcome Char32
  | 0, result, _ => .ok result
  | n + 1, result, i =>
    if i + 1 = s.length then .throw .iteratedPastEnd
    else do
      let u ← unitAt s (i + 1)
      if !isTrailingByte u then .throw .invalidUnicodeEncoding
      else refFinish s n ((result <<< 6) ||| (u &&& 0b00111111#8).setWidth 32) (i + 1)

/-- `const_iterator::operator*` followed by the conversion `reference::operator char32_t`,
`by_code_point.cpp` 306-314 and 244-288. -/
def deref (s : List Char8) (i : Nat) : Outcome Char32 :=
  if i = s.length then .throw .iteratedPastEnd
  else do
    let u ← unitAt s i
    let (len, init) ← initializeUtf8Sequence u
    refFinish s (len - 1) init i

/-- Loop of the by-reference `const_iterator::finish_sequence`, `by_code_point.cpp` 495-506.
The end test looks at `i`, not at `i + 1`.  The decoded value is discarded by `advance`, so
only the iterator is returned. -/
def advFinish (s : List Char8) : Nat → Nat → Outcome Nat
  | 0, i => .ok i
  | n + 1, i =>
    if i = s.length then .throw .iteratedPastEnd
    else do
      let u ← unitAt s (i + 1)
      if !isTrailingByte u then .throw .invalidUnicodeEncoding
      else advFinish s n (i + 1)

/-- `const_iterator::advance()` with `finish_sequence`, `by_code_point.cpp` 511-524, 483-509. -/
def advance (s : List Char8) (i : Nat) : Outcome Nat := do
  let u ← unitAt s i
  let (len, _) ← initializeUtf8Sequence u
  let j ← advFinish s (len - 1) i
  .ok (j + 1)

/-- The loop of `retreat()`, `by_code_point.cpp` 542-544: the iterator is at `i`, whose unit
has been read; step back while it is a trailing byte. -/
def retreatLoop (s : List Char8) : Nat → Outcome Nat
  | 0 => do
    let u ← unitAt s 0
    if isTrailingByte u then .ub else .ok 0
  | i + 1 => do
    let u ← unitAt s (i + 1)
    if isTrailingByte u then retreatLoop s i else .ok (i + 1)

/-- `const_iterator::retreat()`, `by_code_point.cpp` 535-545. -/
def retreat (s : List Char8) : Nat → Outcome Nat
  | 0 => .ub
  | i + 1 => do
    let u ← unitAt s i
    if isStandaloneByte u then .ok i else retreatLoop s i

end Utf8

/-! ### `by_code_point<char16_t>` (and `by_code_point<wchar_t>` for 2-byte `wchar_t`) -/

namespace Utf16

/-- `const_iterator::operator*` followed by `reference::operator char32_t`,
`by_code_point.cpp` 686-694 and 629-668 (`wchar_t`: 1276-1284, 1215-1258). -/
def deref (s : List Char16) (i : Nat) : Outcome Char32 :=
  if i = s.length then .throw .iteratedPastEnd
  else do
    let u ← unitAt s i
    let (len, init) ← initializeUtf16Sequence u
    if len = 2 then
      if i + 1 = s.length then .throw .iteratedPastEnd
      else do
        let v ← unitAt s (i + 1)
        if !isTrailingSurrogate v then .throw .invalidUnicodeEncoding
        else .ok (init + (v.setWidth 32 - 0xDC00#32) + 0x10000#32)
    else .ok init

/-- `const_iterator::advance()` with the by-reference `finish_sequence`, `by_code_point.cpp`
880-893, 858-878 (`wchar_t`: 1470-1487, 1448-1468).  On a surrogate pair the iterator is
incremented once only. -/
def advance (s : List Char16) (i : Nat) : Outcome Nat := do
  let u ← unitAt s i
  let (len, _) ← initializeUtf16Sequence u
  if len = 2 then
    if i = s.length then .throw .iteratedPastEnd
    else do
      let v ← unitAt s (i + 1)
      if !isTrailingSurrogate v then .throw .invalidUnicodeEncoding
      else .ok (i + 1)
  else .ok (i + 1)

/-- `const_iterator::retreat()`, `by_code_point.cpp` 904-911 (`wchar_t`: 1502-1513). -/
def retreat (s : List Char16) : Nat → Outcome Nat
  | 0 => .ub
  | i + 1 => do
    let u ← unitAt s i
    if isTrailingSurrogate u then
      match i with
      | 0 => .ub
      | j + 1 => .ok j
    else .ok i

end Utf16

/-! ### The family of text types -/

/-- The character types of `by_code_point`: `char`, `char8_t`, `char16_t`, `char32_t`, and
`wchar_t` of two or four bytes. -/
inductive Enc
  | narrow | char8 | char16 | char32 | wide2 | wide4
  deriving DecidableEq, Repr

/-- Bits per code unit. -/
@[reducible] def Enc.width : Enc → Nat
  | .narrow => 8
  | .char8 => 8
  | .char16 => 16
  | .char32 => 32
  | .wide2 => 16
  | .wide4 => 32

/-- Strings over the character type. -/
abbrev Str (e : Enc) : Type := List (BitVec e.width)

/-- `by_code_point<char>::const_iterator::operator*` converted to `char32_t`,
`by_code_point.cpp` 24-32: a (signed) `char` is sign-extended by the conversion. -/
def narrowDeref (s : List (BitVec 8)) (i : Nat) : Outcome Char32 :=
  if i = s.length then .throw .iteratedPastEnd
  else do
    let u ← unitAt s i
    .ok (u.signExtend 32)

/-- `by_code_point<char32_t>::const_iterator::operator*`, `by_code_point.cpp` 995-1003, and
4-byte `wchar_t`, 1276-1284 with 1231. -/
def rawDeref (s : List Char32) (i : Nat) : Outcome Char32 :=
  if i = s.length then .throw .iteratedPastEnd else unitAt s i

/-- Dereferencing a `by_code_point` iterator and converting to `char32_t`. -/
def deref : (e : Enc) → Str e → Nat → Outcome Char32
  | .narrow, s, i => narrowDeref s i
  | .char8, s, i => Utf8.deref s i
  | .char16, s, i => Utf16.deref s i
  | .char32, s, i => rawDeref s i
  | .wide2, s, i => Utf16.deref s i
  | .wide4, s, i => rawDeref s i

/-- Incrementing a raw `string_view` iterator; undefined at the end. -/
def rawAdvance {α : Type} (s : List α) (i : Nat) : Outcome Nat :=
  if i < s.length then .ok (i + 1) else .ub

/-- Decrementing a raw `string_view` iterator; undefined at the beginning. -/
def rawRetreat : Nat → Outcome Nat
  | 0 => .ub
  | i + 1 => .ok i

/-- `operator++`: `by_code_point.cpp` 34-39, 316-321, 696-701, 1005-1010, 1286-1291. -/
def advance : (e : Enc) → Str e → Nat → Outcome Nat
  | .narrow, s, i => rawAdvance s i
  | .char8, s, i => Utf8.advance s i
  | .char16, s, i => Utf16.advance s i
  | .char32, s, i => rawAdvance s i
  | .wide2, s, i => Utf16.advance s i
  | .wide4, s, i => rawAdvance s i

/-- `operator--` (all `noexcept`; `retreat()` throws nothing): `by_code_point.cpp` 58-64,
340-346, 720-726, 1029-1035, 1310-1316. -/
def retreat : (e : Enc) → Str e → Nat → Outcome Nat
  | .narrow, _, i => rawRetreat i
  | .char8, s, i => Utf8.retreat s i
  | .char16, s, i => Utf16.retreat s i
  | .char32, _, i => rawRetreat i
  | .wide2, s, i => Utf16.retreat s i
  | .wide4, _, i => rawRetreat i

/-- `n` applications of a step, the shape of `advance(difference_type)` and
`retreat(difference_type)`: `while (offset-- > 0) { step(); }`. -/
def stepN (step : Nat → Outcome Nat) : Nat → Nat → Outcome Nat
  | 0, i => .ok i
  | n + 1, i => do let j ← step i; stepN step n j

/-- `operator+=` with a non-negative offset.  `char8_t`: `by_code_point.cpp` 332-338, 526-533;
`char16_t`: 712-718, 895-902; `wchar_t`: 1489-1500; `char`, `char32_t` and 4-byte `wchar_t`
add to the raw iterator (50-56, 1021-1027), undefined past the end. -/
def advanceBy : (e : Enc) → Str e → Nat → Nat → Outcome Nat
  | .char8, s, n, i => stepN (Utf8.advance s) n i
  | .char16, s, n, i => stepN (Utf16.advance s) n i
  | .wide2, s, n, i => stepN (Utf16.advance s) n i
  | .narrow, s, n, i => if i + n ≤ s.length then .ok (i + n) else .ub
  | .char32, s, n, i => if i + n ≤ s.length then .ok (i + n) else .ub
  | .wide4, s, n, i => if i + n ≤ s.length then .ok (i + n) else .ub

/-- `operator-=` with a non-negative offset.  `char8_t`: `by_code_point.cpp` 359-367, 547-554;
`char16_t`: 739-747, 913-920 (the loop calls `advance()`), `noexcept`; 2-byte `wchar_t`:
1515-1526 (also `advance()`); the others subtract from the raw iterator. -/
def retreatBy : (e : Enc) → Str e → Nat → Nat → Outcome Nat
  | .char8, s, n, i => (stepN (Utf8.retreat s) n i).noexcept
  | .char16, s, n, i => (stepN (Utf16.advance s) n i).noexcept
  | .wide2, s, n, i => (stepN (Utf16.advance s) n i).noexcept
  | .narrow, _, n, i => if n ≤ i then .ok (i - n) else .ub
  | .char32, _, n, i => if n ≤ i then .ok (i - n) else .ub
  | .wide4, _, n, i => if n ≤ i then .ok (i - n) else .ub

/-- `operator + (iterator, offset)` and `operator + (offset, iterator)`, both `noexcept`:
`by_code_point.cpp` 87-115, 369-397, 749-777, 1058-1086, 1339-1367. -/
def plusOp (e : Enc) (s : Str e) (n i : Nat) : Outcome Nat := (advanceBy e s n i).noexcept

/-- `operator - (iterator, offset)` and `operator - (offset, iterator)`, both `noexcept`:
`by_code_point.cpp` 117-145, 399-427, 779-807, 1088-1116, 1369-1397. -/
def minusOp (e : Enc) (s : Str e) (n i : Nat) : Outcome Nat := (retreatBy e s n i).noexcept

/-- Range-for over `by_code_point{s}` with body `f`, from iterator `i`.  `fuel` bounds the
number of iterations (theorems show that `length + 1` is enough). -/
def forEachFrom (e : Enc) (s : Str e) {σ : Type} (f : σ → Char32 → Outcome σ) :
    Nat → Nat → σ → Outcome σ
  | 0, _, _ => .hang
  | fuel + 1, i, acc =>
    if i = s.length then .ok acc
    else do
      let c ← deref e s i
      let acc' ← f acc c
      let j ← advance e s i
      forEachFrom e s f fuel j acc'

/-- Range-for over the whole string. -/
def forEach (e : Enc) (s : Str e) {σ : Type} (f : σ → Char32 → Outcome σ) (init : σ) :
    Outcome σ :=
  forEachFrom e s f (s.length + 1) 0 init

/-- What a user sees when iterating a string with `by_code_point`: the list of code points. -/
def codePoints (e : Enc) (s : Str e) : Outcome (List Char32) :=
  forEach e s (fun acc c => .ok (acc ++ [c])) []

/-- Dereferencing `std::reverse_iterator<const_iterator>` whose base is `i`:
`auto tmp = base; return *--tmp;`. -/
def rderef (e : Enc) (s : Str e) (i : Nat) : Outcome Char32 := do
  let j ← retreat e s i
  deref e s j

/-- Traversal with the reverse iterators `crbegin()` … `crend()`, base iterator `i`. -/
def rforEachFrom (e : Enc) (s : Str e) {σ : Type} (f : σ → Char32 → Outcome σ) :
    Nat → Nat → σ → Outcome σ
  | 0, _, _ => .hang
  | fuel + 1, i, acc =>
    if i = 0 then .ok acc
    else do
      let c ← rderef e s i
      let acc' ← f acc c
      let j ← retreat e s i
      rforEachFrom e s f fuel j acc'

/-- Reverse traversal of the whole string. -/
def rforEach (e : Enc) (s : Str e) {σ : Type} (f : σ → Char32 → Outcome σ) (init : σ) :
    Outcome σ :=
  rforEachFrom e s f (s.length + 1) s.length init

/-- The code points seen by a reverse traversal. -/
def rcodePoints (e : Enc) (s : Str e) : Outcome (List Char32) :=
  rforEach e s (fun acc c => .ok (acc ++ [c])) []

/-! ### Algorithms -/

/-- `std::basic_string::insert(index, 1, u)`: `std::out_of_range` if the index is past the
end.  (Allocation failure and `max_size` are not modelled.) -/
def strInsert {α : Type} (index : Nat) (u : α) : M (List α) Unit := fun s =>
  if index ≤ s.length then (.ok (), s.take index ++ u :: s.drop index)
  else (.throw .outOfRange, s)

/-- `insert_code_point`, `unicode/algorithms.ipp` 62-186. -/
def insertCodePoint (e : Enc) (c : Char32) (index : Nat) : M (Str e) Unit :=
  match e with
  | .narrow => strInsert index (c.setWidth 8)
  | .char8 =>
    if !isCodePointValid c then M.throw .invalidCodePoint
    else if fitsIn7Bits c then strInsert index (c.setWidth 8)
    else if c ≤ 0b011111111111#32 then do
      strInsert index (((c >>> 6) ||| 0b11000000#32).setWidth 8)
      strInsert (index + 1) (((c &&& 0b00111111#32) ||| 0b10000000#32).setWidth 8)
    else if c ≤ 0xFFFF#32 then do
      strInsert index (((c >>> 12) ||| 0b11100000#32).setWidth 8)
      strInsert (index + 1) ((((c >>> 6) &&& 0b00111111#32) ||| 0b10000000#32).setWidth 8)
      strInsert (index + 2) (((c &&& 0b00111111#32) ||| 0b10000000#32).setWidth 8)
    else do
      strInsert index (((c >>> 18) ||| 0b11110000#32).setWidth 8)
      strInsert (index + 1) ((((c >>> 12) &&& 0b00111111#32) ||| 0b10000000#32).setWidth 8)
      strInsert (index + 2) ((((c >>> 6) &&& 0b00111111#32) ||| 0b10000000#32).setWidth 8)
      strInsert (index + 3) (((c &&& 0b00111111#32) ||| 0b10000000#32).setWidth 8)
  | .char16 => insert16 c index
  | .wide2 => insert16 c index
  | .char32 => strInsert index c
  | .wide4 => strInsert index c
where
  /-- The UTF-16 branch, `algorithms.ipp` 153-176. -/
  insert16 (c : Char32) (index : Nat) : M (List Char16) Unit :=
    if !isSurrogate (c.setWidth 16) && c ≤ maximumBmpCodePoint then
      strInsert index (c.setWidth 16)
    else do
      let c' := c - 0x10000#32
      strInsert index ((((0b11111111110000000000#32 &&& c') >>> 10) + 0xD800#32).setWidth 16)
      strInsert (index + 1) (((0b00000000001111111111#32 &&& c') + 0xDC00#32).setWidth 16)

/-- `append_code_point`, `algorithms.ipp` 188-197. -/
def appendCodePoint (e : Enc) (c : Char32) : M (Str e) Unit := fun s =>
  insertCodePoint e c s.length s

/-- `prepend_code_point`, `algorithms.ipp` 199-208. -/
def prependCodePoint (e : Enc) (c : Char32) : M (Str e) Unit := fun s =>
  insertCodePoint e c 0 s

/-- `append_code_point` on a local string whose content is lost when an exception is thrown. -/
def appendCP (e : Enc) (s : Str e) (c : Char32) : Outcome (Str e) :=
  match appendCodePoint e c s with
  | (.ok (), s') => .ok s'
  | (.throw x, _) => .throw x
  | (.terminate, _) => .terminate
  | (.ub, _) => .ub
  | (.hang, _) => .hang

/-- `convert_string`, `algorithms.ipp` 210-224 (and `to_string` … `to_wstring`, 226-274). -/
def convertString (src dst : Enc) (s : Str src) : Outcome (Str dst) :=
  forEach src s (appendCP dst) []

/-- The loop of `validate_string`, `algorithms.ipp` 289-298: returns the iterator at which the
loop stops; the two handlers swallow the decoding exceptions. -/
def validateFrom (e : Enc) (s : Str e) : Nat → Nat → Outcome Nat
  | 0, _ => .hang
  | fuel + 1, i =>
    if i = s.length then .ok i
    else match deref e s i with
      | .ok c =>
        if maximumCodePoint < c then .ok i
        else match advance e s i with
          | .ok j => validateFrom e s fuel j
          | .throw .invalidUnicodeEncoding => .ok i
          | .throw .iteratedPastEnd => .ok i
          | .throw _ => .terminate
          | .terminate => .terminate
          | .ub => .ub
          | .hang => .hang
      | .throw .invalidUnicodeEncoding => .ok i
      | .throw .iteratedPastEnd => .ok i
      | .throw _ => .terminate
      | .terminate => .terminate
      | .ub => .ub
      | .hang => .hang

/-- `validate_string`, `algorithms.ipp` 276-299.  (When `advance` throws inside
`finish_sequence` of `char8_t` the member iterator may already have moved; `validateFrom`
returns the position before the step.  This cannot happen after a successful dereference,
see `validate_advance_ok` in `Proofs/UnicodeMalformed`.) -/
def validateString (e : Enc) (s : Str e) : Outcome Nat :=
  validateFrom e s (s.length + 1) 0

/-- The loop of `starts_with`, `algorithms.ipp` 25-33.  `*(it++)` increments first and then
dereferences the old iterator.  The order in which the two operands are evaluated is
unspecified; the model takes left before right.  The order only matters for which of two
failing operands is reported. -/
def startsWithFrom (ec es : Enc) (content : Str ec) (sub : Str es) :
    Nat → Nat → Nat → Outcome Bool
  | 0, _, _ => .hang
  | fuel + 1, i, j =>
    if j = sub.length then .ok true
    else if i = content.length then .ok false
    else do
      let i' ← advance ec content i
      let a ← deref ec content i
      let j' ← advance es sub j
      let b ← deref es sub j
      if a = b then startsWithFrom ec es content sub fuel i' j' else .ok false

/-- `starts_with` (`noexcept`), `algorithms.ipp` 10-34. -/
def startsWith (ec es : Enc) (content : Str ec) (sub : Str es) : Outcome Bool :=
  (startsWithFrom ec es content sub (content.length + 1) 0 0).noexcept

/-- The loop of `ends_with`, `algorithms.ipp` 51-59, on reverse iterators with bases `i`, `j`. -/
def endsWithFrom (ec es : Enc) (content : Str ec) (sub : Str es) :
    Nat → Nat → Nat → Outcome Bool
  | 0, _, _ => .hang
  | fuel + 1, i, j =>
    if j = 0 then .ok true
    else if i = 0 then .ok false
    else do
      let i' ← retreat ec content i
      let a ← rderef ec content i
      let j' ← retreat es sub j
      let b ← rderef es sub j
      if a = b then endsWithFrom ec es content sub fuel i' j' else .ok false

/-- `ends_with` (`noexcept`), `algorithms.ipp` 36-60. -/
def endsWith (ec es : Enc) (content : Str ec) (sub : Str es) : Outcome Bool :=
  (endsWithFrom ec es content sub (content.length + 1) content.length sub.length).noexcept

end Cmp
