import Verif.Model.Unicode

/-
Model of `by_code_point` iterators as objects: what an operator leaves in the iterator when it
throws, the postfix operators, signed offsets and comparison, `api/src/cmp/unicode/by_code_point.cpp`,
and of `string_size`, `api/src/cmp/unicode/algorithms.cpp`.

The state is `m_current_iterator` as an index; the string, and with it `m_end_iterator`, is fixed.
The `const` overloads of `const_iterator::finish_sequence` (`by_code_point.cpp` 454-481, 834-856,
1424-1446) are never called.
-/

namespace Cmp

namespace Iter

/-- Assigning to the iterator what a computation without side effects gives, if it succeeds. -/
def moveTo (f : Nat → Outcome Nat) : M Nat Unit := fun i =>
  match f i with
  | .ok j => (.ok (), j)
  | .throw e => (.throw e, i)
  | .terminate => (.terminate, i)
  | .ub => (.ub, i)
  | .hang => (.hang, i)

/-- The by-reference `finish_sequence` of `char8_t`, `by_code_point.cpp` 483-509, called with
`m_current_iterator`; `n` is the number of trailing bytes still to come. -/
def finish8 (s : List Char8) : Nat → M Nat Unit
  | 0 => M.modify (· + 1)
  | n + 1 => do
    let i ← M.get
    if i = s.length then M.throw .iteratedPastEnd
    else do
      let u ← M.lift (unitAt s (i + 1))
      if !isTrailingByte u then M.throw .invalidUnicodeEncoding
      else do
        M.modify (· + 1)
        finish8 s n

/-- `advance()` of `char8_t`, `by_code_point.cpp` 511-524. -/
def advance8 (s : List Char8) : M Nat Unit := do
  let i ← M.get
  let u ← M.lift (unitAt s i)
  let (len, _) ← M.lift (initializeUtf8Sequence u)
  finish8 s (len - 1)

/-- Prefix `operator ++`, `by_code_point.cpp` 34-39, 316-321, 696-701, 1005-1010, 1286-1291.  Only
`char8_t` moves the iterator before it can throw; `char16_t` and `wchar_t` throw first (858-878,
1448-1468). -/
def inc : (e : Enc) → Str e → M Nat Unit
  | .char8, s => advance8 s
  | .char16, s => moveTo (advance .char16 s)
  | .wide2, s => moveTo (advance .wide2 s)
  | .narrow, s => moveTo (advance .narrow s)
  | .char32, s => moveTo (advance .char32 s)
  | .wide4, s => moveTo (advance .wide4 s)

/-- Postfix `operator ++`, `by_code_point.cpp` 41-48, 323-330, 703-710, 1012-1019, 1293-1300. -/
def postInc (e : Enc) (s : Str e) : M Nat Nat := do
  let old ← M.get
  inc e s
  pure old

/-- Prefix `operator --` (`noexcept`), `by_code_point.cpp` 58-64, 340-346, 720-726, 1029-1035,
1310-1316. -/
def dec (e : Enc) (s : Str e) : M Nat Unit := M.noexcept (moveTo (retreat e s))

/-- Postfix `operator --` (`noexcept`), `by_code_point.cpp` 66-75, 348-357, 728-737, 1037-1046,
1318-1327. -/
def postDec (e : Enc) (s : Str e) : M Nat Nat := M.noexcept do
  let old ← M.get
  moveTo (retreat e s)
  pure old

/-- The loop `while (offset-- > 0) { step(); }` of `advance(difference_type)` and
`retreat(difference_type)`, `by_code_point.cpp` 530-532, 551-553, 899-901, 917-919, 1493-1495,
1519-1521: nothing happens for a negative offset. -/
def whilePositive (step : M Nat Unit) (offset : Int) : M Nat Unit :=
  go step offset.toNat
where
  go (step : M Nat Unit) : Nat → M Nat Unit
    | 0 => pure ()
    | n + 1 => do
      step
      go step n

/-- Adding to a raw `string_view` iterator: undefined outside the string. -/
def rawMove (length : Nat) (offset : Int) : M Nat Unit := moveTo fun i =>
  if 0 ≤ (i : Int) + offset ∧ (i : Int) + offset ≤ length then .ok ((i : Int) + offset).toNat
  else .ub

/-- `operator +=`, `by_code_point.cpp` 50-56, 332-338, 712-718, 1021-1027, 1302-1308. -/
def plusAssign : (e : Enc) → Str e → Int → M Nat Unit
  | .narrow, s, n => rawMove s.length n
  | .char8, s, n => whilePositive (inc .char8 s) n
  | .char16, s, n => whilePositive (inc .char16 s) n
  | .char32, s, n => rawMove s.length n
  | .wide2, s, n => whilePositive (inc .wide2 s) n
  | .wide4, s, n => rawMove s.length n

/-- `operator -=` (`noexcept`), `by_code_point.cpp` 77-85, 359-367, 739-747, 1048-1056, 1329-1337;
for `char16_t` and 2-byte `wchar_t` the loop calls `advance()` (918, 1520). -/
def minusAssign : (e : Enc) → Str e → Int → M Nat Unit
  | .narrow, s, n => M.noexcept (rawMove s.length (-n))
  | .char8, s, n => M.noexcept (whilePositive (moveTo (retreat .char8 s)) n)
  | .char16, s, n => M.noexcept (whilePositive (inc .char16 s) n)
  | .char32, s, n => M.noexcept (rawMove s.length (-n))
  | .wide2, s, n => M.noexcept (whilePositive (inc .wide2 s) n)
  | .wide4, s, n => M.noexcept (rawMove s.length (-n))

/-- `begin`, `cbegin`, of a range constructed from a string (`by_code_point.cpp` 174-181, 559-566,
925-932, 1145-1152, 1531-1538; iterators: 14-19, 231-239, 293-301, 616-624, 673-681, 982-990,
1202-1210, 1263-1271): `by_code_point.cpp` 185-190, 199-204, 570-575, 584-589, 936-941, 950-955,
1156-1161, 1170-1175, 1542-1547, 1556-1561. -/
def begin : Nat := 0

/-- `end`, `cend`, `by_code_point.cpp` 192-197, 206-211, 577-582, 591-596, 943-948, 957-962,
1163-1168, 1177-1182, 1549-1554, 1563-1568.  The reverse iterators `crbegin` and `crend` (213-225,
598-610, 964-976, 1184-1196, 1570-1582) have `cend()` and `cbegin()` as bases. -/
def «end» (e : Enc) (s : Str e) : Nat := s.length

/-- `operator ==` on two iterators of the same string, whose `m_end_iterator`s are equal,
`by_code_point.cpp` 147-157, 429-439, 809-819, 1118-1128, 1399-1409; `operator !=` is its negation,
159-169, 441-451, 821-831, 1130-1140, 1411-1421. -/
def eq (i j : Nat) : Bool := i == j

end Iter

/-- The overloads of `string_size` for pointers, `algorithms.cpp` 100-155: the loop
`while (*current != 0) ++current;`, and for `char` and `wchar_t` `std::strlen` and `std::wcslen`.
`s` is the array the pointer points into; reading behind it is undefined. -/
def stringSizePtr {w : Nat} : List (BitVec w) → Outcome Nat
  | [] => .ub
  | u :: rest =>
    if u = 0 then .ok 0
    else do
      let n ← stringSizePtr rest
      .ok (n + 1)

/-- The overloads of `string_size` for strings and string views, `algorithms.cpp` 10-98. -/
def stringSize {w : Nat} (s : List (BitVec w)) : Nat := s.length

end Cmp
