import Verif.Model.Unicode

/-
Literals of C++ in the checks of the model against the tests of the project.  The encodings are
written down here anew: nothing of the model is used but the types.
-/

namespace Cmp.Checks

/-- `u8"…"` and, for characters of ASCII, `"…"`. -/
def u8 (s : String) : Str .char8 := s.toUTF8.toList.map fun b => BitVec.ofNat 8 b.toNat

/-- `u"…"`. -/
def u16 (s : String) : Str .char16 := s.toList.flatMap fun c =>
  if c.toNat < 0x10000 then [BitVec.ofNat 16 c.toNat]
  else [BitVec.ofNat 16 (0xD800 + (c.toNat - 0x10000) / 0x400),
    BitVec.ofNat 16 (0xDC00 + (c.toNat - 0x10000) % 0x400)]

/-- `U"…"`, and `L"…"` where `wchar_t` has four bytes. -/
def u32 (s : String) : Str .char32 := s.toList.map fun c => BitVec.ofNat 32 c.toNat

/-- A character constant as a code point. -/
def ch (c : Char) : Char32 := BitVec.ofNat 32 c.toNat

end Cmp.Checks
