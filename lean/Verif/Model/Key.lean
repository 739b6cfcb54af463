/-
Model of the keys: `api/include/cmp/desktop_gui/general.hpp`, `api/src/cmp/desktop_gui/general.cpp`
and the `translate_key_code` functions of the three platforms.
-/

namespace Cmp

/-- `enum class key`, `general.hpp` 32-105, its enumerators in groups: `f1` to `f24` are `f 0` to
`f 23`, and `a` to `z` are `letter 0` to `letter 25`. -/
inductive Key
  | f (n : Fin 24)
  | number (d : Fin 10)
  | numpad (d : Fin 10)
  | letter (l : Fin 26)
  | spaceBar
  | unknown
  deriving DecidableEq, Repr

namespace Key

/-- The cases of `translate_key_code`, `gtk_window.cpp` 18-189, with the values the key symbols have
in `gdk/gdkkeysyms.h`. -/
def gtkCases : List (Nat × Key) :=
  [(0xffbe, .f 0), (0xffbf, .f 1), (0xffc0, .f 2), (0xffc1, .f 3), (0xffc2, .f 4), (0xffc3, .f 5),
    (0xffc4, .f 6), (0xffc5, .f 7), (0xffc6, .f 8), (0xffc7, .f 9), (0xffc8, .f 10),
    (0xffc9, .f 11), (0xffca, .f 12), (0xffcb, .f 13), (0xffcc, .f 14), (0xffcd, .f 15),
    (0xffce, .f 16), (0xffcf, .f 17), (0xffd0, .f 18), (0xffd1, .f 19), (0xffd2, .f 20),
    (0xffd3, .f 21), (0xffd4, .f 22), (0xffd5, .f 23), (0x30, .number 0), (0x31, .number 1),
    (0x32, .number 2), (0x33, .number 3), (0x34, .number 4), (0x35, .number 5), (0x36, .number 6),
    (0x37, .number 7), (0x38, .number 8), (0x39, .number 9), (0xffb0, .numpad 0),
    (0xffb1, .numpad 1), (0xffb2, .numpad 2), (0xffb3, .numpad 3), (0xffb4, .numpad 4),
    (0xffb5, .numpad 5), (0xffb6, .numpad 6), (0xffb7, .numpad 7), (0xffb8, .numpad 8),
    (0xffb9, .numpad 9), (0x41, .letter 0), (0x61, .letter 0), (0x42, .letter 1), (0x62, .letter 1),
    (0x43, .letter 2), (0x63, .letter 2), (0x44, .letter 3), (0x64, .letter 3), (0x45, .letter 4),
    (0x65, .letter 4), (0x46, .letter 5), (0x66, .letter 5), (0x47, .letter 6), (0x67, .letter 6),
    (0x48, .letter 7), (0x68, .letter 7), (0x49, .letter 8), (0x69, .letter 8), (0x4a, .letter 9),
    (0x6a, .letter 9), (0x4b, .letter 10), (0x6b, .letter 10), (0x4c, .letter 11),
    (0x6c, .letter 11), (0x4d, .letter 12), (0x6d, .letter 12), (0x4e, .letter 13),
    (0x6e, .letter 13), (0x4f, .letter 14), (0x6f, .letter 14), (0x50, .letter 15),
    (0x70, .letter 15), (0x51, .letter 16), (0x71, .letter 16), (0x52, .letter 17),
    (0x72, .letter 17), (0x53, .letter 18), (0x73, .letter 18), (0x54, .letter 19),
    (0x74, .letter 19), (0x55, .letter 20), (0x75, .letter 20), (0x56, .letter 21),
    (0x76, .letter 21), (0x57, .letter 22), (0x77, .letter 22), (0x58, .letter 23),
    (0x78, .letter 23), (0x59, .letter 24), (0x79, .letter 24), (0x5a, .letter 25),
    (0x7a, .letter 25), (0x20, .spaceBar)]

/-- The cases of `translate_key_code`, `windows_window.cpp` 16-161, with the values the virtual key
codes have in `winuser.h`. -/
def windowsCases : List (Nat × Key) :=
  [(0x70, .f 0), (0x71, .f 1), (0x72, .f 2), (0x73, .f 3), (0x74, .f 4), (0x75, .f 5), (0x76, .f 6),
    (0x77, .f 7), (0x78, .f 8), (0x79, .f 9), (0x7a, .f 10), (0x7b, .f 11), (0x7c, .f 12),
    (0x7d, .f 13), (0x7e, .f 14), (0x7f, .f 15), (0x80, .f 16), (0x81, .f 17), (0x82, .f 18),
    (0x83, .f 19), (0x84, .f 20), (0x85, .f 21), (0x86, .f 22), (0x87, .f 23), (0x30, .number 0),
    (0x31, .number 1), (0x32, .number 2), (0x33, .number 3), (0x34, .number 4), (0x35, .number 5),
    (0x36, .number 6), (0x37, .number 7), (0x38, .number 8), (0x39, .number 9), (0x60, .numpad 0),
    (0x61, .numpad 1), (0x62, .numpad 2), (0x63, .numpad 3), (0x64, .numpad 4), (0x65, .numpad 5),
    (0x66, .numpad 6), (0x67, .numpad 7), (0x68, .numpad 8), (0x69, .numpad 9), (0x41, .letter 0),
    (0x42, .letter 1), (0x43, .letter 2), (0x44, .letter 3), (0x45, .letter 4), (0x46, .letter 5),
    (0x47, .letter 6), (0x48, .letter 7), (0x49, .letter 8), (0x4a, .letter 9), (0x4b, .letter 10),
    (0x4c, .letter 11), (0x4d, .letter 12), (0x4e, .letter 13), (0x4f, .letter 14),
    (0x50, .letter 15), (0x51, .letter 16), (0x52, .letter 17), (0x53, .letter 18),
    (0x54, .letter 19), (0x55, .letter 20), (0x56, .letter 21), (0x57, .letter 22),
    (0x58, .letter 23), (0x59, .letter 24), (0x5a, .letter 25), (0x20, .spaceBar)]

/-- The cases of `translate_key_code`, `macos_window.mm` 38-175. -/
def macosCases : List (Nat × Key) :=
  [(122, .f 0), (120, .f 1), (99, .f 2), (118, .f 3), (96, .f 4), (97, .f 5), (98, .f 6),
    (100, .f 7), (101, .f 8), (109, .f 9), (103, .f 10), (111, .f 11), (105, .f 12), (107, .f 13),
    (113, .f 14), (106, .f 15), (64, .f 16), (79, .f 17), (80, .f 18), (90, .f 19), (29, .number 0),
    (18, .number 1), (19, .number 2), (20, .number 3), (21, .number 4), (23, .number 5),
    (22, .number 6), (26, .number 7), (28, .number 8), (25, .number 9), (82, .numpad 0),
    (83, .numpad 1), (84, .numpad 2), (85, .numpad 3), (86, .numpad 4), (87, .numpad 5),
    (88, .numpad 6), (89, .numpad 7), (91, .numpad 8), (92, .numpad 9), (0, .letter 0),
    (11, .letter 1), (8, .letter 2), (2, .letter 3), (14, .letter 4), (3, .letter 5),
    (5, .letter 6), (4, .letter 7), (34, .letter 8), (38, .letter 9), (40, .letter 10),
    (37, .letter 11), (46, .letter 12), (45, .letter 13), (31, .letter 14), (35, .letter 15),
    (12, .letter 16), (15, .letter 17), (1, .letter 18), (17, .letter 19), (32, .letter 20),
    (9, .letter 21), (13, .letter 22), (7, .letter 23), (16, .letter 24), (6, .letter 25),
    (49, .spaceBar)]

/-- A `switch` over a key code with a default. -/
def select (cases : List (Nat × Key)) (code : Nat) : Key := (cases.lookup code).getD .unknown

/-- `translate_key_code`, `gtk_window.cpp` 14-190.  A `guint`. -/
def translateGtk (code : BitVec 32) : Key := select gtkCases code.toNat

/-- `translate_key_code`, `windows_window.cpp` 12-162.  A `WPARAM`. -/
def translateWindows (code : BitVec 64) : Key := select windowsCases code.toNat

/-- `translate_key_code`, `macos_window.mm` 34-176.  An `unsigned short`. -/
def translateMacos (code : BitVec 16) : Key := select macosCases code.toNat

/-- `to_u8string`, `general.cpp` 10-160. -/
def name : Key → String
  | .f n => ["F1", "F2", "F3", "F4", "F5", "F6", "F7", "F8", "F9", "F10", "F11", "F12", "F13", "F14",
      "F15", "F16", "F17", "F18", "F19", "F20", "F21", "F22", "F23", "F24"][n]
  | .number d => ["0", "1", "2", "3", "4", "5", "6", "7", "8", "9"][d]
  | .numpad d => ["Numpad 0", "Numpad 1", "Numpad 2", "Numpad 3", "Numpad 4", "Numpad 5", "Numpad 6",
      "Numpad 7", "Numpad 8", "Numpad 9"][d]
  | .letter l => ["A", "B", "C", "D", "E", "F", "G", "H", "I", "J", "K", "L", "M", "N", "O", "P", "Q",
      "R", "S", "T", "U", "V", "W", "X", "Y", "Z"][l]
  | .spaceBar => "Space Bar"
  | .unknown => "Unknown"

end Key

end Cmp
