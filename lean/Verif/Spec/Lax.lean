import Verif.Spec.Numeral

/-
Specification: texts that are read as integers by going through them from right to left.  Signs
and separators are tolerated at more places than in a numeral.
-/

namespace Spec

/-- `LaxRead r sep plus cs ds sign due`: the text `cs`, read from its right end to its left,
gives the digits `ds` (most significant first) and the sign `sign` (`some true` for minus), and
the next character to the left has to be the separator if `due`.

* The last character is a digit.
* A digit may be put in front unless a separator is due; after every third digit a separator is
  due.
* A separator may be put in front when it is due.
* One sign may be put in front at any time; it also takes the place of a separator that is due. -/
inductive LaxRead (r : Nat) (sep : Option Nat) (plus : Bool) :
    List Nat → List Nat → Option Bool → Bool → Prop
  | last {c d : Nat} : digitValue c = some d → d < r → LaxRead r sep plus [c] [d] none false
  | digit {cs ds : List Nat} {sign : Option Bool} {c d : Nat} :
      LaxRead r sep plus cs ds sign false → digitValue c = some d → d < r →
      LaxRead r sep plus (c :: cs) (d :: ds) sign
        (decide (sep.isSome = true ∧ (ds.length + 1) % 3 = 0))
  | separator {cs ds : List Nat} {sign : Option Bool} {c : Nat} :
      LaxRead r sep plus cs ds sign true → sep = some c →
      LaxRead r sep plus (c :: cs) ds sign false
  | minus {cs ds : List Nat} {due : Bool} :
      LaxRead r sep plus cs ds none due → LaxRead r sep plus (45 :: cs) ds (some true) false
  | plus {cs ds : List Nat} {due : Bool} :
      LaxRead r sep plus cs ds none due → plus = true →
      LaxRead r sep plus (43 :: cs) ds (some false) false

end Spec
