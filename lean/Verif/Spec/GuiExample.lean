import Verif.Spec.StdioExample
import Verif.Spec.Decimal
import Verif.Spec.Numeral

/-
What the example program for windows shows and reports.  It does not refer to the model of the
library.
-/

namespace Spec

/-- What happens to the window.  A key has a name and may be the one that switches the counter; an
update comes in a certain second after the window was opened. -/
inductive Happening
  | down (name : List Nat) (switch : Bool)
  | up (name : List Nat)
  | resized
  | closing
  | update (second : Int)
  deriving DecidableEq

namespace Happening

/-- What is reported. -/
def line : Happening → List Nat
  | down name _ => name ++ codes " down.\n"
  | up name => name ++ codes " up.\n"
  | resized => codes "Resized.\n"
  | closing => codes "Closing.\n"
  | update _ => []

/-- The counter is switched. -/
def switches : Happening → Bool
  | down _ b => b
  | _ => false

end Happening

/-- The report of everything that happened. -/
def transcript (hs : List Happening) : List Nat := hs.flatMap Happening.line

/-- The counter was switched an odd number of times. -/
def counterOn (hs : List Happening) : Bool := hs.countP Happening.switches % 2 = 1

/-- The seconds of updates. -/
def seconds (hs : List Happening) : List Int :=
  hs.filterMap fun
    | .update s => some s
    | _ => none

/-- The seconds of updates that came while the counter was on. -/
def counted : Bool → List Happening → List Int
  | _, [] => []
  | on, .update s :: hs => if on then s :: counted on hs else counted on hs
  | on, h :: hs => counted (if h.switches then !on else on) hs

/-- The title when the counter is off. -/
def plainTitle : List Nat := codes "Demo Window ¯\\_(ツ)_/¯"

/-- The title in a second: the number with commas, and `s`. -/
def secondsTitle (n : Nat) : List Nat := group (some 44) (decimalDigits n) ++ [115]

end Spec
