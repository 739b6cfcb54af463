import Verif.Spec.Wire

/-
Specification of what a text input stream makes of carriage returns, and of what a program sees that
reads lines, words or the rest of a text with a string type that refuses some characters and goes on
after the exception.  It does not refer to the model of the library.
-/

namespace Spec

/-- A carriage return that has a character behind it is lost, and that character comes in its place
whatever it is; a carriage return at the end stays. -/
def loseReturns : List Nat → List Nat
  | [] => []
  | [c] => [c]
  | c :: d :: cs => if c = 13 then d :: loseReturns cs else c :: loseReturns (d :: cs)

/-- What attempts to read a line give, one by one: up to a line feed or the end it is the line; a
refused character is an exception that takes with it what came before on the line. -/
def linesTried (refused : Nat → Prop) [DecidablePred refused] :
    List Nat → List Nat → List (Option (List Nat))
  | sofar, [] => [some sofar]
  | sofar, c :: cs =>
    if c = 10 then some sofar :: linesTried refused [] cs
    else if refused c then none :: linesTried refused [] cs
    else linesTried refused (sofar ++ [c]) cs

/-- What attempts to read all that is left give, one by one. -/
def allTried (refused : Nat → Prop) [DecidablePred refused] :
    List Nat → List Nat → List (Option (List Nat))
  | sofar, [] => [some sofar]
  | sofar, c :: cs =>
    if refused c then none :: allTried refused [] cs else allTried refused (sofar ++ [c]) cs

/-- What attempts to read a word give, one by one, with one at the end of the text that gives an empty
string. -/
def wordsTried (sep refused : Nat → Prop) [DecidablePred sep] [DecidablePred refused] :
    List Nat → List Nat → List (Option (List Nat))
  | sofar, [] => if sofar = [] then [some []] else [some sofar, some []]
  | sofar, c :: cs =>
    if sep c then
      if sofar = [] then wordsTried sep refused [] cs
      else some sofar :: wordsTried sep refused [] cs
    else if refused c then none :: wordsTried sep refused [] cs
    else wordsTried sep refused (sofar ++ [c]) cs

end Spec
