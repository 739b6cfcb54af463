import Verif.Model.Buffer

/-
Specification for short reads: which portions of a file the system hands over when it is asked for
`n` bytes again and again, and what memory shows if every portion is put at the same place.
-/

namespace Cmp.Spec

/-- The most bytes the system hands over when it is asked for `n`: what the schedule says, at least
one, and all when the schedule is over. -/
def handed (n : Nat) (schedule : List Nat) : Nat := min n (max 1 (schedule.headD n))

/-- The portions of `content` handed over to a reader which has `total` bytes, asks for `n` each
time, and stops when it has exactly `n` or the content is over. -/
def portions (n : Nat) (total : Nat) (content : List Byte) (schedule : List Nat) :
    List (List Byte) :=
  if n = 0 ∨ content = [] then []
  else
    content.take (handed n schedule) ::
      if total + (content.take (handed n schedule)).length = n then []
      else portions n (total + (content.take (handed n schedule)).length)
        (content.drop (handed n schedule)) schedule.tail
termination_by content.length
decreasing_by
  rename_i h _
  simp only [not_or] at h
  have := List.length_pos_iff.mpr h.2
  simp only [List.length_drop, handed]
  omega

/-- Memory after the portions were put at the same place one after the other. -/
def overlaid (portions : List (List Byte)) : List Byte :=
  portions.foldl (fun memory p => p ++ memory.drop p.length) []

/-- What a sequence of reads returns: what memory shows, and the number of bytes handed over. -/
def shortReads : List Nat → List Byte → List Nat → List ReadResult
  | [], _, _ => []
  | n :: ns, content, schedule =>
    ⟨overlaid (portions n 0 content schedule), (portions n 0 content schedule).flatten.length⟩ ::
      shortReads ns (content.drop (portions n 0 content schedule).flatten.length)
        (schedule.drop (portions n 0 content schedule).length)

/-- Every read is handed all it asks for, or all that is left, at once. -/
def AllAtOnce : List Nat → List Byte → List Nat → Prop
  | [], _, _ => True
  | n :: ns, content, schedule =>
    if n = 0 ∨ content = [] then AllAtOnce ns content schedule
    else min n content.length ≤ handed n schedule ∧ AllAtOnce ns (content.drop n) schedule.tail

end Cmp.Spec
