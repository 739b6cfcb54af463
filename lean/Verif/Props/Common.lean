import Verif.Proofs.Log

/-
Property C118: several transparent container resources on one container.
-/

namespace Cmp

open Cmp.Spec (Lens Pen Seen Goal BoardOp Board LogOp Log)

/-! ### C118 -/

/-- What the steps on a container of `elem` bytes an element, with this content and no resources yet,
give, and the container and the resources afterwards. -/
def onContainer (elem : Nat) (content : List Byte) (ops : List BoardOp) :
    Outcome (List Seen) × Common :=
  M.runList Common.act ops (Common.make elem content)

/-- C118 in full, for any number of input and output resources on one container, with elements and
buffers of any size, constructed, copied and destroyed at any time, and changes of the container by
the program itself between: what every operation gives is what the board of the specification shows,
the container has the content of the board, and the behaviour is undefined exactly if the board has
no answer. -/
theorem C118_exact (elem : Nat) (content : List Byte) (ops : List BoardOp) :
    match (Board.start elem content).actAll ops with
    | none => (onContainer elem content ops).1 = .ub
    | some (xs, b) => ∃ c, onContainer elem content ops = (.ok xs, c) ∧ c.content = b.content := by
  have h := Board.acts_all (Board.pictures_start elem content) ops
  cases hx : (Board.start elem content).actAll ops with
  | none =>
    rw [hx] at h
    exact h
  | some q =>
    obtain ⟨xs, b⟩ := q
    rw [hx] at h
    exact ⟨_, Prod.ext h.1 rfl, h.2.content⟩

/-- A container of bytes that starts empty, with one output resource, is a log that input resources
which ask for reads that are `small` can read. -/
def IsLog (small : Nat → Nat → Prop) : Prop :=
  ∀ (cap : Nat) (ops : List LogOp), LogOp.Proper small (fun _ => none) ops →
    ∃ xs c, onContainer 1 [] (.newWriter 0 cap :: ops.map LogOp.onBoard) = (.ok (.done :: xs), c)
      ∧ xs.length = ops.length ∧ Log.start.Explains (ops.zip xs)

/-- What is seen of a board from the start. -/
def boardShows (elem : Nat) (content : List Byte) (ops : List BoardOp) : Option (List Seen) :=
  ((Board.start elem content).actAll ops).map (·.1)

/-- Readers and a writer that use a log. -/
def logUse : List LogOp :=
  [.join 0 4, .write [1, 2], .atEnd 0, .read 0 2, .flush, .read 0 2, .atEnd 0, .write [3, 4, 5],
    .join 1 0, .read 1 9, .clone 0 2, .flush, .read 0 1, .read 0 4, .read 2 3, .place 2, .look]

/-- Two readers that join at different times, with buffers of different sizes, of which one is copied:
what they see while data are written, kept back and flushed is what is seen of a log. -/
example : LogOp.Proper (fun cap n => cap = 0 ∨ n ≤ cap) (fun _ => none) logUse
    ∧ boardShows 1 [] (.newWriter 0 3 :: logUse.map LogOp.onBoard) = some [.done, .done, .bytes [] 2,
      .atEnd true, .bytes [] 0, .done, .bytes [1, 2] 2, .atEnd true, .bytes [] 3, .done,
      .bytes [1, 2] 2, .done, .done, .bytes [3] 1, .bytes [4, 5] 2, .bytes [3, 4, 5] 3, .place 5,
      .bytes [1, 2, 3, 4, 5] 5] := by
  refine ⟨?_, by decide +kernel⟩
  simp [logUse, LogOp.Proper, LogOp.joined]

/-- C118 fails: with the buffer of a reader smaller than what it asks for, what the buffer held comes
twice. -/
theorem C118_violated : ¬ IsLog fun _ _ => True := by
  intro h
  obtain ⟨xs, c, e, -, hx⟩ := h 0 [.join 0 1, .write [1, 2, 3], .flush, .read 0 3]
    ⟨trivial, trivial, trivial, ⟨1, rfl, trivial⟩, trivial⟩
  have e' : (onContainer 1 [] (.newWriter 0 0 :: ([.join 0 1, .write [1, 2, 3], .flush, .read 0 3] :
      List LogOp).map LogOp.onBoard)).1
      = .ok [.done, .done, .bytes [] 3, .done, .bytes [1, 1, 2] 3] := by decide +kernel
  rw [e] at e'
  simp only [Outcome.ok.injEq, List.cons.injEq, true_and] at e'
  subst e'
  obtain ⟨-, -, -, data, e1, e2, -⟩ := hx
  simp only [Seen.bytes.injEq] at e1
  obtain ⟨rfl, -⟩ := e1
  revert e2
  decide

/-- C118 as far as it holds: a container of bytes that starts empty, with one output resource of any
capacity, is a log for any number of input resources that join it at any time, each without a buffer
or asking for no more than its buffer holds.  Missing are larger reads (`C118_violated`; `C118_exact`
says what they give). -/
theorem C118_partial : IsLog fun cap n => cap = 0 ∨ n ≤ cap := by
  intro cap ops hp
  have hl : Logs (fun _ => none) Log.start ((Board.start 1 []).withPen 0 (some (cap, 0, none))) :=
    ⟨rfl, ⟨cap, none, rfl, fun _ => rfl, rfl⟩, Nat.le_refl _, fun i c h => by cases h⟩
  obtain ⟨xs, b, e, hlen, hx⟩ := logs_all hl ops hp
  have h := C118_exact 1 [] (.newWriter 0 cap :: ops.map LogOp.onBoard)
  have e' : (Board.start 1 []).actAll (.newWriter 0 cap :: ops.map LogOp.onBoard)
      = some (.done :: xs, b) := by
    rw [Board.actAll, Board.act]
    simp only [Option.bind_eq_bind, Option.bind_some, e, Option.pure_def]
  rw [e'] at h
  obtain ⟨c, h, -⟩ := h
  exact ⟨xs, c, h, hlen, hx⟩

/-- What readers and writers do to each other: a page taken before the content changes is delivered
from the time before; data of a destroyed writer that were not flushed are lost, those of a copied one
are written twice, with room for both; a flush behind the end of a container that became shorter is undefined, as is reading
there. -/
example : boardShows 1 [1, 2, 3] [.newReader 0 2, .read 0 1, .assign [7, 8, 9], .read 0 2]
      = some [.done, .bytes [1] 1, .done, .bytes [2, 9] 2]
    ∧ boardShows 1 [] [.newWriter 0 4, .write 0 [1, 2], .dropWriter 0, .look]
      = some [.done, .bytes [] 2, .done, .bytes [] 0]
    ∧ boardShows 1 [] [.newWriter 0 4, .write 0 [1, 2], .copyWriter 0 1, .write 1 [3], .flush 0,
        .writerTo 0 (.on 0), .flush 1, .look]
      = some [.done, .bytes [] 2, .done, .bytes [] 1, .done, .done, .done, .bytes [1, 2, 3, 0, 0] 5]
    ∧ boardShows 1 [1, 2, 3] [.newWriter 0 4, .writerTo 0 (.beforeEnd 0), .write 0 [4], .assign [],
        .flush 0] = none
    ∧ boardShows 1 [1, 2, 3] [.newReader 0 0, .read 0 2, .assign [], .readerAtEnd 0]
      = some [.done, .bytes [1, 2] 2, .done, .atEnd false]
    ∧ boardShows 1 [1, 2, 3] [.newReader 0 0, .read 0 2, .assign [], .read 0 1] = none := by
  refine ⟨?_, ?_, ?_, ?_, ?_, ?_⟩ <;> decide +kernel

end Cmp
