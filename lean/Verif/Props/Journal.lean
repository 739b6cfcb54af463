import Verif.Proofs.FileBoard

/-
Property C125: a file as a journal that one object writes and others read.
-/

namespace Cmp

open Cmp.Spec (Seen Log JournalOp FileAct FileBoard)

/-! ### C125 -/

/-- What the steps on the file called `path`, with these files and no objects yet, give, and the files
and the objects afterwards. -/
def onFile (P : FilePlatform) (files : Nat → Option (List Byte)) (path : Nat) (ops : List JournalOp) :
    Outcome (List Seen) × Disk :=
  M.runList (Disk.keep P path) ops (Disk.make files)

/-- The largest number of bytes that a single call of the operating system takes. -/
def FilePlatform.takesAtOnce : FilePlatform → Nat
  | .unix => 2 ^ 63 - 1
  | .windows => 2 ^ 32 - 1

theorem takesAtOnce_most (P : FilePlatform) : P.takesAtOnce = P.most := by cases P <;> rfl

/-- The file, which may be there already with any content or not, is a journal: what its readers see is
what may be seen of a log that begins with that content, if they ask for reads that are `small` and the
operating system is `calm`; and no other file changes. -/
def IsJournal (P : FilePlatform) (small : Nat → Nat → Prop) (calm : List Nat → Prop) : Prop :=
  ∀ (files : Nat → Option (List Byte)) (path cap : Nat) (both : Bool) (ops : List JournalOp),
    cap ≤ P.takesAtOnce →
    JournalOp.Proper (· ≤ P.takesAtOnce) calm small true (fun _ => none) ops →
    ∃ xs d, onFile P files path (.session cap both :: ops) = (.ok (.done :: xs), d)
      ∧ xs.length = ops.length ∧ (Log.holding ((files path).getD [])).Tells (ops.zip xs)
      ∧ ∀ p, p ≠ path → d.files p = files p

/-- A journal that is written in two sessions while it is read. -/
def journalUse : List JournalOp :=
  [.join 0 4 [], .write [1, 2], .writerPlace, .atEnd 0, .read 0 2, .flush, .read 0 2, .atEnd 0,
    .write [3, 4, 5], .join 1 0 [], .read 1 9, .look, .finish, .read 0 1, .leave 1, .session 2 true,
    .writerPlace, .write [6], .join 1 2 [], .read 0 4, .flush, .read 0 4, .read 1 2, .place 1, .look]

/-- What two readers with buffers of different sizes see of a file that held one byte when the first
writer began: nothing before it is flushed or too much to be kept back, everything after the writer
ended, and the rest in a second session. -/
example : JournalOp.Proper (· ≤ FilePlatform.unix.takesAtOnce) FilePlatform.unix.Steady
      (fun cap n => cap = 0 ∨ n ≤ cap) true (fun _ => none) journalUse
    ∧ (onFile .unix (fun p => if p = 7 then some [9] else none) 7 (.session 3 false :: journalUse)).1
      = .ok [.done, .done, .bytes [] 2, .place 3, .atEnd false, .bytes [9] 1, .done, .bytes [1, 2] 2,
        .atEnd true, .bytes [] 3, .done, .bytes [9, 1, 2] 3, .bytes [9, 1, 2] 3, .done, .bytes [3] 1,
        .done, .done, .place 6, .bytes [] 1, .done, .bytes [4, 5] 2, .done, .bytes [6] 1, .bytes [9, 1] 2,
        .place 2, .bytes [9, 1, 2, 3, 4, 5, 6] 7] := by
  refine ⟨?_, by decide +kernel⟩
  simp [journalUse, JournalOp.Proper, JournalOp.joined, JournalOp.opened, FilePlatform.takesAtOnce,
    FilePlatform.Steady]

/-- C125 fails: with the buffer of a reader smaller than what it asks for, what the buffer held comes
twice. -/
theorem C125_violated (P : FilePlatform) : ¬ IsJournal P (fun _ _ => True) P.Steady := by
  intro h
  obtain ⟨xs, c, e, -, hx, -⟩ := h (fun _ => none) 0 0 false
    [.join 0 1 [], .write [1, 2, 3], .read 0 3] (Nat.zero_le _)
    ⟨⟨rfl, by cases P <;> decide, by cases P <;> simp [FilePlatform.Steady]⟩, ⟨rfl, by cases P <;> decide⟩,
      ⟨1, rfl, by cases P <;> decide, trivial⟩, trivial⟩
  have e' : (onFile P (fun _ => none) 0 [.session 0 false, .join 0 1 [], .write [1, 2, 3],
      .read 0 3]).1 = .ok [.done, .done, .bytes [] 3, .bytes [1, 1, 2] 3] := by
    cases P <;> decide +kernel
  rw [e] at e'
  simp only [Outcome.ok.injEq, List.cons.injEq, true_and] at e'
  subst e'
  obtain ⟨-, -, data, e1, e2, -⟩ := hx
  simp only [Seen.bytes.injEq] at e1
  obtain ⟨rfl, -⟩ := e1
  revert e2
  decide

/-- C125 fails on Unix for readers whose calls the operating system answers with less than was asked
for: the second part is stored over the first. -/
theorem C125_violated_short : ¬ IsJournal .unix (fun cap n => cap = 0 ∨ n ≤ cap) (fun _ => True) := by
  intro h
  obtain ⟨xs, c, e, -, hx, -⟩ := h (fun _ => none) 0 0 false
    [.join 0 0 [2, 2], .write [1, 2, 3, 4], .read 0 4] (Nat.zero_le _)
    ⟨⟨rfl, by decide, trivial⟩, ⟨rfl, by decide⟩, ⟨0, rfl, by decide, .inl rfl⟩, trivial⟩
  have e' : (onFile .unix (fun _ => none) 0 [.session 0 false, .join 0 0 [2, 2], .write [1, 2, 3, 4],
      .read 0 4]).1 = .ok [.done, .done, .bytes [] 4, .bytes [3, 4] 4] := by
    decide +kernel
  rw [e] at e'
  simp only [Outcome.ok.injEq, List.cons.injEq, true_and] at e'
  subst e'
  obtain ⟨-, -, data, e1, -⟩ := hx
  simp only [Seen.bytes.injEq] at e1
  obtain ⟨rfl, e1⟩ := e1
  revert e1
  decide

/-- C125 as far as it holds: a file that one object after the other writes, each going to the end
first, is a journal for any number of objects that open it for reading at any time, each without a
buffer or asking for no more than its buffer holds, on Unix if the system returns as many bytes as it
is asked for and has, on Windows always.  Missing are larger reads (`C125_violated`), short counts
(`C125_violated_short`) and data that a single call does not take (C73, C115). -/
theorem C125_partial (P : FilePlatform) : IsJournal P (fun cap n => cap = 0 ∨ n ≤ cap) P.Steady := by
  intro files path cap both ops hcap hp
  rw [takesAtOnce_most] at hcap hp
  obtain ⟨d, e, hj⟩ := journals_begin P files path cap both hcap
  obtain ⟨xs, d', e', hlen, ht, content, hc⟩ := journals_all hj ops hp
  refine ⟨xs, d', M.runList_cons e e', hlen, ht, fun p hne => ?_⟩
  rw [hc]
  simp [FileDev.withFile, hne]

/-- Opening a second object for writing while the first still keeps data back is not a session: it goes
to where the end is then, and the data of the one are written over those of the other. -/
example : ((do
      Disk.construct .unix 0 4 [] 0 .writeOnly .create
      let _ ← Disk.write .unix 0 [1, 2]
      Disk.construct .unix 1 0 [] 0 .writeOnly .create
      Disk.setPosition .unix 1 0 .end
      let _ ← Disk.write .unix 1 [3]
      Disk.flush .unix 0
      Disk.look 0 : M Disk (List Byte)) (Disk.make fun _ => none)).1 = .ok [1, 2] := by
  decide +kernel

/-- In full: any number of objects on one file, of which each only reads or only writes, with buffers of
any size that a single call fills, on a system that returns as many bytes as it is asked for and has.
What they see and what the file holds is what the `FileBoard` says: readers see the file a page at a time
as it was when they turned to the page, what is read past the buffer is read from where the page begins,
positions relative to the current one count from there, and writers put what they keep back where they
were when they began to keep it. -/
theorem C125_exact (P : FilePlatform) (files : Nat → Option (List Byte)) (path : Nat)
    (content : List Byte) (hc : files path = some content) (ops : List FileAct)
    (hf : ∀ op ∈ ops, op.Fits (· ≤ P.takesAtOnce)) :
    match (FileBoard.start content).actAll (P = .unix) ops with
    | none => (M.runList (Disk.act P path) ops (Disk.make files)).1 = .ub
    | some (xs, b) => ∃ d, M.runList (Disk.act P path) ops (Disk.make files) = (.ok xs, d)
      ∧ d.files path = some b.content ∧ ∀ p, p ≠ path → d.files p = files p := by
  rw [takesAtOnce_most] at hf
  have hw : files = FileDev.withFile files path content := by
    funext p
    by_cases hp : p = path <;> simp [FileDev.withFile, hp, hc]
  have hcl : decide (P = .unix) = P.clamps := by cases P <;> rfl
  have key := boards_all (boards_start (P := P) (path := path) files content) ops hf
  rw [hcl]
  rw [← hw] at key
  cases hx : (FileBoard.start content).actAll P.clamps ops with
  | none =>
    rw [hx] at key
    exact key
  | some z =>
    obtain ⟨xs, b⟩ := z
    rw [hx] at key
    obtain ⟨d, e, h⟩ := key
    refine ⟨d, e, by rw [h.files, withFile_self], fun p hp => ?_⟩
    rw [h.files]
    simp [FileDev.withFile, hp]

/-- What two readers and two writers do with a file. -/
def fileUse : List FileAct :=
  [.newWriter 0 4, .newWriter 1 0, .newReader 0 2, .newReader 1 3, .write 0 [1, 2], .writerTo 1 (.beforeEnd 0),
    .write 1 [3, 4, 5], .look, .read 0 1, .readerPlace 0, .flush 0, .read 0 1, .read 1 9, .readerPlace 1,
    .read 1 2, .writerTo 0 (.element (-3)), .write 0 [6], .assign [7, 7, 7, 7], .read 0 5,
    .readerTo 0 (.on (-1)), .read 0 2, .readerAtEnd 0, .dropWriter 0, .writerPlace 1, .writerAtEnd 1, .look]

/-- On Unix and on Windows, where a place before the start is not taken to be the start.  (Both look
at `[9, 8]` before they begin.) -/
example : (∀ P : FilePlatform, ∀ op ∈ fileUse, op.Fits (· ≤ P.takesAtOnce))
    ∧ ((FileBoard.start [9, 8]).actAll true fileUse).map (·.1) = some
      [.done, .done, .done, .done, .bytes [] 2, .done, .bytes [] 3, .bytes [9, 8, 3, 4, 5] 5, .bytes [9] 1,
        .place 1, .done, .bytes [8] 1, .bytes [1, 2, 3, 1, 2, 3, 4, 5] 8, .place 8, .bytes [] 0, .done,
        .bytes [] 1, .done, .bytes [7, 7, 7, 7] 4, .done, .bytes [7] 1, .atEnd true, .done, .place 5,
        .atEnd false, .bytes [6, 7, 7, 7] 4]
    ∧ ((FileBoard.start [9, 8]).actAll false fileUse).map (·.2.content) = some [7, 7, 6, 7] := by
  refine ⟨?_, ?_, ?_⟩
  · intro P
    cases P <;> simp [fileUse, FileAct.Fits, FilePlatform.takesAtOnce]
  · decide +kernel
  · decide +kernel

end Cmp
