import Verif.Props.Stdio
import Verif.Proofs.Console

/-
Property C99: the counts returned by standard output.
-/

namespace Cmp

/-- A program that offers again what was not accepted, at most `fuel` times. -/
def sendAll (raw : List Byte → M Sys Nat) : Nat → List Byte → M (Res Sys) Unit
  | 0, bytes => if bytes = [] then pure () else M.hang
  | fuel + 1, bytes =>
    if bytes = [] then pure ()
    else do
      let n ← Res.write raw bytes
      sendAll raw fuel (bytes.drop n)

/-- The claim: counts tell what the system accepted, so that such a program gets everything
through. -/
def CountsTell (P : StdPlatform) (cap : Nat) (writes : List (Option Nat)) (bytes : List Byte) :
    Prop :=
  ∃ r r', sendAll (P.writeRaw) (writes.length + 1) bytes (freshStdout cap writes) = (.ok (), r)
    ∧ Res.flush (P.writeRaw) r = (.ok (), r')
    ∧ r'.accepted = bytes

/-- With a buffer the count says that everything was accepted, before the system was asked. -/
theorem C99_violated (P : StdPlatform) : ¬ ∀ cap writes bytes, CountsTell P cap writes bytes := by
  intro h
  obtain ⟨r, r', e, e', q⟩ := h 4 [some 1] [1, 2, 3]
  have e0 : sendAll (P.writeRaw) 2 [1, 2, 3] (freshStdout 4 [some 1]) =
      (.ok (), ⟨⟨[1, 2, 3, 0], 0, 3, true, true⟩, ⟨[], [], [some 1], []⟩⟩) := by
    cases P <;> decide +kernel
  have e1 : (sendAll (P.writeRaw) 2 [1, 2, 3] (freshStdout 4 [some 1])) = (.ok (), r) := e
  rw [e0] at e1
  simp only [Prod.mk.injEq, true_and] at e1
  rw [← e1] at e'
  have e2 : Res.flush (P.writeRaw) ⟨⟨[1, 2, 3, 0], 0, 3, true, true⟩,
      ⟨[], [], [some 1], []⟩⟩ =
      (.ok (), ⟨⟨[1, 2, 3, 0], 0, 0, true, false⟩, ⟨[], [], [], [.wrote [1]]⟩⟩) := by
    cases P <;> decide +kernel
  rw [e2] at e'
  simp only [Prod.mk.injEq, true_and] at e'
  rw [← e'] at q
  exact absurd q (by decide +kernel)

/-- One write without a buffer: the count is what the system accepted, and 0 if it failed. -/
theorem count_unbuffered (P : StdPlatform) (r : Res Sys) (h : r.buf.data = []) (bytes : List Byte) :
    ∃ k d, Res.write (P.writeRaw) bytes r = (.ok k, { r with dev := d })
      ∧ k = (Sys.transferred bytes.length r.dev.writes).getD 0
      ∧ Sys.output d.log = Sys.output r.dev.log ++ bytes.take k
      ∧ d.writes = r.dev.writes.tail := by
  have hc : ¬ r.buf.capacity > 0 := by simp [IoBuffer.capacity, h]
  refine ⟨(Sys.transferred bytes.length r.dev.writes).getD 0, { r.dev with
    writes := r.dev.writes.tail
    log := r.dev.log ++
      [.wrote (bytes.take ((Sys.transferred bytes.length r.dev.writes).getD 0))] }, ?_, rfl, ?_, rfl⟩
  · rw [Res.write, M.bind_ok (M.get_apply r), if_neg hc]
    have : ∀ d : Sys, P.writeRaw bytes d =
        (.ok ((Sys.transferred bytes.length d.writes).getD 0), { d with
          writes := d.writes.tail
          log := d.log ++ [.wrote (bytes.take ((Sys.transferred bytes.length d.writes).getD 0))] }) := by
      intro d
      cases P with
      | unix =>
        show Stdout.writeRaw bytes d = _
        rw [Stdout.writeRaw, M.bind_apply]
        simp only [Sys.write]
        cases Sys.transferred bytes.length d.writes <;> rfl
      | windows => rfl
    simp only [Res.onDev, this]
  · simp [Sys.output]

/-- C99 without a buffer, whatever the system accepts, also if calls fail.  And with a buffer if it
accepts everything.  Missing: buffers on systems that accept less. -/
theorem C99_partial (P : StdPlatform) (bytes : List Byte) :
    (∀ writes, CountsTell P 0 writes bytes) ∧ ∀ cap, CountsTell P cap [] bytes := by
  constructor
  · have run : ∀ (writes : List (Option Nat)) (bytes : List Byte) (r : Res Sys), r.buf.data = [] →
        r.buf.writeDirty = false → r.dev.writes = writes →
        ∃ r', sendAll (P.writeRaw) (writes.length + 1) bytes r = (.ok (), r')
          ∧ r'.buf.writeDirty = false ∧ Sys.output r'.dev.log = Sys.output r.dev.log ++ bytes := by
      intro writes
      induction writes with
      | nil =>
        intro bytes r hd hw hs
        by_cases hb : bytes = []
        · subst hb
          exact ⟨r, by simp [sendAll], hw, by simp⟩
        · obtain ⟨k, d, e, hk, ho, -⟩ := count_unbuffered P r hd bytes
          rw [hs] at hk
          have hk : k = bytes.length := hk
          refine ⟨{ r with dev := d }, ?_, hw, by rw [ho, hk, List.take_length]⟩
          rw [List.length_nil, sendAll, if_neg hb, M.bind_ok e, hk, List.drop_length, sendAll,
            if_pos rfl]
          rfl
      | cons w writes ih =>
        intro bytes r hd hw hs
        by_cases hb : bytes = []
        · subst hb
          exact ⟨r, by simp [sendAll], hw, by simp⟩
        · obtain ⟨k, d, e, hk, ho, hs'⟩ := count_unbuffered P r hd bytes
          obtain ⟨r', e', h1, h2⟩ := ih (bytes.drop k) { r with dev := d } hd hw (by simp [hs', hs])
          refine ⟨r', ?_, h1, ?_⟩
          · rw [List.length_cons, sendAll, if_neg hb, M.bind_ok e]
            exact e'
          · rw [h2]
            simp only
            rw [ho, List.append_assoc, List.take_append_drop]
    intro writes
    obtain ⟨r, e, h1, h2⟩ := run writes bytes (freshStdout 0 writes) rfl rfl rfl
    refine ⟨r, r, e, ?_, by simpa [Res.accepted, freshStdout, Sys.output] using h2⟩
    rw [Res.flush, M.bind_ok (M.get_apply r), if_neg (by simp [h1])]
    rfl
  · intro cap
    obtain ⟨r, e, h, -⟩ := Res.write_writing P.takes (Res.writing_make cap (⟨[], [], [], []⟩ : Sys) []
      ⟨rfl, rfl⟩ trivial) trivial (bytes := bytes) trivial
    obtain ⟨d, e', -, q⟩ := Res.flush_writing P.takes h trivial
    by_cases hb : bytes = []
    · subst hb
      exact ⟨freshStdout cap [], freshStdout cap [], by simp [sendAll],
        by rw [Res.flush, M.bind_ok (M.get_apply _), if_neg (by simp [freshStdout, IoBuffer.make])]; rfl,
        rfl⟩
    · refine ⟨r, _, ?_, e', by simpa [Res.accepted] using q.1⟩
      have e1 : Res.write P.writeRaw bytes (freshStdout cap []) = (.ok bytes.length, r) := e
      rw [List.length_nil, sendAll, if_neg hb, M.bind_ok e1, List.drop_length, sendAll, if_pos rfl]
      rfl

/-- Three bytes through a system that first takes one, then fails, then takes the rest. -/
example : (sendAll (StdPlatform.writeRaw .unix) 3 [1, 2, 3] (freshStdout 0 [some 1, none])).2.accepted =
    [1, 2, 3] := by decide +kernel

end Cmp
