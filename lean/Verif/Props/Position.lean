import Verif.Props.Transfer
import Verif.Props.File

/-
Property C85: what resources for reading and writing report about their position.
-/

namespace Cmp

open Spec (ArrayCursor IoOp Disciplined)

/-! ### C85 -/

/-- What a user expects to be told about an array with a cursor. -/
def Spec.Reports (a : ArrayCursor) (position : Outcome Int) (atEnd : Outcome Bool) : Prop :=
  position = .ok (a.cursor : Int) ∧ atEnd = .ok (a.cursor == a.bytes.length)

/-- The claim for a file: after any sequence of operations, position and end test are those of the
array. -/
def FileReports (P : FilePlatform) (reads : List Nat) (cap : Nat) (content : List Byte)
    (ops : List IoOp) : Prop :=
  ∀ files path, files path = some content →
    ∃ outs f, M.runList (FileObj.doIo P) ops (freshFile P cap files reads path .readAndWrite) =
        (.ok outs, f)
      ∧ Spec.Reports (Spec.after 1 ⟨content, 0⟩ ops) (FileObj.getPosition P f)
        (FileObj.isAtEnd P f)

/-- The claim for a container of bytes. -/
def CtrReports (cap : Nat) (content : List Byte) (ops : List IoOp) : Prop :=
  ∃ outs r, M.runList (Res.doIo Ctr.readRaw Ctr.writeRaw Ctr.seek) ops (freshCtr cap 1 content) =
      (.ok outs, r)
    ∧ Spec.Reports (Spec.after 1 ⟨content, 0⟩ ops) (.ok (Ctr.getPosition r)) (.ok (Ctr.isAtEnd r))

/-- After appending a byte that is still in the buffer the end test says no, for files on both
platforms and for containers; and on Windows the position of a file object that is not open is
undefined behaviour. -/
theorem C85_violated :
    (∀ P, ¬ FileReports P [] 4 [] [.write [7]])
    ∧ ¬ CtrReports 4 [] [.write [7]]
    ∧ FileObj.getPosition .windows (FileObj.default 4 twoFiles []) = .ub := by
  refine ⟨fun P h => ?_, fun h => ?_, rfl⟩
  · obtain ⟨outs, f, e, -, q⟩ := h (fun _ => some []) 0 rfl
    have e0 : FileObj.isAtEnd P (M.runList (FileObj.doIo P) [.write [7]]
        (freshFile P 4 (fun _ => some []) [] 0 .readAndWrite)).2 = .ok false := by
      cases P <;> decide +kernel
    rw [e] at e0
    change FileObj.isAtEnd P f = _ at e0
    rw [e0] at q
    exact absurd q (by decide +kernel)
  · obtain ⟨outs, r, e, -, q⟩ := h
    have e0 : Ctr.isAtEnd (M.runList (Res.doIo Ctr.readRaw Ctr.writeRaw Ctr.seek) [.write [7]]
        (freshCtr 4 1 [])).2 = false := by decide +kernel
    rw [e] at e0
    change Ctr.isAtEnd r = _ at e0
    rw [e0] at q
    exact absurd q (by decide +kernel)

/-- For the sequences of C74 and C40: the position reported is always right, and the end test is
right whenever the last operation was not a write.  Missing: the end test while data are waiting in
the buffer, which the code gets wrong. -/
theorem C85_partial (P : FilePlatform) (reads : List Nat) (hs : P.Steady reads) (cap : Nat)
    (content : List Byte) (ops : List IoOp) :
    (cap ≤ P.most → (∀ op ∈ ops, op.Within P.most) →
      Disciplined cap 1 (fun _ _ _ => True) .fresh ⟨content, 0⟩ ops →
      (∀ data, ops.getLast? ≠ some (.write data)) → FileReports P reads cap content ops)
    ∧ (Disciplined cap 1 (Ctr.allowed 1) .fresh ⟨content, 0⟩ ops →
      (∀ data, ops.getLast? ≠ some (.write data)) → CtrReports cap content ops)
    ∧ (cap ≤ P.most → (∀ op ∈ ops, op.Within P.most) →
      Disciplined cap 1 (fun _ _ _ => True) .fresh ⟨content, 0⟩ ops →
      ∀ files path, files path = some content →
      ∃ outs f, M.runList (FileObj.doIo P) ops (freshFile P cap files reads path .readAndWrite) =
          (.ok outs, f)
        ∧ FileObj.getPosition P f = .ok ((Spec.after 1 ⟨content, 0⟩ ops).cursor : Int))
    ∧ (Disciplined cap 1 (Ctr.allowed 1) .fresh ⟨content, 0⟩ ops →
      ∃ outs r, M.runList (Res.doIo Ctr.readRaw Ctr.writeRaw Ctr.seek) ops
          (freshCtr cap 1 content) = (.ok outs, r)
        ∧ Ctr.getPosition r = ((Spec.after 1 ⟨content, 0⟩ ops).cursor : Int)) := by
  have file : cap ≤ P.most → (∀ op ∈ ops, op.Within P.most) →
      Disciplined cap 1 (fun _ _ _ => True) .fresh ⟨content, 0⟩ ops →
      ∀ files path, files path = some content →
      ∃ outs f, M.runList (FileObj.doIo P) ops (freshFile P cap files reads path .readAndWrite) =
          (.ok outs, f)
        ∧ FileObj.getPosition P f = .ok ((Spec.after 1 ⟨content, 0⟩ ops).cursor : Int)
        ∧ ((∀ data, ops.getLast? ≠ some (.write data)) → f.path.bind f.res.dev.files =
          some (Spec.after 1 ⟨content, 0⟩ ops).bytes) := by
    intro hcap hlim h files path hc
    have hfs : files = FileDev.withFile files path content := by
      funext p
      by_cases hp : p = path <;> simp [FileDev.withFile, hp, hc]
    obtain ⟨r, s, e, hr, hnil, hlast⟩ := P.runIo_holds (fs := files) (path := path)
      (Res.represents_make cap content ⟨files, some ⟨path, 0, .readAndWrite⟩, 0, reads⟩
        ⟨reads, hs, by rw [← hfs]⟩) hcap hlim h
    rw [freshFile_eq P cap files reads path .readAndWrite content hc]
    refine ⟨_, _, FileObj.run_eq P ops _ _ r rfl e, ?_, fun hl => ?_⟩
    · obtain ⟨q, hq, hsum⟩ := Res.represents_position
        (fun d : FileDev => d.fd.map fun x => (x.offset : Int))
        (fun c q d h => by obtain ⟨_, -, rfl⟩ := h; rfl)
        (fun _ _ c b q d h => by obtain ⟨_, _, -, -, rfl⟩ := h; rfl) hr
      cases hd : r.dev.fd with
      | none => simp [hd] at hq
      | some d =>
        simp only [hd, Option.map_some, Option.some.injEq] at hq
        simp only [FileObj.getPosition, hd, hq, hsum]
    · have hw : ¬ s.IsWriting := by
        by_cases ho : ops = []
        · rw [hnil ho]; exact fun h => h
        · exact hlast ho hl
      have := Res.represents_held hr hw
      simp only [Option.bind_some]
      rcases this with ⟨q, _, -, hd⟩ | ⟨b, q, _, _, -, -, hd⟩ <;> rw [hd] <;> simp [FileDev.withFile]
  have ctr : Disciplined cap 1 (Ctr.allowed 1) .fresh ⟨content, 0⟩ ops →
      ∃ outs r, M.runList (Res.doIo Ctr.readRaw Ctr.writeRaw Ctr.seek) ops
          (freshCtr cap 1 content) = (.ok outs, r)
        ∧ Ctr.getPosition r = ((Spec.after 1 ⟨content, 0⟩ ops).cursor : Int)
        ∧ ((∀ data, ops.getLast? ≠ some (.write data)) →
          r.dev.content = (Spec.after 1 ⟨content, 0⟩ ops).bytes ∧ r.dev.elem = 1) := by
    intro h
    obtain ⟨r, s, e, hr, hnil, hlast⟩ := Res.runIo_represents (Ctr.store 1)
      (Res.represents_make cap content (Ctr.make 1 content) ⟨rfl, rfl, rfl, rfl⟩)
      trivial (fun _ _ => trivial) h
    refine ⟨_, r, e, ?_, fun hl => ?_⟩
    · obtain ⟨q, hq, hsum⟩ := Res.represents_position (fun c : Ctr => some c.position)
        (fun c q d h => by rw [h.position])
        (fun _ _ c b q d h => by
          have h1 := h.position
          have h2 := h.lastFill
          rw [Option.some.injEq]
          omega) hr
      simp only [Option.some.injEq] at hq
      rw [Ctr.getPosition, hq, hsum]
    · have hw : ¬ s.IsWriting := by
        by_cases ho : ops = []
        · rw [hnil ho]; exact fun h => h
        · exact hlast ho hl
      rcases Res.represents_held hr hw with ⟨q, hq⟩ | ⟨b, q, hq⟩ <;>
        exact ⟨hq.content_eq, hq.elem_eq⟩
  refine ⟨fun h1 h2 h3 hl files path hc => ?_, fun h hl => ?_, fun h1 h2 h3 files path hc => ?_,
    fun h => ?_⟩
  · obtain ⟨outs, f, e, hp, hb⟩ := file h1 h2 h3 files path hc
    refine ⟨outs, f, e, hp, ?_⟩
    simp only [FileObj.isAtEnd, hp, hb hl, Outcome.ok.injEq]
    rw [Bool.eq_iff_iff, beq_iff_eq, beq_iff_eq, Int.natCast_inj]
  · obtain ⟨outs, r, e, hp, hb⟩ := ctr h
    obtain ⟨h1, h2⟩ := hb hl
    refine ⟨outs, r, e, by rw [hp], ?_⟩
    simp only [Ctr.isAtEnd, hp, Ctr.count, h1, h2, Nat.div_one, Nat.mul_one, Outcome.ok.injEq]
    rw [Bool.eq_iff_iff, beq_iff_eq, beq_iff_eq, Int.natCast_inj]
  · obtain ⟨outs, f, e, hp, -⟩ := file h1 h2 h3 files path hc
    exact ⟨outs, f, e, hp⟩
  · obtain ⟨outs, r, e, hp, -⟩ := ctr h
    exact ⟨outs, r, e, hp⟩

example : Disciplined 2 1 (Ctr.allowed 1) .fresh ⟨[1, 2, 3], 0⟩
    [.read 1, .seek 3, .write [9, 8, 7, 6], .flush, .seek 6, .read 2] :=
  .read (.inl rfl) (by decide) (.seek (by decide +kernel)
    (.write (.inl ⟨rfl, rfl, rfl⟩) (.inr (by decide)) (.flush (.seek (by decide +kernel)
      (.read (.inl rfl) (by decide) (.nil _ _))))))

example : Spec.after 1 ⟨[1, 2, 3], 0⟩ [.read 1, .seek 3, .write [9, 8, 7, 6], .flush, .seek 6, .read 2]
    = ⟨[1, 2, 3, 9, 8, 7, 6], 7⟩ := by decide +kernel

end Cmp
