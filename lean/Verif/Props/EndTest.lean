import Verif.Props.Position

/-
C85 in full: the end test compares the right position with the size the device has at the moment, so
it is wrong exactly while data that make the file or container longer are waiting in the buffer.
-/

namespace Cmp

open Spec (ArrayCursor IoOp Disciplined Session)

namespace Res

variable {δ : Type} {allowed : Nat → Nat → Nat → Prop} {idle : List Byte → Nat → δ → Prop}
  {loaded : List Byte → Nat → Nat → δ → Prop}

/-- What the device holds is as long as the array, or shorter and the cursor is at the end. -/
theorem represents_stored {cap : Nat} {s : Session} {a : ArrayCursor} {r : Res δ}
    (h : Represents cap allowed idle loaded s a r) :
    ∃ c, ((∃ q, idle c q r.dev) ∨ ∃ b q, loaded c b q r.dev)
      ∧ (c.length = a.bytes.length ∨ c.length < a.bytes.length ∧ a.cursor = a.bytes.length) := by
  by_cases hs : s.IsWriting
  · cases s with
    | fresh => exact hs.elim
    | reading => exact hs.elim
    | writing size start =>
      obtain ⟨-, o, w, ho, hst, -, rfl, hw⟩ := h
      obtain ⟨w0, hg, -, rfl⟩ := hw.written
      refine ⟨_, .inl ⟨_, hg⟩, ?_⟩
      simp only [overlay, List.length_append, List.length_take, List.length_drop]
      omega
  · exact ⟨_, represents_held h hs, .inl rfl⟩

end Res

theorem endTest_right {cursor size stored : Nat}
    (h : stored = size ∨ stored < size ∧ cursor = size) :
    stored ≤ size ∧ ((cursor == stored) = (cursor == size) ↔ stored = size) := by
  rcases h with rfl | ⟨h1, h2⟩
  · simp
  · subst h2
    refine ⟨by omega, ?_⟩
    rw [beq_self_eq_true, beq_iff_eq]
    omega

/-- The end test of a file opened for reading and writing, in full: it says whether the cursor is at
the end of what the file holds at the moment, without what is waiting in the buffer.  It is right
exactly if that is as long as the array. -/
theorem C85_exact (P : FilePlatform) (reads : List Nat) (hs : P.Steady reads) (cap : Nat)
    (content : List Byte) (ops : List IoOp) (hcap : cap ≤ P.most)
    (hlim : ∀ op ∈ ops, op.Within P.most)
    (h : Disciplined cap 1 (fun _ _ _ => True) .fresh ⟨content, 0⟩ ops)
    (files : Nat → Option (List Byte)) (path : Nat) (hc : files path = some content) :
    let a := Spec.after 1 ⟨content, 0⟩ ops
    ∃ outs f stored,
      M.runList (FileObj.doIo P) ops (freshFile P cap files reads path .readAndWrite) = (.ok outs, f)
      ∧ f.res.dev.files path = some stored ∧ stored.length ≤ a.bytes.length
      ∧ FileObj.getPosition P f = .ok (a.cursor : Int)
      ∧ FileObj.isAtEnd P f = .ok (a.cursor == stored.length)
      ∧ (Spec.Reports a (FileObj.getPosition P f) (FileObj.isAtEnd P f)
        ↔ stored.length = a.bytes.length) := by
  intro a
  have hfs : files = FileDev.withFile files path content := by
    funext p
    by_cases hp : p = path <;> simp [FileDev.withFile, hp, hc]
  obtain ⟨r, s, e, hr, -, -⟩ := P.runIo_holds (fs := files) (path := path)
    (Res.represents_make cap content ⟨files, some ⟨path, 0, .readAndWrite⟩, 0, reads⟩
      ⟨reads, hs, by rw [← hfs]⟩) hcap hlim h
  rw [freshFile_eq P cap files reads path .readAndWrite content hc]
  obtain ⟨stored, hst, hlen⟩ := Res.represents_stored hr
  obtain ⟨hle, hright⟩ := endTest_right hlen
  have hf : r.dev.files path = some stored := by
    rcases hst with ⟨q, _, -, hd⟩ | ⟨b, q, _, _, -, -, hd⟩ <;> rw [hd] <;> simp [FileDev.withFile]
  obtain ⟨q, hq, hsum⟩ := Res.represents_position
    (fun d : FileDev => d.fd.map fun x => (x.offset : Int))
    (fun c q d h => by obtain ⟨_, -, rfl⟩ := h; rfl)
    (fun _ _ c b q d h => by obtain ⟨_, _, -, -, rfl⟩ := h; rfl) hr
  have key : ∀ f : FileObj, f.res = r → f.path = some path →
      FileObj.getPosition P f = .ok (a.cursor : Int)
        ∧ FileObj.isAtEnd P f = .ok (a.cursor == stored.length) := by
    rintro f rfl hp
    have hpos : FileObj.getPosition P f = .ok (a.cursor : Int) := by
      cases hd : f.res.dev.fd with
      | none => simp [hd] at hq
      | some d =>
        simp only [hd, Option.map_some, Option.some.injEq] at hq
        simp only [FileObj.getPosition, hd, hq, hsum]
        rfl
    refine ⟨hpos, ?_⟩
    simp only [FileObj.isAtEnd, hpos, hp, Option.bind_some, hf, Outcome.ok.injEq]
    rw [Bool.eq_iff_iff, beq_iff_eq, beq_iff_eq, Int.natCast_inj]
  obtain ⟨k1, k2⟩ := key { res := r, path := some path, mode := .readAndWrite } rfl rfl
  refine ⟨_, _, stored, FileObj.run_eq P ops _ _ r rfl e, hf, hle, k1, k2, ?_⟩
  rw [Spec.Reports, k1, k2]
  simpa using hright

/-- The same for a container of bytes. -/
theorem C85_exact_container (cap : Nat) (content : List Byte) (ops : List IoOp)
    (h : Disciplined cap 1 (Ctr.allowed 1) .fresh ⟨content, 0⟩ ops) :
    let a := Spec.after 1 ⟨content, 0⟩ ops
    ∃ outs r, M.runList (Res.doIo Ctr.readRaw Ctr.writeRaw Ctr.seek) ops (freshCtr cap 1 content)
        = (.ok outs, r)
      ∧ r.dev.content.length ≤ a.bytes.length
      ∧ Ctr.getPosition r = (a.cursor : Int)
      ∧ Ctr.isAtEnd r = (a.cursor == r.dev.content.length)
      ∧ (Spec.Reports a (.ok (Ctr.getPosition r)) (.ok (Ctr.isAtEnd r))
        ↔ r.dev.content.length = a.bytes.length) := by
  intro a
  obtain ⟨r, s, e, hr, -, -⟩ := Res.runIo_represents (Ctr.store 1)
    (Res.represents_make cap content (Ctr.make 1 content) ⟨rfl, rfl, rfl, rfl⟩)
    trivial (fun _ _ => trivial) h
  obtain ⟨stored, hst, hlen⟩ := Res.represents_stored hr
  obtain ⟨hle, hright⟩ := endTest_right hlen
  have hf : r.dev.content = stored ∧ r.dev.elem = 1 := by
    rcases hst with ⟨q, hq⟩ | ⟨b, q, hq⟩ <;> exact ⟨hq.content_eq, hq.elem_eq⟩
  obtain ⟨q, hq, hsum⟩ := Res.represents_position (fun c : Ctr => some c.position)
    (fun c q d h => by rw [h.position])
    (fun _ _ c b q d h => by
      have h1 := h.position
      have h2 := h.lastFill
      rw [Option.some.injEq]
      omega) hr
  simp only [Option.some.injEq] at hq
  have hpos : Ctr.getPosition r = (a.cursor : Int) := by
    rw [Ctr.getPosition, hq, hsum]
  have hend : Ctr.isAtEnd r = (a.cursor == r.dev.content.length) := by
    simp only [Ctr.isAtEnd, hpos, Ctr.count, hf.1, hf.2, Nat.div_one, Nat.mul_one]
    rw [Bool.eq_iff_iff, beq_iff_eq, beq_iff_eq, Int.natCast_inj]
  refine ⟨_, r, e, by rw [hf.1]; exact hle, hpos, hend, ?_⟩
  rw [Spec.Reports, hpos, hend, hf.1]
  simpa using hright

/-- Two bytes are appended through a buffer of four and are not yet in the file. -/
example : Disciplined 4 1 (Ctr.allowed 1) .fresh ⟨[1], 0⟩ [.seek 1, .write [9, 8]] :=
  .seek (by decide +kernel) (.write (.inl ⟨rfl, rfl, rfl⟩) (.inr (by decide)) (.nil _ _))

example : Spec.after 1 ⟨[1], 0⟩ [.seek 1, .write [9, 8]] = ⟨[1, 9, 8], 3⟩
    ∧ (M.runList (Res.doIo Ctr.readRaw Ctr.writeRaw Ctr.seek) [.seek 1, .write [9, 8]]
      (freshCtr 4 1 [1])).2.dev.content = [1] := by decide +kernel

end Cmp
