import Verif.Proofs.FileObj

/-
Writing to files in pieces that the system takes at once.
-/

namespace Cmp

open Spec (ArrayCursor IoOp Session Disciplined)

namespace FileDev

/-- Writing with a single call of the system. -/
def writeWhole (bytes : List Byte) : M FileDev Nat :=
  if bytes = [] then pure 0
  else do
    let got ← sysWrite bytes
    pure (got.getD 0)

theorem sysWrite_ok (bytes : List Byte) (d : FileDev) : ∃ o d', sysWrite bytes d = (.ok o, d') := by
  simp only [sysWrite]
  cases d.fd with
  | none => exact ⟨_, _, rfl⟩
  | some f =>
    simp only
    by_cases h : f.mode = .readOnly
    · rw [if_pos h]; exact ⟨_, _, rfl⟩
    · rw [if_neg h]; exact ⟨_, _, rfl⟩

theorem writeBlocks_whole (most : Nat) (data : List Byte) (h : data.length ≤ most) :
    writeBlocks most data data.length data.length = writeWhole data := by
  cases hd : data.length with
  | zero =>
    rw [List.eq_nil_of_length_eq_zero hd]
    rfl
  | succ j =>
    have hne : data ≠ [] := by
      rintro rfl
      simp at hd
    have h0 : ∀ d', writeBlocks most data j 0 d' = (.ok 0, d') := by
      intro d'; cases j <;> rfl
    simp only [writeBlocks, writeWhole]
    rw [if_neg (by omega), if_neg hne, Nat.min_eq_left (by omega), ← hd, List.take_length,
      show data.length - most = 0 by omega]
    funext d
    obtain ⟨o, d', e⟩ := sysWrite_ok data d
    rw [M.bind_ok e, M.bind_ok e]
    by_cases hg : o.getD 0 ≠ data.length
    · rw [if_pos hg]
    · rw [if_neg hg, M.bind_ok (h0 d')]
      rfl

theorem writeWhole_noexcept (data : List Byte) : M.noexcept (writeWhole data) = writeWhole data := by
  funext d
  simp only [writeWhole, M.noexcept_apply]
  by_cases h : data = []
  · rw [if_pos h]; rfl
  · rw [if_neg h]
    obtain ⟨o, d', e⟩ := sysWrite_ok data d
    rw [M.bind_ok e]
    rfl

end FileDev

theorem FilePlatform.writeRaw_whole (P : FilePlatform) (bytes : List Byte)
    (h : bytes.length ≤ P.most) : P.writeRaw bytes = FileDev.writeWhole bytes := by
  cases P with
  | unix =>
    show M.noexcept (FileDev.writeBlocks FileDev.ssizeMax bytes _ _) = _
    rw [FileDev.writeBlocks_whole FileDev.ssizeMax _ h, FileDev.writeWhole_noexcept]
  | windows =>
    show M.noexcept (FileDev.writeBlocks FileDev.dwordMax bytes _ _) = _
    rw [FileDev.writeBlocks_whole FileDev.dwordMax _ h, FileDev.writeWhole_noexcept]

namespace FileDev

/-- On a file open for writing. -/
theorem writeWhole_exact (data : List Byte) (fs : Nat → Option (List Byte)) (path q : Nat)
    (mode : AccessMode) (hm : mode ≠ .readOnly) (content : List Byte) (hq : q ≤ content.length)
    (k : Nat) (reads : List Nat) :
    writeWhole data ⟨withFile fs path content, some ⟨path, q, mode⟩, k, reads⟩ =
      (.ok data.length, ⟨withFile fs path (Res.overlay content q data),
        some ⟨path, q + data.length, mode⟩, k, reads⟩) := by
  rw [← writeBlocks_whole data.length data (Nat.le_refl _)]
  exact writeBlocks_exact data.length data (Nat.le_refl _) fs path q mode hm content hq k reads

end FileDev

namespace Res

variable {δ : Type} {wr wr' : List Byte → M δ Nat} {most : Nat}

theorem flush_congr (h : ∀ b, b.length ≤ most → wr b = wr' b) (r : Res δ)
    (hl : r.buf.data.length ≤ most) : flush wr r = flush wr' r := by
  simp only [flush]
  rw [M.bind_ok (M.get_apply r), M.bind_ok (M.get_apply r)]
  by_cases hw : r.buf.writeDirty = true
  · rw [if_pos hw, if_pos hw, h (r.buf.data.take r.buf.position) (by simp; omega)]
  · rw [if_neg hw, if_neg hw]

theorem write_congr (h : ∀ b, b.length ≤ most → wr b = wr' b) (r : Res δ)
    (hl : r.buf.data.length ≤ most) (bytes : List Byte) (hb : bytes.length ≤ most) :
    write wr bytes r = write wr' bytes r := by
  simp only [write]
  rw [M.bind_ok (M.get_apply r), M.bind_ok (M.get_apply r), h bytes hb]
  by_cases hc : r.buf.capacity > 0
  · rw [if_pos hc, if_pos hc]
    simp only [writeBuffered]
    rw [M.bind_ok (M.get_apply r), M.bind_ok (M.get_apply r), h bytes hb]
    by_cases hn : r.buf.position + bytes.length > r.buf.capacity
    · rw [if_pos hn, if_pos hn, M.bind_apply, M.bind_apply, flush_congr h r hl]
    · rw [if_neg hn, if_neg hn]
  · rw [if_neg hc, if_neg hc]

theorem setPositionIO_congr (h : ∀ b, b.length ≤ most → wr b = wr' b)
    (sk : Int → PositionReference → M δ Unit) (p : Int) (pr : PositionReference) (r : Res δ)
    (hl : r.buf.data.length ≤ most) : setPositionIO wr sk p pr r = setPositionIO wr' sk p pr r := by
  simp only [setPositionIO, M.noexcept_apply]
  rw [M.bind_apply, M.bind_apply, flush_congr h r hl]

theorem doIo_congr (h : ∀ b, b.length ≤ most → wr b = wr' b)
    (rd : Nat → ReadRequest → M δ ReadResult) (sk : Int → PositionReference → M δ Unit) (op : IoOp)
    (r : Res δ) (hl : r.buf.data.length ≤ most) (hb : ∀ data, op = .write data → data.length ≤ most) :
    doIo rd wr sk op r = doIo rd wr' sk op r := by
  cases op with
  | read n => rfl
  | write data => simp only [doIo, M.bind_apply, write_congr h r hl data (hb data rfl)]
  | seek k => simp only [doIo, M.bind_apply, setPositionIO_congr h sk _ _ r hl]
  | move d => simp only [doIo, M.bind_apply, setPositionIO_congr h sk _ _ r hl]
  | toEnd => simp only [doIo, M.bind_apply, setPositionIO_congr h sk _ _ r hl]
  | flush => simp only [doIo, M.bind_apply, flush_congr h r hl]

theorem represents_length {cap : Nat} {allowed : Nat → Nat → Nat → Prop}
    {idle : List Byte → Nat → δ → Prop} {loaded : List Byte → Nat → Nat → δ → Prop} {s : Session}
    {a : ArrayCursor} {r : Res δ} (h : Represents cap allowed idle loaded s a r) :
    r.buf.data.length = cap := by
  cases s with
  | fresh => exact h.1.length
  | reading => exact h.1.length
  | writing size start =>
    obtain ⟨-, o, w, -, -, -, -, hw⟩ := h
    exact hw.length

/-- Two ways of writing that agree on pieces of up to `most` bytes do the same to a resource whose
buffer is not larger. -/
theorem runIo_congr (h : ∀ b, b.length ≤ most → wr b = wr' b)
    {rd : Nat → ReadRequest → M δ ReadResult} {sk : Int → PositionReference → M δ Unit}
    {lim : Nat → Prop} {elem : Nat} {allowed : Nat → Nat → Nat → Prop}
    {idle : List Byte → Nat → δ → Prop} {loaded : List Byte → Nat → Nat → δ → Prop}
    (S : Store rd wr' sk lim elem allowed idle loaded) {cap : Nat} {s : Session}
    {a : ArrayCursor} {r : Res δ} {ops : List IoOp}
    (hr : Represents cap allowed idle loaded s a r) (hcap : lim cap) (hmost : cap ≤ most)
    (hlim : ∀ n, IoOp.read n ∈ ops → lim n)
    (hb : ∀ data, IoOp.write data ∈ ops → data.length ≤ most)
    (hd : Disciplined cap elem allowed s a ops) :
    M.runList (doIo rd wr sk) ops r = M.runList (doIo rd wr' sk) ops r := by
  induction ops generalizing s a r with
  | nil => rfl
  | cons op ops ih =>
    obtain ⟨r', s', e, h', hd', -⟩ := doIo_represents S hr hcap hlim hd
    have e' := doIo_congr h rd sk op r (by rw [represents_length hr]; exact hmost)
      (fun data hop => hb data (by simp [hop]))
    simp only [M.runList, M.bind_apply, e', e]
    rw [ih h' (fun n hn => hlim n (by simp [hn])) (fun data hx => hb data (by simp [hx])) hd']

end Res

namespace FilePlatform

/-- Files opened for reading and writing, as stores without a limit on what is written. -/
theorem storeWhole (P : FilePlatform) (fs : Nat → Option (List Byte)) (path : Nat) :
    Res.Store P.readRaw FileDev.writeWhole P.seek (· ≤ P.most) 1 (fun _ _ _ => True)
      (FileDev.Idle P.Steady fs path .readAndWrite)
      (FileDev.Loaded P.Steady fs path .readAndWrite) where
  source := (P.store fs path).source
  allowed_zero := fun _ _ _ => trivial
  write := by
    intro o s w data d hs _ _ h
    obtain ⟨reads, hsch, rfl⟩ := h
    have hlen := Res.overlay_length o s w hs
    refine ⟨_, ?_, reads, hsch, rfl⟩
    rw [FileDev.writeWhole_exact data fs path _ _ (by decide) _ (by omega),
      Res.overlay_append _ _ _ _ hs, List.length_append, Nat.add_assoc]
  seek := (P.store fs path).seek
  move := (P.store fs path).move
  toEnd := (P.store fs path).toEnd

/-- The state of a resource on an open file for reading and writing. -/
abbrev Holds (P : FilePlatform) (fs : Nat → Option (List Byte)) (path cap : Nat) :
    Session → ArrayCursor → Res FileDev → Prop :=
  Res.Represents cap (fun _ _ _ => True) (FileDev.Idle P.Steady fs path .readAndWrite)
    (FileDev.Loaded P.Steady fs path .readAndWrite)

theorem runIo_holds (P : FilePlatform) {fs : Nat → Option (List Byte)} {path cap : Nat} {s : Session}
    {a : ArrayCursor} {r : Res FileDev} {ops : List IoOp} (h : P.Holds fs path cap s a r)
    (hcap : cap ≤ P.most) (hlim : ∀ op ∈ ops, op.Within P.most)
    (hd : Disciplined cap 1 (fun _ _ _ => True) s a ops) :
    ∃ r' s', M.runList (Res.doIo P.readRaw P.writeRaw P.seek) ops r =
        (.ok (Spec.results 1 a ops), r') ∧
      P.Holds fs path cap s' (Spec.after 1 a ops) r' ∧ (ops = [] → s' = s) ∧
      (ops ≠ [] → (∀ data, ops.getLast? ≠ some (.write data)) → ¬ s'.IsWriting) := by
  rw [Res.runIo_congr (fun b => P.writeRaw_whole b) (P.storeWhole fs path) h hcap hcap
    (fun n hn => hlim _ hn) (fun data hn => hlim _ hn) hd]
  exact Res.runIo_represents (P.storeWhole fs path) h hcap (fun n hn => hlim _ hn) hd

theorem flush_holds (P : FilePlatform) {fs : Nat → Option (List Byte)} {path cap : Nat} {s : Session}
    {a : ArrayCursor} {r : Res FileDev} (h : P.Holds fs path cap s a r) (hcap : cap ≤ P.most) :
    ∃ r', Res.flush P.writeRaw r = (.ok (), r') ∧ P.Holds fs path cap s.flushed a r' ∧
      ((∃ q, FileDev.Idle P.Steady fs path .readAndWrite a.bytes q r'.dev) ∨
        ∃ b q, FileDev.Loaded P.Steady fs path .readAndWrite a.bytes b q r'.dev) ∧
      r'.buf.data.length = cap ∧ r'.buf.writeDirty = false := by
  rw [Res.flush_congr (fun b => P.writeRaw_whole b) r (by rw [Res.represents_length h]; exact hcap)]
  exact Res.flush_represents (P.storeWhole fs path) h

theorem setPosition_holds (P : FilePlatform) {fs : Nat → Option (List Byte)} {path cap : Nat}
    {s : Session} {a : ArrayCursor} {r : Res FileDev} (h : P.Holds fs path cap s a r)
    (hcap : cap ≤ P.most) (p : Int) (pr : PositionReference) (q : Nat)
    (hsk : ∀ r', P.Holds fs path cap s.flushed a r' →
      ((∃ q, FileDev.Idle P.Steady fs path .readAndWrite a.bytes q r'.dev) ∨
        ∃ b q, FileDev.Loaded P.Steady fs path .readAndWrite a.bytes b q r'.dev) →
      ∃ d', P.seek p pr r'.dev = (.ok (), d') ∧
        FileDev.Idle P.Steady fs path .readAndWrite a.bytes q d') :
    ∃ r', Res.setPositionIO P.writeRaw P.seek p pr r = (.ok (), r') ∧ r'.buf.data.length = cap ∧
      r'.buf.readDirty = true ∧ r'.buf.position = 0 ∧ r'.buf.writeDirty = false ∧
      FileDev.Idle P.Steady fs path .readAndWrite a.bytes q r'.dev := by
  rw [Res.setPositionIO_congr (fun b => P.writeRaw_whole b) P.seek p pr r
    (by rw [Res.represents_length h]; exact hcap)]
  exact Res.setPosition_empties (P.storeWhole fs path) h p pr q hsk

end FilePlatform

end Cmp
