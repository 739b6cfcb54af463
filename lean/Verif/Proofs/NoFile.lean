import Verif.Proofs.FileLife

/-
File objects that have no file.
-/

namespace Cmp

namespace FileDev

/-- No file, nothing loaded. -/
def Without (d : FileDev) : Prop := d.fd = none ∧ d.lastFill = 0

theorem seek_without (P : FilePlatform) {d : FileDev} (h : d.Without) (p : Int)
    (pr : PositionReference) : P.seek p pr d = (.ok (), d) := by
  obtain ⟨h1, h2⟩ := h
  cases d with
  | mk files fd lastFill reads =>
    simp only at h1 h2
    subst h1 h2
    cases P <;> rfl

theorem readBlocks_without {d : FileDev} (block : Nat → M FileDev ReadResult) (most n : Nat)
    (hm : 0 < most) (hb : ∀ n, block n d = (.ok ⟨[], 0⟩, d)) :
    readBlocks block most n n d = (.ok ⟨[], 0⟩, d) := by
  cases n with
  | zero => rfl
  | succ n =>
    have h0 : ¬ (n + 1 = 0) := by omega
    simp only [readBlocks, if_neg h0]
    rw [M.bind_ok (hb _)]
    have h1 : (0 : Nat) ≠ min (n + 1) most := by omega
    rw [if_pos h1]
    rfl

theorem readRaw_without (P : FilePlatform) {d : FileDev} (h : d.Without) (n : Nat)
    (rr : ReadRequest) : P.readRaw n rr d = (.ok ⟨[], 0⟩, d) := by
  have hk : ∀ sk : Int → PositionReference → M FileDev Unit, skipFill sk rr d = (.ok (), d) := by
    intro sk
    rw [skipFill, M.bind_ok (M.get_apply d), if_neg (by rw [h.2]; simp)]
    rfl
  have hn : ∀ sk : Int → PositionReference → M FileDev Unit, (∀ p pr, sk p pr d = (.ok (), d)) →
      noteFill sk rr 0 d = (.ok (), d) := by
    intro sk hs
    rw [noteFill]
    split
    · have : Res.goBack sk (0 : Nat) d = (.ok (), d) := by
        rw [Res.goBack]
        simp only [M.noexcept_apply, hs]
        rfl
      rw [M.bind_ok this]
      show (Outcome.ok (), { d with lastFill := 0 }) = _
      rw [← h.2]
    · rfl
  cases P with
  | unix =>
    have hb : ∀ n, readBlock n d = (.ok ⟨[], 0⟩, d) := by
      intro n
      rw [readBlock, M.bind_ok (M.get_apply d), readLoop]
      have : sysRead n d = (.ok none, d) := by simp only [sysRead, h.1]
      rw [M.bind_ok this]
      rfl
    show M.noexcept _ d = _
    rw [M.noexcept_apply, M.bind_ok (hk seek),
      M.bind_ok (readBlocks_without readBlock ssizeMax n (by decide) hb),
      M.bind_ok (hn seek (seek_without .unix h))]
    rfl
  | windows =>
    have hb : ∀ n, readBlockWindows n d = (.ok ⟨[], 0⟩, d) := by
      intro n
      rw [readBlockWindows, M.bind_ok (M.get_apply d), readLoopWindows]
      have : sysRead (n - ([] : List Byte).length) d = (.ok none, d) := by simp only [sysRead, h.1]
      rw [M.bind_ok this]
      rfl
    show M.noexcept _ d = _
    rw [M.noexcept_apply, M.bind_ok (hk seekWindows),
      M.bind_ok (readBlocks_without readBlockWindows dwordMax n (by decide) hb),
      M.bind_ok (hn seekWindows (seek_without .windows h))]
    rfl

theorem writeBlocks_without {d : FileDev} (h : d.Without) (most : Nat) (hm : 0 < most)
    (data : List Byte) (n : Nat) : writeBlocks most data n n d = (.ok 0, d) := by
  cases n with
  | zero => rfl
  | succ n =>
    have h0 : ¬ (n + 1 = 0) := by omega
    simp only [writeBlocks, if_neg h0]
    have : sysWrite (data.take (min (n + 1) most)) d = (.ok none, d) := by simp only [sysWrite, h.1]
    rw [M.bind_ok this]
    have h1 : (none : Option Nat).getD 0 ≠ min (n + 1) most := by simp only [Option.getD_none]; omega
    rw [if_pos h1]
    rfl

theorem writeRaw_without (P : FilePlatform) {d : FileDev} (h : d.Without) (bytes : List Byte) :
    P.writeRaw bytes d = (.ok 0, d) := by
  cases P with
  | unix =>
    show M.noexcept _ d = _
    rw [M.noexcept_apply, writeBlocks_without h ssizeMax (by decide)]
    rfl
  | windows =>
    show M.noexcept _ d = _
    rw [M.noexcept_apply, writeBlocks_without h dwordMax (by decide)]
    rfl

end FileDev

namespace FileObj

/-- An object that has no file and nothing in its buffer. -/
structure Without (cap : Nat) (files : Nat → Option (List Byte)) (mode : AccessMode)
    (f : FileObj) : Prop where
  dev : f.res.dev.Without
  files_eq : f.res.dev.files = files
  capacity : f.res.buf.data.length = cap
  size : f.res.buf.size = 0
  position : f.res.buf.position = 0
  clean : f.res.buf.writeDirty = false
  mode_eq : f.mode = mode

variable {P : FilePlatform} {cap : Nat} {files : Nat → Option (List Byte)} {mode : AccessMode}
  {f : FileObj}

theorem without_make (cap : Nat) (files : Nat → Option (List Byte)) (reads : List Nat)
    (path : Option Nat) (mode : AccessMode) :
    Without cap files mode ⟨⟨IoBuffer.make cap, ⟨files, none, 0, reads⟩⟩, path, mode⟩ :=
  ⟨⟨rfl, rfl⟩, rfl, by simp [IoBuffer.make], rfl, rfl, rfl, rfl⟩

theorem read_without (h : Without cap files mode f) (hm : mode ≠ .writeOnly) (n : Nat) :
    ∃ f', read P n f = (.ok ⟨[], 0⟩, f') ∧ Without cap files mode f' := by
  obtain ⟨⟨b, d⟩, path, m⟩ := f
  obtain ⟨hd, hf, hc, hs, hp, hw, hmode⟩ := h
  simp only at hd hf hc hs hp hw hmode
  have hr : ∃ b', Res.read P.readRaw n ⟨b, d⟩ = (.ok ⟨[], 0⟩, ⟨b', d⟩) ∧ b'.data.length = cap ∧
      b'.size = 0 ∧ b'.position = 0 ∧ b'.writeDirty = false := by
    have hfill : ∀ b : IoBuffer, b.data.length = cap → Res.fill P.readRaw ⟨b, d⟩ =
        (.ok 0, ⟨⟨b.data, 0, 0, false, b.writeDirty⟩, d⟩) := by
      intro b hb
      have : Res.onDev (P.readRaw b.capacity .fillBuffer) ⟨b, d⟩ = (.ok ⟨[], 0⟩, ⟨b, d⟩) := by
        simp only [Res.onDev, FileDev.readRaw_without P hd]
      rw [Res.fill, M.bind_ok (M.get_apply _), M.bind_ok this]
      simp [M.bind_apply, IoBuffer.setReadDirty]
    have hl : ∀ (b : IoBuffer), b.data.length = cap → b.size = 0 → b.position = 0 →
        b.writeDirty = false →
        ∃ b', Res.readLoaded P.readRaw n ⟨b, d⟩ = (.ok ⟨[], 0⟩, ⟨b', d⟩) ∧ b'.data.length = cap ∧
          b'.size = 0 ∧ b'.position = 0 ∧ b'.writeDirty = false := by
      intro b hb hs hp hw
      rw [Res.readLoaded, M.bind_ok (M.get_apply _)]
      simp only [hp, hs, Nat.zero_add, Nat.sub_self]
      by_cases h0 : n > 0
      · rw [if_pos h0, if_neg (by omega)]
        have h1 : Res.drain 0 (⟨b, d⟩ : Res FileDev) = (.ok [], ⟨b, d⟩) := rfl
        rw [M.bind_ok h1]
        simp only [List.length_nil, Nat.sub_zero]
        split
        · have h2 : Res.onDev (P.readRaw n .leanRetrieval) ⟨b, d⟩ = (.ok ⟨[], 0⟩, ⟨b, d⟩) := by
            simp only [Res.onDev, FileDev.readRaw_without P hd]
          rw [M.bind_ok h2]
          exact ⟨b, rfl, hb, hs, hp, hw⟩
        · rw [M.bind_ok (hfill b hb), if_pos h0]
          have h2 : Res.bufRead 0 (⟨⟨b.data, 0, 0, false, b.writeDirty⟩, d⟩ : Res FileDev) =
              (.ok [], ⟨⟨b.data, 0, 0, false, b.writeDirty⟩, d⟩) := by
            simp [Res.bufRead, IoBuffer.read]
          rw [M.bind_ok h2]
          exact ⟨_, rfl, hb, rfl, rfl, hw⟩
      · rw [if_neg h0]
        have h2 : Res.bufRead n (⟨b, d⟩ : Res FileDev) = (.ok [], ⟨b, d⟩) := by
          have : n = 0 := by omega
          subst this
          obtain ⟨data, size, position, rd, wd⟩ := b
          simp only at hp hs
          subst hp hs
          simp [Res.bufRead, IoBuffer.read]
        rw [M.bind_ok h2]
        exact ⟨b, rfl, hb, hs, hp, hw⟩
    rw [Res.read, M.bind_ok (M.get_apply _)]
    split
    · rw [Res.readBuffered, M.bind_ok (M.get_apply _)]
      split
      · rw [M.bind_ok (hfill b hc)]
        exact hl _ hc rfl rfl hw
      · exact hl b hc hs hp hw
    · refine ⟨b, ?_, hc, hs, hp, hw⟩
      simp only [Res.onDev, FileDev.readRaw_without P hd]
  obtain ⟨b', e, q1, q2, q3, q4⟩ := hr
  refine ⟨⟨⟨b', d⟩, path, m⟩, ?_, hd, hf, q1, q2, q3, q4, hmode⟩
  have : onRes (Res.read P.readRaw n) ⟨⟨b, d⟩, path, m⟩ = (.ok ⟨[], 0⟩, ⟨⟨b', d⟩, path, m⟩) := by
    simp only [onRes, e]
  rw [read, M.bind_ok (M.get_apply _)]
  simp only
  cases m with
  | readOnly => exact this
  | readAndWrite => exact this
  | writeOnly => exact absurd hmode.symm hm

theorem flush_without (h : Without cap files mode f) : flush P f = (.ok (), f) := by
  have : Res.flush P.writeRaw f.res = (.ok (), f.res) := by
    rw [Res.flush, M.bind_ok (M.get_apply _), if_neg (by rw [h.clean]; decide)]
    rfl
  simp only [flush, onRes, this]

theorem write_without (h : Without 0 files mode f) (hm : mode ≠ .readOnly) (bytes : List Byte) :
    write P bytes f = (.ok 0, f) := by
  have : Res.write P.writeRaw bytes f.res = (.ok 0, f.res) := by
    have hc : ¬ f.res.buf.capacity > 0 := by rw [IoBuffer.capacity, h.capacity]; omega
    rw [Res.write, M.bind_ok (M.get_apply _), if_neg hc]
    simp only [Res.onDev, FileDev.writeRaw_without P h.dev]
  have : onRes (Res.write P.writeRaw bytes) f = (.ok 0, f) := by simp only [onRes, this]
  rw [write, M.bind_ok (M.get_apply _)]
  have hmode := h.mode_eq
  cases hf : f.mode with
  | readOnly => exact absurd (hmode.symm.trans hf) hm
  | writeOnly => exact this
  | readAndWrite => exact this

theorem setPosition_without (h : Without cap files mode f) (p : Int) (pr : PositionReference) :
    ∃ f', setPosition P p pr f = (.ok (), f') ∧ Without cap files mode f' := by
  refine ⟨{ f with res := { f.res with buf := f.res.buf.setReadDirty true } }, ?_,
    h.dev, h.files_eq, h.capacity, h.size, rfl, h.clean, h.mode_eq⟩
  have hfl : Res.flush P.writeRaw f.res = (.ok (), f.res) := by
    rw [Res.flush, M.bind_ok (M.get_apply _), if_neg (by rw [h.clean]; decide)]
    rfl
  have hsk : Res.onDev (P.seek p pr) f.res = (.ok (), f.res) := by
    simp only [Res.onDev, FileDev.seek_without P h.dev]
  have : Res.setPositionIO P.writeRaw P.seek p pr f.res =
      (.ok (), { f.res with buf := f.res.buf.setReadDirty true }) := by
    rw [Res.setPositionIO, M.noexcept_apply, M.bind_ok hfl, M.bind_ok hsk]
    rfl
  simp only [setPosition, onRes, this]

theorem close_without (h : Without cap files mode f) : close P f = (.ok (), f) := by
  rw [close, M.noexcept_apply, M.bind_ok (flush_without h)]
  show (Outcome.ok (), _) = _
  obtain ⟨⟨b, ⟨fs, fd, lf, rs⟩⟩, path, m⟩ := f
  have : fd = none := h.dev.1
  subst this
  rfl

theorem position_without (h : Without cap files mode f) :
    getPosition P f = (if P = .unix then .ok (-1) else .ub) ∧ isOpen f = false := by
  refine ⟨?_, by rw [isOpen, h.dev.1]; rfl⟩
  simp only [getPosition, h.dev.1, h.position]
  cases P <;> rfl

end FileObj

end Cmp
