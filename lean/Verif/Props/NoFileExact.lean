import Verif.Props.FileLife

/-
C98 in full: file objects without a file, with any buffer and in any mode.
-/

namespace Cmp

namespace Spec

/-- What a program sees of an object that has no file.  The state is the number of bytes waiting in
the buffer, and whether the buffer counts as loaded by a read. -/
def without (P : FilePlatform) (cap : Nat) (mode : AccessMode) (op : FileOp) (s : Nat × Bool) :
    Outcome Seen × (Nat × Bool) :=
  let seen (count waiting : Nat) : Outcome Seen :=
    .ok ⟨[], count, false, if P = .unix then .ok (-1 + waiting) else .ub, false, mode⟩
  match op with
  | .read _ =>
    if mode = .writeOnly then (.throw .invalidAccessMode, s)
    else if s.2 = true ∧ 0 < s.1 then (.ub, s)
    else (seen 0 0, 0, s.2 || 0 < cap)
  | .write bytes =>
    if mode = .readOnly then (.throw .invalidAccessMode, s)
    else if cap < bytes.length ∨ cap = 0 then (seen 0 0, 0, s.2)
    else if s.1 + bytes.length ≤ cap then
      (seen bytes.length (s.1 + bytes.length), s.1 + bytes.length, s.2)
    else (seen bytes.length bytes.length, bytes.length, s.2)
  | .setPosition _ _ => (seen 0 0, 0, false)
  | _ => (seen 0 0, 0, s.2)

/-- What it sees of each of several operations, and the state at the end. -/
def withouts (P : FilePlatform) (cap : Nat) (mode : AccessMode) :
    List FileOp → Nat × Bool → List (Outcome Seen) × (Nat × Bool)
  | [], s => ([], s)
  | op :: ops, s =>
    let rest := withouts P cap mode ops (without P cap mode op s).2
    ((without P cap mode op s).1 :: rest.1, rest.2)

end Spec

open Cmp.Spec (without withouts)

namespace FileObj

/-- An object that has no file, with `s.1` bytes waiting in its buffer. -/
structure Waiting (cap : Nat) (files : Nat → Option (List Byte)) (mode : AccessMode)
    (s : Nat × Bool) (f : FileObj) : Prop where
  dev : f.res.dev.Without
  files_eq : f.res.dev.files = files
  capacity : f.res.buf.data.length = cap
  size : f.res.buf.size = 0
  position : f.res.buf.position = s.1
  fits : s.1 ≤ cap
  dirty : 0 < s.1 → f.res.buf.writeDirty = true
  loaded : f.res.buf.readDirty = !s.2
  mode_eq : f.mode = mode

variable {P : FilePlatform} {cap : Nat} {files : Nat → Option (List Byte)} {mode : AccessMode}
  {s : Nat × Bool} {f : FileObj}

theorem waiting_make (cap : Nat) (files : Nat → Option (List Byte)) (reads : List Nat)
    (path : Option Nat) (mode : AccessMode) :
    Waiting cap files mode (0, false)
      ⟨⟨IoBuffer.make cap, ⟨files, none, 0, reads⟩⟩, path, mode⟩ :=
  ⟨⟨rfl, rfl⟩, rfl, by simp [IoBuffer.make], rfl, rfl, Nat.zero_le _, by simp, rfl, rfl⟩

theorem waiting_position (h : Waiting cap files mode s f) :
    getPosition P f = (if P = .unix then .ok (-1 + s.1) else .ub) ∧ isOpen f = false := by
  refine ⟨?_, by rw [isOpen, h.dev.1]; rfl⟩
  simp only [getPosition, h.dev.1, h.position]
  cases P <;> rfl

theorem waiting_flush (h : Waiting cap files mode s f) :
    ∃ f', flush P f = (.ok (), f') ∧ Waiting cap files mode (0, s.2) f' := by
  by_cases hw : f.res.buf.writeDirty = true
  · refine ⟨{ f with res := { f.res with buf := f.res.buf.setWriteDirty false } }, ?_, h.dev,
      h.files_eq, h.capacity, h.size, rfl, Nat.zero_le _, fun h => absurd h (by simp), h.loaded,
      h.mode_eq⟩
    have hd : Res.onDev (P.writeRaw (f.res.buf.data.take f.res.buf.position)) f.res
        = (.ok 0, f.res) := by
      simp only [Res.onDev, FileDev.writeRaw_without P h.dev]
    have : Res.flush P.writeRaw f.res
        = (.ok (), { f.res with buf := f.res.buf.setWriteDirty false }) := by
      rw [Res.flush, M.bind_ok (M.get_apply _), if_pos hw,
        if_neg (by rw [h.position, h.capacity]; have := h.fits; omega), M.bind_ok hd]
      rfl
    simp only [flush, onRes, this]
  · have h0 : s.1 = 0 := by
      rcases Nat.eq_zero_or_pos s.1 with h0 | h0
      · exact h0
      · exact absurd (h.dirty h0) hw
    refine ⟨f, ?_, h.dev, h.files_eq, h.capacity, h.size, h.position.trans h0, Nat.zero_le _,
      fun h => absurd h (by simp), h.loaded, h.mode_eq⟩
    have : Res.flush P.writeRaw f.res = (.ok (), f.res) := by
      rw [Res.flush, M.bind_ok (M.get_apply _), if_neg hw]
      rfl
    simp only [flush, onRes, this]

theorem waiting_close (h : Waiting cap files mode s f) :
    ∃ f', close P f = (.ok (), f') ∧ Waiting cap files mode (0, s.2) f' := by
  obtain ⟨f', e, h'⟩ := waiting_flush (P := P) h
  refine ⟨{ f' with res := { f'.res with dev := { f'.res.dev with fd := none } } }, ?_,
    ⟨rfl, h'.dev.2⟩, h'.files_eq, h'.capacity, h'.size, h'.position, h'.fits, h'.dirty, h'.loaded,
    h'.mode_eq⟩
  rw [close, M.noexcept_apply, M.bind_ok e]
  rfl

theorem waiting_setPosition (h : Waiting cap files mode s f) (p : Int) (pr : PositionReference) :
    ∃ f', setPosition P p pr f = (.ok (), f') ∧ Waiting cap files mode (0, false) f' := by
  obtain ⟨f', e, h'⟩ := waiting_flush (P := P) h
  have e1 : Res.flush P.writeRaw f.res = (.ok (), f'.res) := by
    simp only [flush, onRes, Prod.mk.injEq] at e
    obtain ⟨e1, e2⟩ := e
    exact Prod.ext e1 (congrArg FileObj.res e2)
  have hf : f' = { f with res := f'.res } := by
    simp only [flush, onRes, Prod.mk.injEq] at e
    rw [← e.2]
  have hsk : Res.onDev (P.seek p pr) f'.res = (.ok (), f'.res) := by
    simp only [Res.onDev, FileDev.seek_without P h'.dev]
  have : Res.setPositionIO P.writeRaw P.seek p pr f.res =
      (.ok (), { f'.res with buf := f'.res.buf.setReadDirty true }) := by
    rw [Res.setPositionIO, M.noexcept_apply, M.bind_ok e1, M.bind_ok hsk]
    rfl
  refine ⟨{ f with res := { f'.res with buf := f'.res.buf.setReadDirty true } }, ?_,
    h'.dev, h'.files_eq, h'.capacity, h'.size, rfl, Nat.zero_le _, fun h => absurd h (by simp), rfl,
    h.mode_eq⟩
  simp only [setPosition, onRes, this]

theorem waiting_bufWrite (h : Waiting cap files mode s f) (bytes : List Byte)
    (hfit : s.1 + bytes.length ≤ cap) :
    ∃ r', Res.bufWrite bytes f.res = (.ok bytes.length, r')
      ∧ Waiting cap files mode (s.1 + bytes.length, s.2) { f with res := r' } := by
  have hc := h.capacity
  have hp := h.position
  have : f.res.buf.write bytes = .ok (IoBuffer.setWriteDirty { f.res.buf with
      data := f.res.buf.data.take f.res.buf.position ++ bytes
        ++ f.res.buf.data.drop (f.res.buf.position + bytes.length),
      position := f.res.buf.position + bytes.length } true) := by
    rw [IoBuffer.write, if_neg (by omega)]
  refine ⟨⟨IoBuffer.setWriteDirty { f.res.buf with
      data := f.res.buf.data.take f.res.buf.position ++ bytes
        ++ f.res.buf.data.drop (f.res.buf.position + bytes.length),
      position := f.res.buf.position + bytes.length } true, f.res.dev⟩, ?_, h.dev,
    h.files_eq, ?_, h.size, ?_, hfit, fun _ => rfl, h.loaded, h.mode_eq⟩
  · simp only [Res.bufWrite, this]
  · simp only [IoBuffer.setWriteDirty, if_true, List.length_append, List.length_take,
      List.length_drop]
    omega
  · show f.res.buf.position + bytes.length = s.1 + bytes.length
    rw [hp]

theorem waiting_write (h : Waiting cap files mode s f) (hm : mode ≠ .readOnly)
    (bytes : List Byte) :
    ∃ f' n, write P bytes f = (.ok n, f')
      ∧ without P cap mode (.write bytes) s = (.ok ⟨[], n, false,
          if P = .unix then .ok (-1 + (without P cap mode (.write bytes) s).2.1 : Int) else .ub,
          false, mode⟩, (without P cap mode (.write bytes) s).2)
      ∧ Waiting cap files mode (without P cap mode (.write bytes) s).2 f' := by
  have hr : ∃ r' n, Res.write P.writeRaw bytes f.res = (.ok n, r')
      ∧ without P cap mode (.write bytes) s = (.ok ⟨[], n, false,
          if P = .unix then .ok (-1 + (without P cap mode (.write bytes) s).2.1 : Int) else .ub,
          false, mode⟩, (without P cap mode (.write bytes) s).2)
      ∧ Waiting cap files mode (without P cap mode (.write bytes) s).2 { f with res := r' } := by
    have hcap : f.res.buf.capacity = cap := h.capacity
    have hpos := h.position
    have hfits := h.fits
    rw [Res.write, M.bind_ok (M.get_apply _)]
    simp only [without, if_neg hm]
    by_cases hc : cap = 0
    · rw [if_neg (by omega), if_pos (Or.inr hc)]
      refine ⟨f.res, 0, ?_, rfl, h.dev, h.files_eq, h.capacity, h.size, ?_, Nat.zero_le _,
        fun h => absurd h (by simp), h.loaded, h.mode_eq⟩
      · simp only [Res.onDev, FileDev.writeRaw_without P h.dev]
      · show f.res.buf.position = 0
        omega
    · rw [if_pos (by omega), Res.writeBuffered, M.bind_ok (M.get_apply _), hpos, hcap]
      by_cases hfit : s.1 + bytes.length ≤ cap
      · rw [if_neg (by omega), if_neg (by omega), if_pos hfit]
        obtain ⟨r', e, h'⟩ := waiting_bufWrite h bytes hfit
        exact ⟨r', _, e, rfl, h'⟩
      · rw [if_pos (by omega)]
        obtain ⟨f', e, h'⟩ := waiting_flush (P := P) h
        have e1 : Res.flush P.writeRaw f.res = (.ok (), f'.res) := by
          simp only [flush, onRes, Prod.mk.injEq] at e
          obtain ⟨e1, e2⟩ := e
          exact Prod.ext e1 (congrArg FileObj.res e2)
        have hf : f' = { f with res := f'.res } := by
          simp only [flush, onRes, Prod.mk.injEq] at e
          rw [← e.2]
        rw [M.bind_ok e1]
        by_cases hbig : cap < bytes.length
        · rw [if_pos (by omega), if_pos (Or.inl hbig)]
          refine ⟨f'.res, 0, ?_, rfl, ?_⟩
          · simp only [Res.onDev, FileDev.writeRaw_without P h'.dev]
          · rw [hf] at h'
            exact h'
        · rw [if_neg (by omega), if_neg (by omega), if_neg hfit]
          obtain ⟨r', e2, h2⟩ := waiting_bufWrite h' bytes (by omega)
          refine ⟨r', _, e2, rfl, ?_⟩
          rw [hf] at h2
          simpa only [Nat.zero_add] using h2
  obtain ⟨r', n, e, h1, h2⟩ := hr
  refine ⟨_, n, ?_, h1, h2⟩
  have : onRes (Res.write P.writeRaw bytes) f = (.ok n, { f with res := r' }) := by
    simp only [onRes, e]
  rw [write, M.bind_ok (M.get_apply _)]
  have hmode := h.mode_eq
  obtain ⟨res, path, m⟩ := f
  cases m with
  | readOnly => exact absurd hmode.symm hm
  | writeOnly => exact this
  | readAndWrite => exact this

theorem waiting_read (h : Waiting cap files mode s f) (hm : mode ≠ .writeOnly) (n : Nat) :
    (s.2 = true ∧ 0 < s.1 → ∃ f', read P n f = (.ub, f'))
    ∧ (¬ (s.2 = true ∧ 0 < s.1) → ∃ f', read P n f = (.ok ⟨[], 0⟩, f') ∧
        Waiting cap files mode (0, s.2 || 0 < cap) f') := by
  have hread : read P n f = onRes (Res.read P.readRaw n) f := by
    rw [read, M.bind_ok (M.get_apply _)]
    have hmode := h.mode_eq
    cases hf : f.mode with
    | readOnly => rfl
    | readAndWrite => rfl
    | writeOnly => exact absurd (hmode.symm.trans hf) hm
  rw [hread]
  obtain ⟨⟨b, d⟩, path, m⟩ := f
  obtain ⟨hd, hf, hc, hs, hp, hfit, hw, hl, hmode⟩ := h
  simp only at hd hf hc hs hp hw hl hmode
  have hfill : ∀ b : IoBuffer, Res.fill P.readRaw ⟨b, d⟩ =
      (.ok 0, ⟨⟨b.data, 0, 0, false, b.writeDirty⟩, d⟩) := by
    intro b
    have : Res.onDev (P.readRaw b.capacity .fillBuffer) ⟨b, d⟩ = (.ok ⟨[], 0⟩, ⟨b, d⟩) := by
      simp only [Res.onDev, FileDev.readRaw_without P hd]
    rw [Res.fill, M.bind_ok (M.get_apply _), M.bind_ok this]
    simp [M.bind_apply, IoBuffer.setReadDirty]
  have hload : ∀ b : IoBuffer, b.size = 0 → b.position = 0 → b.readDirty = false →
      Res.readLoaded P.readRaw n ⟨b, d⟩
        = (.ok ⟨[], 0⟩, ⟨⟨b.data, 0, 0, false, b.writeDirty⟩, d⟩) := by
    rintro ⟨data, size, position, rd, wd⟩ hs hp hr
    simp only at hs hp hr
    subst hs hp hr
    rw [Res.readLoaded, M.bind_ok (M.get_apply _)]
    simp only [Nat.zero_add, Nat.sub_self]
    by_cases h0 : n > 0
    · rw [if_pos h0, if_neg (by omega)]
      have h1 : Res.drain 0 (⟨⟨data, 0, 0, false, wd⟩, d⟩ : Res FileDev)
          = (.ok [], ⟨⟨data, 0, 0, false, wd⟩, d⟩) := rfl
      rw [M.bind_ok h1]
      simp only [List.length_nil, Nat.sub_zero]
      split
      · have h2 : Res.onDev (P.readRaw n .leanRetrieval) ⟨⟨data, 0, 0, false, wd⟩, d⟩
            = (.ok ⟨[], 0⟩, ⟨⟨data, 0, 0, false, wd⟩, d⟩) := by
          simp only [Res.onDev, FileDev.readRaw_without P hd]
        rw [M.bind_ok h2]
        rfl
      · rw [M.bind_ok (hfill _), if_pos h0]
        have h2 : Res.bufRead 0 (⟨⟨data, 0, 0, false, wd⟩, d⟩ : Res FileDev) =
            (.ok [], ⟨⟨data, 0, 0, false, wd⟩, d⟩) := by
          simp [Res.bufRead, IoBuffer.read]
        rw [M.bind_ok h2]
        rfl
    · rw [if_neg h0]
      have h2 : Res.bufRead n (⟨⟨data, 0, 0, false, wd⟩, d⟩ : Res FileDev)
          = (.ok [], ⟨⟨data, 0, 0, false, wd⟩, d⟩) := by
        have : n = 0 := by omega
        subst this
        simp [Res.bufRead, IoBuffer.read]
      rw [M.bind_ok h2]
      rfl
  have hcap : (⟨b, d⟩ : Res FileDev).buf.capacity = cap := hc
  have hs' : (⟨b, d⟩ : Res FileDev).buf.size = 0 := hs
  have hp' : (⟨b, d⟩ : Res FileDev).buf.position = s.1 := hp
  refine ⟨fun ⟨h1, h2⟩ => ?_, fun h1 => ?_⟩
  · have : (Res.read P.readRaw n ⟨b, d⟩).1 = .ub := by
      rw [Res.read, M.bind_ok (M.get_apply _), if_pos (by omega), Res.readBuffered,
        M.bind_ok (M.get_apply _), if_neg (by rw [hl, h1]; decide), Res.readLoaded,
        M.bind_ok (M.get_apply _), if_pos (by omega), if_pos (by omega)]
      rfl
    exact ⟨_, Prod.ext this rfl⟩
  · by_cases h0 : cap = 0
    · have : Res.read P.readRaw n ⟨b, d⟩ = (.ok ⟨[], 0⟩, ⟨b, d⟩) := by
        rw [Res.read, M.bind_ok (M.get_apply _), if_neg (by omega)]
        simp only [Res.onDev, FileDev.readRaw_without P hd]
      refine ⟨⟨⟨b, d⟩, path, m⟩, ?_, hd, hf, hc, hs, ?_, Nat.zero_le _,
        fun h => absurd h (by simp), ?_, hmode⟩
      · simp only [onRes, this]
      · show b.position = 0
        omega
      · subst h0
        simpa using hl
    · have : Res.read P.readRaw n ⟨b, d⟩
          = (.ok ⟨[], 0⟩, ⟨⟨b.data, 0, 0, false, b.writeDirty⟩, d⟩) := by
        rw [Res.read, M.bind_ok (M.get_apply _), if_pos (by omega), Res.readBuffered,
          M.bind_ok (M.get_apply _)]
        by_cases hr : b.readDirty = true
        · rw [if_pos hr, M.bind_ok (hfill b), hload _ rfl rfl rfl]
        · have : s.1 = 0 := by
            have : s.2 = true := by
              rw [hl] at hr
              simpa using hr
            have := not_and.1 h1 this
            omega
          rw [if_neg hr, hload b hs (by omega) (by simpa using hr)]
      refine ⟨⟨⟨⟨b.data, 0, 0, false, b.writeDirty⟩, d⟩, path, m⟩, ?_, hd, hf, hc, rfl, rfl,
        Nat.zero_le _, fun h => absurd h (by simp), ?_, hmode⟩
      · simp only [onRes, this]
      · have : 0 < cap := by omega
        simp [this]

theorem waiting_see (g : FileObj) (op : FileOp) (n : Nat) {f : FileObj}
    (e : act P op f = (.ok ([], n, false), g)) (h : Waiting cap files mode s g) :
    look P op f = (.ok ⟨[], n, false, if P = .unix then .ok (-1 + s.1) else .ub, false, mode⟩, g) := by
  rw [look, M.bind_ok e, M.bind_ok (M.get_apply g)]
  obtain ⟨h1, h2⟩ := waiting_position (P := P) h
  rw [h1, h2, getAccessMode, h.mode_eq]
  rfl

/-- One operation. -/
theorem waiting_look (h : Waiting cap files mode s f) (op : FileOp) (hop : ¬ op.IsOpen) :
    (look P op f).1 = (without P cap mode op s).1
    ∧ ((without P cap mode op s).1 ≠ .ub →
        Waiting cap files mode (without P cap mode op s).2 (look P op f).2) := by
  cases op with
  | read n =>
    by_cases hm : mode = .writeOnly
    · have e : FileObj.read P n f = (.throw .invalidAccessMode, f) := by
        have := h.mode_eq
        rw [hm] at this
        rw [FileObj.read, M.bind_ok (M.get_apply f)]
        simp only [this]
        rfl
      have e' : look P (.read n) f = (.throw .invalidAccessMode, f) := by
        simp only [look, act, M.bind_apply, e]
      rw [e']
      simp only [without, if_pos hm]
      exact ⟨trivial, fun _ => h⟩
    · obtain ⟨h1, h2⟩ := waiting_read (P := P) h hm n
      by_cases hu : s.2 = true ∧ 0 < s.1
      · obtain ⟨f', e⟩ := h1 hu
        have e' : look P (.read n) f = (.ub, f') := by
          simp only [look, act, M.bind_apply, e]
        rw [e']
        simp only [without, if_neg hm, if_pos hu]
        exact ⟨trivial, fun h => absurd rfl h⟩
      · obtain ⟨g, e, hg⟩ := h2 hu
        rw [waiting_see g (.read n) 0 (by rw [act, M.bind_ok e]; rfl) hg]
        simp only [without, if_neg hm, if_neg hu]
        exact ⟨trivial, fun _ => hg⟩
  | write bytes =>
    by_cases hm : mode = .readOnly
    · have e : FileObj.write P bytes f = (.throw .invalidAccessMode, f) := by
        have := h.mode_eq
        rw [hm] at this
        rw [FileObj.write, M.bind_ok (M.get_apply f)]
        simp only [this]
        rfl
      have e' : look P (.write bytes) f = (.throw .invalidAccessMode, f) := by
        simp only [look, act, M.bind_apply, e]
      rw [e']
      simp only [without, if_pos hm]
      exact ⟨trivial, fun _ => h⟩
    · obtain ⟨g, n, e, h1, hg⟩ := waiting_write (P := P) h hm bytes
      rw [waiting_see g (.write bytes) n (by rw [act, M.bind_ok e]; rfl) hg]
      exact ⟨(congrArg Prod.fst h1).symm, fun _ => hg⟩
  | flush =>
    obtain ⟨g, e, hg⟩ := waiting_flush (P := P) h
    rw [waiting_see g .flush 0 (by rw [act, M.bind_ok e]; rfl) hg]
    exact ⟨rfl, fun _ => hg⟩
  | setPosition p pr =>
    obtain ⟨g, e, hg⟩ := waiting_setPosition (P := P) h p pr
    rw [waiting_see g (.setPosition p pr) 0 (by rw [act, M.bind_ok e]; rfl) hg]
    exact ⟨rfl, fun _ => hg⟩
  | close =>
    obtain ⟨g, e, hg⟩ := waiting_close (P := P) h
    rw [waiting_see g .close 0 (by rw [act, M.bind_ok e]; rfl) hg]
    exact ⟨rfl, fun _ => hg⟩
  | «open» path mode' absent => exact absurd trivial hop

theorem waiting_looks (h : Waiting cap files mode s f) (ops : List FileOp)
    (hops : ∀ op ∈ ops, ¬ op.IsOpen) (hub : .ub ∉ (withouts P cap mode ops s).1) :
    M.outcomes (look P) f ops = (withouts P cap mode ops s).1
    ∧ Waiting cap files mode (withouts P cap mode ops s).2 (M.stateAfter (look P) f ops) := by
  induction ops generalizing f s with
  | nil => exact ⟨rfl, h⟩
  | cons op ops ih =>
    simp only [withouts, List.mem_cons, not_or] at hub
    obtain ⟨h1, h2⟩ := waiting_look (P := P) h op (hops op (by simp))
    obtain ⟨h3, h4⟩ := ih (h2 fun e => hub.1 e.symm) (fun op ho => hops op (by simp [ho])) hub.2
    exact ⟨by simp only [M.outcomes, withouts, h1, h3], h4⟩

end FileObj

theorem make_absent (P : FilePlatform) (cap : Nat) {files : Nat → Option (List Byte)}
    (reads : List Nat) {path : Nat} (mode : AccessMode) (hp : files path = none) :
    FileObj.make P cap files reads path mode .fail =
      ⟨⟨IoBuffer.make cap, ⟨files, none, 0, reads⟩⟩, some path, mode⟩ := by
  rw [FileObj.make, FileObj.openFile, M.noexcept_apply, M.bind_ok (M.get_apply _)]
  rw [if_neg (by simp [FileObj.isOpen])]
  rw [FileObj.openClosed, M.bind_ok (M.get_apply _), if_pos ⟨rfl, by simp only [hp]; rfl⟩]
  rfl

/-- C98 in full.  Whatever is done with an object whose file could not be opened, the program sees
what the specification says -- in particular that a write that fits into the buffer is reported as
done, that the position, which is -1 on Unix, goes up with it, and that reading afterwards is
undefined if there was a read before and nothing in between that empties the buffer -- and the
files stay as they are. -/
theorem C98_exact (P : FilePlatform) (cap : Nat) (files : Nat → Option (List Byte))
    (reads : List Nat) (path : Nat) (mode : AccessMode) (ops : List FileOp) (op : FileOp)
    (hp : files path = none) (hops : ∀ op ∈ ops, ¬ op.IsOpen) (hop : ¬ op.IsOpen)
    (hub : .ub ∉ (withouts P cap mode ops (0, false)).1) :
    let f := FileObj.make P cap files reads path mode .fail
    M.outcomes (FileObj.look P) f ops = (withouts P cap mode ops (0, false)).1
    ∧ (M.stateAfter (FileObj.look P) f ops).res.dev.files = files
    ∧ (FileObj.look P op (M.stateAfter (FileObj.look P) f ops)).1
        = (without P cap mode op (withouts P cap mode ops (0, false)).2).1 := by
  intro f
  have h : FileObj.Waiting cap files mode (0, false) f := by
    rw [show f = _ from make_absent P cap reads mode hp]
    exact FileObj.waiting_make cap files reads (some path) mode
  obtain ⟨h1, h2⟩ := FileObj.waiting_looks (P := P) h ops hops hub
  exact ⟨h1, h2.files_eq, (FileObj.waiting_look h2 op hop).1⟩

/-- A buffer of four bytes: two writes of three, of which the first is dropped when the second comes;
a read, which empties the buffer; another write; then reading is undefined. -/
example :
    withouts .unix 4 .readAndWrite [.write [1, 2, 3], .write [4, 5, 6], .read 1, .write [7]] (0, false)
      = ([.ok ⟨[], 3, false, .ok 2, false, .readAndWrite⟩, .ok ⟨[], 3, false, .ok 2, false, .readAndWrite⟩,
          .ok ⟨[], 0, false, .ok (-1), false, .readAndWrite⟩,
          .ok ⟨[], 1, false, .ok 0, false, .readAndWrite⟩], (1, true))
    ∧ (without .unix 4 .readAndWrite (.read 1) (1, true)).1 = .ub ∧ twoFiles 7 = none := by
  decide +kernel

end Cmp
