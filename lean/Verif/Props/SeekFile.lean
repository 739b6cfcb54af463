import Verif.Props.Seek
import Verif.Props.SeekExact

/-
C37, C88 and C89 in full: every change of position, of files from every state and of containers.
-/

namespace Cmp

open Cmp.Spec (ArrayCursor turn turns pageSize pageRest PagesSuffice)

/-- Where a change of position leads in a file of `len` bytes if the system's own position is `q`.
Positions before the beginning are refused by the system, which stays where it is; on Unix the
library asks for the beginning instead if the position counts from there. -/
def Spec.seekTarget (P : FilePlatform) (q len : Nat) (p : Int) : PositionReference → Nat
  | .begin => if p < 0 then (if P = .unix then 0 else q) else p.toNat
  | .current => if q + p < 0 then q else (q + p).toNat
  | .end => if len + p < 0 then q else (len + p).toNat

open Cmp.Spec (seekTarget)

theorem seek_target (P : FilePlatform) (p : Int) (pr : PositionReference)
    {files : Nat → Option (List Byte)} {path : Nat} (q : Nat) (mode : AccessMode) (k : Nat)
    (reads : List Nat) {content : List Byte} (hc : files path = some content) :
    P.seek p pr ⟨files, some ⟨path, q, mode⟩, k, reads⟩ =
      (.ok (), ⟨files, some ⟨path, seekTarget P q content.length p pr, mode⟩, 0, reads⟩) := by
  have win : ∀ p pr, FileDev.seekWindows p pr ⟨files, some ⟨path, q, mode⟩, k, reads⟩ =
      (.ok (), ⟨files, some ⟨path, seekTarget .windows q content.length p pr, mode⟩, 0, reads⟩) := by
    intro p pr
    simp only [FileDev.seekWindows, FileDev.sysSeek, M.noexcept_apply]
    rw [M.bind_ok (M.modify_apply _ _)]
    cases pr with
    | begin =>
      simp only [M.modify_apply, Int.add_zero, seekTarget, if_neg (show ¬ FilePlatform.windows = .unix by decide)]
      split <;> rfl
    | current =>
      simp only [M.modify_apply, seekTarget, Int.add_comm p]
      split <;> rfl
    | «end» =>
      simp only [M.modify_apply, seekTarget, hc, Option.getD_some, Int.add_comm p]
      split <;> rfl
  cases P with
  | windows => exact win p pr
  | unix =>
    show FileDev.seek p pr _ = _
    rw [FileDev.seek]
    by_cases h : pr = .begin ∧ p < 0
    · rw [if_pos h]
      have := win 0 pr
      rw [FileDev.seekWindows] at this
      rw [this, h.1]
      simp only [seekTarget, if_pos h.2, if_true]
      rfl
    · rw [if_neg h]
      have := win p pr
      rw [FileDev.seekWindows] at this
      rw [this]
      cases pr with
      | begin =>
        have hp : ¬ p < 0 := fun hp => h ⟨rfl, hp⟩
        simp only [seekTarget, if_neg hp]
      | current => rfl
      | «end» => rfl

/-- What reading does from a position set in a file. -/
theorem reads_target (P : FilePlatform) {cap : Nat} {files : Nat → Option (List Byte)} {path : Nat}
    {mode : AccessMode} (hm : mode ≠ .writeOnly) {content : List Byte}
    (hc : files path = some content) {t : Nat} {reads : List Nat} (hs : P.Steady reads)
    {r : Res FileDev} (hl : r.buf.data.length = cap) (hd : r.buf.readDirty = true)
    (hp : r.buf.position = 0) (hdev : r.dev = ⟨files, some ⟨path, t, mode⟩, 0, reads⟩)
    (hcap : cap ≤ P.most) (ns : List Nat) (hlim : ∀ n ∈ ns, n ≤ P.most)
    (hn : cap = 0 ∨ ∀ n ∈ ns, n ≤ cap) :
    ∃ r', M.runList (Res.read P.readRaw) ns r =
      (.ok (((⟨content, t⟩ : ArrayCursor).reads ns).map fun g => ⟨g, g.length⟩), r') := by
  have hfs : files = FileDev.withFile files path content := by
    funext p
    by_cases hp : p = path <;> simp [FileDev.withFile, hp, hc]
  have hi : FileDev.Idle P.Steady files path mode content t r.dev :=
    ⟨reads, hs, by rw [hdev, ← hfs]⟩
  by_cases hin : t ≤ content.length
  · obtain ⟨r', e, -⟩ := Res.reads_delivering (P.source files path mode hm content)
      ⟨hl, hin, .inl ⟨hd, hp, hi⟩⟩ ns hcap hlim hn
    exact ⟨r', e⟩
  · rw [reads_behind _ _ (by omega)]
    obtain ⟨r', e, -⟩ := Res.reads_delivering (p := 0)
      (P.source_behind files path mode hm content t (by omega))
      ⟨hl, Nat.zero_le _, .inl ⟨hd, hp, hi⟩⟩ ns hcap hlim hn
    exact ⟨r', e⟩

/-- C89 in full for files, and with it C88: a change of position from any state in which flushing
succeeds -- it is the first thing done -- and the file is open.  The position reported is the target,
the end is reported just at the end, not behind it, and reads deliver what is there. -/
theorem C89_exact (P : FilePlatform) (cap : Nat) (files : Nat → Option (List Byte)) (path q k : Nat)
    (mode : AccessMode) (reads : List Nat) (content : List Byte) (f₀ f : FileObj) (p : Int)
    (pr : PositionReference) (hflush : FileObj.flush P f₀ = (.ok (), f))
    (hcap : f.res.buf.data.length = cap)
    (hdev : f.res.dev = ⟨files, some ⟨path, q, mode⟩, k, reads⟩) (hc : files path = some content) :
    let t := seekTarget P q content.length p pr
    ∃ f', FileObj.setPosition P p pr f₀ = (.ok (), f')
      ∧ FileObj.getPosition P f' = .ok t
      ∧ (f₀.path = some path → FileObj.isAtEnd P f' = .ok (t == content.length))
      ∧ (f₀.mode = mode → mode ≠ .writeOnly → P.Steady reads → cap ≤ P.most → ∀ ns : List Nat,
          (∀ n ∈ ns, n ≤ P.most) → (cap = 0 ∨ ∀ n ∈ ns, n ≤ cap) →
          ∃ f'', M.runList (FileObj.read P) ns f' =
            (.ok (((⟨content, t⟩ : ArrayCursor).reads ns).map fun g => ⟨g, g.length⟩), f'')) := by
  intro t
  have e1 : Res.flush P.writeRaw f₀.res = (.ok (), f.res) := by
    simp only [FileObj.flush, FileObj.onRes, Prod.mk.injEq] at hflush
    exact Prod.ext hflush.1 (congrArg FileObj.res hflush.2)
  have e2 : Res.onDev (P.seek p pr) f.res
      = (.ok (), ⟨f.res.buf, ⟨files, some ⟨path, t, mode⟩, 0, reads⟩⟩) := by
    simp only [Res.onDev, hdev, seek_target P p pr q mode k reads hc]
    rfl
  have e : Res.setPositionIO P.writeRaw P.seek p pr f₀.res =
      (.ok (), ⟨f.res.buf.setReadDirty true, ⟨files, some ⟨path, t, mode⟩, 0, reads⟩⟩) := by
    rw [Res.setPositionIO, M.noexcept_apply, M.bind_ok e1, M.bind_ok e2]
    rfl
  have hpos : FileObj.getPosition P { f₀ with res :=
      ⟨f.res.buf.setReadDirty true, ⟨files, some ⟨path, t, mode⟩, 0, reads⟩⟩ } = .ok (t : Int) := by
    simp only [FileObj.getPosition, IoBuffer.setReadDirty]
    simp
  refine ⟨{ f₀ with res := _ }, ?_, hpos, fun hp => ?_, fun hm1 hm hs hcm ns hlim hn => ?_⟩
  · exact FileObj.onRes_rep e
  · simp only [FileObj.isAtEnd, hpos]
    rw [hp]
    simp only [Option.bind_some, hc]
    congr 1
    rw [Bool.eq_iff_iff]
    simp
  · obtain ⟨r', er⟩ := reads_target P hm hc hs (cap := cap)
      (r := ⟨f.res.buf.setReadDirty true, ⟨files, some ⟨path, t, mode⟩, 0, reads⟩⟩) hcap rfl rfl rfl
      hcm ns hlim hn
    refine ⟨_, FileObj.reads_onRes (f := { f₀ with res := _ }) (by rw [hm1]; exact hm) er⟩

/-- Behind the end, in front of the beginning, and before the beginning from the end, in a file of
three bytes of which one has been read. -/
example : seekTarget .unix 1 3 5 .begin = 5 ∧ seekTarget .unix 1 3 (-5) .begin = 0
    ∧ seekTarget .windows 1 3 (-5) .begin = 1 ∧ seekTarget .unix 1 3 (-5) .end = 1 := by decide

theorem bufRead_writeDirty {δ : Type} (w : Bool) (n : Nat) :
    M.Keeps (fun r : Res δ => r.buf.writeDirty = w) (Res.bufRead n) := by
  intro r h
  have hk : ∀ bytes b, r.buf.read n = .ok (bytes, b) → b.writeDirty = r.buf.writeDirty := by
    intro bytes b hb
    rw [IoBuffer.read] at hb
    by_cases h1 : r.buf.position + n > r.buf.size ∧ r.buf.position > r.buf.size
    · rw [if_pos h1] at hb
      cases hb
    · rw [if_neg h1] at hb
      dsimp only at hb
      generalize (if r.buf.position + n > r.buf.size then r.buf.size - r.buf.position else n) = m at hb
      by_cases h2 : r.buf.position + m > r.buf.data.length
      · rw [if_pos h2] at hb
        cases hb
      · rw [if_neg h2] at hb
        cases hb
        rfl
  rw [Res.bufRead]
  split
  · next heq => exact (hk _ _ heq).trans h
  all_goals exact h

/-- Reading leaves alone whether something waits to be written. -/
theorem read_writeDirty {δ : Type} (raw : Nat → ReadRequest → M δ ReadResult) (w : Bool) (n : Nat) :
    M.Keeps (fun r : Res δ => r.buf.writeDirty = w) (Res.read raw n) := by
  have hdev : ∀ {α : Type} (x : M δ α), M.Keeps (fun r : Res δ => r.buf.writeDirty = w) (Res.onDev x) :=
    fun _ _ h => h
  have hfill : M.Keeps (fun r : Res δ => r.buf.writeDirty = w) (Res.fill raw) :=
    M.keeps_bind M.keeps_get fun _ => M.keeps_bind (hdev _) fun _ =>
      M.keeps_bind (fun _ h => h) fun _ => M.keeps_bind (fun _ h => h) fun _ =>
        M.keeps_bind (fun _ h => h) fun _ => M.keeps_pure _
  have hload : M.Keeps (fun r : Res δ => r.buf.writeDirty = w) (Res.readLoaded raw n) := by
    refine M.keeps_bind M.keeps_get fun r => ?_
    split
    · split
      · exact fun _ h => h
      · refine M.keeps_bind ?_ fun first => ?_
        · rw [Res.drain]
          split
          · exact bufRead_writeDirty w _
          · exact M.keeps_pure _
        · dsimp only
          split
          · exact M.keeps_bind (hdev _) fun _ => M.keeps_pure _
          · exact M.keeps_bind hfill fun _ => M.keeps_bind (bufRead_writeDirty w _) fun _ => M.keeps_pure _
    · exact M.keeps_bind (bufRead_writeDirty w _) fun _ => M.keeps_pure _
  refine M.keeps_bind M.keeps_get fun r => ?_
  split
  · refine M.keeps_bind M.keeps_get fun r => ?_
    split
    · exact M.keeps_bind hfill fun _ => hload
    · exact hload
  · exact hdev _

theorem reads_writeDirty {δ : Type} (raw : Nat → ReadRequest → M δ ReadResult) (w : Bool)
    (ns : List Nat) : M.Keeps (fun r : Res δ => r.buf.writeDirty = w) (M.runList (Res.read raw) ns) := by
  induction ns with
  | nil => exact M.keeps_pure _
  | cons n ns ih =>
    exact M.keeps_bind (read_writeDirty raw w n) fun _ => M.keeps_bind ih fun _ => M.keeps_pure _

/-- C37 in full for files: a relative move after buffered reads starts from the first byte of the page
at hand. -/
theorem C37_exact_file (P : FilePlatform) (cap : Nat) (files : Nat → Option (List Byte)) (path : Nat)
    (mode : AccessMode) (reads : List Nat) (content : List Byte) (ns ms : List Nat) (d : Int)
    (hc : files path = some content) (hm : mode ≠ .writeOnly) (hs : P.Steady reads) (hcap : 0 < cap)
    (hmost : cap ≤ P.most) (hn : PagesSuffice cap content.length (0, 0) ns)
    (hlim : ∀ n ∈ ms, n ≤ cap) :
    let b := (turns cap content.length (0, 0) ns).2
    let t := seekTarget P b content.length d .current
    ∃ outs f f' f'', M.runList (FileObj.read P) ns (freshFile P cap files reads path mode)
        = (.ok outs, f)
      ∧ (outs.map (·.bytes)).flatten = content.take ns.sum
      ∧ FileObj.setPosition P d .current f = (.ok (), f')
      ∧ FileObj.getPosition P f' = .ok t
      ∧ M.runList (FileObj.read P) ms f' =
          (.ok (((⟨content, t⟩ : ArrayCursor).reads ms).map fun g => ⟨g, g.length⟩), f'') := by
  intro b t
  have hfs : files = FileDev.withFile files path content := by
    funext p
    by_cases hp : p = path <;> simp [FileDev.withFile, hp, hc]
  rw [freshFile_eq P cap files reads path mode content hc]
  obtain ⟨r, e, hnil, hcons, -⟩ := Res.reads_start (P.source files path mode hm content) (q := 0)
    (r := ⟨IoBuffer.make cap, ⟨files, some ⟨path, 0, mode⟩, 0, reads⟩⟩)
    (by simp [IoBuffer.make]) rfl (Nat.zero_le _) ⟨reads, hs, by rw [← hfs]⟩ hmost hcap ns hn
  have hw : r.buf.writeDirty = false := by
    have := reads_writeDirty P.readRaw false ns
      (⟨IoBuffer.make cap, ⟨files, some ⟨path, 0, mode⟩, 0, reads⟩⟩) rfl
    rwa [e] at this
  have ef := FileObj.reads_onRes (P := P) (f := ⟨⟨IoBuffer.make cap,
    ⟨files, some ⟨path, 0, mode⟩, 0, reads⟩⟩, some path, mode⟩) hm e
  obtain ⟨k, reads', hs', hdev, hl⟩ : ∃ k reads', P.Steady reads'
      ∧ r.dev = ⟨files, some ⟨path, b, mode⟩, k, reads'⟩ ∧ r.buf.data.length = cap := by
    by_cases hns : ns = []
    · have := hnil hns
      subst this hns
      exact ⟨0, reads, hs, rfl, by simp [IoBuffer.make]⟩
    · have h := hcons hns
      obtain ⟨reads', k, -, hs', hd⟩ := h.loaded
      rw [← hfs] at hd
      exact ⟨k, reads', hs', hd, h.length⟩
  have hflush : FileObj.flush P ⟨r, some path, mode⟩ = (.ok (), ⟨r, some path, mode⟩) := by
    have : Res.flush P.writeRaw r = (.ok (), r) := by
      rw [Res.flush, M.bind_ok (M.get_apply _), if_neg (by rw [hw]; decide)]
      rfl
    simp only [FileObj.flush, FileObj.onRes, this]
  obtain ⟨f', e1, e2, -, e3⟩ := C89_exact P cap files path b k mode reads' content _ _ d .current hflush
    hl hdev hc
  obtain ⟨f'', e4⟩ := e3 rfl hm hs' hmost ms (fun n hn => (hlim n hn).trans hmost) (.inr hlim)
  refine ⟨_, _, f', f'', ef, ?_, e1, e2, e4⟩
  have := (⟨content, 0⟩ : ArrayCursor).reads_flatten ns
  simpa [List.map_map, Function.comp_def] using this

/-- Five of ten bytes have been read through a buffer of four; two forward is byte six, although the
next one was byte five. -/
example : PagesSuffice 4 10 (0, 0) [5] ∧ seekTarget .unix (turns 4 10 (0, 0) [5]).2 10 2 .current = 6
    ∧ (⟨[0, 1, 2, 3, 4, 5, 6, 7, 8, 9], 6⟩ : ArrayCursor).reads [2] = [[6, 7]] := by decide

/-- C88 in full for containers, from every state: the distance counts backwards, so the position is
as many elements before the end as it says; outside of the content the next read is undefined, and
inside reading continues there. -/
theorem C88_exact (r : Res Ctr) (p : Int) :
    let content := r.dev.content
    let cap := r.buf.data.length
    let target : Int := ((content.length / r.dev.elem : Nat) - p) * r.dev.elem
    ∃ r', Res.setPositionIn Ctr.seek p .end r = (.ok (), r')
      ∧ ((target < 0 ∨ content.length < target) → ∀ n, (Res.read Ctr.readRaw n r').1 = .ub)
      ∧ ∀ q : Nat, target = q → q ≤ content.length → ∀ ns : List Nat,
          (cap = 0 ∨ PagesSuffice cap content.length (q, q) ns) →
          ∃ r'', M.runList (Res.read Ctr.readRaw) ns r' =
            (.ok (((⟨content, q⟩ : ArrayCursor).reads ns).map fun g => ⟨g, g.length⟩), r'') := by
  intro content cap target
  have hat : ∃ r', Res.setPositionIn Ctr.seek p .end r = (.ok (), r')
      ∧ CtrAt cap r.dev.elem content target r' :=
    ⟨_, Ctr.setPositionIn_eq r _ _, rfl, rfl, rfl, rfl, rfl, rfl, rfl⟩
  obtain ⟨r', e, h⟩ := hat
  refine ⟨r', e, fun ho n => h.outside ho n, fun q hq hle ns hn => ?_⟩
  rw [hq] at h
  rcases hn with hn | hn
  · obtain ⟨r'', e', -⟩ := Res.reads_delivering (Ctr.source _ _) ⟨h.length, hle,
      .inl ⟨h.dirty, h.buffer, h.idle⟩⟩ ns trivial (fun _ _ => trivial) (.inl hn)
    exact ⟨r'', e'⟩
  · by_cases hc : cap = 0
    · obtain ⟨r'', e', -⟩ := Res.reads_delivering (Ctr.source _ _) ⟨h.length, hle,
        .inl ⟨h.dirty, h.buffer, h.idle⟩⟩ ns trivial (fun _ _ => trivial) (.inl hc)
      exact ⟨r'', e'⟩
    · obtain ⟨r'', e', -⟩ := Res.reads_start (Ctr.source _ _) h.length h.dirty hle h.idle trivial
        (Nat.pos_of_ne_zero hc) ns hn
      exact ⟨r'', e'⟩

/-- Two elements of two bytes before the end of ten bytes; and what a program that counts as in files
asks for. -/
example : (((10 / 2 : Nat) : Int) - 2) * 2 = 6 ∧ PagesSuffice 4 10 (6, 6) [3]
    ∧ (10 : Int) < (((10 / 2 : Nat) : Int) - -2) * 2 := by decide

end Cmp
