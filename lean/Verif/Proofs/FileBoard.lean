import Verif.Proofs.Journal
import Verif.Spec.FileBoard

/-
Several objects on one file, of which each only reads or only writes.
-/

namespace Cmp

open Cmp.Spec (Seen Goal Loupe Quill FileAct FileBoard)
open FileDev (withFile Idle Loaded)

namespace Disk

/-- The object called `i` is destroyed if there is one. -/
def clear (P : FilePlatform) (i : Nat) : M Disk Unit := fun d =>
  if (d.objects i).isSome then destroy P i d else (.ok (), d)

/-- The object called `i` is destroyed if there is one, and constructed anew. -/
def renew (P : FilePlatform) (i cap path : Nat) (mode : AccessMode) (absent : IfNotThere) :
    M Disk Unit := do
  clear P i
  construct P i cap [] path mode absent

/-- The arguments of `set_position`. -/
def goalArgs : Goal → Int × PositionReference
  | .element k => (k, .begin)
  | .on d => (d, .current)
  | .beforeEnd k => (-k, .end)

/-- What is done with a file, done with `file` objects: reader `i` is object `2 * i + 1`, opened for
reading only, and writer `i` is object `2 * i`, opened for writing only. -/
def act (P : FilePlatform) (path : Nat) : FileAct → M Disk Seen
  | .newReader i cap => do
    renew P (2 * i + 1) cap path .readOnly .fail
    pure .done
  | .newWriter i cap => do
    renew P (2 * i) cap path .writeOnly .fail
    pure .done
  | .dropReader i => do
    destroy P (2 * i + 1)
    pure .done
  | .dropWriter i => do
    destroy P (2 * i)
    pure .done
  | .read i n => do
    let got ← read P (2 * i + 1) n
    pure (.bytes got.bytes got.count)
  | .readerTo i g => do
    setPosition P (2 * i + 1) (goalArgs g).1 (goalArgs g).2
    pure .done
  | .readerPlace i => do
    let p ← getPosition P (2 * i + 1)
    pure (.place p)
  | .readerAtEnd i => do
    let b ← isAtEnd P (2 * i + 1)
    pure (.atEnd b)
  | .write i data => do
    let n ← write P (2 * i) data
    pure (.bytes [] n)
  | .flush i => do
    flush P (2 * i)
    pure .done
  | .writerTo i g => do
    setPosition P (2 * i) (goalArgs g).1 (goalArgs g).2
    pure .done
  | .writerPlace i => do
    let p ← getPosition P (2 * i)
    pure (.place p)
  | .writerAtEnd i => do
    let b ← isAtEnd P (2 * i)
    pure (.atEnd b)
  | .look => do
    let content ← look path
    pure (.bytes content content.length)
  | .assign content => do
    assign path content
    pure .done

end Disk

/-- Whether places before the start are taken to be the start. -/
def FilePlatform.clamps : FilePlatform → Bool
  | .unix => true
  | .windows => false

/- ### Devices -/

namespace FileDev

/-- Reading past the buffer, whatever was loaded last. -/
theorem lean_whatever {sk : Int → PositionReference → M FileDev Unit}
    {block : Nat → M FileDev ReadResult} {sch : List Nat → Prop}
    (E : Exact sch block) (most : Nat) (fs : Nat → Option (List Byte)) (path : Nat)
    (mode : AccessMode) (hm : mode ≠ .writeOnly) (content : List Byte) (n q k : Nat)
    (reads : List Nat) (hs : sch reads) (hn : n ≤ most) :
    ∃ reads', sch reads' ∧ rawOf sk block most n .leanRetrieval
        ⟨withFile fs path content, some ⟨path, q, mode⟩, k, reads⟩ =
        (.ok ⟨(content.drop q).take n, ((content.drop q).take n).length⟩,
          ⟨withFile fs path content, some ⟨path, q + ((content.drop q).take n).length, mode⟩, k,
            reads'⟩) := by
  obtain ⟨reads', hs', e'⟩ := readBlocks_exact E most n hn (content := content)
    (d := ⟨withFile fs path content, some ⟨path, q, mode⟩, k, reads⟩) rfl hm (by simp [withFile]) hs
  refine ⟨reads', hs', ?_⟩
  simp only [rawOf, M.noexcept_apply]
  rw [M.bind_ok (show skipFill sk .leanRetrieval _ = (.ok (), _) from rfl), M.bind_ok e',
    M.bind_ok (show noteFill sk .leanRetrieval _ _ = (.ok (), _) from rfl)]
  rfl

/-- Writing with one call, at any place. -/
theorem writeWhole_inked (data : List Byte) (fs : Nat → Option (List Byte)) (path q : Nat)
    (mode : AccessMode) (hm : mode ≠ .readOnly) (content : List Byte) (k : Nat) (reads : List Nat) :
    writeWhole data ⟨withFile fs path content, some ⟨path, q, mode⟩, k, reads⟩ =
      (.ok data.length, ⟨withFile fs path (Quill.inked content q data),
        some ⟨path, q + data.length, mode⟩, k, reads⟩) := by
  unfold writeWhole
  by_cases hd : data = []
  · subst hd
    rw [if_pos rfl]
    simp [Quill.inked]
  · rw [if_neg hd]
    simp only [M.bind_apply, sysWrite, if_neg hm, M.pure_apply, Option.getD_some, withFile, if_pos]
    congr 2
    funext p
    by_cases hp : p = path
    · simp only [withFile, if_pos hp]
      rfl
    · simp only [withFile, if_neg hp]

theorem seek_goal (P : FilePlatform) (g : Goal) (fs : Nat → Option (List Byte)) (path q : Nat)
    (mode : AccessMode) (content : List Byte) (k : Nat) (reads : List Nat) :
    P.seek (Disk.goalArgs g).1 (Disk.goalArgs g).2
        ⟨withFile fs path content, some ⟨path, q, mode⟩, k, reads⟩ =
      (.ok (), ⟨withFile fs path content, some ⟨path, g.inFile P.clamps content q, mode⟩, 0,
        reads⟩) := by
  cases g with
  | element n =>
    by_cases hn : n < 0
    · cases P with
      | unix => simp [Disk.goalArgs, FilePlatform.seek, seek, sysSeek, Goal.inFile,
          FilePlatform.clamps, M.bind_apply, hn, Int.not_le.mpr hn]
      | windows => simp [Disk.goalArgs, FilePlatform.seek, seekWindows, sysSeek, Goal.inFile,
          FilePlatform.clamps, M.bind_apply, hn, Int.not_le.mpr hn]
    · cases P with
      | unix => simp [Disk.goalArgs, FilePlatform.seek, seek, sysSeek, Goal.inFile,
          M.bind_apply, hn, Int.not_lt.mp hn]
      | windows => simp [Disk.goalArgs, FilePlatform.seek, seekWindows, sysSeek, Goal.inFile,
          M.bind_apply, hn, Int.not_lt.mp hn]
  | on n =>
    have e : P.seek n .current = seekWindows n .current := by
      cases P with
      | unix => exact seek_eq_windows _ _ (by simp)
      | windows => rfl
    simp only [Disk.goalArgs, e]
    simp only [seekWindows, sysSeek, M.noexcept_apply, M.bind_apply, M.modify_apply, Goal.inFile,
      Int.add_comm n]
    by_cases h : (q : Int) + n < 0
    · rw [if_pos h, if_neg (by omega)]
      rfl
    · rw [if_neg h, if_pos (by omega)]
      rfl
  | beforeEnd n =>
    have e : P.seek (-n) .end = seekWindows (-n) .end := by
      cases P with
      | unix => exact seek_eq_windows _ _ (by simp)
      | windows => rfl
    simp only [Disk.goalArgs, e]
    simp only [seekWindows, sysSeek, M.noexcept_apply, M.bind_apply, M.modify_apply, Goal.inFile,
      withFile_self, Option.getD_some]
    by_cases h : -n + (content.length : Int) < 0
    · rw [if_pos h, if_neg (by omega)]
      rfl
    · rw [if_neg h, if_pos (by omega), show -n + (content.length : Int) = content.length - n by omega]
      rfl

end FileDev

theorem FilePlatform.raw_fill (P : FilePlatform) (fs : Nat → Option (List Byte)) (path : Nat)
    (mode : AccessMode) (hm : mode ≠ .writeOnly) (content : List Byte) (n q k : Nat)
    (reads : List Nat) (hs : P.Steady reads) (hn : n ≤ P.most) :
    ∃ reads', P.Steady reads' ∧ P.readRaw n .fillBuffer
        ⟨withFile fs path content, some ⟨path, q, mode⟩, k, reads⟩ =
      (.ok ⟨(content.drop (q + k)).take n, ((content.drop (q + k)).take n).length⟩,
        ⟨withFile fs path content, some ⟨path, q + k, mode⟩,
          ((content.drop (q + k)).take n).length, reads'⟩) := by
  have key : ∃ d', P.readRaw n .fillBuffer ⟨withFile fs path content, some ⟨path, q, mode⟩, k, reads⟩ =
      (.ok ⟨(content.drop (q + k)).take n, ((content.drop (q + k)).take n).length⟩, d') ∧
      Loaded P.Steady fs path mode content (q + k) (q + k + ((content.drop (q + k)).take n).length)
        d' := by
    cases P with
    | unix =>
      exact FileDev.fill_any FileDev.seeks_unix FileDev.exact_unix _ fs path mode hm content n
        (q + k) _ hn (.inr ⟨q, reads, k, rfl, hs, rfl⟩)
    | windows =>
      exact FileDev.fill_any FileDev.seeks_windows FileDev.exact_windows _ fs path mode hm
        content n (q + k) _ hn (.inr ⟨q, reads, k, rfl, hs, rfl⟩)
  obtain ⟨d', e, reads', k', hk, hs', rfl⟩ := key
  have : k' = ((content.drop (q + k)).take n).length := by omega
  subst this
  exact ⟨reads', hs', e⟩

theorem FilePlatform.raw_lean (P : FilePlatform) (fs : Nat → Option (List Byte)) (path : Nat)
    (mode : AccessMode) (hm : mode ≠ .writeOnly) (content : List Byte) (n q k : Nat)
    (reads : List Nat) (hs : P.Steady reads) (hn : n ≤ P.most) :
    ∃ reads', P.Steady reads' ∧ P.readRaw n .leanRetrieval
        ⟨withFile fs path content, some ⟨path, q, mode⟩, k, reads⟩ =
      (.ok ⟨(content.drop q).take n, ((content.drop q).take n).length⟩,
        ⟨withFile fs path content, some ⟨path, q + ((content.drop q).take n).length, mode⟩, k,
          reads'⟩) := by
  cases P with
  | unix => exact FileDev.lean_whatever FileDev.exact_unix _ fs path mode hm content n q k reads hs hn
  | windows =>
    exact FileDev.lean_whatever FileDev.exact_windows _ fs path mode hm content n q k reads hs hn

/- ### Readers -/

/-- The length of the page. -/
def pageSize (g : Loupe) : Nat := g.page.elim 0 (·.1.length)

/-- A resource for reading that is where the loupe is. -/
structure Peers (P : FilePlatform) (files : Nat → Option (List Byte)) (path cap : Nat) (g : Loupe)
    (r : Res FileDev) : Prop where
  length : r.buf.data.length = cap
  clean : r.buf.writeDirty = false
  dev : ∃ reads, P.Steady reads
    ∧ r.dev = ⟨files, some ⟨path, g.place, .readOnly⟩, pageSize g, reads⟩
  page : match g.page with
    | none => r.buf.readDirty = true ∧ r.buf.position = 0
    | some (page, given) => r.buf.readDirty = false ∧ r.buf.size = page.length
      ∧ page.length ≤ cap ∧ r.buf.data.take page.length = page ∧ r.buf.position = given
      ∧ given ≤ page.length

section Reading

variable {P : FilePlatform} {fs : Nat → Option (List Byte)} {path cap n : Nat} {content : List Byte}
  {g : Loupe} {r : Res FileDev}

theorem peers_turn (h : Peers P (withFile fs path content) path cap g r) (hcap : cap ≤ P.most) :
    ∃ d, P.readRaw r.buf.data.length .fillBuffer r.dev
        = (.ok ⟨(g.turn cap content).1, (g.turn cap content).1.length⟩, d)
      ∧ (g.turn cap content).1.length ≤ cap
      ∧ ∀ k, k ≤ (g.turn cap content).1.length →
        Peers P (withFile fs path content) path cap
          ⟨(g.turn cap content).2.place, some ((g.turn cap content).1, k)⟩
          ⟨{ Res.filled r.buf ⟨(g.turn cap content).1, (g.turn cap content).1.length⟩ with
            position := k }, d⟩ := by
  obtain ⟨reads, hs, hd⟩ := h.dev
  obtain ⟨reads', hs', e⟩ := P.raw_fill fs path .readOnly (by decide) content cap g.place (pageSize g)
    reads hs hcap
  rw [hd, h.length]
  have hl : (g.turn cap content).1.length ≤ cap := by
    simp only [Loupe.turn, List.length_take]
    omega
  refine ⟨_, e, hl, fun k hk => ⟨?_, h.clean, ⟨reads', hs', rfl⟩, rfl, rfl, hl, ?_, rfl, hk⟩⟩
  · exact (Res.filled_length r.buf _ _).trans h.length
  · simp only [Res.filled]
    have := h.length
    rw [List.take_append_of_le_length (by rw [List.length_take]; omega), List.take_take,
      List.take_of_length_le (by omega)]

theorem peers_readPage {page : List Byte} {given : Nat}
    (h : Peers P (withFile fs path content) path cap g r) (hp : g.page = some (page, given))
    (hcap : cap ≤ P.most) (hn : n ≤ P.most) :
    ∃ r', Res.readLoaded P.readRaw n r
        = (.ok ⟨(g.readPage cap content n page given).1,
          (g.readPage cap content n page given).1.length⟩, r')
      ∧ Peers P (withFile fs path content) path cap (g.readPage cap content n page given).2 r' := by
  have h3 := h.page
  rw [hp] at h3
  obtain ⟨h1, h2, hc, h4, h5, h6⟩ := h3
  have hl := h.length
  have hs : r.buf.size ≤ r.buf.data.length := by omega
  have hu : r.buf.unread = page.drop given := by rw [IoBuffer.unread, h2, h4, h5]
  have hsz : pageSize g = page.length := by rw [pageSize, hp]; rfl
  unfold Loupe.readPage
  simp only
  by_cases hn' : n ≤ (page.drop given).length
  · rw [if_pos hn']
    simp only [List.length_drop] at hn'
    refine ⟨{ r with buf := { r.buf with position := r.buf.position + n } }, ?_, hl, h.clean, ?_, h1, h2,
      hc, h4, by simp only [h5], by omega⟩
    · rw [Res.readLoaded_within _ r n hs (by omega), hu]
      simp only [List.length_take, List.length_drop]
      rw [Nat.min_eq_left hn']
    · obtain ⟨reads, hr, hd⟩ := h.dev
      exact ⟨reads, hr, by rw [hd, hsz]; rfl⟩
  · rw [if_neg hn']
    simp only [List.length_drop] at hn'
    have hq : r.buf.size - r.buf.position = (page.drop given).length := by
      rw [List.length_drop]; omega
    by_cases hbig : cap < n - (page.drop given).length
    · rw [if_pos hbig]
      obtain ⟨reads, hr, hd⟩ := h.dev
      obtain ⟨reads', hr', e⟩ := P.raw_lean fs path .readOnly (by decide) content
        (n - (page.drop given).length) g.place (pageSize g) reads hr (by omega)
      rw [← hd] at e
      rw [← hq] at e
      have key := Res.readLoaded_lean hs (by omega) (by omega) (by rw [hq]; omega) e
      rw [hu] at key
      refine ⟨⟨{ r.buf with position := r.buf.size }, ⟨withFile fs path content, some ⟨path, g.place
          + ((content.drop g.place).take (n - (page.drop given).length)).length, .readOnly⟩,
          page.length, reads'⟩⟩, key.trans ?_, hl, h.clean, ⟨reads', hr', rfl⟩, h1, h2, hc, h4, h2,
        Nat.le_refl _⟩
      rw [hq, hsz, List.length_append]
    · rw [if_neg hbig]
      obtain ⟨d, e, hlen, hshow⟩ := peers_turn h hcap
      refine ⟨⟨{ Res.filled r.buf ⟨(g.turn cap content).1, (g.turn cap content).1.length⟩ with
        position := min (g.turn cap content).1.length (n - (page.drop given).length) }, d⟩, ?_, ?_⟩
      · rw [Res.readLoaded_fill hs (by omega) (by omega) (by rw [hq]; omega) (by rw [hl]; exact hlen) e, hu]
      · have := hshow (min (g.turn cap content).1.length (n - (page.drop given).length))
          (Nat.min_le_left _ _)
        rw [List.length_take, Nat.min_comm]
        exact this

theorem peers_read (h : Peers P (withFile fs path content) path cap g r) (hcap : cap ≤ P.most)
    (hn : n ≤ P.most) :
    ∃ r', Res.read P.readRaw n r
        = (.ok ⟨(g.read cap content n).1, (g.read cap content n).1.length⟩, r')
      ∧ Peers P (withFile fs path content) path cap (g.read cap content n).2 r' := by
  have hl := h.length
  unfold Loupe.read
  by_cases hc : cap = 0
  · rw [if_pos hc, Res.read_unbuffered _ _ _ (by omega)]
    obtain ⟨reads, hr, hd⟩ := h.dev
    obtain ⟨reads', hr', e⟩ := P.raw_lean fs path .readOnly (by decide) content n g.place (pageSize g)
      reads hr hn
    rw [← hd] at e
    exact ⟨_, Res.onDev_ok e, hl, h.clean, ⟨reads', hr', rfl⟩, h.page⟩
  · rw [if_neg hc, Res.read_buffered _ _ _ (by omega)]
    have h3 := h.page
    cases hp : g.page with
    | some q =>
      obtain ⟨page, given⟩ := q
      rw [hp] at h3
      rw [Res.readBuffered_clean _ _ _ h3.1]
      exact peers_readPage h hp hcap hn
    | none =>
      rw [hp] at h3
      obtain ⟨d, e, hlen, hshow⟩ := peers_turn h hcap
      rw [Res.readBuffered_dirty h3.1 e]
      have := hshow 0 (Nat.zero_le _)
      have hpage : (g.turn cap content).2.page = some ((g.turn cap content).1, 0) := rfl
      exact peers_readPage (g := (g.turn cap content).2) this hpage hcap hn

theorem peers_to (h : Peers P (withFile fs path content) path cap g r) (goal : Goal) :
    ∃ r', Res.setPositionIO P.writeRaw P.seek (Disk.goalArgs goal).1 (Disk.goalArgs goal).2 r
        = (.ok (), r')
      ∧ Peers P (withFile fs path content) path cap ⟨goal.inFile P.clamps content g.place, none⟩ r' := by
  obtain ⟨reads, hs, hd⟩ := h.dev
  have e := FileDev.seek_goal P goal fs path g.place .readOnly content (pageSize g) reads
  rw [← hd] at e
  refine ⟨⟨r.buf.setReadDirty true, ⟨withFile fs path content,
    some ⟨path, goal.inFile P.clamps content g.place, .readOnly⟩, 0, reads⟩⟩, ?_, ?_⟩
  · simp only [Res.setPositionIO, M.noexcept_apply]
    rw [M.bind_ok (Res.flush_clean _ _ h.clean), M.bind_ok (Res.onDev_ok e)]
    rfl
  · exact ⟨h.length, h.clean, ⟨reads, hs, rfl⟩, rfl, rfl⟩

theorem peers_position {files : Nat → Option (List Byte)} (h : Peers P files path cap g r)
    (p : Option Nat) (mode : AccessMode) :
    FileObj.getPosition P ⟨r, p, mode⟩ = .ok (g.position : Nat) := by
  obtain ⟨reads, hs, hd⟩ := h.dev
  have h3 := h.page
  simp only [FileObj.getPosition, hd, Loupe.position]
  cases hp : g.page with
  | none =>
    rw [hp] at h3
    rw [h3.2]
    rfl
  | some q =>
    rw [hp] at h3
    rw [h3.2.2.2.2.1]
    simp

end Reading

/- ### Writers -/

/-- A resource for writing that is where the quill is. -/
structure Pens (files : Nat → Option (List Byte)) (path cap : Nat) (q : Quill) (r : Res FileDev) :
    Prop where
  length : r.buf.data.length = cap
  inside : r.buf.position ≤ cap
  clean : r.buf.writeDirty = false → r.buf.position = 0
  dev : ∃ k reads, r.dev = ⟨files, some ⟨path, q.place, .writeOnly⟩, k, reads⟩
  kept : r.buf.pending = q.kept

section Writing

variable {P : FilePlatform} {fs : Nat → Option (List Byte)} {path cap : Nat} {content : List Byte}
  {q : Quill} {r : Res FileDev}

theorem Pens.taken {files : Nat → Option (List Byte)} (h : Pens files path cap q r) :
    r.buf.data.take r.buf.position = q.kept := by
  rw [← h.kept, IoBuffer.pending]
  split
  · rfl
  · rename_i hc
    rw [h.clean (by simpa using hc)]
    rfl

theorem Pens.kept_length {files : Nat → Option (List Byte)} (h : Pens files path cap q r) :
    q.kept.length = r.buf.position := by
  rw [← h.taken, List.length_take]
  have := h.length
  have := h.inside
  omega

theorem raw_inked (P : FilePlatform) (data : List Byte) (hd : data.length ≤ P.most)
    (fs : Nat → Option (List Byte)) (path q : Nat) (content : List Byte) (k : Nat) (reads : List Nat) :
    P.writeRaw data ⟨withFile fs path content, some ⟨path, q, .writeOnly⟩, k, reads⟩ =
      (.ok data.length, ⟨withFile fs path (Quill.inked content q data),
        some ⟨path, q + data.length, .writeOnly⟩, k, reads⟩) := by
  rw [P.writeRaw_whole data hd]
  exact FileDev.writeWhole_inked data fs path q .writeOnly (by decide) content k reads

theorem pens_flush (h : Pens (withFile fs path content) path cap q r) (hcap : cap ≤ P.most) :
    ∃ r', Res.flush P.writeRaw r = (.ok (), r')
      ∧ Pens (withFile fs path (q.flush content).1) path cap (q.flush content).2 r'
      ∧ r'.buf.position = 0 ∧ r'.buf.writeDirty = false := by
  obtain ⟨k, reads, hd⟩ := h.dev
  cases hw : r.buf.writeDirty with
  | false =>
    have hk : q.kept = [] := by rw [← h.kept]; simp [IoBuffer.pending, hw]
    refine ⟨r, Res.flush_clean _ _ hw, ?_, h.clean hw, hw⟩
    simp only [Quill.flush, hk, Quill.inked, if_pos]
    exact ⟨h.length, h.inside, h.clean, ⟨k, reads, hd⟩, by rw [h.kept, hk]⟩
  | true =>
    have hl := h.length
    have hi := h.inside
    have e := raw_inked P q.kept (by rw [h.kept_length]; omega) fs path q.place content k reads
    rw [← hd, ← h.taken] at e
    refine ⟨_, Res.flush_dirty hw (by omega) e, ?_, rfl, rfl⟩
    rw [h.taken]
    exact ⟨hl, Nat.zero_le _, fun _ => rfl, ⟨k, reads, rfl⟩, rfl⟩

theorem pens_bufWrite {files : Nat → Option (List Byte)} (h : Pens files path cap q r)
    (data : List Byte) (hd : r.buf.position + data.length ≤ cap) :
    ∃ r', Res.bufWrite data r = (.ok data.length, r')
      ∧ Pens files path cap ⟨q.place, q.kept ++ data⟩ r' := by
  have hl := h.length
  have hk := h.kept_length
  refine ⟨_, Res.bufWrite_ok r data (by omega), ?_, hd, fun h => by simp at h, h.dev, ?_⟩
  · simp only [List.length_append, List.length_take, List.length_drop]
    omega
  · simp only [IoBuffer.pending, if_pos]
    rw [h.taken, ← hk, List.take_append_of_le_length (by simp), List.take_of_length_le (by simp)]

theorem pens_onDev (h : Pens (withFile fs path content) path cap q r) (data : List Byte)
    (hd : data.length ≤ P.most) :
    ∃ r', Res.onDev (P.writeRaw data) r = (.ok data.length, r')
      ∧ Pens (withFile fs path (Quill.inked content q.place data)) path cap
        ⟨q.place + data.length, q.kept⟩ r' := by
  obtain ⟨k, reads, hr⟩ := h.dev
  have e := raw_inked P data hd fs path q.place content k reads
  rw [← hr] at e
  exact ⟨_, Res.onDev_ok e, h.length, h.inside, h.clean, ⟨k, reads, rfl⟩, h.kept⟩

theorem pens_write (h : Pens (withFile fs path content) path cap q r) (hcap : cap ≤ P.most)
    (data : List Byte) (hd : data.length ≤ P.most) :
    ∃ r', Res.write P.writeRaw data r = (.ok data.length, r')
      ∧ Pens (withFile fs path (q.write cap data content).1) path cap (q.write cap data content).2
        r' := by
  have hl := h.length
  have hk := h.kept_length
  simp only [Res.write, Quill.write]
  rw [M.bind_ok (M.get_apply r)]
  by_cases hc : cap = 0
  · rw [if_pos hc, if_neg (by simp only [IoBuffer.capacity]; omega)]
    exact pens_onDev h data hd
  · rw [if_neg hc, if_pos (by simp only [IoBuffer.capacity]; omega)]
    simp only [Res.writeBuffered]
    rw [M.bind_ok (M.get_apply r)]
    by_cases hn : cap < q.kept.length + data.length
    · rw [if_pos hn, if_pos (by simp only [IoBuffer.capacity]; omega)]
      obtain ⟨r1, e1, h1, h2, h3⟩ := pens_flush h hcap
      rw [M.bind_ok e1]
      by_cases hb : cap < data.length
      · rw [if_pos hb, if_pos (by simp only [IoBuffer.capacity]; omega)]
        exact pens_onDev h1 data hd
      · rw [if_neg hb, if_neg (by simp only [IoBuffer.capacity]; omega)]
        exact pens_bufWrite h1 data (by omega)
    · rw [if_neg hn, if_neg (by simp only [IoBuffer.capacity]; omega)]
      exact pens_bufWrite h data (by omega)

theorem pens_to (h : Pens (withFile fs path content) path cap q r) (hcap : cap ≤ P.most)
    (goal : Goal) :
    ∃ r', Res.setPositionIO P.writeRaw P.seek (Disk.goalArgs goal).1 (Disk.goalArgs goal).2 r
        = (.ok (), r')
      ∧ Pens (withFile fs path (q.flush content).1) path cap
        ⟨goal.inFile P.clamps (q.flush content).1 (q.flush content).2.place, []⟩ r' := by
  obtain ⟨r1, e1, h1, h2, h3⟩ := pens_flush h hcap
  obtain ⟨k, reads, hd⟩ := h1.dev
  have e := FileDev.seek_goal P goal fs path (q.flush content).2.place .writeOnly (q.flush content).1 k
    reads
  rw [← hd] at e
  refine ⟨⟨r1.buf.setReadDirty true, ⟨withFile fs path (q.flush content).1, some ⟨path,
    goal.inFile P.clamps (q.flush content).1 (q.flush content).2.place, .writeOnly⟩, 0, reads⟩⟩,
    ?_, ?_⟩
  · simp only [Res.setPositionIO, M.noexcept_apply]
    rw [M.bind_ok e1, M.bind_ok (Res.onDev_ok e)]
    rfl
  · exact ⟨h1.length, Nat.zero_le _, fun _ => rfl, ⟨0, reads, rfl⟩,
      by simp [IoBuffer.pending, IoBuffer.setReadDirty, h3]⟩

theorem pens_position {files : Nat → Option (List Byte)} (h : Pens files path cap q r)
    (p : Option Nat) (mode : AccessMode) :
    FileObj.getPosition P ⟨r, p, mode⟩ = .ok (q.place + q.kept.length : Nat) := by
  obtain ⟨k, reads, hd⟩ := h.dev
  simp only [FileObj.getPosition, hd, h.kept_length, Int.natCast_add]

end Writing

/- ### Objects -/

/-- An object for reading. -/
structure AsReader (P : FilePlatform) (path cap : Nat) (g : Loupe) (f : FileObj) : Prop where
  mode : f.mode = .readOnly
  named : f.path = some path
  fits : cap ≤ P.most
  peers : ∀ files, Peers P files path cap g (Disk.load files f).res

/-- An object for writing. -/
structure AsWriter (P : FilePlatform) (path cap : Nat) (q : Quill) (f : FileObj) : Prop where
  mode : f.mode = .writeOnly
  named : f.path = some path
  fits : cap ≤ P.most
  pens : ∀ files, Pens files path cap q (Disk.load files f).res

theorem asReader_of {P : FilePlatform} {path cap : Nat} {g : Loupe} {r : Res FileDev}
    {files : Nat → Option (List Byte)} (hcap : cap ≤ P.most) (h : Peers P files path cap g r) :
    AsReader P path cap g ⟨r, some path, .readOnly⟩ := by
  refine ⟨rfl, rfl, hcap, fun files => ⟨h.length, h.clean, ?_, h.page⟩⟩
  obtain ⟨reads, hs, hd⟩ := h.dev
  exact ⟨reads, hs, by simp only [Disk.load, hd]⟩

theorem asWriter_of {P : FilePlatform} {path cap : Nat} {q : Quill} {r : Res FileDev}
    {files : Nat → Option (List Byte)} (hcap : cap ≤ P.most) (h : Pens files path cap q r) :
    AsWriter P path cap q ⟨r, some path, .writeOnly⟩ := by
  refine ⟨rfl, rfl, hcap, fun files => ⟨h.length, h.inside, h.clean, ?_, h.kept⟩⟩
  obtain ⟨k, reads, hd⟩ := h.dev
  exact ⟨k, reads, by simp only [Disk.load, hd]⟩

theorem Peers.files {P : FilePlatform} {path cap : Nat} {g : Loupe} {r : Res FileDev}
    {files : Nat → Option (List Byte)} (h : Peers P files path cap g r) : r.dev.files = files := by
  obtain ⟨reads, hs, hd⟩ := h.dev
  rw [hd]

theorem Pens.files {path cap : Nat} {q : Quill} {r : Res FileDev}
    {files : Nat → Option (List Byte)} (h : Pens files path cap q r) : r.dev.files = files := by
  obtain ⟨k, reads, hd⟩ := h.dev
  rw [hd]

namespace FileObj

variable {P : FilePlatform} {fs : Nat → Option (List Byte)} {path cap : Nat} {content : List Byte}
  {f : FileObj}

theorem onRes_reader {α : Type} {g g' : Loupe} {x : M (Res FileDev) α} {a : α}
    (h : AsReader P path cap g f)
    (e : ∃ r', x (Disk.load (withFile fs path content) f).res = (.ok a, r')
      ∧ Peers P (withFile fs path content) path cap g' r') :
    ∃ f', onRes x (Disk.load (withFile fs path content) f) = (.ok a, f')
      ∧ f'.res.dev.files = withFile fs path content ∧ AsReader P path cap g' f' := by
  obtain ⟨r', e, h'⟩ := e
  refine ⟨⟨r', some path, .readOnly⟩, ?_, h'.files, asReader_of h.fits h'⟩
  rw [onRes, e]
  simp only [Disk.load, h.mode, h.named]

theorem onRes_writer {α : Type} {q q' : Quill} {x : M (Res FileDev) α} {a : α} {content' : List Byte}
    (h : AsWriter P path cap q f)
    (e : ∃ r', x (Disk.load (withFile fs path content) f).res = (.ok a, r')
      ∧ Pens (withFile fs path content') path cap q' r') :
    ∃ f', onRes x (Disk.load (withFile fs path content) f) = (.ok a, f')
      ∧ f'.res.dev.files = withFile fs path content' ∧ AsWriter P path cap q' f' := by
  obtain ⟨r', e, h'⟩ := e
  refine ⟨⟨r', some path, .writeOnly⟩, ?_, h'.files, asWriter_of h.fits h'⟩
  rw [onRes, e]
  simp only [Disk.load, h.mode, h.named]

theorem read_reader {g : Loupe} {n : Nat} (h : AsReader P path cap g f) (hn : n ≤ P.most) :
    ∃ f', read P n (Disk.load (withFile fs path content) f)
        = (.ok ⟨(g.read cap content n).1, (g.read cap content n).1.length⟩, f')
      ∧ f'.res.dev.files = withFile fs path content
      ∧ AsReader P path cap (g.read cap content n).2 f' := by
  have e : read P n (Disk.load (withFile fs path content) f)
      = onRes (Res.read P.readRaw n) (Disk.load (withFile fs path content) f) := by
    unfold read
    rw [M.bind_ok (M.get_apply _)]
    simp only [Disk.load, h.mode]
  rw [e]
  exact onRes_reader h (peers_read (h.peers _) h.fits hn)

theorem write_writer {q : Quill} {data : List Byte} (h : AsWriter P path cap q f)
    (hn : data.length ≤ P.most) :
    ∃ f', write P data (Disk.load (withFile fs path content) f) = (.ok data.length, f')
      ∧ f'.res.dev.files = withFile fs path (q.write cap data content).1
      ∧ AsWriter P path cap (q.write cap data content).2 f' := by
  have e : write P data (Disk.load (withFile fs path content) f)
      = onRes (Res.write P.writeRaw data) (Disk.load (withFile fs path content) f) := by
    unfold write
    rw [M.bind_ok (M.get_apply _)]
    simp only [Disk.load, h.mode]
  rw [e]
  exact onRes_writer h (pens_write (h.pens _) h.fits data hn)

theorem flush_writer {q : Quill} (h : AsWriter P path cap q f) :
    ∃ f', flush P (Disk.load (withFile fs path content) f) = (.ok (), f')
      ∧ f'.res.dev.files = withFile fs path (q.flush content).1
      ∧ AsWriter P path cap (q.flush content).2 f' := by
  obtain ⟨r', e, h', -⟩ := pens_flush (h.pens (withFile fs path content)) h.fits
  exact onRes_writer h ⟨r', e, h'⟩

theorem close_writer {q : Quill} (h : AsWriter P path cap q f) :
    ∃ f', close P (Disk.load (withFile fs path content) f) = (.ok (), f')
      ∧ f'.res.dev.files = withFile fs path (q.flush content).1 := by
  obtain ⟨f', e, h', -⟩ := flush_writer (fs := fs) (content := content) h
  refine ⟨{ f' with res := { f'.res with dev := { f'.res.dev with fd := none } } }, ?_, h'⟩
  simp only [close, M.noexcept_apply]
  rw [M.bind_ok e]
  rfl

theorem close_reader {g : Loupe} (h : AsReader P path cap g f) :
    ∃ f', close P (Disk.load (withFile fs path content) f) = (.ok (), f')
      ∧ f'.res.dev.files = withFile fs path content := by
  have e : flush P (Disk.load (withFile fs path content) f)
      = (.ok (), Disk.load (withFile fs path content) f) := by
    rw [flush, onRes, Res.flush_clean _ _ (h.peers _).clean]
  refine ⟨{ f with res := { f.res with dev := { f.res.dev with
    files := withFile fs path content, fd := none } } }, ?_, rfl⟩
  simp only [close, M.noexcept_apply]
  rw [M.bind_ok e]
  rfl

theorem atEnd_of {p : Nat} (hp : f.path = some path)
    (e : getPosition P (Disk.load (withFile fs path content) f) = .ok (p : Nat)) :
    isAtEnd P (Disk.load (withFile fs path content) f) = .ok (decide (p = content.length)) := by
  simp only [isAtEnd, e]
  simp only [Disk.load, hp, Option.bind_some, withFile_self, Outcome.ok.injEq]
  rw [Bool.eq_iff_iff, beq_iff_eq, decide_eq_true_eq, Int.natCast_inj]

end FileObj

/- ### All of them -/

/-- What there is and what there is said to be. -/
def Agrees {α : Type} (R : Nat → α → FileObj → Prop) : Option (Nat × α) → Option FileObj → Prop
  | none, none => True
  | some (cap, a), some f => R cap a f
  | _, _ => False

/-- A disk on which the file and its objects are as the board says. -/
structure Boards (P : FilePlatform) (fs : Nat → Option (List Byte)) (path : Nat) (b : FileBoard)
    (d : Disk) : Prop where
  files : d.files = withFile fs path b.content
  readers : ∀ i, Agrees (AsReader P path) (b.readers i) (d.objects (2 * i + 1))
  writers : ∀ i, Agrees (AsWriter P path) (b.writers i) (d.objects (2 * i))

section Steps

variable {P : FilePlatform} {fs : Nat → Option (List Byte)} {path : Nat} {b : FileBoard} {d d' : Disk}

theorem boards_reader (h : Boards P fs path b d) {i : Nat} {o : Option FileObj}
    {x : Option (Nat × Loupe)} (ht : d.Turned (2 * i + 1) (withFile fs path b.content) o d')
    (ha : Agrees (AsReader P path) x o) : Boards P fs path (b.withReader i x) d' := by
  refine ⟨ht.files, fun j => ?_, fun j => ?_⟩
  · simp only [FileBoard.withReader]
    by_cases hj : j = i
    · subst hj
      rw [if_pos rfl, ht.same]
      exact ha
    · rw [if_neg hj, ht.other _ (by omega)]
      exact h.readers j
  · rw [ht.other _ (by omega)]
    exact h.writers j

theorem boards_writer (h : Boards P fs path b d) {i : Nat} {o : Option FileObj}
    {x : Option (Nat × Quill)} {content : List Byte}
    (ht : d.Turned (2 * i) (withFile fs path content) o d')
    (ha : Agrees (AsWriter P path) x o) : Boards P fs path (b.withWriter i content x) d' := by
  refine ⟨ht.files, fun j => ?_, fun j => ?_⟩
  · rw [ht.other _ (by omega)]
    exact h.readers j
  · simp only [FileBoard.withWriter]
    by_cases hj : j = i
    · subst hj
      rw [if_pos rfl, ht.same]
      exact ha
    · rw [if_neg hj, ht.other _ (by omega)]
      exact h.writers j

theorem Boards.reader (h : Boards P fs path b d) {i cap : Nat} {g : Loupe}
    (hi : b.readers i = some (cap, g)) :
    ∃ f, d.objects (2 * i + 1) = some f ∧ AsReader P path cap g f := by
  have := h.readers i
  rw [hi] at this
  cases ho : d.objects (2 * i + 1) with
  | none => rw [ho] at this; exact this.elim
  | some f => rw [ho] at this; exact ⟨f, rfl, this⟩

theorem Boards.writer (h : Boards P fs path b d) {i cap : Nat} {q : Quill}
    (hi : b.writers i = some (cap, q)) :
    ∃ f, d.objects (2 * i) = some f ∧ AsWriter P path cap q f := by
  have := h.writers i
  rw [hi] at this
  cases ho : d.objects (2 * i) with
  | none => rw [ho] at this; exact this.elim
  | some f => rw [ho] at this; exact ⟨f, rfl, this⟩

theorem Boards.noReader (h : Boards P fs path b d) {i : Nat} (hi : b.readers i = none) :
    d.objects (2 * i + 1) = none := by
  have := h.readers i
  rw [hi] at this
  cases ho : d.objects (2 * i + 1) with
  | none => rfl
  | some f => rw [ho] at this; exact this.elim

theorem Boards.noWriter (h : Boards P fs path b d) {i : Nat} (hi : b.writers i = none) :
    d.objects (2 * i) = none := by
  have := h.writers i
  rw [hi] at this
  cases ho : d.objects (2 * i) with
  | none => rfl
  | some f => rw [ho] at this; exact this.elim

theorem withReader_self (b : FileBoard) {i : Nat} {x : Option (Nat × Loupe)} (h : b.readers i = x) :
    b.withReader i x = b := by
  subst h
  simp only [FileBoard.withReader]
  congr 1
  funext j
  by_cases hj : j = i
  · rw [if_pos hj, hj]
  · rw [if_neg hj]

theorem withWriter_self (b : FileBoard) {i : Nat} {x : Option (Nat × Quill)} (h : b.writers i = x) :
    b.withWriter i b.content x = b := by
  subst h
  simp only [FileBoard.withWriter]
  congr 1
  funext j
  by_cases hj : j = i
  · rw [if_pos hj, hj]
  · rw [if_neg hj]

/-- What a step is to be. -/
def StepsAs (P : FilePlatform) (fs : Nat → Option (List Byte)) (path : Nat) (x : Outcome Seen × Disk) :
    Option (Seen × FileBoard) → Prop
  | none => x.1 = .ub
  | some (s, b) => ∃ d', x = (.ok s, d') ∧ Boards P fs path b d'

theorem use_missing {α : Type} {i : Nat} (x : M FileObj α) (h : d.objects i = none) :
    (Disk.use i x d).1 = .ub := by
  simp only [Disk.use, h]

/-- A step of a reader. -/
theorem stepsAs_reader {α : Type} (h : Boards P fs path b d) (i : Nat) (x : M FileObj α)
    (k : α → Seen) (y : Nat × Loupe → Seen × Option (Nat × Loupe))
    (hx : ∀ cap g f, b.readers i = some (cap, g) → AsReader P path cap g f →
      ∃ a f', x (Disk.load (withFile fs path b.content) f) = (.ok a, f')
        ∧ f'.res.dev.files = withFile fs path b.content ∧ (y (cap, g)).1 = k a
        ∧ Agrees (AsReader P path) (y (cap, g)).2 (some f')) :
    StepsAs P fs path ((Disk.use (2 * i + 1) x >>= fun a => pure (k a)) d)
      ((b.readers i).map fun z => ((y z).1, b.withReader i (y z).2)) := by
  cases hi : b.readers i with
  | none =>
    have e := use_missing x (h.noReader hi)
    rcases hu : Disk.use (2 * i + 1) x d with ⟨o, d1⟩
    rw [hu] at e
    have e' : o = .ub := e
    subst e'
    simp only [Option.map_none, StepsAs, M.bind_apply, hu]
  | some z =>
    obtain ⟨cap, g⟩ := z
    obtain ⟨f, hf, hr⟩ := h.reader hi
    obtain ⟨a, f', e, e1, e2, e3⟩ := hx cap g f hi hr
    obtain ⟨d1, e4, ht⟩ := Disk.use_ok hf (by rw [h.files]; exact e)
    rw [e1] at ht
    refine ⟨d1, ?_, boards_reader h ht e3⟩
    rw [M.bind_ok e4, e2]
    rfl

/-- A step of a writer. -/
theorem stepsAs_writer {α : Type} (h : Boards P fs path b d) (i : Nat) (x : M FileObj α)
    (k : α → Seen) (y : Nat × Quill → Seen × List Byte × Option (Nat × Quill))
    (hx : ∀ cap q f, b.writers i = some (cap, q) → AsWriter P path cap q f →
      ∃ a f', x (Disk.load (withFile fs path b.content) f) = (.ok a, f')
        ∧ f'.res.dev.files = withFile fs path (y (cap, q)).2.1 ∧ (y (cap, q)).1 = k a
        ∧ Agrees (AsWriter P path) (y (cap, q)).2.2 (some f')) :
    StepsAs P fs path ((Disk.use (2 * i) x >>= fun a => pure (k a)) d)
      ((b.writers i).map fun z => ((y z).1, b.withWriter i (y z).2.1 (y z).2.2)) := by
  cases hi : b.writers i with
  | none =>
    have e := use_missing x (h.noWriter hi)
    rcases hu : Disk.use (2 * i) x d with ⟨o, d1⟩
    rw [hu] at e
    have e' : o = .ub := e
    subst e'
    simp only [Option.map_none, StepsAs, M.bind_apply, hu]
  | some z =>
    obtain ⟨cap, q⟩ := z
    obtain ⟨f, hf, hr⟩ := h.writer hi
    obtain ⟨a, f', e, e1, e2, e3⟩ := hx cap q f hi hr
    obtain ⟨d1, e4, ht⟩ := Disk.use_ok hf (by rw [h.files]; exact e)
    rw [e1] at ht
    refine ⟨d1, ?_, boards_writer h ht e3⟩
    rw [M.bind_ok e4, e2]
    rfl

theorem destroy_missing {i : Nat} (h : d.objects i = none) : (Disk.destroy P i d).1 = .ub := by
  have e := use_missing (FileObj.close P) h
  rcases hu : Disk.use i (FileObj.close P) d with ⟨o, d1⟩
  rw [hu] at e
  have e' : o = .ub := e
  subst e'
  simp only [Disk.destroy, M.bind_apply, hu]

theorem drop_reader (h : Boards P fs path b d) {i cap : Nat} {g : Loupe}
    (hi : b.readers i = some (cap, g)) :
    ∃ d', Disk.destroy P (2 * i + 1) d = (.ok (), d')
      ∧ d.Turned (2 * i + 1) (withFile fs path b.content) none d' := by
  obtain ⟨f, hf, hr⟩ := h.reader hi
  obtain ⟨f', e, e1⟩ := FileObj.close_reader (fs := fs) (content := b.content) hr
  obtain ⟨d', e2, ht⟩ := Disk.destroy_ok hf (by rw [h.files]; exact e)
  rw [e1] at ht
  exact ⟨d', e2, ht⟩

theorem drop_writer (h : Boards P fs path b d) {i cap : Nat} {q : Quill}
    (hi : b.writers i = some (cap, q)) :
    ∃ d', Disk.destroy P (2 * i) d = (.ok (), d')
      ∧ d.Turned (2 * i) (withFile fs path (b.settled i)) none d' := by
  obtain ⟨f, hf, hr⟩ := h.writer hi
  obtain ⟨f', e, e1⟩ := FileObj.close_writer (fs := fs) (content := b.content) hr
  obtain ⟨d', e2, ht⟩ := Disk.destroy_ok hf (by rw [h.files]; exact e)
  rw [e1] at ht
  refine ⟨d', e2, ?_⟩
  simp only [FileBoard.settled, hi]
  exact ht

/-- The object of a reader or writer is gone if there was one. -/
theorem gone {i : Nat} {content : List Byte}
    (hx : (d.objects i).isSome →
      ∃ d', Disk.destroy P i d = (.ok (), d') ∧ d.Turned i (withFile fs path content) none d')
    (hn : d.objects i = none → d.files = withFile fs path content) :
    ∃ d', Disk.clear P i d = (.ok (), d') ∧ d.Turned i (withFile fs path content) none d' := by
  unfold Disk.clear
  cases ho : d.objects i with
  | none => exact ⟨d, rfl, hn ho, ho, fun _ _ => rfl⟩
  | some f => exact hx (by rw [ho]; rfl)

theorem construct_there (d : Disk) (i cap : Nat) (mode : AccessMode) {content : List Byte}
    (h : d.files = withFile fs path content) :
    ∃ d', Disk.construct P i cap [] path mode .fail d = (.ok (), d')
      ∧ d.Turned i (withFile fs path content) (some ⟨⟨IoBuffer.make cap,
        ⟨withFile fs path content, some ⟨path, 0, mode⟩, 0, []⟩⟩, some path, mode⟩) d' := by
  obtain ⟨d1, e1, h1⟩ := Disk.construct_ok P i cap [] path mode .fail d
  rw [FileObj.make_open P cap d.files [] path mode .fail (.inr (by rw [h, withFile_self]; rfl)), h,
    withFile_self, Option.getD_some, withFile_twice] at h1
  exact ⟨d1, e1, h1⟩

theorem step_newReader (h : Boards P fs path b d) (i cap : Nat) (hcap : cap ≤ P.most) :
    StepsAs P fs path (Disk.act P path (.newReader i cap) d) (b.act P.clamps (.newReader i cap)) := by
  have e0 : ∃ d1, Disk.clear P (2 * i + 1) d = (.ok (), d1)
      ∧ d.Turned (2 * i + 1) (withFile fs path b.content) none d1 := by
    refine gone (fun hs => ?_) fun _ => h.files
    cases hi : b.readers i with
    | none => rw [h.noReader hi] at hs; cases hs
    | some z => exact drop_reader h hi
  obtain ⟨d1, e1, h1⟩ := e0
  obtain ⟨d2, e2, h2⟩ := construct_there (P := P) d1 (2 * i + 1) cap .readOnly h1.files
  refine ⟨d2, ?_, boards_reader h (h1.trans h2) ?_⟩
  · simp only [Disk.act, Disk.renew]
    rw [M.bind_apply, M.bind_ok e1, e2]
    rfl
  · refine asReader_of hcap ⟨by simp [IoBuffer.make], rfl, ⟨[], ?_, rfl⟩, rfl, rfl⟩
    cases P <;> simp [FilePlatform.Steady]

theorem step_newWriter (h : Boards P fs path b d) (i cap : Nat) (hcap : cap ≤ P.most) :
    StepsAs P fs path (Disk.act P path (.newWriter i cap) d) (b.act P.clamps (.newWriter i cap)) := by
  have e0 : ∃ d1, Disk.clear P (2 * i) d = (.ok (), d1)
      ∧ d.Turned (2 * i) (withFile fs path (b.settled i)) none d1 := by
    refine gone (fun hs => ?_) fun hs => ?_
    · cases hi : b.writers i with
      | none => rw [h.noWriter hi] at hs; cases hs
      | some z => exact drop_writer h hi
    · cases hi : b.writers i with
      | none =>
        simp only [FileBoard.settled, hi]
        exact h.files
      | some z =>
        obtain ⟨f, hf, -⟩ := h.writer hi
        rw [hs] at hf
        cases hf
  obtain ⟨d1, e1, h1⟩ := e0
  obtain ⟨d2, e2, h2⟩ := construct_there (P := P) d1 (2 * i) cap .writeOnly h1.files
  refine ⟨d2, ?_, boards_writer h (h1.trans h2) ?_⟩
  · simp only [Disk.act, Disk.renew]
    rw [M.bind_apply, M.bind_ok e1, e2]
    rfl
  · exact asWriter_of hcap ⟨by simp [IoBuffer.make], Nat.zero_le _, fun _ => rfl, ⟨0, [], rfl⟩, rfl⟩

theorem step_dropReader (h : Boards P fs path b d) (i : Nat) :
    StepsAs P fs path (Disk.act P path (.dropReader i) d) (b.act P.clamps (.dropReader i)) := by
  simp only [Disk.act, FileBoard.act]
  cases hi : b.readers i with
  | none =>
    have e := destroy_missing (P := P) (h.noReader hi)
    rcases hu : Disk.destroy P (2 * i + 1) d with ⟨o, d1⟩
    rw [hu] at e
    have e' : o = .ub := e
    subst e'
    simp only [Option.map_none, StepsAs, M.bind_apply, hu]
  | some z =>
    obtain ⟨d1, e1, h1⟩ := drop_reader h hi
    refine ⟨d1, ?_, boards_reader h h1 trivial⟩
    rw [M.bind_ok e1]
    rfl

theorem step_dropWriter (h : Boards P fs path b d) (i : Nat) :
    StepsAs P fs path (Disk.act P path (.dropWriter i) d) (b.act P.clamps (.dropWriter i)) := by
  simp only [Disk.act, FileBoard.act]
  cases hi : b.writers i with
  | none =>
    have e := destroy_missing (P := P) (h.noWriter hi)
    rcases hu : Disk.destroy P (2 * i) d with ⟨o, d1⟩
    rw [hu] at e
    have e' : o = .ub := e
    subst e'
    simp only [Option.map_none, StepsAs, M.bind_apply, hu]
  | some z =>
    obtain ⟨d1, e1, h1⟩ := drop_writer h hi
    refine ⟨d1, ?_, boards_writer h h1 trivial⟩
    rw [M.bind_ok e1]
    rfl

theorem step_look_any (h : Boards P fs path b d) :
    StepsAs P fs path (Disk.act P path .look d) (b.act P.clamps .look) := by
  refine ⟨d, ?_, h⟩
  simp only [Disk.act, Disk.look, M.bind_apply, h.files, withFile_self]
  rfl

theorem step_assign (h : Boards P fs path b d) (content : List Byte) :
    StepsAs P fs path (Disk.act P path (.assign content) d) (b.act P.clamps (.assign content)) := by
  refine ⟨{ d with files := withFile d.files path content }, rfl, ?_, h.readers, h.writers⟩
  rw [h.files, withFile_twice]

theorem boards_step (h : Boards P fs path b d) (op : FileAct) (hf : op.Fits (· ≤ P.most)) :
    StepsAs P fs path (Disk.act P path op d) (b.act P.clamps op) := by
  cases op with
  | newReader i cap => exact step_newReader h i cap hf
  | newWriter i cap => exact step_newWriter h i cap hf
  | dropReader i => exact step_dropReader h i
  | dropWriter i => exact step_dropWriter h i
  | look => exact step_look_any h
  | assign content => exact step_assign h content
  | read i n =>
    refine stepsAs_reader h i (FileObj.read P n) (fun got => .bytes got.bytes got.count)
      (fun z => (.bytes (z.2.read z.1 b.content n).1 (z.2.read z.1 b.content n).1.length,
        some (z.1, (z.2.read z.1 b.content n).2))) fun cap g f _ hr => ?_
    obtain ⟨f', e, e1, e2⟩ := FileObj.read_reader (fs := fs) (content := b.content) hr hf
    exact ⟨_, f', e, e1, rfl, e2⟩
  | readerTo i goal =>
    refine stepsAs_reader h i (FileObj.setPosition P (Disk.goalArgs goal).1 (Disk.goalArgs goal).2)
      (fun _ => .done) (fun z => (.done, some (z.1, ⟨goal.inFile P.clamps b.content z.2.place, none⟩)))
      fun cap g f _ hr => ?_
    obtain ⟨f', e, e1, e2⟩ := FileObj.onRes_reader hr (peers_to (hr.peers (withFile fs path b.content))
      goal)
    exact ⟨_, f', e, e1, rfl, e2⟩
  | readerPlace i =>
    have := stepsAs_reader h i (fun f => (FileObj.getPosition P f, f)) (fun p => .place p)
      (fun z => (.place (z.2.position : Nat), some z)) fun cap g f _ hr =>
        ⟨_, _, Prod.ext (peers_position (hr.peers _) _ _) rfl, rfl, rfl, hr.mode, hr.named, hr.fits,
          hr.peers⟩
    simp only [FileBoard.act]
    cases hi : b.readers i with
    | none => rw [hi] at this; exact this
    | some z =>
      rw [hi, Option.map_some, withReader_self b hi] at this
      exact this
  | readerAtEnd i =>
    have := stepsAs_reader h i (fun f => (FileObj.isAtEnd P f, f)) (fun p => .atEnd p)
      (fun z => (.atEnd (z.2.position = b.content.length), some z)) fun cap g f _ hr =>
        ⟨_, _, Prod.ext (FileObj.atEnd_of hr.named (peers_position (hr.peers _) _ _)) rfl, rfl, rfl,
          hr.mode, hr.named, hr.fits, hr.peers⟩
    simp only [FileBoard.act]
    cases hi : b.readers i with
    | none => rw [hi] at this; exact this
    | some z =>
      rw [hi, Option.map_some, withReader_self b hi] at this
      exact this
  | write i data =>
    refine stepsAs_writer h i (FileObj.write P data) (fun n => .bytes [] n)
      (fun z => (.bytes [] data.length, (z.2.write z.1 data b.content).1,
        some (z.1, (z.2.write z.1 data b.content).2))) fun cap q f _ hr => ?_
    obtain ⟨f', e, e1, e2⟩ := FileObj.write_writer (fs := fs) (content := b.content) hr hf
    exact ⟨_, f', e, e1, rfl, e2⟩
  | flush i =>
    refine stepsAs_writer h i (FileObj.flush P) (fun _ => .done)
      (fun z => (.done, (z.2.flush b.content).1, some (z.1, (z.2.flush b.content).2)))
      fun cap q f _ hr => ?_
    obtain ⟨f', e, e1, e2⟩ := FileObj.flush_writer (fs := fs) (content := b.content) hr
    exact ⟨_, f', e, e1, rfl, e2⟩
  | writerTo i goal =>
    refine stepsAs_writer h i (FileObj.setPosition P (Disk.goalArgs goal).1 (Disk.goalArgs goal).2)
      (fun _ => .done) (fun z => (.done, (z.2.flush b.content).1, some (z.1,
        ⟨goal.inFile P.clamps (z.2.flush b.content).1 (z.2.flush b.content).2.place, []⟩)))
      fun cap q f _ hr => ?_
    obtain ⟨f', e, e1, e2⟩ := FileObj.onRes_writer hr (pens_to (hr.pens (withFile fs path b.content))
      hr.fits goal)
    exact ⟨_, f', e, e1, rfl, e2⟩
  | writerPlace i =>
    have := stepsAs_writer h i (fun f => (FileObj.getPosition P f, f)) (fun p => .place p)
      (fun z => (.place (z.2.place + z.2.kept.length : Nat), b.content, some z)) fun cap q f _ hr =>
        ⟨_, _, Prod.ext (pens_position (hr.pens _) _ _) rfl, rfl, rfl, hr.mode, hr.named, hr.fits,
          hr.pens⟩
    simp only [FileBoard.act]
    cases hi : b.writers i with
    | none => rw [hi] at this; exact this
    | some z =>
      rw [hi, Option.map_some, withWriter_self b hi] at this
      exact this
  | writerAtEnd i =>
    have := stepsAs_writer h i (fun f => (FileObj.isAtEnd P f, f)) (fun p => .atEnd p)
      (fun z => (.atEnd (z.2.place + z.2.kept.length = b.content.length), b.content, some z))
      fun cap q f _ hr =>
        ⟨_, _, Prod.ext (FileObj.atEnd_of hr.named (pens_position (hr.pens _) _ _)) rfl, rfl, rfl,
          hr.mode, hr.named, hr.fits, hr.pens⟩
    simp only [FileBoard.act]
    cases hi : b.writers i with
    | none => rw [hi] at this; exact this
    | some z =>
      rw [hi, Option.map_some, withWriter_self b hi] at this
      exact this

theorem boards_start (fs : Nat → Option (List Byte)) (content : List Byte) :
    Boards P fs path (FileBoard.start content) (Disk.make (withFile fs path content)) :=
  ⟨rfl, fun _ => trivial, fun _ => trivial⟩

theorem boards_all (h : Boards P fs path b d) (ops : List FileAct)
    (hf : ∀ op ∈ ops, op.Fits (· ≤ P.most)) :
    match b.actAll P.clamps ops with
    | none => (M.runList (Disk.act P path) ops d).1 = .ub
    | some (xs, b') => ∃ d', M.runList (Disk.act P path) ops d = (.ok xs, d')
      ∧ Boards P fs path b' d' := by
  induction ops generalizing b d with
  | nil => exact ⟨d, rfl, h⟩
  | cons op ops ih =>
    have h1 := boards_step h op (hf op List.mem_cons_self)
    simp only [FileBoard.actAll]
    cases ha : b.act P.clamps op with
    | none =>
      rw [ha] at h1
      have h2 : (Disk.act P path op d).1 = .ub := h1
      rcases hu : Disk.act P path op d with ⟨o, d1⟩
      rw [hu] at h2
      have e' : o = .ub := h2
      subst e'
      simp [M.runList, M.bind_apply, hu]
    | some z =>
      obtain ⟨x, b1⟩ := z
      rw [ha] at h1
      obtain ⟨d1, e1, h2⟩ := h1
      have h3 := ih h2 fun op ho => hf op (List.mem_cons_of_mem _ ho)
      simp only [bind, Option.bind_some]
      cases hb : b1.actAll P.clamps ops with
      | none =>
        rw [hb] at h3
        have h3 : (M.runList (Disk.act P path) ops d1).1 = .ub := h3
        rcases hu : M.runList (Disk.act P path) ops d1 with ⟨o, d2⟩
        rw [hu] at h3
        have e' : o = .ub := h3
        subst e'
        simp [M.runList, M.bind_apply, e1, hu]
      | some z =>
        obtain ⟨xs, b2⟩ := z
        rw [hb] at h3
        obtain ⟨d2, e2, h4⟩ := h3
        exact ⟨d2, M.runList_cons e1 e2, h4⟩

end Steps

end Cmp
