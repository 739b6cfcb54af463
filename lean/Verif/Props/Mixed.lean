import Verif.Props.Reopen

/-
C74 and C40 where they fail: writing right after reading, and reading right after writing.
-/

namespace Cmp

open Cmp.Spec (ArrayCursor turn turns pageSize pageRest PagesSuffice)

namespace Res

variable {δ : Type} {rd : Nat → ReadRequest → M δ ReadResult} {wr : List Byte → M δ Nat}
  {lim : Nat → Prop} {content : List Byte} {idle : Nat → δ → Prop} {loaded : Nat → Nat → δ → Prop}

theorem overlay_same (o : List Byte) (b p : Nat) (data : List Byte) (hb : b ≤ p) (hp : p ≤ o.length) :
    overlay o b ((o.drop b).take (p - b) ++ data) = overlay o p data := by
  have hl : ((o.drop b).take (p - b)).length = p - b := by
    rw [List.length_take, List.length_drop]
    omega
  have h0 : overlay o b ((o.drop b).take (p - b)) = o := by
    rw [overlay, hl, show b + (p - b) = p by omega, List.append_assoc]
    have h1 : (o.drop b).take (p - b) ++ o.drop p = o.drop b := by
      conv_rhs => rw [← List.take_append_drop (p - b) (o.drop b), List.drop_drop]
      rw [show b + (p - b) = p by omega]
    rw [h1, List.take_append_drop]
  rw [overlay_append _ _ _ _ (by omega), h0, hl, show b + (p - b) = p by omega]

theorem write_room {r : Res δ} {data : List Byte} (hc : 0 < r.buf.data.length)
    (hn : r.buf.position + data.length ≤ r.buf.data.length) : write wr data r = bufWrite data r := by
  rw [write, M.bind_ok (M.get_apply _), if_pos (show r.buf.capacity > 0 from hc), writeBuffered,
    M.bind_ok (M.get_apply _), if_neg (show ¬ r.buf.position + data.length > r.buf.capacity by
      rw [IoBuffer.capacity]; omega)]

/-- Writing into the page at hand and flushing stores the page up to the cursor and the data. -/
theorem write_page {cap p b : Nat} {r : Res δ} (h : Paged cap content loaded p b r) (hc : 0 < cap)
    {data : List Byte} (hn : p - b + data.length ≤ cap) {k : Nat} {d : δ}
    (hw : wr ((content.drop b).take (p - b) ++ data) r.dev = (.ok k, d)) :
    ∃ r' r'', write wr data r = (.ok data.length, r') ∧ flush wr r' = (.ok (), r'') ∧ r''.dev = d := by
  have h1 := h.size
  have h2 := h.position
  have h3 := h.length
  have h4 := h.within
  have hpos : r.buf.position = p - b := by omega
  have e1 := bufWrite_ok r data (by omega)
  rw [← write_room (wr := wr) (by omega) (by omega)] at e1
  have hdata : r.buf.data.take (p - b) = (content.drop b).take (p - b) := by
    have := congrArg (List.take (p - b)) h.data
    rwa [List.take_take, List.take_take, Nat.min_eq_left (by omega)] at this
  refine ⟨_, _, e1, flush_dirty (n := k) (d := d) rfl ?_ ?_, rfl⟩
  · simp only [List.length_append, List.length_take, List.length_drop]
    omega
  · simp only
    rw [← hw, ← hdata, hpos, List.take_left' ?_]
    rw [List.length_append, List.length_take]
    omega

/-- Writing more than the page at hand has room for. -/
theorem write_over {cap p b : Nat} {r : Res δ} (h : Paged cap content loaded p b r)
    (hd : r.buf.writeDirty = false) (hc : 0 < cap)
    {data : List Byte} (hn : cap < p - b + data.length) :
    (data.length ≤ cap → (write wr data r).1 = .ub)
    ∧ (cap < data.length → write wr data r = onDev (wr data) r) := by
  have h2 := h.position
  have h3 := h.length
  have e : write wr data r = (if data.length > r.buf.data.length then onDev (wr data) else bufWrite data) r := by
    rw [write, M.bind_ok (M.get_apply _), if_pos (show r.buf.capacity > 0 by rw [IoBuffer.capacity]; omega),
      writeBuffered, M.bind_ok (M.get_apply _), if_pos (show r.buf.position + data.length > r.buf.capacity by
        rw [IoBuffer.capacity]; omega), M.bind_ok (flush_clean wr r hd)]
    rfl
  constructor
  · intro hl
    rw [e, if_neg (by omega), bufWrite, IoBuffer.write,
      if_pos (show r.buf.position + data.length > r.buf.data.length by omega)]
  · intro hl
    rw [e, if_pos (by omega)]

/-- Reading while data wait to be written, when nothing is loaded: the data are gone, the bytes behind
the place where they were to go are delivered, and flushing writes these back. -/
theorem read_pending (S : Source rd lim content idle loaded) {cap q : Nat} {r : Res δ}
    (hl : r.buf.data.length = cap) (hd : r.buf.readDirty = true) (hw : r.buf.writeDirty = true)
    (hq : q ≤ content.length) (hi : idle q r.dev) (hcap : lim cap) (hc : 0 < cap) {n : Nat}
    (hn : n ≤ cap) :
    ∃ r', read rd n r = (.ok ⟨(content.drop q).take n, ((content.drop q).take n).length⟩, r')
      ∧ Paged cap content loaded (turn cap content.length (q, q) n).1 (turn cap content.length (q, q) n).2 r'
      ∧ r'.buf.writeDirty = true := by
  obtain ⟨r1, e1, h1⟩ := paged_start S hl hd hq hi hcap hc n
  have hw1 : (read rd n r).2.buf.writeDirty = true := read_writeDirty rd true n r hw
  obtain ⟨r', e, h'⟩ := readLoaded_turn S (s := (q, q)) h1 hcap (n := n) (by omega)
  rw [e1, e] at hw1
  exact ⟨r', e1.trans e, h', hw1⟩

/-- Flushing a page. -/
theorem flush_page {cap p b : Nat} {r : Res δ} (h : Paged cap content loaded p b r)
    (hd : r.buf.writeDirty = true) {k : Nat} {d : δ}
    (hw : wr ((content.drop b).take (p - b)) r.dev = (.ok k, d)) :
    flush wr r = (.ok (), ⟨{ r.buf with writeDirty := false, position := 0 }, d⟩) := by
  have h1 := h.size
  have h2 := h.position
  have h3 := h.length
  have h4 := h.within
  have hpos : r.buf.position = p - b := by omega
  have hdata : r.buf.data.take (p - b) = (content.drop b).take (p - b) := by
    have := congrArg (List.take (p - b)) h.data
    rwa [List.take_take, List.take_take, Nat.min_eq_left (by omega)] at this
  exact flush_dirty hd (by omega) (by rw [hpos, hdata]; exact hw)

end Res

/-- Writing to a file of which a page is loaded: at the first byte of the page. -/
theorem FilePlatform.writeRaw_loaded (P : FilePlatform) (fs : Nat → Option (List Byte)) (path : Nat)
    (content data : List Byte) (q k : Nat) (reads : List Nat) (hq : q ≤ content.length)
    (hd : data.length ≤ P.most) :
    P.writeRaw data ⟨FileDev.withFile fs path content, some ⟨path, q, .readAndWrite⟩, k, reads⟩ =
      (.ok data.length, ⟨FileDev.withFile fs path (Res.overlay content q data),
        some ⟨path, q + data.length, .readAndWrite⟩, k, reads⟩) := by
  cases P with
  | unix =>
    simp only [FilePlatform.writeRaw, FileDev.writeRaw, M.noexcept_apply]
    rw [FileDev.writeBlocks_exact FileDev.ssizeMax data hd fs path q .readAndWrite (by decide) content hq k reads]
    rfl
  | windows =>
    simp only [FilePlatform.writeRaw, FileDev.writeRawWindows, M.noexcept_apply]
    rw [FileDev.writeBlocks_exact FileDev.dwordMax data hd fs path q .readAndWrite (by decide) content hq k reads]
    rfl

theorem turns_le (cap len : Nat) (ns : List Nat) (s : Nat × Nat) (h : s.2 ≤ s.1) (hl : s.1 ≤ len)
    (hp : s.1 ≤ s.2 + cap) (hn : PagesSuffice cap len s ns) :
    (turns cap len s ns).2 ≤ (turns cap len s ns).1 ∧ (turns cap len s ns).1 ≤ len
      ∧ (turns cap len s ns).1 ≤ (turns cap len s ns).2 + cap := by
  induction ns generalizing s with
  | nil => exact ⟨h, hl, hp⟩
  | cons n ns ih =>
    obtain ⟨h1, h2⟩ := hn
    have e : turns cap len s (n :: ns) = turns cap len (turn cap len s n) ns := rfl
    rw [e]
    have hk : (turn cap len s n).2 ≤ (turn cap len s n).1 ∧ (turn cap len s n).1 ≤ len
        ∧ (turn cap len s n).1 ≤ (turn cap len s n).2 + cap := by
      rw [pageRest, pageSize] at h1
      rw [turn]
      split
      · refine ⟨?_, ?_, ?_⟩ <;> simp only <;> omega
      · refine ⟨?_, ?_, ?_⟩ <;> simp only <;> omega
    exact ih _ hk.1 hk.2.1 hk.2.2 h2

/-- Writing to a file right after reading, in full.  If what was read of the page at hand and the data
fit into the buffer, all is well; if the data alone fit, the behaviour is undefined; and larger
data are written over the page at hand from its first byte on. -/
theorem C74_exact_write (P : FilePlatform) (cap : Nat) (files : Nat → Option (List Byte)) (path : Nat)
    (reads : List Nat) (content data : List Byte) (ns : List Nat) (hc : files path = some content)
    (hs : P.Steady reads) (hcap : 0 < cap) (hmost : cap ≤ P.most) (hd : data.length ≤ P.most)
    (hne : ns ≠ []) (hn : PagesSuffice cap content.length (0, 0) ns) :
    let s := turns cap content.length (0, 0) ns
    ∃ outs f, M.runList (FileObj.read P) ns (freshFile P cap files reads path .readAndWrite)
        = (.ok outs, f)
      ∧ (outs.map (·.bytes)).flatten = content.take ns.sum ∧ s.1 = min ns.sum content.length
      ∧ (s.1 - s.2 + data.length ≤ cap → ∃ f' f'', FileObj.write P data f = (.ok data.length, f')
          ∧ FileObj.flush P f' = (.ok (), f'')
          ∧ f''.res.dev.files = FileDev.withFile files path
              ((⟨content, s.1⟩ : ArrayCursor).afterWrite data).bytes)
      ∧ (cap < s.1 - s.2 + data.length → data.length ≤ cap → (FileObj.write P data f).1 = .ub)
      ∧ (cap < data.length → ∃ f', FileObj.write P data f = (.ok data.length, f')
          ∧ f'.res.dev.files = FileDev.withFile files path
              ((⟨content, s.2⟩ : ArrayCursor).afterWrite data).bytes) := by
  intro s
  have hfs : files = FileDev.withFile files path content := by
    funext p
    by_cases hp : p = path <;> simp [FileDev.withFile, hp, hc]
  rw [freshFile_eq P cap files reads path .readAndWrite content hc]
  have hm : AccessMode.readAndWrite ≠ .writeOnly := by decide
  obtain ⟨r, e, -, hcons, -⟩ := Res.reads_start (P.source files path .readAndWrite hm content) (q := 0)
    (r := ⟨IoBuffer.make cap, ⟨files, some ⟨path, 0, .readAndWrite⟩, 0, reads⟩⟩)
    (by simp [IoBuffer.make]) rfl (Nat.zero_le _) ⟨reads, hs, by rw [← hfs]⟩ hmost hcap ns hn
  have hw : r.buf.writeDirty = false := by
    have := reads_writeDirty P.readRaw false ns
      (⟨IoBuffer.make cap, ⟨files, some ⟨path, 0, .readAndWrite⟩, 0, reads⟩⟩) rfl
    rwa [e] at this
  have ef := FileObj.reads_onRes (P := P) (f := ⟨⟨IoBuffer.make cap,
    ⟨files, some ⟨path, 0, .readAndWrite⟩, 0, reads⟩⟩, some path, .readAndWrite⟩) hm e
  have h := hcons hne
  change Res.Paged cap content _ s.1 s.2 r at h
  obtain ⟨reads', k, hk, hs', hdev⟩ := h.loaded
  obtain ⟨hle, hin, -⟩ := turns_le cap content.length ns (0, 0) (Nat.le_refl _) (Nat.zero_le _) (by simp) hn
  change s.2 ≤ s.1 at hle
  change s.1 ≤ content.length at hin
  have hwrite : ∀ data, data.length ≤ P.most → P.writeRaw data r.dev = (.ok data.length,
      ⟨FileDev.withFile files path (Res.overlay content s.2 data),
        some ⟨path, s.2 + data.length, .readAndWrite⟩, k, reads'⟩) := by
    intro data hd
    rw [hdev]
    exact P.writeRaw_loaded files path content data s.2 k reads' (by omega) hd
  have hover : ∀ q, ((⟨content, q⟩ : ArrayCursor).afterWrite data).bytes = Res.overlay content q data :=
    fun _ => rfl
  refine ⟨_, _, ef, ?_, ?_, fun hfit => ?_, fun hov hl => ?_, fun hl => ?_⟩
  · have := (⟨content, 0⟩ : ArrayCursor).reads_flatten ns
    simpa [List.map_map, Function.comp_def] using this
  · have : ∀ (ns : List Nat) (t : Nat × Nat), t.1 ≤ content.length →
        (turns cap content.length t ns).1 = min (t.1 + ns.sum) content.length := by
      intro ns
      induction ns with
      | nil => intro t ht; simp [turns, ht]
      | cons n ns ih =>
        intro t ht
        have e : turns cap content.length t (n :: ns)
          = turns cap content.length (turn cap content.length t n) ns := rfl
        rw [e, ih _ (by rw [Res.turn_fst]; omega), Res.turn_fst, List.sum_cons]
        omega
    have := this ns (0, 0) (Nat.zero_le _)
    simpa using this
  · have hlen : ((content.drop s.2).take (s.1 - s.2) ++ data).length = s.1 - s.2 + data.length := by
      rw [List.length_append, List.length_take, List.length_drop]
      omega
    obtain ⟨r', r'', e1, e2, e3⟩ := Res.write_page h hcap hfit (hwrite _ (by omega))
    refine ⟨_, _, FileObj.onRes_rep e1, FileObj.onRes_rep e2, ?_⟩
    simp only [e3, hover, Res.overlay_same content s.2 s.1 data hle hin]
  · have := (Res.write_over (wr := P.writeRaw) h hw hcap hov).1 hl
    exact this
  · have e1 := (Res.write_over (wr := P.writeRaw) h hw hcap (data := data) (by omega)).2 hl
    rw [Res.onDev_ok (hwrite data hd)] at e1
    exact ⟨_, FileObj.onRes_rep e1, by rw [hover]⟩

/-- Reading from a file right after writing, in full: if the data are still in the buffer, they are
lost; the bytes from where they should have gone are delivered, and the file stays as it was. -/
theorem C74_exact_read (P : FilePlatform) (cap : Nat) (files : Nat → Option (List Byte)) (path : Nat)
    (reads : List Nat) (content data : List Byte) (k n : Nat) (hc : files path = some content)
    (hs : P.Steady reads) (hcap : 0 < cap) (hmost : cap ≤ P.most)
    (hfit : data.length ≤ cap) (hk : k ≤ content.length) (hn : n ≤ cap) :
    ∃ f₁ f₂ f₃ f₄, FileObj.setPosition P k .begin (freshFile P cap files reads path .readAndWrite)
        = (.ok (), f₁)
      ∧ FileObj.write P data f₁ = (.ok data.length, f₂)
      ∧ FileObj.read P n f₂ = (.ok ⟨(content.drop k).take n, ((content.drop k).take n).length⟩, f₃)
      ∧ FileObj.flush P f₃ = (.ok (), f₄) ∧ f₄.res.dev.files = files := by
  have hfs : files = FileDev.withFile files path content := by
    funext p
    by_cases hp : p = path <;> simp [FileDev.withFile, hp, hc]
  rw [freshFile_eq P cap files reads path .readAndWrite content hc]
  have hm : AccessMode.readAndWrite ≠ .writeOnly := by decide
  have e1 : Res.setPositionIO P.writeRaw P.seek k .begin
      ⟨IoBuffer.make cap, ⟨files, some ⟨path, 0, .readAndWrite⟩, 0, reads⟩⟩ =
      (.ok (), ⟨(IoBuffer.make cap).setReadDirty true,
        ⟨files, some ⟨path, k, .readAndWrite⟩, 0, reads⟩⟩) := by
    rw [Res.setPositionIO, M.noexcept_apply, M.bind_ok (Res.flush_clean _ _ rfl),
      M.bind_ok (Res.onDev_ok (P.seeks.begin k files path 0 .readAndWrite 0 reads))]
    rfl
  have hl0 : ((IoBuffer.make cap).setReadDirty true).data.length = cap := by
    simp [IoBuffer.make, IoBuffer.setReadDirty]
  have hp0 : ((IoBuffer.make cap).setReadDirty true).position = 0 := rfl
  generalize hb : (IoBuffer.make cap).setReadDirty true = b at *
  have hrd : b.readDirty = true := by rw [← hb]; rfl
  have e2 := Res.bufWrite_ok (⟨b, ⟨files, some ⟨path, k, .readAndWrite⟩, 0, reads⟩⟩ : Res FileDev) data
    (by simp only; omega)
  rw [← Res.write_room (wr := P.writeRaw) (by simp only; omega) (by simp only; omega)] at e2
  obtain ⟨r', e3, h3, hw3⟩ := Res.read_pending (P.source files path .readAndWrite hm content) (cap := cap)
    (q := k) (n := n) (r := ⟨{ b with
      data := b.data.take b.position ++ data ++ b.data.drop (b.position + data.length)
      position := b.position + data.length
      writeDirty := true }, ⟨files, some ⟨path, k, .readAndWrite⟩, 0, reads⟩⟩)
    (by simp only [List.length_append, List.length_take, List.length_drop]; omega) hrd rfl hk
    ⟨reads, hs, by rw [← hfs]⟩ hmost hcap hn
  have hs1 := h3.size
  have hs2 := h3.position
  have hs3 := h3.within
  have hs4 := h3.inside
  generalize turn cap content.length (k, k) n = s at h3 hs1 hs2 hs4
  obtain ⟨reads', j, hj, hs', hdev⟩ := h3.loaded
  have e4 := Res.flush_page (wr := P.writeRaw) h3 hw3 (k := ((content.drop s.2).take (s.1 - s.2)).length)
    (d := ⟨FileDev.withFile files path (Res.overlay content s.2 ((content.drop s.2).take (s.1 - s.2))),
        some ⟨path, s.2 + ((content.drop s.2).take (s.1 - s.2)).length, .readAndWrite⟩, j, reads'⟩) (by
    rw [hdev]
    refine P.writeRaw_loaded files path content _ s.2 j reads' (by omega) ?_
    rw [List.length_take]
    omega)
  refine ⟨_, _, _, _, FileObj.onRes_rep e1, FileObj.onRes_rep e2, FileObj.onRes_rep e3,
    FileObj.onRes_rep e4, ?_⟩
  have := Res.overlay_same content s.2 s.1 [] (by omega) hs4
  rw [List.append_nil, Res.overlay_nil] at this
  simp only [this]
  exact hfs.symm

/-- Three of ten bytes are read through a buffer of four: one byte can then be written, two cannot,
and five end up at the beginning. -/
example : PagesSuffice 4 10 (0, 0) [3] ∧ turns 4 10 (0, 0) [3] = (3, 0) ∧ 3 - 0 + 1 ≤ 4 ∧ 4 < 3 - 0 + 2
    ∧ ((⟨[0, 1, 2, 3, 4, 5, 6, 7, 8, 9], 0⟩ : ArrayCursor).afterWrite [91, 92, 93, 94, 95]).bytes
      = [91, 92, 93, 94, 95, 5, 6, 7, 8, 9] := by decide

/-! ### Containers of bytes -/

/-- What writing at byte `q` makes of a container of bytes: if it goes across the end, as many zeros as
there were bytes behind `q` are left over (see C43). -/
def Spec.ctrWritten (content : List Byte) (q p : Nat) (data : List Byte) : List Byte :=
  ((⟨content, p⟩ : ArrayCursor).afterWrite data).bytes
    ++ List.replicate (if p + data.length > content.length then content.length - q else 0) 0

theorem Ctr.writeRaw_loaded (content data : List Byte) (q k : Nat) (hq : q ≤ content.length) :
    Ctr.writeRaw data ⟨1, content, q, k⟩ =
      (.ok data.length, ⟨1, Spec.ctrWritten content q q data, (q : Int) + data.length, k⟩) := by
  have h0 : ¬ ((q : Int) < 0) := by omega
  rw [Ctr.writeRaw, if_neg h0]
  simp only [Int.toNat_natCast, Nat.div_one, Nat.mul_one]
  by_cases hx : q + data.length > content.length
  · rw [if_pos hx, if_neg (by rw [List.length_append, List.length_replicate]; omega)]
    simp only [Spec.ctrWritten, if_pos hx, ArrayCursor.afterWrite]
    rw [List.take_append_of_le_length hq, List.drop_append, List.drop_eq_nil_of_le (show content.length ≤ q + data.length by omega), List.drop_replicate,
      show data.length - (q + data.length - content.length) = content.length - q by omega]
    simp
  · rw [if_neg hx, if_neg hx]
    simp only [Spec.ctrWritten, if_neg hx, ArrayCursor.afterWrite]
    simp

/-- Writing to a container of bytes right after reading, in full. -/
theorem C40_exact_write (cap : Nat) (content data : List Byte) (ns : List Nat) (hcap : 0 < cap)
    (hne : ns ≠ []) (hn : PagesSuffice cap content.length (0, 0) ns) :
    let s := turns cap content.length (0, 0) ns
    ∃ outs r, M.runList (Res.read Ctr.readRaw) ns (freshCtr cap 1 content) = (.ok outs, r)
      ∧ (outs.map (·.bytes)).flatten = content.take ns.sum
      ∧ (s.1 - s.2 + data.length ≤ cap → ∃ r' r'', Res.write Ctr.writeRaw data r = (.ok data.length, r')
          ∧ Res.flush Ctr.writeRaw r' = (.ok (), r'')
          ∧ r''.dev.content = Spec.ctrWritten content s.2 s.1 data)
      ∧ (cap < s.1 - s.2 + data.length → data.length ≤ cap →
          (Res.write Ctr.writeRaw data r).1 = .ub)
      ∧ (cap < data.length → ∃ r', Res.write Ctr.writeRaw data r = (.ok data.length, r')
          ∧ r'.dev.content = Spec.ctrWritten content s.2 s.2 data) := by
  intro s
  obtain ⟨r, e, -, hcons, -⟩ := Res.reads_start (Ctr.source 1 content) (q := 0) (r := freshCtr cap 1 content)
    (by simp [freshCtr, IoBuffer.make]) rfl (Nat.zero_le _) ⟨rfl, rfl, rfl, rfl⟩ trivial hcap ns hn
  have hw : r.buf.writeDirty = false := by
    have := reads_writeDirty Ctr.readRaw false ns (freshCtr cap 1 content) rfl
    rwa [e] at this
  have h := hcons hne
  change Res.Paged cap content _ s.1 s.2 r at h
  have hl := h.loaded
  obtain ⟨hle, hin, -⟩ := turns_le cap content.length ns (0, 0) (Nat.le_refl _) (Nat.zero_le _) (by simp) hn
  change s.2 ≤ s.1 at hle
  change s.1 ≤ content.length at hin
  have hdev : r.dev = ⟨1, content, (s.2 : Int), r.dev.lastFill⟩ := by
    have h1 := hl.content_eq
    have h2 := hl.elem_eq
    have h3 := hl.lastFill
    have h4 := hl.position
    obtain ⟨b, el, c, p, k⟩ := r
    simp only at h1 h2 h3 h4
    subst h1 h2
    simp only [Ctr.mk.injEq, true_and, and_true]
    omega
  have hwrite : ∀ data, Ctr.writeRaw data r.dev = (.ok data.length,
      ⟨1, Spec.ctrWritten content s.2 s.2 data, (s.2 : Int) + data.length, r.dev.lastFill⟩) := by
    intro data
    rw [hdev]
    exact Ctr.writeRaw_loaded content data s.2 _ (by omega)
  refine ⟨_, r, e, ?_, fun hfit => ?_, fun hov hl => ?_, fun hl => ?_⟩
  · have := (⟨content, 0⟩ : ArrayCursor).reads_flatten ns
    simpa [List.map_map, Function.comp_def] using this
  · obtain ⟨r', r'', e1, e2, e3⟩ := Res.write_page h hcap hfit (hwrite _)
    refine ⟨_, _, e1, e2, ?_⟩
    have hlen : ((content.drop s.2).take (s.1 - s.2)).length = s.1 - s.2 := by
      rw [List.length_take, List.length_drop]
      omega
    have := Res.overlay_same content s.2 s.1 data hle hin
    have h0 : ∀ q data, ((⟨content, q⟩ : ArrayCursor).afterWrite data).bytes
      = Res.overlay content q data := fun _ _ => rfl
    simp only [e3, Spec.ctrWritten, h0, this, List.length_append, hlen]
    rw [show s.2 + (s.1 - s.2 + data.length) = s.1 + data.length by omega]
  · exact (Res.write_over (wr := Ctr.writeRaw) h hw hcap hov).1 hl
  · have e1 := (Res.write_over (wr := Ctr.writeRaw) h hw hcap (data := data) (by omega)).2 hl
    rw [Res.onDev_ok (hwrite data)] at e1
    exact ⟨_, e1, rfl⟩

/-- Reading from a container of bytes right after writing, in full: data that are still in the buffer are
lost. -/
theorem C40_exact_read (cap : Nat) (content data : List Byte) (k n : Nat) (hcap : 0 < cap)
    (hfit : data.length ≤ cap) (hk : k ≤ content.length) (hn : n ≤ cap) :
    ∃ r₁ r₂ r₃ r₄, Res.setPositionIO Ctr.writeRaw Ctr.seek k .begin (freshCtr cap 1 content)
        = (.ok (), r₁)
      ∧ Res.write Ctr.writeRaw data r₁ = (.ok data.length, r₂)
      ∧ Res.read Ctr.readRaw n r₂ = (.ok ⟨(content.drop k).take n, ((content.drop k).take n).length⟩, r₃)
      ∧ Res.flush Ctr.writeRaw r₃ = (.ok (), r₄) ∧ r₄.dev.content = content := by
  have e1 : Res.setPositionIO Ctr.writeRaw Ctr.seek k .begin (freshCtr cap 1 content) =
      (.ok (), ⟨(IoBuffer.make cap).setReadDirty true, ⟨1, content, k, 0⟩⟩) := by
    rw [Res.setPositionIO, M.noexcept_apply, M.bind_ok (Res.flush_clean _ _ rfl)]
    simp [freshCtr, Ctr.make, Res.onDev, Ctr.seek, M.bind_apply, M.modify_apply, Outcome.noexcept]
  have hl0 : ((IoBuffer.make cap).setReadDirty true).data.length = cap := by
    simp [IoBuffer.make, IoBuffer.setReadDirty]
  have hp0 : ((IoBuffer.make cap).setReadDirty true).position = 0 := rfl
  generalize hb : (IoBuffer.make cap).setReadDirty true = b at *
  have hrd : b.readDirty = true := by rw [← hb]; rfl
  have e2 := Res.bufWrite_ok (⟨b, ⟨1, content, k, 0⟩⟩ : Res Ctr) data (by simp only; omega)
  rw [← Res.write_room (wr := Ctr.writeRaw) (by simp only; omega) (by simp only; omega)] at e2
  obtain ⟨r', e3, h3, hw3⟩ := Res.read_pending (Ctr.source 1 content) (cap := cap)
    (q := k) (n := n) (r := ⟨{ b with
      data := b.data.take b.position ++ data ++ b.data.drop (b.position + data.length)
      position := b.position + data.length
      writeDirty := true }, ⟨1, content, k, 0⟩⟩)
    (by simp only [List.length_append, List.length_take, List.length_drop]; omega) hrd rfl hk
    ⟨rfl, rfl, rfl, rfl⟩ trivial hcap hn
  have hs1 := h3.size
  have hs2 := h3.position
  have hs3 := h3.within
  have hs4 := h3.inside
  generalize turn cap content.length (k, k) n = s at h3 hs1 hs2 hs4
  have hl := h3.loaded
  have hdev : r'.dev = ⟨1, content, (s.2 : Int), r'.dev.lastFill⟩ := by
    have h1 := hl.content_eq
    have h2 := hl.elem_eq
    have h3 := hl.lastFill
    have h4 := hl.position
    obtain ⟨b, el, c, p, k⟩ := r'
    simp only at h1 h2 h3 h4
    subst h1 h2
    simp only [Ctr.mk.injEq, true_and, and_true]
    omega
  have e4 := Res.flush_page (wr := Ctr.writeRaw) h3 hw3 (k := ((content.drop s.2).take (s.1 - s.2)).length)
    (d := ⟨1, Spec.ctrWritten content s.2 s.2 ((content.drop s.2).take (s.1 - s.2)),
        (s.2 : Int) + ((content.drop s.2).take (s.1 - s.2)).length, r'.dev.lastFill⟩) (by
    rw [hdev]
    exact Ctr.writeRaw_loaded content _ s.2 _ (by omega))
  refine ⟨_, _, _, _, e1, e2, e3, e4, ?_⟩
  have h1 := Res.overlay_same content s.2 s.1 [] (by omega) hs4
  rw [List.append_nil, Res.overlay_nil] at h1
  have hlen : ((content.drop s.2).take (s.1 - s.2)).length = s.1 - s.2 := by
    rw [List.length_take, List.length_drop]
    omega
  have h0 : ∀ q data, ((⟨content, q⟩ : ArrayCursor).afterWrite data).bytes
    = Res.overlay content q data := fun _ _ => rfl
  simp only [Spec.ctrWritten, h0, h1, hlen]
  rw [if_neg (by omega)]
  simp

/-- All of three bytes are read and one is appended: three zeros come with it. -/
example : PagesSuffice 4 3 (0, 0) [3] ∧ turns 4 3 (0, 0) [3] = (3, 0)
    ∧ Spec.ctrWritten [1, 2, 3] 0 3 [9] = [1, 2, 3, 9, 0, 0, 0] := by decide

end Cmp
