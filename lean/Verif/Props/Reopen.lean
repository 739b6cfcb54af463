import Verif.Props.File
import Verif.Props.SeekFile

/-
C46 in full: what is read after `open`, from every state of the object.
-/

namespace Cmp

open Cmp.Spec (ArrayCursor turn turns pageSize pageRest PagesSuffice)

namespace FilePlatform

/-- Loading the buffer, whether the next byte is inside of the file or behind its end. -/
theorem fill_anywhere (P : FilePlatform) (fs : Nat → Option (List Byte)) (path : Nat)
    (mode : AccessMode) (hm : mode ≠ .writeOnly) (content : List Byte) (n q : Nat) (d : FileDev)
    (hn : n ≤ P.most) (h : FileDev.Idle P.Steady fs path mode content q d
      ∨ ∃ b, FileDev.Loaded P.Steady fs path mode content b q d) :
    ∃ d', P.readRaw n .fillBuffer d =
        (.ok ⟨(content.drop q).take n, ((content.drop q).take n).length⟩, d')
      ∧ FileDev.Loaded P.Steady fs path mode content q
          (q + ((content.drop q).take n).length) d' := by
  cases P with
  | unix => exact FileDev.fill_any FileDev.seeks_unix FileDev.exact_unix _ fs path mode hm content n q d hn h
  | windows =>
    exact FileDev.fill_any FileDev.seeks_windows FileDev.exact_windows _ fs path mode hm content n q d hn h

/-- A file of which `k` bytes count as loaded although the buffer holds `page`: a source of that page
and then of what comes after the first `k` bytes. -/
theorem source_stale (P : FilePlatform) (fs : Nat → Option (List Byte)) (path : Nat)
    (mode : AccessMode) (hm : mode ≠ .writeOnly) (content page : List Byte) (k : Nat) :
    Res.Source P.readRaw (· ≤ P.most) (page ++ content.drop k) (fun _ _ => False)
      (fun _ q d => page.length ≤ q ∧ ∃ b,
        FileDev.Loaded P.Steady fs path mode content b (q - page.length + k) d) where
  fill := by
    rintro n q d hn (h | ⟨_, hq, b, h⟩) -
    · exact h.elim
    · obtain ⟨d', e, h'⟩ := P.fill_anywhere fs path mode hm content n _ d hn (.inr ⟨b, h⟩)
      have hdrop : (page ++ content.drop k).drop q = content.drop (q - page.length + k) := by
        rw [List.drop_append, List.drop_eq_nil_of_le hq, List.nil_append, List.drop_drop, Nat.add_comm]
      rw [← hdrop] at e h'
      generalize ((page ++ content.drop k).drop q).take n = got at e h'
      refine ⟨d', e, by omega, q - page.length + k, ?_⟩
      rwa [show q + got.length - page.length + k = q - page.length + k + got.length by omega]
  lean := fun _ _ _ _ h => h.elim

end FilePlatform

theorem reads_drop (bytes : List Byte) (p q : Nat) (ns : List Nat) :
    (⟨bytes, p + q⟩ : ArrayCursor).reads ns = (⟨bytes.drop p, q⟩ : ArrayCursor).reads ns := by
  induction ns generalizing q with
  | nil => rfl
  | cons n ns ih =>
    have e : (⟨bytes, p + q⟩ : ArrayCursor).next n = (⟨bytes.drop p, q⟩ : ArrayCursor).next n := by
      simp only [ArrayCursor.next, List.drop_drop]
    simp only [ArrayCursor.reads, ArrayCursor.afterRead, e, Nat.add_assoc]
    rw [ih]

/-- Without a buffer the state of the buffer does not matter. -/
theorem Res.reads_unbuffered {δ : Type} {raw : Nat → ReadRequest → M δ ReadResult} {lim : Nat → Prop}
    {content : List Byte} {idle : Nat → δ → Prop} {loaded : Nat → Nat → δ → Prop}
    (S : Source raw lim content idle loaded) {q : Nat} {r : Res δ} (h0 : r.buf.data.length = 0)
    (hq : q ≤ content.length) (hi : idle q r.dev) (ns : List Nat) (hlim : ∀ n ∈ ns, lim n) :
    ∃ r', M.runList (read raw) ns r =
      (.ok (((⟨content, q⟩ : ArrayCursor).reads ns).map fun g => ⟨g, g.length⟩), r') := by
  induction ns generalizing q r with
  | nil => exact ⟨r, rfl⟩
  | cons n ns ih =>
    obtain ⟨d', e, hi'⟩ := S.lean n q r.dev (hlim n (by simp)) hi hq
    have e1 : read raw n r = (.ok ⟨(content.drop q).take n, ((content.drop q).take n).length⟩,
        { r with dev := d' }) := by
      rw [read_unbuffered _ _ _ h0, onDev_ok e]
    obtain ⟨r', e2⟩ := ih (r := { r with dev := d' }) h0 (by
      rw [List.length_take, List.length_drop]; omega) hi' (fun m hm => hlim m (by simp [hm]))
    exact ⟨r', by
      rw [M.runList_cons e1 e2]
      rfl⟩

/-- While nothing is loaded the position in the buffer does not matter. -/
theorem Res.read_dirty {δ : Type} {raw : Nat → ReadRequest → M δ ReadResult} {r : Res δ} (n : Nat)
    (hd : r.buf.readDirty = true) (h0 : 0 < r.buf.data.length) {result : ReadResult} {d : δ}
    (h : raw r.buf.data.length .fillBuffer r.dev = (.ok result, d)) :
    read raw n r = read raw n { r with buf := { r.buf with position := 0 } } := by
  have e1 := (read_buffered raw r n h0).trans (readBuffered_dirty hd h)
  have e2 := (read_buffered raw { r with buf := { r.buf with position := 0 } } n h0).trans
    (readBuffered_dirty hd h)
  rw [e1, e2]
  rfl

/-- C46 in full: what position, end test and reading say after `open` succeeded, whatever the state of
the object before.  The bytes that are left in the buffer come first, and as many bytes of the new
file as were last loaded into the buffer are left out; the position counts what was delivered from the
buffer; and the end is that of the file named in the constructor. -/
theorem C46_exact (P : FilePlatform) (f₀ f₁ : FileObj) (path : Nat) (mode : AccessMode)
    (absent : IfNotThere) (opened : FileObj.openFile P path mode absent f₀ = (.ok true, f₁)) :
    let buf := f₁.res.buf
    let cap := buf.data.length
    let left := if buf.readDirty = true then [] else (buf.data.take buf.size).drop buf.position
    let skipped := f₁.res.dev.lastFill
    ∃ content, f₁.res.dev.files path = some content
      ∧ (f₀.res.buf.writeDirty = false ∨ FileObj.isOpen f₀ = false →
          f₁.res.buf = f₀.res.buf ∧ f₁.res.dev.lastFill = f₀.res.dev.lastFill
          ∧ content = (f₀.res.dev.files path).getD [])
      ∧ FileObj.getPosition P f₁ = .ok buf.position
      ∧ FileObj.isAtEnd P f₁ = (match f₀.path.bind f₁.res.dev.files with
          | some named => .ok (buf.position == named.length)
          | none => .terminate)
      ∧ (mode ≠ .writeOnly → P.Steady f₁.res.dev.reads → cap ≤ P.most →
          (buf.readDirty = false → buf.position ≤ buf.size ∧ buf.size ≤ cap) →
          (buf.readDirty = true ∨ cap = 0 → skipped = 0) →
          ∀ ns : List Nat, (∀ n ∈ ns, n ≤ P.most) → (cap = 0 ∨ ∀ n ∈ ns, n ≤ cap) →
          ∃ f₂, M.runList (FileObj.read P) ns f₁ =
            (.ok (((⟨left ++ content.drop skipped, 0⟩ : ArrayCursor).reads ns).map
              fun g => ⟨g, g.length⟩), f₂)) := by
  intro buf cap left skipped
  -- the state before the system is asked to open the file
  obtain ⟨r, hop, hsame⟩ : ∃ r : Res FileDev,
      FileObj.openClosed P path mode absent { f₀ with res := r } = (.ok true, f₁)
      ∧ (f₀.res.buf.writeDirty = false ∨ FileObj.isOpen f₀ = false →
          r.buf = f₀.res.buf ∧ r.dev.lastFill = f₀.res.dev.lastFill
          ∧ r.dev.files = f₀.res.dev.files) := by
    by_cases ho : FileObj.isOpen f₀ = true
    · obtain ⟨r, hfl, hop⟩ := FileObj.openFile_open ho opened
      refine ⟨_, hop, fun h => ?_⟩
      have hw : f₀.res.buf.writeDirty = false := by
        rcases h with h | h
        · exact h
        · rw [ho] at h; cases h
      rw [Res.flush_clean P.writeRaw _ hw] at hfl
      cases hfl
      exact ⟨rfl, rfl, rfl⟩
    · refine ⟨f₀.res, ?_, fun _ => ⟨rfl, rfl, rfl⟩⟩
      simp only [FileObj.openFile, M.noexcept_apply] at opened
      rw [M.bind_ok (M.get_apply f₀), if_neg ho] at opened
      generalize FileObj.openClosed P path mode absent _ = x at opened ⊢
      obtain ⟨o, s⟩ := x
      cases o <;> simp_all [Outcome.noexcept]
  obtain ⟨content, hfiles, hcon, hfd, hlast, hrd, hmode, hp, hbuf⟩ := FileObj.openClosed_true hop
  simp only at hfiles hcon hlast hp hbuf
  have hc : f₁.res.dev.files path = some content := by simp [hfiles, FileDev.withFile]
  have hpos : FileObj.getPosition P f₁ = .ok (buf.position : Int) := by
    simp only [FileObj.getPosition, hfd]
    simp [buf]
  refine ⟨content, hc, fun h => ?_, hpos, ?_, fun hm hs hmost hclean hdirty ns hlim hn => ?_⟩
  · obtain ⟨h1, h2, h3⟩ := hsame h
    exact ⟨hbuf.trans h1, hlast.trans h2, by rw [← hcon, h3]⟩
  · simp only [FileObj.isAtEnd, hpos, hp]
    cases f₀.path.bind f₁.res.dev.files with
    | none => rfl
    | some named =>
      simp only
      congr 1
      rw [Bool.eq_iff_iff]
      simp
  · obtain ⟨⟨b, ⟨files, fd, k, reads⟩⟩, p, m⟩ := f₁
    simp only at hfd hmode hs hfiles hc
    subst hfd hmode hfiles
    have key : ∃ r', M.runList (Res.read P.readRaw) ns
        ⟨b, ⟨FileDev.withFile r.dev.files path content, some ⟨path, 0, m⟩, k, reads⟩⟩ =
        (.ok (((⟨left ++ content.drop skipped, 0⟩ : ArrayCursor).reads ns).map
          fun g => ⟨g, g.length⟩), r') := by
      have hk : skipped = k := rfl
      have hcapd : cap = b.data.length := rfl
      rw [hk] at hdirty ⊢
      by_cases h0 : cap = 0
      · have hl : left = [] := by
          have : b.data = [] := List.eq_nil_of_length_eq_zero (by omega)
          simp [left, buf, this]
        have := hdirty (.inr h0)
        subst this
        rw [hl, List.nil_append, List.drop_zero]
        exact Res.reads_unbuffered (P.source r.dev.files path m hm content) (q := 0)
          (show b.data.length = 0 by omega) (Nat.zero_le _) ⟨reads, hs, rfl⟩ ns hlim
      · replace hn : ∀ n ∈ ns, n ≤ cap := hn.resolve_left h0
        by_cases hd : b.readDirty = true
        · have hl : left = [] := if_pos hd
          have := hdirty (.inl hd)
          subst this
          rw [hl, List.nil_append, List.drop_zero]
          have S := P.source r.dev.files path m hm content
          have hi : FileDev.Idle P.Steady r.dev.files path m content 0
              ⟨FileDev.withFile r.dev.files path content, some ⟨path, 0, m⟩, 0, reads⟩ := ⟨reads, hs, rfl⟩
          obtain ⟨r', e, -⟩ := Res.reads_delivering (cap := cap) (p := 0) S
            (r := ⟨{ b with position := 0 },
              ⟨FileDev.withFile r.dev.files path content, some ⟨path, 0, m⟩, 0, reads⟩⟩)
            ⟨rfl, Nat.zero_le _, .inl ⟨hd, rfl, hi⟩⟩ ns hmost hlim (.inr hn)
          cases ns with
          | nil => exact ⟨_, rfl⟩
          | cons n ns =>
            obtain ⟨d', hfill, -⟩ := S.fill cap 0 _ hmost (.inl hi) (Nat.zero_le _)
            refine ⟨r', ?_⟩
            rw [← e]
            simp only [M.runList, M.bind_apply]
            rw [Res.read_dirty n (r := ⟨b, _⟩) hd (show 0 < b.data.length by omega) hfill]
        · replace hd : b.readDirty = false := by simpa using hd
          have hl : left = (b.data.take b.size).drop b.position :=
            if_neg (show ¬ b.readDirty = true by simp [hd])
          obtain ⟨h1, h2⟩ := hclean hd
          replace h1 : b.position ≤ b.size := h1
          replace h2 : b.size ≤ b.data.length := h2
          have hpage : (b.data.take b.size).length = b.size := by simp; omega
          obtain ⟨r', e, -⟩ := Res.reads_delivering (cap := cap) (p := b.position)
            (P.source_stale r.dev.files path m hm content (b.data.take b.size) k)
            (r := ⟨b, ⟨FileDev.withFile r.dev.files path content, some ⟨path, 0, m⟩, k, reads⟩⟩)
            ⟨rfl, by rw [List.length_append]; omega, .inr ⟨hd, by omega, h2, h1, 0, Nat.zero_add _,
              by rw [List.length_append]; simp only; omega,
              ⟨by simp only; omega, 0, reads, k, by simp only; omega, hs, rfl⟩, by
                rw [List.drop_zero, List.take_left' hpage]⟩⟩ ns hmost hlim (.inr hn)
          refine ⟨r', ?_⟩
          rw [e, show b.position = b.position + 0 from rfl, reads_drop, List.drop_append_of_le_length (by omega), ← hl]
    obtain ⟨r', e⟩ := key
    exact ⟨_, FileObj.reads_onRes hm e⟩

/-- One file after the other: after reads from one file through a buffer, opening another and reading
on delivers the rest of the page at hand, and then the other file without as many of its bytes as that
page had. -/
theorem C46_exact_after_reads (P : FilePlatform) (cap : Nat) (files : Nat → Option (List Byte))
    (path path' : Nat) (mode mode' : AccessMode) (reads : List Nat) (content content' : List Byte)
    (ns ms : List Nat) (absent : IfNotThere) (hc : files path = some content)
    (hc' : files path' = some content') (hm : mode ≠ .writeOnly) (hm' : mode' ≠ .writeOnly)
    (hs : P.Steady reads) (hcap : 0 < cap) (hmost : cap ≤ P.most) (hne : ns ≠ [])
    (hn : PagesSuffice cap content.length (0, 0) ns) (hlim : ∀ n ∈ ms, n ≤ cap) :
    let s := turns cap content.length (0, 0) ns
    ∃ outs f f' f'', M.runList (FileObj.read P) ns (freshFile P cap files reads path mode)
        = (.ok outs, f)
      ∧ (outs.map (·.bytes)).flatten = content.take ns.sum
      ∧ FileObj.openFile P path' mode' absent f = (.ok true, f')
      ∧ FileObj.getPosition P f' = .ok ((s.1 - s.2 : Nat) : Int)
      ∧ FileObj.isAtEnd P f' = .ok (s.1 - s.2 == content.length)
      ∧ M.runList (FileObj.read P) ms f' = (.ok (((⟨(content.drop s.1).take
            (pageRest cap content.length s) ++ content'.drop (pageSize cap content.length s.2), 0⟩ :
            ArrayCursor).reads ms).map fun g => ⟨g, g.length⟩), f'') := by
  intro s
  have hfs : files = FileDev.withFile files path content := by
    funext p
    by_cases hp : p = path <;> simp [FileDev.withFile, hp, hc]
  rw [freshFile_eq P cap files reads path mode content hc]
  obtain ⟨r, e, -, hcons, -⟩ := Res.reads_start (P.source files path mode hm content) (q := 0)
    (r := ⟨IoBuffer.make cap, ⟨files, some ⟨path, 0, mode⟩, 0, reads⟩⟩)
    (by simp [IoBuffer.make]) rfl (Nat.zero_le _) ⟨reads, hs, by rw [← hfs]⟩ hmost hcap ns hn
  have hw : r.buf.writeDirty = false := by
    have := reads_writeDirty P.readRaw false ns
      (⟨IoBuffer.make cap, ⟨files, some ⟨path, 0, mode⟩, 0, reads⟩⟩) rfl
    rwa [e] at this
  have ef := FileObj.reads_onRes (P := P) (f := ⟨⟨IoBuffer.make cap,
    ⟨files, some ⟨path, 0, mode⟩, 0, reads⟩⟩, some path, mode⟩) hm e
  have h := hcons hne
  change Res.Paged cap content _ s.1 s.2 r at h
  obtain ⟨reads', k, hk, hs', hd⟩ := h.loaded
  rw [← hfs] at hd
  have h1 := h.size
  have h2 := h.position
  have h3 := h.length
  have h4 := h.within
  have hopen : FileObj.openFile P path' mode' absent ⟨r, some path, mode⟩ =
      (.ok true, ⟨⟨r.buf, ⟨files, some ⟨path', 0, mode'⟩, k, reads'⟩⟩, some path, mode'⟩) := by
    obtain ⟨b, d⟩ := r
    simp only at hd hw
    subst hd
    have hflush := Res.flush_clean P.writeRaw ⟨b, ⟨files, some ⟨path, s.2, mode⟩, k, reads'⟩⟩ hw
    have hclose : FileObj.close P ⟨⟨b, ⟨files, some ⟨path, s.2, mode⟩, k, reads'⟩⟩, some path, mode⟩ =
        (.ok (), ⟨⟨b, ⟨files, none, k, reads'⟩⟩, some path, mode⟩) := by
      simp only [FileObj.close, M.noexcept_apply, FileObj.flush]
      rw [M.bind_ok (FileObj.onRes_rep hflush)]
      rfl
    have hsys : FileObj.sysOpen ⟨files, none, k, reads'⟩ path' mode' (P.disposition absent) =
        ⟨files, some ⟨path', 0, mode'⟩, k, reads'⟩ := by
      simp only [FileObj.sysOpen, hc']
    have hthen : FileObj.openClosed P path' mode' absent ⟨⟨b, ⟨files, none, k, reads'⟩⟩, some path, mode⟩ =
        (.ok true, ⟨⟨b, ⟨files, some ⟨path', 0, mode'⟩, k, reads'⟩⟩, some path, mode'⟩) := by
      rw [FileObj.openClosed, M.bind_ok (M.get_apply _), if_neg (by simp [hc']),
        M.bind_ok (M.modify_apply _ _)]
      simp only [hsys]
      rfl
    simp only [FileObj.openFile, M.noexcept_apply]
    rw [M.bind_ok (M.get_apply _), if_pos (by rfl), M.bind_ok hclose, hthen]
    rfl
  obtain ⟨c, hcc, -, hpos, hend, hread⟩ := C46_exact P _ _ path' mode' absent hopen
  simp only [hc', Option.some.injEq] at hcc
  subst hcc
  obtain ⟨f'', e2⟩ := hread hm' hs' (by rw [h3]; exact hmost) (fun _ => ⟨h4, by simp only; omega⟩)
    (by simp only [h.clean, h3]; intro h; rcases h with h | h; cases h; omega) ms
    (fun n hn => (hlim n hn).trans hmost) (.inr (by rw [h3]; exact hlim))
  have hp : r.buf.position = s.1 - s.2 := by omega
  refine ⟨_, _, _, f'', ef, ?_, hopen, ?_, ?_, ?_⟩
  · have := (⟨content, 0⟩ : ArrayCursor).reads_flatten ns
    simpa [List.map_map, Function.comp_def] using this
  · rw [hpos, hp]
  · rw [hend]
    simp only [Option.bind_some, hc, hp]
  · rw [e2]
    have hk' : k = pageSize cap content.length s.2 := by
      rw [pageSize]
      omega
    have hu := h.unread.1
    rw [IoBuffer.unread] at hu
    have hl : (if r.buf.readDirty = true then [] else (r.buf.data.take r.buf.size).drop r.buf.position)
        = (content.drop s.1).take (pageRest cap content.length s) := by
      rw [h.clean, if_neg (by decide), hu, pageRest, pageSize, h1]
    simp only [hl, hk']

/-- One byte of four is read through a buffer of four; then three bytes more of that file are
delivered, and the other file, which has no more than four, not at all. -/
example : PagesSuffice 4 4 (0, 0) [1] ∧ turns 4 4 (0, 0) [1] = (1, 0) ∧ pageRest 4 4 (1, 0) = 3
    ∧ pageSize 4 4 0 = 4 ∧ ∀ P, ((M.runList (FileObj.read P) [4, 4]
      (FileObj.openFile P 1 .readOnly .fail
        (FileObj.read P 1 (freshFile P 4 twoFiles [] 0 .readOnly)).2).2).1 =
        .ok [⟨[2, 3, 4], 3⟩, ⟨[], 0⟩]) := by
  refine ⟨by decide, by decide, by decide, by decide, fun P => ?_⟩
  cases P <;> decide +kernel

end Cmp
