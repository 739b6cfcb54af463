import Verif.Proofs.Pages
import Verif.Props.File
import Verif.Props.Transfer

/-
Property theorems: up to which size reads from containers and files deliver the content in order,
and what a larger read delivers.
-/

namespace Cmp

open Cmp.Spec (ArrayCursor pageStart restOfPage WithinPages)

/-! ### C33 -/

/-- Reads that need at most one page behind the one that is loaded deliver the content in order.
(Reads of at most the capacity are such reads, at any time.) -/
theorem C33_partial_pages (cap elem : Nat) (content : List Byte) (ns : List Nat)
    (hn : cap = 0 ∨ WithinPages cap content.length 0 ns) : InOrder cap elem content ns := by
  rcases Nat.eq_zero_or_pos cap with hc | hc
  · exact C33_partial cap elem content ns (.inl hc)
  · obtain ⟨r, e, -⟩ := Res.reads_turning (Ctr.source elem content)
      (Res.turning_make cap (Ctr.make elem content) ⟨rfl, rfl, rfl, rfl⟩) (Nat.zero_le _) trivial hc
      ns (by rcases hn with hn | hn; omega; exact hn)
    refine ⟨_, r, e, ?_, ?_⟩
    · have := (⟨content, 0⟩ : ArrayCursor).reads_flatten ns
      simpa [List.map_map, Function.comp_def] using this
    · intro g hg
      obtain ⟨a, -, rfl⟩ := List.mem_map.mp hg
      rfl

/-- Five bytes at once through a buffer of four: one from what is loaded and a whole page. -/
example : InOrder 4 2 [1, 2, 3, 4, 5, 6, 7, 8, 9, 10, 11, 12, 13, 14] [3, 4, 5] :=
  C33_partial_pages _ _ _ _ (.inr (by decide +kernel))

/-- The claim of small reads is a case of this. -/
example (cap elem : Nat) (content : List Byte) (ns : List Nat) (h : ∀ n ∈ ns, n ≤ cap) :
    InOrder cap elem content ns :=
  C33_partial_pages _ _ _ _ (.inr (Res.withinPages_small ns h 0))

/-- And a read that needs more, before the end of the content: the rest of the page that is loaded
comes as it should, and then, for elements of one byte, the same page once more from its start and
what follows it, as much as is missing.  For larger elements the bytes after the rest of the page
are taken from before that page; where there are none, memory in front of the container is read. -/
theorem C33_exact (cap elem : Nat) (content : List Byte) (ns : List Nat) (n : Nat) (hc : 0 < cap)
    (hn : WithinPages cap content.length 0 ns) (hp : ns.sum < content.length)
    (hover : restOfPage cap content.length ns.sum + cap < n) :
    let p := ns.sum
    let b := pageStart cap p
    let rest := restOfPage cap content.length p
    let page := min cap (content.length - b)
    ∃ outs r, M.runList (Res.read Ctr.readRaw) ns (freshCtr cap elem content) = (.ok outs, r)
      ∧ (page * elem ≤ b + page → 0 < elem →
          let more := (content.drop (b + page - page * elem)).take (n - rest)
          (Res.read Ctr.readRaw n r).1
            = .ok ⟨(content.drop p).take rest ++ more, rest + more.length⟩)
      ∧ (b + page < page * elem → (Res.read Ctr.readRaw n r).1 = .ub) := by
  intro p b rest page
  obtain ⟨r, e, hr⟩ := Res.reads_turning (Ctr.source elem content)
    (Res.turning_make cap (Ctr.make elem content) ⟨rfl, rfl, rfl, rfl⟩) (Nat.zero_le _) trivial hc
    ns hn
  rw [Nat.zero_add, Nat.min_eq_left (by omega)] at hr
  obtain ⟨b', r', e', hpg, ha⟩ := Res.turning_load (Ctr.source elem content) hr trivial hc n
  have hrest : rest = b' + r'.buf.size - p := hpg.rest hc ha
  have h2 := hpg.position
  have h4 := hpg.within
  have h5 := hpg.le
  have hb : b' = pageStart cap ns.sum := by
    have h1 := hpg.size
    rcases ha with ⟨⟨m, rfl⟩, ha⟩ | ⟨rfl, ha⟩
    · exact (Res.pageStart_eq hc ha (by omega)).symm
    · omega
  subst hb
  have h1 : r'.buf.size = page := hpg.size
  have hover' : rest + cap < n := hover
  obtain ⟨l1, l2, l3, l4⟩ := hpg.loaded
  change b + r'.dev.lastFill = b + r'.buf.size at l3
  change _ = ((b + r'.buf.size : Nat) : Int) at l4
  change rest = b + r'.buf.size - p at hrest
  change b + r'.buf.position = p at h2
  change b + r'.buf.size ≤ content.length at h5
  have hm : b + r'.buf.size + cap < p + n := by omega
  have hout : ∀ out d, Ctr.readRaw (n - (b + r'.buf.size - p)) .leanRetrieval r'.dev = (out, d) →
      (Res.readLoaded Ctr.readRaw n r').1 = out.bind fun g =>
        .ok ⟨(content.drop p).take (b + r'.buf.size - p) ++ g.bytes,
          b + r'.buf.size - p + g.count⟩ :=
    fun _ _ => Res.readLoaded_over (raw := Ctr.readRaw) (n := n) hpg hm
  rw [← hrest] at hout
  rw [h1] at h5
  have l5 : r'.dev.lastFill = page := by omega
  have l6 : r'.dev.position = ((b + page : Nat) : Int) - ((page * elem : Nat) : Int) := by
    rw [l5, h1] at l4; rw [← l4]; push_cast; omega
  clear_value p b rest page
  refine ⟨_, r, e, ?_, ?_⟩
  · intro hfit he
    have hge : page ≤ page * elem := Nat.le_mul_of_pos_right _ he
    rw [e', hout _ _ (Ctr.readRaw_lean r'.dev _ (b + page - page * elem) (by rw [l6]; omega)
      (by rw [l1]; omega)), l1]
    rfl
  · intro hneg
    rw [e', hout .ub r'.dev ?_]
    · rfl
    · simp only [Ctr.readRaw]
      rw [M.bind_ok (show Ctr.skipFill .leanRetrieval _ = (.ok (), _) from rfl), M.bind_apply]
      have : r'.dev.position < 0 := by omega
      simp only [Ctr.copyOut, if_pos (Or.inl this : r'.dev.position < 0 ∨
        r'.dev.position > (r'.dev.content.length : Int))]

/-- Three bytes have been read; then seven: the rest of the first page, and from the start of that
page again. -/
example : ∃ outs r, M.runList (Res.read Ctr.readRaw) [3]
      (freshCtr 4 1 [1, 2, 3, 4, 5, 6, 7, 8, 9, 10]) = (.ok outs, r)
    ∧ (Res.read Ctr.readRaw 7 r).1 = .ok ⟨[4, 1, 2, 3, 4, 5, 6], 7⟩ := by
  obtain ⟨outs, r, e, h, -⟩ := C33_exact 4 1 [1, 2, 3, 4, 5, 6, 7, 8, 9, 10] [3] 7 (by decide)
    (by decide +kernel) (by decide +kernel) (by decide +kernel)
  exact ⟨outs, r, e, h (by decide +kernel) (by decide)⟩

/-- With elements of two bytes it is memory that does not belong to the container. -/
example : ∃ outs r, M.runList (Res.read Ctr.readRaw) [3]
      (freshCtr 4 2 [1, 2, 3, 4, 5, 6, 7, 8, 9, 10]) = (.ok outs, r)
    ∧ (Res.read Ctr.readRaw 7 r).1 = .ub := by
  obtain ⟨outs, r, e, -, h⟩ := C33_exact 4 2 [1, 2, 3, 4, 5, 6, 7, 8, 9, 10] [3] 7 (by decide)
    (by decide +kernel) (by decide +kernel) (by decide +kernel)
  exact ⟨outs, r, e, h (by decide +kernel)⟩

/-! ### C45 -/

theorem freshFile_turning (P : FilePlatform) (cap : Nat) (files : Nat → Option (List Byte))
    (reads : List Nat) (path : Nat) (mode : AccessMode) (content : List Byte)
    (hc : files path = some content) (hs : P.Steady reads) :
    Res.Turning cap content (FileDev.Idle P.Steady files path mode content)
      (FileDev.Loaded P.Steady files path mode content) 0
      (freshFile P cap files reads path mode).res := by
  have hfs : files = FileDev.withFile files path content := by
    funext p
    by_cases hp : p = path <;> simp [FileDev.withFile, hp, hc]
  rw [freshFile_eq P cap files reads path mode content hc]
  exact Res.turning_make cap _ ⟨reads, hs, by rw [← hfs]⟩

theorem freshFile_mode (P : FilePlatform) (cap : Nat) (files : Nat → Option (List Byte))
    (reads : List Nat) (path : Nat) (mode : AccessMode) (content : List Byte)
    (hc : files path = some content) (hm : mode ≠ .writeOnly) :
    (freshFile P cap files reads path mode).mode ≠ .writeOnly := by
  rw [freshFile_eq P cap files reads path mode content hc]
  exact hm

/-- From a file, too, reads that need at most one page behind the one that is loaded deliver the
content in order; with a buffer, the limit of a system call does not matter to them. -/
theorem C45_partial_pages (P : FilePlatform) (cap : Nat) (content : List Byte) (reads : List Nat)
    (ns : List Nat) (hs : P.Steady reads) (hc : 0 < cap) (hcap : cap ≤ P.most)
    (hn : WithinPages cap content.length 0 ns) : FileInOrder P cap content reads ns := by
  intro files path mode hf hm
  obtain ⟨r, e, -⟩ := Res.reads_turning (P.source files path mode hm content)
    (freshFile_turning P cap files reads path mode content hf hs) (Nat.zero_le _) hcap hc ns hn
  refine ⟨_, _, FileObj.reads_onRes (freshFile_mode P cap files reads path mode content hf hm) e,
    ?_, fun g hg => ?_⟩
  · have := (⟨content, 0⟩ : ArrayCursor).reads_flatten ns
    simpa [List.map_map, Function.comp_def] using this
  · obtain ⟨a, -, rfl⟩ := List.mem_map.mp hg
    rfl

example : FileInOrder .windows 4 [1, 2, 3, 4, 5, 6, 7, 8, 9, 10, 11, 12, 13, 14] [1, 1, 2]
    [3, 4, 5] :=
  C45_partial_pages _ _ _ _ _ trivial (by decide) (by decide +kernel) (by decide +kernel)

/-- And a read that needs more, before the end of the file: the rest of the page that is loaded,
then that page once more from its start and what follows it. -/
theorem C45_exact (P : FilePlatform) (cap : Nat) (content : List Byte) (reads : List Nat)
    (ns : List Nat) (n : Nat) (hs : P.Steady reads) (hc : 0 < cap) (hcap : cap ≤ P.most)
    (hn : WithinPages cap content.length 0 ns) (hp : ns.sum < content.length)
    (hover : restOfPage cap content.length ns.sum + cap < n) (hmost : n ≤ P.most)
    (files : Nat → Option (List Byte)) (path : Nat) (mode : AccessMode)
    (hf : files path = some content) (hm : mode ≠ .writeOnly) :
    let rest := restOfPage cap content.length ns.sum
    let more := (content.drop (pageStart cap ns.sum)).take (n - rest)
    ∃ outs f, M.runList (FileObj.read P) ns (freshFile P cap files reads path mode) = (.ok outs, f)
      ∧ (FileObj.read P n f).1
        = .ok ⟨(content.drop ns.sum).take rest ++ more, rest + more.length⟩ := by
  intro rest more
  obtain ⟨r, e, hr⟩ := Res.reads_turning (P.source files path mode hm content)
    (freshFile_turning P cap files reads path mode content hf hs) (Nat.zero_le _) hcap hc ns hn
  rw [Nat.zero_add, Nat.min_eq_left (by omega)] at hr
  have hmode := freshFile_mode P cap files reads path mode content hf hm
  refine ⟨_, _, FileObj.reads_onRes hmode e, ?_⟩
  rw [FileObj.read_eq (show ({ freshFile P cap files reads path mode with res := r } :
    FileObj).mode ≠ .writeOnly from hmode)]
  change (Res.read P.readRaw n r).1 = _
  obtain ⟨b, r', e', hpg, ha⟩ := Res.turning_load (P.source files path mode hm content) hr hcap hc n
  have hrest : rest = b + r'.buf.size - ns.sum := hpg.rest hc ha
  have h2 := hpg.position
  have h4 := hpg.within
  have hb : b = pageStart cap ns.sum := by
    have h1 := hpg.size
    rcases ha with ⟨⟨m, rfl⟩, ha⟩ | ⟨rfl, ha⟩
    · exact (Res.pageStart_eq hc ha (by omega)).symm
    · omega
  obtain ⟨d', hd⟩ := P.lean_loaded files path mode hm content (n - rest) b _ r'.dev (by omega)
    hpg.loaded
  have hover' : rest + cap < n := hover
  rw [hrest] at hd hover'
  rw [e', Res.readLoaded_over hpg (by omega) hd, ← hrest, hb]
  rfl

example : ∃ outs f, M.runList (FileObj.read .unix) [1]
      (freshFile .unix 1 twoFiles [] 0 .readOnly) = (.ok outs, f)
    ∧ (FileObj.read .unix 3 f).1 = .ok ⟨[1, 2, 3], 3⟩ :=
  C45_exact .unix 1 [1, 2, 3, 4] [] [1] 3 rfl (by decide) (by decide +kernel) (by decide +kernel)
    (by decide +kernel) (by decide +kernel) (by decide +kernel) twoFiles 0 .readOnly rfl (by decide)

end Cmp
