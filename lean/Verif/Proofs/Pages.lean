import Verif.Proofs.FileObj
import Verif.Spec.Pages

/-
Helper lemmas: which part of the content is in the buffer of an input resource.
-/

namespace Cmp

open Cmp.Spec (ArrayCursor pageStart restOfPage WithinPages)

namespace Res

variable {δ : Type} {raw : Nat → ReadRequest → M δ ReadResult} {lim : Nat → Prop}
  {content : List Byte} {idle : Nat → δ → Prop} {loaded : Nat → Nat → δ → Prop}

/-- An input resource that has delivered `p` bytes and holds the page from byte `b` on. -/
structure Paged (cap : Nat) (content : List Byte) (loaded : Nat → Nat → δ → Prop) (p b : Nat)
    (r : Res δ) : Prop where
  length : r.buf.data.length = cap
  inside : p ≤ content.length
  clean : r.buf.readDirty = false
  size : r.buf.size = min cap (content.length - b)
  position : b + r.buf.position = p
  within : r.buf.position ≤ r.buf.size
  loaded : loaded b (b + r.buf.size) r.dev
  data : r.buf.data.take r.buf.size = (content.drop b).take r.buf.size

theorem Paged.le {cap p b : Nat} {r : Res δ} (h : Paged cap content loaded p b r) :
    b + r.buf.size ≤ content.length := by
  have h1 := h.size
  have h2 := h.position
  have h3 := h.inside
  omega

theorem Paged.unread {cap p b : Nat} {r : Res δ} (h : Paged cap content loaded p b r) :
    r.buf.unread = (content.drop p).take (b + r.buf.size - p)
      ∧ r.buf.unread.length = b + r.buf.size - p := by
  have h1 := h.size
  have h2 := h.position
  have h3 := h.length
  have h4 := h.within
  constructor
  · rw [IoBuffer.unread, h.data, List.drop_take, List.drop_drop, h2]
    congr 1
    omega
  · rw [IoBuffer.unread_length _ (by omega)]
    omega

/-- Loading the first page. -/
theorem paged_first (S : Source raw lim content idle loaded) {cap : Nat} {r : Res δ}
    (hl : r.buf.data.length = cap) (hd : r.buf.readDirty = true)
    (hi : idle 0 r.dev) (hcap : lim cap) (n : Nat) :
    ∃ r', readBuffered raw n r = readLoaded raw n r' ∧ Paged cap content loaded 0 0 r' := by
  obtain ⟨d', hfill, hld⟩ := S.fill r.buf.data.length 0 r.dev (by rw [hl]; exact hcap) (.inl hi)
    (Nat.zero_le _)
  have hGlen : ((content.drop 0).take r.buf.data.length).length = min cap content.length := by
    simp [hl]
  have hG : (content.drop 0).take r.buf.data.length =
      (content.drop 0).take ((content.drop 0).take r.buf.data.length).length := by
    rw [List.length_take, List.length_drop, ← List.length_drop, ← List.take_eq_take_min]
  rw [readBuffered_dirty hd hfill]
  generalize (content.drop 0).take r.buf.data.length = G at *
  refine ⟨_, rfl, by rw [← hl]; exact filled_length _ _ _, Nat.zero_le _, rfl,
    by simp only [filled]; omega, rfl, Nat.zero_le _, hld, ?_⟩
  simp only [filled]
  rw [List.take_of_length_le (show G.length ≤ r.buf.data.length by omega), List.take_left]
  exact hG

/-- A read that the page can satisfy. -/
theorem readLoaded_page (raw : Nat → ReadRequest → M δ ReadResult) {cap p b : Nat} {r : Res δ}
    (h : Paged cap content loaded p b r) {n : Nat} (hn : p + n ≤ b + r.buf.size) :
    ∃ r', readLoaded raw n r = (.ok ⟨(content.drop p).take n, n⟩, r')
      ∧ Paged cap content loaded (p + n) b r' := by
  have h1 := h.size
  have h2 := h.position
  have h3 := h.length
  have h4 := h.within
  have h5 := h.le
  have hload := readLoaded_within raw r n (by omega) (by omega)
  rw [h.unread.1, List.take_take, Nat.min_eq_left (by omega)] at hload
  exact ⟨_, hload, h3, by omega, h.clean, h1, by simp only; omega, by simp only; omega, h.loaded,
    h.data⟩

/-- A read that needs the next page, and no more. -/
theorem readLoaded_next (S : Source raw lim content idle loaded) {cap p b : Nat} {r : Res δ}
    (h : Paged cap content loaded p b r) (hcap : lim cap) {n : Nat}
    (hn : b + r.buf.size < p + n) (hm : p + n ≤ b + r.buf.size + cap) :
    ∃ r', readLoaded raw n r
        = (.ok ⟨(content.drop p).take n, ((content.drop p).take n).length⟩, r')
      ∧ Paged cap content loaded (min (p + n) content.length) (b + r.buf.size) r' := by
  have h1 := h.size
  have h2 := h.position
  have h3 := h.length
  have h4 := h.within
  have h5 := h.le
  obtain ⟨d', hfill, hld'⟩ := S.fill r.buf.data.length (b + r.buf.size) r.dev
    (by rw [h3]; exact hcap) (.inr ⟨b, h.loaded⟩) h5
  generalize hG : (content.drop (b + r.buf.size)).take r.buf.data.length = G at *
  have hGlen : G.length = min cap (content.length - (b + r.buf.size)) := by
    rw [← hG]; simp [h3]
  have hload := readLoaded_fill (n := n) (by omega) h4 (by omega) (by omega)
    (show G.length ≤ r.buf.data.length by omega) hfill
  obtain ⟨hu, hul⟩ := h.unread
  have hout : r.buf.unread ++ G.take (n - r.buf.unread.length) = (content.drop p).take n := by
    rw [hul, hu, ← hG, List.take_take, Nat.min_eq_left (by omega)]
    have := take_take_drop content p (b + r.buf.size - p) n (by omega)
    rwa [show p + (b + r.buf.size - p) = b + r.buf.size by omega] at this
  rw [hout] at hload
  refine ⟨_, hload, by rw [← h3]; exact filled_length _ _ _, by omega, rfl,
    by simp only [filled]; omega, by simp only [hul]; omega, by simp only [filled]; omega, hld', ?_⟩
  simp only [filled]
  rw [List.take_of_length_le (show G.length ≤ r.buf.data.length by omega), List.take_left]
  rw [← hG, List.length_take, List.length_drop, ← List.length_drop, ← List.take_eq_take_min]

/-- The pages lie one behind the other. -/
def Aligned (cap len p b : Nat) : Prop :=
  ((∃ m, b = cap * m) ∧ (b < p ∨ b = 0 ∧ p = 0)) ∨ (b = len ∧ p = len)

theorem pageStart_eq {cap m p : Nat} (hc : 0 < cap) (h1 : cap * m < p ∨ cap * m = 0 ∧ p = 0)
    (h2 : p ≤ cap * m + cap) : pageStart cap p = cap * m := by
  rcases h1 with h1 | ⟨h1, rfl⟩
  · have : (p + cap - 1) / cap = m + 1 := by
      rw [Nat.div_eq_iff hc]
      constructor
      · rw [Nat.add_mul, Nat.mul_comm m]; omega
      · rw [Nat.add_mul, Nat.mul_comm m]; omega
    rw [pageStart, this, Nat.max_eq_right (by omega), Nat.add_sub_cancel]
  · rw [h1, pageStart, Nat.div_eq_of_lt (by omega)]
    simp

theorem Paged.rest {cap p b : Nat} {r : Res δ} (h : Paged cap content loaded p b r)
    (hc : 0 < cap) (ha : Aligned cap content.length p b) :
    restOfPage cap content.length p = b + r.buf.size - p := by
  have h1 := h.size
  have h2 := h.position
  have h4 := h.within
  rcases ha with ⟨⟨m, rfl⟩, ha⟩ | ⟨rfl, ha⟩
  · rw [restOfPage, pageStart_eq hc ha (by omega)]
    omega
  · rw [restOfPage]
    omega

/-- A resource that delivers its content page by page, `p` bytes by now. -/
def Turning (cap : Nat) (content : List Byte) (idle : Nat → δ → Prop)
    (loaded : Nat → Nat → δ → Prop) (p : Nat) (r : Res δ) : Prop :=
  (r.buf.data.length = cap ∧ r.buf.readDirty = true ∧ idle 0 r.dev ∧ p = 0) ∨
    ∃ b, Paged cap content loaded p b r ∧ Aligned cap content.length p b

/-- With a page loaded. -/
theorem turning_load (S : Source raw lim content idle loaded) {cap p : Nat} {r : Res δ}
    (h : Turning cap content idle loaded p r) (hcap : lim cap) (hc : 0 < cap) (n : Nat) :
    ∃ b r', read raw n r = readLoaded raw n r' ∧ Paged cap content loaded p b r' ∧
      Aligned cap content.length p b := by
  rcases h with ⟨hl, hd, hi, rfl⟩ | ⟨b, h, ha⟩
  · obtain ⟨r', e, hp⟩ := paged_first S hl hd hi hcap n
    exact ⟨0, r', by rw [read_buffered _ _ _ (by omega), e], hp,
      .inl ⟨⟨0, rfl⟩, .inr ⟨rfl, rfl⟩⟩⟩
  · have := h.length
    exact ⟨b, r, by rw [read_buffered _ _ _ (by omega), readBuffered_clean _ _ _ h.clean], h, ha⟩

/-- A read that needs at most one more page. -/
theorem read_turning_page (S : Source raw lim content idle loaded) {cap p : Nat} {r : Res δ}
    (h : Turning cap content idle loaded p r) (hcap : lim cap) (hc : 0 < cap) {n : Nat}
    (hn : n ≤ restOfPage cap content.length p + cap) :
    ∃ r', read raw n r = (.ok ⟨(content.drop p).take n, ((content.drop p).take n).length⟩, r') ∧
      ∃ b, Paged cap content loaded (min (p + n) content.length) b r' ∧
        Aligned cap content.length (min (p + n) content.length) b := by
  obtain ⟨b, r', e, hp, ha⟩ := turning_load S h hcap hc n
  rw [hp.rest hc ha] at hn
  rw [e]
  have h1 := hp.size
  have h2 := hp.position
  have h3 := hp.inside
  have h4 := hp.within
  by_cases hin : p + n ≤ b + r'.buf.size
  · obtain ⟨r'', e', hp'⟩ := readLoaded_page raw hp hin
    have hlen : ((content.drop p).take n).length = n := by simp; omega
    refine ⟨r'', by rw [e', hlen], ⟨b, ?_, ?_⟩⟩
    · rw [Nat.min_eq_left (by omega)]; exact hp'
    · rw [Nat.min_eq_left (by omega)]
      rcases ha with ⟨hm, ha⟩ | ⟨rfl, ha⟩
      · refine .inl ⟨hm, ?_⟩
        omega
      · exact .inr ⟨rfl, by omega⟩
  · obtain ⟨r'', e', hp'⟩ := readLoaded_next S hp hcap (n := n) (by omega) (by omega)
    refine ⟨r'', e', _, hp', ?_⟩
    by_cases hend : b + r'.buf.size = content.length
    · exact .inr ⟨hend, by omega⟩
    · rcases ha with ⟨⟨m, rfl⟩, ha⟩ | ⟨rfl, ha⟩
      · refine .inl ⟨⟨m + 1, ?_⟩, by omega⟩
        rw [Nat.mul_add]
        omega
      · omega

theorem read_turning (S : Source raw lim content idle loaded) {cap p : Nat} {r : Res δ}
    (h : Turning cap content idle loaded p r) (hcap : lim cap) (hc : 0 < cap) {n : Nat}
    (hn : n ≤ restOfPage cap content.length p + cap) :
    ∃ r', read raw n r = (.ok ⟨(content.drop p).take n, ((content.drop p).take n).length⟩, r') ∧
      Turning cap content idle loaded (min (p + n) content.length) r' := by
  obtain ⟨r', e, h'⟩ := read_turning_page S h hcap hc hn
  exact ⟨r', e, .inr h'⟩

theorem withinPages_small {cap len : Nat} (ns : List Nat) (h : ∀ n ∈ ns, n ≤ cap) (p : Nat) :
    WithinPages cap len p ns := by
  induction ns generalizing p with
  | nil => exact trivial
  | cons n ns ih =>
    have := h n (by simp)
    exact ⟨by omega, ih (fun m hm => h m (by simp [hm])) _⟩

theorem reads_turning (S : Source raw lim content idle loaded) {cap p : Nat} {r : Res δ}
    (h : Turning cap content idle loaded p r) (hp : p ≤ content.length) (hcap : lim cap)
    (hc : 0 < cap) (ns : List Nat) (hn : WithinPages cap content.length p ns) :
    ∃ r', M.runList (read raw) ns r =
        (.ok (((⟨content, p⟩ : ArrayCursor).reads ns).map fun g => ⟨g, g.length⟩), r') ∧
      Turning cap content idle loaded (min (p + ns.sum) content.length) r' := by
  induction ns generalizing p r with
  | nil => exact ⟨r, rfl, by simpa [Nat.min_eq_left hp] using h⟩
  | cons n ns ih =>
    obtain ⟨r', a, b⟩ := read_turning S h hcap hc hn.1
    obtain ⟨r'', a', b'⟩ := ih b (by omega) hn.2
    have hcur : (⟨content, p⟩ : ArrayCursor).afterRead n =
        ⟨content, min (p + n) content.length⟩ := by
      simp only [ArrayCursor.afterRead, ArrayCursor.next, List.length_take, List.length_drop,
        ArrayCursor.mk.injEq, true_and]
      omega
    refine ⟨r'', ?_, ?_⟩
    · have := M.runList_cons a a'
      rw [this]
      simp only [ArrayCursor.reads, hcur, List.map_cons]
      rfl
    · rw [List.sum_cons]
      rwa [show min (p + (n + ns.sum)) content.length
        = min (min (p + n) content.length + ns.sum) content.length by omega]

theorem turning_make (cap : Nat) (d : δ) (h : idle 0 d) :
    Turning cap content idle loaded 0 ⟨IoBuffer.make cap, d⟩ :=
  .inl ⟨by simp [IoBuffer.make], rfl, h, rfl⟩

/-- A read that needs more: the rest of the page, and what the device then has to offer. -/
theorem readLoaded_over {cap p b : Nat} {r : Res δ} (h : Paged cap content loaded p b r) {n : Nat}
    (hm : b + r.buf.size + cap < p + n) {out : Outcome ReadResult} {d : δ}
    (hraw : raw (n - (b + r.buf.size - p)) .leanRetrieval r.dev = (out, d)) :
    (readLoaded raw n r).1 = out.bind fun g =>
      .ok ⟨(content.drop p).take (b + r.buf.size - p) ++ g.bytes,
        b + r.buf.size - p + g.count⟩ := by
  have h1 := h.size
  have h2 := h.position
  have h3 := h.length
  have h4 := h.within
  obtain ⟨hu, hul⟩ := h.unread
  simp only [readLoaded]
  rw [M.bind_ok (M.get_apply r), if_pos (by omega), if_neg (by omega),
    M.bind_ok (first_ok r (by omega) h4), hul, if_pos (by simp only [IoBuffer.capacity]; omega)]
  rw [M.bind_apply]
  simp only [onDev, hraw, hu]
  cases out <;> rfl

end Res

/-- A lean read of a file of which a page is loaded: the page comes again. -/
theorem FileDev.lean_loaded {sk : Int → PositionReference → M FileDev Unit}
    {block : Nat → M FileDev ReadResult} {sch : List Nat → Prop}
    (E : Exact sch block) (most : Nat) (fs : Nat → Option (List Byte)) (path : Nat)
    (mode : AccessMode) (hm : mode ≠ .writeOnly) (content : List Byte) (n b q : Nat)
    (d : FileDev) (hn : n ≤ most) (h : Loaded sch fs path mode content b q d) :
    ∃ d', rawOf sk block most n .leanRetrieval d =
        (.ok ⟨(content.drop b).take n, ((content.drop b).take n).length⟩, d') := by
  obtain ⟨reads, k, -, hs, rfl⟩ := h
  obtain ⟨reads', hs', e'⟩ := readBlocks_exact E most n hn (content := content)
    (d := ⟨withFile fs path content, some ⟨path, b, mode⟩, k, reads⟩) rfl hm (by simp [withFile]) hs
  refine ⟨⟨withFile fs path content,
    some ⟨path, b + ((content.drop b).take n).length, mode⟩, k, reads'⟩, ?_⟩
  simp only [rawOf, M.noexcept_apply]
  rw [M.bind_ok (show skipFill sk .leanRetrieval _ = (.ok (), _) from rfl), M.bind_ok e',
    M.bind_ok (show noteFill sk .leanRetrieval _ _ = (.ok (), _) from rfl)]
  rfl

theorem FilePlatform.lean_loaded (P : FilePlatform) (fs : Nat → Option (List Byte)) (path : Nat)
    (mode : AccessMode) (hm : mode ≠ .writeOnly) (content : List Byte) (n b q : Nat)
    (d : FileDev) (hn : n ≤ P.most) (h : FileDev.Loaded P.Steady fs path mode content b q d) :
    ∃ d', P.readRaw n .leanRetrieval d =
        (.ok ⟨(content.drop b).take n, ((content.drop b).take n).length⟩, d') := by
  cases P with
  | unix =>
    exact FileDev.lean_loaded (sk := FileDev.seek) FileDev.exact_unix _ fs path mode hm content n b q
      d hn h
  | windows =>
    exact FileDev.lean_loaded (sk := FileDev.seekWindows) FileDev.exact_windows _ fs path mode hm
      content n b q d hn h

end Cmp
