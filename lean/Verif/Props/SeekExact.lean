import Verif.Proofs.Turn
import Verif.Props.Transfer

/-
Properties C35, C36 and C37 in full: what containers report and deliver after buffered reads and
changes of position, for elements of any size.
-/

namespace Cmp

open Cmp.Spec (ArrayCursor turns pageSize pageRest PagesSuffice)

/-- A container resource about to read byte `q`, with nothing in its buffer: a new one, or one whose
position has just been set. -/
structure CtrAt (cap elem : Nat) (content : List Byte) (q : Int) (r : Res Ctr) : Prop where
  length : r.buf.data.length = cap
  content : r.dev.content = content
  elem : r.dev.elem = elem
  dirty : r.buf.readDirty = true
  buffer : r.buf.position = 0
  position : r.dev.position = q
  lastFill : r.dev.lastFill = 0

theorem ctrAt_fresh (cap elem : Nat) (content : List Byte) :
    CtrAt cap elem content 0 (freshCtr cap elem content) :=
  ⟨by simp [freshCtr, IoBuffer.make], rfl, rfl, rfl, rfl, rfl, rfl⟩

theorem CtrAt.idle {cap elem : Nat} {content : List Byte} {q : Nat} {r : Res Ctr}
    (h : CtrAt cap elem content q r) : Ctr.Idle elem content q r.dev :=
  ⟨h.content, h.elem, h.lastFill, h.position⟩

/-- Setting a position, from any state. -/
theorem ctrAt_begin (r : Res Ctr) (k : Int) :
    ∃ r', Res.setPositionIn Ctr.seek k .begin r = (.ok (), r')
      ∧ CtrAt r.buf.data.length r.dev.elem r.dev.content (k * r.dev.elem) r' :=
  ⟨_, Ctr.setPositionIn_eq r _ _, rfl, rfl, rfl, rfl, rfl, rfl, rfl⟩

theorem ctrAt_current (r : Res Ctr) (d : Int) :
    ∃ r', Res.setPositionIn Ctr.seek d .current r = (.ok (), r')
      ∧ CtrAt r.buf.data.length r.dev.elem r.dev.content (r.dev.position + d * r.dev.elem) r' :=
  ⟨_, Ctr.setPositionIn_eq r _ _, rfl, rfl, rfl, rfl, rfl, rfl, rfl⟩

/-- Reading outside of the container. -/
theorem CtrAt.outside {cap elem : Nat} {content : List Byte} {q : Int} {r : Res Ctr}
    (h : CtrAt cap elem content q r) (hq : q < 0 ∨ (content.length : Int) < q) (n : Nat) :
    (Res.read Ctr.readRaw n r).1 = .ub := by
  have hraw : ∀ k rr, (Ctr.readRaw k rr r.dev).1 = .ub := by
    intro k rr
    have hs : Ctr.skipFill rr r.dev = (.ok (), r.dev) := by
      simp only [Ctr.skipFill]
      rw [M.bind_ok (M.get_apply _), if_neg (by rw [h.lastFill]; omega)]
      rfl
    simp only [Ctr.readRaw]
    rw [M.bind_ok hs, M.bind_apply]
    have : r.dev.position < 0 ∨ r.dev.position > (r.dev.content.length : Int) := by
      rw [h.position, h.content]; omega
    simp only [Ctr.copyOut, if_pos this]
  by_cases hc : cap = 0
  · rw [Res.read_unbuffered _ _ _ (by rw [h.length, hc])]
    have := hraw n .leanRetrieval
    cases e : Ctr.readRaw n .leanRetrieval r.dev with
    | mk o d =>
      rw [e] at this
      simp only at this
      subst this
      simp [Res.onDev, e]
  · rw [Res.read_buffered _ _ _ (by rw [h.length]; omega)]
    have := hraw r.buf.data.length .fillBuffer
    cases e : Ctr.readRaw r.buf.data.length .fillBuffer r.dev with
    | mk o d =>
      rw [e] at this
      simp only at this
      subst this
      simp [Res.readBuffered, M.bind_apply, h.dirty, Res.fill, Res.onDev, e, IoBuffer.capacity]

/-- How far the position of a container is behind the start of the page at hand. -/
theorem ctr_paged_position {cap elem : Nat} {content : List Byte} {p b : Nat} {r : Res Ctr}
    (h : Res.Paged cap content (Ctr.Loaded elem content) p b r) :
    r.dev.position = (b + pageSize cap content.length b : Nat)
        - ((pageSize cap content.length b * elem : Nat) : Int)
      ∧ r.dev.content = content ∧ r.dev.elem = elem ∧ r.buf.data.length = cap
      ∧ (b + r.buf.position : Nat) = p := by
  obtain ⟨l1, l2, l3, l4⟩ := h.loaded
  have h1 := h.size
  rw [← pageSize] at h1
  have l5 : r.dev.lastFill = pageSize cap content.length b := by omega
  rw [l5, h1] at l4
  refine ⟨by push_cast at l4 ⊢; omega, l1, l2, h.length, h.position⟩

/-- C35 in full.  The position reported lags behind by the size of the page at hand once for each
byte an element has beyond the first; so, for such elements, the end is only reported once a read
has found nothing more. -/
theorem C35_exact (cap elem q : Nat) (content : List Byte) (ns : List Nat) (r : Res Ctr)
    (h : CtrAt cap elem content q r) (hc : 0 < cap) (he : 0 < elem) (hd : elem ∣ content.length)
    (hq : q ≤ content.length) (hn : PagesSuffice cap content.length (q, q) ns) :
    let p := (turns cap content.length (q, q) ns).1
    let b := (turns cap content.length (q, q) ns).2
    let lag := if ns = [] then 0 else pageSize cap content.length b * (elem - 1)
    ∃ outs r', M.runList (Res.read Ctr.readRaw) ns r = (.ok outs, r')
      ∧ p = q + (outs.map (·.bytes)).flatten.length
      ∧ Ctr.getPosition r' = (p : Int) - lag
      ∧ (Ctr.isAtEnd r' = true ↔ p = content.length ∧ lag = 0) := by
  obtain ⟨r', e, hnil, hcons, -⟩ := Res.reads_start (Ctr.source elem content) h.length h.dirty hq
    h.idle trivial hc ns hn
  intro p b lag
  have hlen : p = min (q + ns.sum) content.length := by
    have : ∀ (ns : List Nat) (s : Nat × Nat), s.1 ≤ content.length →
        (turns cap content.length s ns).1 = min (s.1 + ns.sum) content.length := by
      intro ns
      induction ns with
      | nil => intro s hs; simp [turns, Nat.min_eq_left hs]
      | cons n ns ih =>
        intro s hs
        have hf := Res.turn_fst cap content.length s n
        have := ih (Spec.turn cap content.length s n) (by omega)
        simp only [turns, List.foldl_cons] at this ⊢
        rw [this, hf, List.sum_cons]
        omega
    exact this ns (q, q) hq
  have hpos : Ctr.getPosition r' = (p : Int) - lag
      ∧ r'.dev.content = content ∧ r'.dev.elem = elem := by
    by_cases hns : ns = []
    · subst hns
      rw [hnil rfl]
      refine ⟨?_, h.content, h.elem⟩
      simp [Ctr.getPosition, h.position, h.buffer, lag, p, turns]
    · obtain ⟨h1, h2, h3, -, h5⟩ := ctr_paged_position (hcons hns)
      refine ⟨?_, h2, h3⟩
      simp only [Ctr.getPosition, h1, lag, if_neg hns]
      have : pageSize cap content.length b * elem
          = pageSize cap content.length b * (elem - 1) + pageSize cap content.length b := by
        rw [← Nat.mul_succ]; congr 1; omega
      rw [this]
      change b + r'.buf.position = p at h5
      change ((b + pageSize cap content.length b : Nat) : Int) - _ + _ = _
      push_cast
      omega
  clear_value p b lag
  refine ⟨_, r', e, ?_, hpos.1, ?_⟩
  · have := (⟨content, q⟩ : ArrayCursor).reads_flatten ns
    simp only [List.map_map, Function.comp_def, List.map_id'] at this ⊢
    rw [this, hlen]
    simp
    omega
  · simp only [Ctr.isAtEnd, hpos.1, Ctr.count, hpos.2.1, hpos.2.2, beq_iff_eq,
      Nat.div_mul_cancel hd]
    omega

/-- Elements of two bytes through a buffer of four: after all ten bytes the page at hand has two, so
the position is two short; after one more read, which delivers nothing, it is right. -/
example : turns 4 10 (0, 0) [3, 4, 3] = (10, 8) ∧ pageSize 4 10 8 * (2 - 1) = 2
    ∧ turns 4 10 (0, 0) [3, 4, 3, 1] = (10, 10) ∧ pageSize 4 10 10 * (2 - 1) = 0
    ∧ PagesSuffice 4 10 (0, 0) [3, 4, 3, 1] := by decide

/-- C36 in full, from every state.  A position outside of the content makes the next read undefined.
Inside, reads that need at most one page more deliver the content from there on; a larger one
delivers the rest of the page at hand and continues as many bytes before the end of that page as
the page has elements -- for elements of one byte with the same page again -- or outside of the
container. -/
theorem C36_exact (r : Res Ctr) (k : Int) (ns : List Nat) (n : Nat) :
    let content := r.dev.content
    let len := content.length
    let cap := r.buf.data.length
    ∃ r', Res.setPositionIn Ctr.seek k .begin r = (.ok (), r')
      ∧ ((k * r.dev.elem < 0 ∨ len < k * r.dev.elem) → (Res.read Ctr.readRaw n r').1 = .ub)
      ∧ ∀ q : Nat, k * r.dev.elem = q → q ≤ len → 0 < cap → PagesSuffice cap len (q, q) ns →
        let s := turns cap len (q, q) ns
        let size := pageSize cap len s.2
        let rest := pageRest cap len s
        ∃ outs r'', M.runList (Res.read Ctr.readRaw) ns r' = (.ok outs, r'')
          ∧ (outs.map (·.bytes)).flatten = (content.drop q).take ns.sum
          ∧ (rest + cap < n → 0 < r.dev.elem →
              (size * r.dev.elem ≤ s.2 + size →
                let more := (content.drop (s.2 + size - size * r.dev.elem)).take (n - rest)
                (Res.read Ctr.readRaw n r'').1
                  = .ok ⟨(content.drop s.1).take rest ++ more, rest + more.length⟩)
              ∧ (s.2 + size < size * r.dev.elem → (Res.read Ctr.readRaw n r'').1 = .ub)) := by
  intro content len cap
  obtain ⟨r', e, h⟩ := ctrAt_begin r k
  refine ⟨r', e, fun hq => h.outside (by simpa using hq) n, fun q hkq hq hc hn => ?_⟩
  rw [hkq] at h
  intro s size rest
  obtain ⟨r2, e2, -, -, hload⟩ := Res.reads_start (Ctr.source _ _) h.length h.dirty hq h.idle trivial
    hc ns hn
  refine ⟨_, r2, e2, ?_, fun hover he => ?_⟩
  · have := (⟨content, q⟩ : ArrayCursor).reads_flatten ns
    simpa [List.map_map, Function.comp_def] using this
  · obtain ⟨r3, e3, h3⟩ := hload n
    obtain ⟨g1, g2, g3, -, g5⟩ := ctr_paged_position h3
    have hsz : r3.buf.size = size := h3.size
    have hle := h3.le
    change s.2 + r3.buf.size ≤ len at hle
    change (s.2 + r3.buf.position : Nat) = s.1 at g5
    change r3.dev.position = ((s.2 + size : Nat) : Int) - ((size * r.dev.elem : Nat) : Int) at g1
    have hw := h3.within
    have hrest : rest = s.2 + r3.buf.size - s.1 := by
      change s.2 + size - s.1 = _
      rw [hsz]
    have hm : s.2 + r3.buf.size + cap < s.1 + n := by omega
    have hout : ∀ out d, Ctr.readRaw (n - (s.2 + r3.buf.size - s.1)) .leanRetrieval r3.dev = (out, d) →
        (Res.readLoaded Ctr.readRaw n r3).1 = out.bind fun g =>
          .ok ⟨(content.drop s.1).take (s.2 + r3.buf.size - s.1) ++ g.bytes,
            s.2 + r3.buf.size - s.1 + g.count⟩ :=
      fun _ _ => Res.readLoaded_over (raw := Ctr.readRaw) (n := n) h3 hm
    rw [← hrest] at hout
    rw [hsz] at hle
    rw [e3]
    clear_value size rest s
    refine ⟨fun hfit => ?_, fun hneg => ?_⟩
    · have hge : size ≤ size * r.dev.elem := Nat.le_mul_of_pos_right _ he
      rw [hout _ _ (Ctr.readRaw_lean r3.dev _ (s.2 + size - size * r.dev.elem) (by rw [g1]; omega)
        (by rw [g2]; change _ ≤ len; omega)), g2]
      rfl
    · rw [hout .ub r3.dev ?_]
      · rfl
      · simp only [Ctr.readRaw]
        rw [M.bind_ok (show Ctr.skipFill .leanRetrieval _ = (.ok (), _) from rfl), M.bind_apply]
        have : r3.dev.position < 0 := by omega
        simp only [Ctr.copyOut, if_pos (Or.inl this : r3.dev.position < 0 ∨
          r3.dev.position > (r3.dev.content.length : Int))]

/-- Back to the third byte after some reads; then two bytes, then seven. -/
example : PagesSuffice 2 10 (2, 2) [2] ∧ turns 2 10 (2, 2) [2] = (4, 2) ∧ pageRest 2 10 (4, 2) = 0
    ∧ ((M.runList (Res.read Ctr.readRaw) [2, 7]
        (Res.setPositionIn Ctr.seek 2 .begin (freshCtr 2 1 [0, 1, 2, 3, 4, 5, 6, 7, 8, 9])).2).1
      = .ok [⟨[2, 3], 2⟩, ⟨[2, 3, 4, 5, 6, 7, 8], 7⟩]) := by decide +kernel

/-- C37 in full.  A relative move after buffered reads starts from the end of the page at hand less
one element for each byte of the page; for elements of one byte that is the start of the page.
If the target is outside of the content the next read is undefined, otherwise reading continues
there. -/
theorem C37_exact (cap elem q : Nat) (content : List Byte) (ns : List Nat) (d : Int) (ms : List Nat)
    (r : Res Ctr) (h : CtrAt cap elem content q r) (hc : 0 < cap) (hq : q ≤ content.length)
    (hn : PagesSuffice cap content.length (q, q) ns) :
    let b := (turns cap content.length (q, q) ns).2
    let size := pageSize cap content.length b
    let origin : Int := if ns = [] then q else (b + size : Nat) - ((size * elem : Nat) : Int)
    ∃ outs r' r'', M.runList (Res.read Ctr.readRaw) ns r = (.ok outs, r')
      ∧ Res.setPositionIn Ctr.seek d .current r' = (.ok (), r'')
      ∧ ((origin + d * elem < 0 ∨ content.length < origin + d * elem) →
          ∀ n, (Res.read Ctr.readRaw n r'').1 = .ub)
      ∧ ∀ t : Nat, origin + d * elem = t → t ≤ content.length →
          PagesSuffice cap content.length (t, t) ms →
          ∃ outs' r''', M.runList (Res.read Ctr.readRaw) ms r'' = (.ok outs', r''')
            ∧ (outs'.map (·.bytes)).flatten = (content.drop t).take ms.sum := by
  intro b size origin
  obtain ⟨r', e, hnil, hcons, -⟩ := Res.reads_start (Ctr.source elem content) h.length h.dirty hq
    h.idle trivial hc ns hn
  obtain ⟨r'', e', h'⟩ := ctrAt_current r' d
  have hat : CtrAt cap elem content (origin + d * elem) r'' := by
    by_cases hns : ns = []
    · have := hnil hns
      subst this
      rw [h.content, h.elem, h.length, h.position] at h'
      simpa only [origin, if_pos hns] using h'
    · obtain ⟨h1, h2, h3, h4, h5⟩ := ctr_paged_position (hcons hns)
      rw [h1, h2, h3, h4] at h'
      simpa only [origin, if_neg hns] using h'
  refine ⟨_, r', r'', e, e', fun ho n => hat.outside ho n, fun t ht hle hms => ?_⟩
  rw [ht] at hat
  obtain ⟨r3, e3, -⟩ := Res.reads_start (Ctr.source elem content) hat.length hat.dirty hle
    hat.idle trivial hc ms hms
  refine ⟨_, r3, e3, ?_⟩
  have := (⟨content, t⟩ : ArrayCursor).reads_flatten ms
  simpa [List.map_map, Function.comp_def] using this

/-- For elements of one byte. -/
theorem C37_exact_bytes (cap q : Nat) (content : List Byte) (ns : List Nat) (d : Int) (ms : List Nat)
    (r : Res Ctr) (h : CtrAt cap 1 content q r) (hc : 0 < cap) (hq : q ≤ content.length)
    (hn : PagesSuffice cap content.length (q, q) ns) (t : Nat)
    (ht : (turns cap content.length (q, q) ns).2 + d = (t : Int)) (hle : t ≤ content.length)
    (hms : PagesSuffice cap content.length (t, t) ms) :
    ∃ outs r' r'' outs' r''', M.runList (Res.read Ctr.readRaw) ns r = (.ok outs, r')
      ∧ Res.setPositionIn Ctr.seek d .current r' = (.ok (), r'')
      ∧ M.runList (Res.read Ctr.readRaw) ms r'' = (.ok outs', r''')
      ∧ (outs'.map (·.bytes)).flatten = (content.drop t).take ms.sum := by
  obtain ⟨outs, r', r'', e, e', -, hin⟩ := C37_exact cap 1 q content ns d ms r h hc hq hn
  obtain ⟨outs', r3, e3, h3⟩ := hin t (by
    split
    · next hns => subst hns; rw [← ht]; simp [turns]
    · rw [← ht]; push_cast; omega) hle hms
  exact ⟨outs, r', r'', outs', r3, e, e', e3, h3⟩

/-- Five of ten bytes have been read through a buffer of four, so the page from byte four on is at
hand; one element forward from there is byte five, which was the next one anyway. -/
example : ∃ outs r' r'' outs' r''', M.runList (Res.read Ctr.readRaw) [5]
      (freshCtr 4 1 [0, 1, 2, 3, 4, 5, 6, 7, 8, 9]) = (.ok outs, r')
    ∧ Res.setPositionIn Ctr.seek 1 .current r' = (.ok (), r'')
    ∧ M.runList (Res.read Ctr.readRaw) [2] r'' = (.ok outs', r''')
    ∧ (outs'.map (·.bytes)).flatten = [5, 6] :=
  C37_exact_bytes 4 0 [0, 1, 2, 3, 4, 5, 6, 7, 8, 9] [5] 1 [2] _ (ctrAt_fresh _ _ _) (by decide)
    (by decide) (by decide) 5 (by decide +kernel) (by decide) (by decide)

/-- With elements of two bytes it leads to before the container. -/
example : ∃ outs r' r'', M.runList (Res.read Ctr.readRaw) [3]
      (freshCtr 4 2 [0, 1, 2, 3, 4, 5, 6, 7, 8, 9]) = (.ok outs, r')
    ∧ Res.setPositionIn Ctr.seek 1 .current r' = (.ok (), r'')
    ∧ ∀ n, (Res.read Ctr.readRaw n r'').1 = .ub := by
  obtain ⟨outs, r', r'', e, e', ho, -⟩ := C37_exact 4 2 0 [0, 1, 2, 3, 4, 5, 6, 7, 8, 9] [3] 1 []
    _ (ctrAt_fresh _ _ _) (by decide) (by decide) (by decide)
  exact ⟨outs, r', r'', e, e', ho (.inl (by decide +kernel))⟩

end Cmp
