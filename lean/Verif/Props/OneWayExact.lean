import Verif.Props.OneWay
import Verif.Props.WriteExact
import Verif.Spec.OneWay

/-
Property C100 in full: what container resources for one direction do in every sequence of
operations, for every size of elements and every buffer.
-/

namespace Cmp

open Cmp.Spec (Lens Pen excerpt)

/-! ### Reading -/

/-- What an operation on a resource for reading gives and makes of the lens. -/
def InOp.see (cap elem : Nat) (content : List Byte) : InOp → Lens → Option ((List Byte × Nat) × Lens)
  | .read n, l => (l.read cap elem content n).map fun (bytes, l) => ((bytes, bytes.length), l)
  | .seek k, _ => some (([], 0), ⟨k * elem, 0, none⟩)
  | .move d, l => some (([], 0), ⟨l.place + d * elem, 0, none⟩)
  | .toEnd, _ => some (([], 0), ⟨(content.length / elem * elem : Nat), 0, none⟩)

/-- The same for a sequence. -/
def InOp.seeAll (cap elem : Nat) (content : List Byte) :
    List InOp → Lens → Option (List (List Byte × Nat) × Lens)
  | [], l => some ([], l)
  | op :: ops, l => do
    let (x, l) ← op.see cap elem content l
    let (xs, l) ← seeAll cap elem content ops l
    pure (x :: xs, l)

/-- A resource for reading that is where the lens is. -/
structure Shows (cap elem : Nat) (content : List Byte) (l : Lens) (r : Res Ctr) : Prop where
  dev : r.dev = ⟨elem, content, l.place, l.skip⟩
  length : r.buf.data.length = cap
  page : match l.page with
    | none => r.buf.readDirty = true ∧ r.buf.position = 0
    | some (page, given) => r.buf.readDirty = false ∧ r.buf.size = page.length
      ∧ page.length ≤ cap ∧ r.buf.data.take page.length = page ∧ r.buf.position = given
      ∧ given ≤ page.length

theorem copyOut_excerpt (n : Nat) (c : Ctr) :
    Ctr.copyOut n c = match excerpt c.content c.position n with
      | none => (.ub, c)
      | some bytes => (.ok bytes, { c with position := c.position + bytes.length }) := by
  unfold Ctr.copyOut excerpt
  by_cases h : 0 ≤ c.position ∧ c.position ≤ c.content.length
  · rw [if_neg (by omega), if_pos h]
    have e : (if c.position.toNat + n > c.content.length then c.content.length - c.position.toNat
        else n) = ((c.content.drop c.position.toNat).take n).length := by
      simp only [List.length_take, List.length_drop]
      split <;> omega
    simp only [e]
    rw [List.take_eq_take_iff.mpr (show _ = min n _ by simp)]
  · rw [if_pos (by omega), if_neg h]

theorem readRaw_lean (n : Nat) (c : Ctr) :
    Ctr.readRaw n .leanRetrieval c = match excerpt c.content c.position n with
      | none => (.ub, c)
      | some bytes => (.ok ⟨bytes, bytes.length⟩, { c with position := c.position + bytes.length }) := by
  simp only [Ctr.readRaw, Ctr.skipFill, Ctr.noteFill, M.bind_apply, M.get_apply]
  rw [if_neg (by simp)]
  simp only [M.pure_apply, copyOut_excerpt]
  cases excerpt c.content c.position n <;> simp

theorem readRaw_fill (n elem : Nat) (content : List Byte) (place : Int) (skip : Nat) :
    match excerpt content (place + skip * elem) n with
      | none => (Ctr.readRaw n .fillBuffer ⟨elem, content, place, skip⟩).1 = .ub
      | some bytes => Ctr.readRaw n .fillBuffer ⟨elem, content, place, skip⟩ =
        (.ok ⟨bytes, bytes.length⟩, ⟨elem, content,
          place + skip * elem + bytes.length - bytes.length * elem, bytes.length⟩) := by
  have e : ∃ k, Ctr.skipFill .fillBuffer ⟨elem, content, place, skip⟩ =
      (.ok (), ⟨elem, content, place + skip * elem, k⟩) := by
    simp only [Ctr.skipFill, M.bind_apply, M.get_apply]
    by_cases h : skip > 0
    · rw [if_pos ⟨trivial, h⟩]
      exact ⟨0, rfl⟩
    · rw [if_neg (by simp [h])]
      have : skip = 0 := by omega
      subst this
      exact ⟨0, by simp⟩
  obtain ⟨k, e⟩ := e
  cases hx : excerpt content (place + skip * elem) n with
  | none =>
    simp only [Ctr.readRaw]
    rw [M.bind_ok e, M.bind_apply, copyOut_excerpt]
    simp only [hx]
  | some bytes =>
    simp only [Ctr.readRaw]
    rw [M.bind_ok e, M.bind_apply, copyOut_excerpt]
    simp only [hx, Ctr.noteFill, if_pos, M.bind_apply, Res.goBack, Ctr.seek, M.noexcept_apply,
      M.modify_apply, M.pure_apply]
    simp [Int.sub_eq_add_neg]

/-- An operation that goes the way of a lens or a pen, `R` saying what is common to it and the
resource. -/
def Goes {α L : Type} (R : L → Res Ctr → Prop) (x : Outcome α × Res Ctr) : Option (α × L) → Prop
  | none => x.1 = .ub
  | some (a, l) => x.1 = .ok a ∧ R l x.2

theorem goes_bind {α β L : Type} {R : L → Res Ctr → Prop} {x : M (Res Ctr) α}
    {f : α → M (Res Ctr) β} {r : Res Ctr} {o : Option (α × L)} {g : α × L → Option (β × L)}
    (h : Goes R (x r) o) (hf : ∀ a l r', R l r' → Goes R (f a r') (g (a, l))) :
    Goes R ((x >>= f) r) (o.bind g) := by
  rcases hx : x r with ⟨y, r'⟩
  rw [hx] at h
  rw [M.bind_apply, hx]
  cases o with
  | none =>
    have : y = .ub := h
    subst this
    rfl
  | some q =>
    obtain ⟨a, l⟩ := q
    obtain ⟨h1, h2⟩ := h
    have : y = .ok a := h1
    subst this
    exact hf a l r' h2

theorem unread_page {cap elem : Nat} {content page : List Byte} {given : Nat} {l : Lens} {r : Res Ctr}
    (h : Shows cap elem content l r) (hp : l.page = some (page, given)) :
    r.buf.unread = page.drop given := by
  have h3 := h.page
  rw [hp] at h3
  obtain ⟨-, h2, -, h4, h5, -⟩ := h3
  rw [IoBuffer.unread, h2, h4, h5]

theorem sees_turn {cap elem : Nat} {content : List Byte} {l : Lens} {r : Res Ctr}
    (h : Shows cap elem content l r) :
    match l.turn cap elem content with
      | none => (Ctr.readRaw r.buf.data.length .fillBuffer r.dev).1 = .ub
      | some (page, l') => ∃ d, Ctr.readRaw r.buf.data.length .fillBuffer r.dev =
          (.ok ⟨page, page.length⟩, d) ∧ page.length ≤ cap ∧ l'.page = some (page, 0)
        ∧ ∀ k, k ≤ page.length → Shows cap elem content { l' with page := some (page, k) }
          ⟨{ Res.filled r.buf ⟨page, page.length⟩ with position := k }, d⟩ := by
  have e := readRaw_fill cap elem content l.place l.skip
  rw [h.dev, h.length]
  unfold Lens.turn
  cases hx : excerpt content (l.place + l.skip * elem) cap with
  | none =>
    rw [hx] at e
    exact e
  | some page =>
    rw [hx] at e
    have hl : page.length ≤ cap := by
      unfold excerpt at hx
      split at hx
      · cases hx
        simp
      · cases hx
    refine ⟨_, e, hl, rfl, fun k hk => ⟨rfl, ?_, ?_⟩⟩
    · exact (Res.filled_length r.buf page page.length).trans h.length
    · refine ⟨rfl, rfl, hl, ?_, rfl, hk⟩
      simp only [Res.filled]
      rw [List.take_append_of_le_length (by simp; have := h.length; omega), List.take_take]
      have := h.length
      rw [List.take_of_length_le (by omega)]

theorem sees_readPage {cap elem n : Nat} {content page : List Byte} {given : Nat} {l : Lens}
    {r : Res Ctr} (h : Shows cap elem content l r) (hp : l.page = some (page, given)) :
    Goes (Shows cap elem content) (Res.readLoaded Ctr.readRaw n r)
      ((l.readPage cap elem content n page given).map fun (bytes, l) =>
        (⟨bytes, bytes.length⟩, l)) := by
  have hu := unread_page h hp
  have h3 := h.page
  rw [hp] at h3
  obtain ⟨h1, h2, hc, h4, h5, h6⟩ := h3
  have hl := h.length
  have hs : r.buf.size ≤ r.buf.data.length := by omega
  unfold Lens.readPage
  simp only
  by_cases hn : n ≤ (page.drop given).length
  · rw [if_pos hn]
    simp only [List.length_drop] at hn
    rw [Res.readLoaded_within _ r n hs (by omega), hu]
    refine ⟨?_, h.dev, hl, h1, h2, hc, h4, by rw [← h5], by omega⟩
    simp; omega
  · rw [if_neg hn]
    simp only [List.length_drop] at hn
    have hq : r.buf.size - r.buf.position = (page.drop given).length := by
      rw [List.length_drop]; omega
    by_cases hbig : cap < n - (page.drop given).length
    · rw [if_pos hbig]
      have e := readRaw_lean (n - (page.drop given).length) r.dev
      have hd := h.dev
      have hcp : r.dev.content = content ∧ r.dev.position = l.place := by rw [hd]; exact ⟨rfl, rfl⟩
      rw [hcp.1, hcp.2] at e
      cases hx : excerpt content l.place (n - (page.drop given).length) with
      | none =>
        rw [hx] at e
        show (Res.readLoaded Ctr.readRaw n r).1 = .ub
        simp only [Res.readLoaded]
        rw [M.bind_ok (M.get_apply r), if_pos (by omega), if_neg (by omega),
          M.bind_ok (Res.first_ok r hs (by omega)),
          if_pos (by rw [hu]; simp only [IoBuffer.capacity]; omega), hu, M.bind_apply]
        simp only [Res.onDev, e]
      | some more =>
        rw [hx] at e
        rw [Res.readLoaded_lean hs (by omega) (by omega) (by rw [hq]; omega) (by rw [hq]; exact e), hu]
        refine ⟨by simp, ?_, hl, h1, h2, hc, h4, h2, Nat.le_refl _⟩
        simp [hd]
    · rw [if_neg hbig]
      have e := sees_turn h
      cases hx : l.turn cap elem content with
      | none =>
        rw [hx] at e
        show (Res.readLoaded Ctr.readRaw n r).1 = .ub
        simp only [Res.readLoaded]
        rw [M.bind_ok (M.get_apply r), if_pos (by omega), if_neg (by omega),
          M.bind_ok (Res.first_ok r hs (by omega)),
          if_neg (by rw [hu]; simp only [IoBuffer.capacity]; omega), M.bind_apply]
        simp only [Res.fill, M.bind_apply, M.get_apply, Res.onDev, IoBuffer.capacity]
        simp only at e
        rcases hy : Ctr.readRaw r.buf.data.length .fillBuffer r.dev with ⟨y, d⟩
        rw [hy] at e
        have : y = .ub := e
        rw [this]
      | some q =>
        obtain ⟨next, l'⟩ := q
        rw [hx] at e
        obtain ⟨d, e, hlen, -, hshow⟩ := e
        rw [Res.readLoaded_fill hs (by omega) (by omega) (by rw [hq]; omega) (by omega) e, hu]
        refine ⟨rfl, ?_⟩
        have := hshow (min next.length (n - (page.drop given).length)) (Nat.min_le_left _ _)
        show Shows cap elem content { l' with page := some (next,
          (next.take (n - (page.drop given).length)).length) } _
        rw [List.length_take, Nat.min_comm]
        exact this

theorem sees_read {cap elem : Nat} {content : List Byte} (n : Nat) {l : Lens} {r : Res Ctr}
    (h : Shows cap elem content l r) :
    Goes (Shows cap elem content) (Res.read Ctr.readRaw n r)
      ((l.read cap elem content n).map fun (bytes, l) => (⟨bytes, bytes.length⟩, l)) := by
  have hl := h.length
  unfold Lens.read
  by_cases hc : cap = 0
  · rw [if_pos hc, Res.read_unbuffered _ _ _ (by omega)]
    have e := readRaw_lean n r.dev
    have hcp : r.dev.content = content ∧ r.dev.position = l.place := by rw [h.dev]; exact ⟨rfl, rfl⟩
    rw [hcp.1, hcp.2] at e
    cases hx : excerpt content l.place n with
    | none =>
      rw [hx] at e
      show (Res.onDev _ r).1 = .ub
      simp only [Res.onDev, e]
    | some bytes =>
      rw [hx] at e
      rw [Res.onDev_ok e]
      exact ⟨rfl, by simp [h.dev], hl, h.page⟩
  · rw [if_neg hc, Res.read_buffered _ _ _ (by omega)]
    have h3 := h.page
    cases hp : l.page with
    | some q =>
      obtain ⟨page, given⟩ := q
      rw [hp] at h3
      rw [Res.readBuffered_clean _ _ _ h3.1]
      exact sees_readPage h hp
    | none =>
      rw [hp] at h3
      have e := sees_turn h
      cases hx : l.turn cap elem content with
      | none =>
        rw [hx] at e
        show (Res.readBuffered Ctr.readRaw n r).1 = .ub
        simp only [Res.readBuffered]
        rw [M.bind_ok (M.get_apply r), if_pos h3.1, M.bind_apply]
        simp only [Res.fill, M.bind_apply, M.get_apply, Res.onDev, IoBuffer.capacity]
        simp only at e
        rcases hy : Ctr.readRaw r.buf.data.length .fillBuffer r.dev with ⟨y, d⟩
        rw [hy] at e
        have : y = .ub := e
        rw [this]
      | some q =>
        obtain ⟨page, l'⟩ := q
        rw [hx] at e
        obtain ⟨d, e, hlen, hpage, hshow⟩ := e
        rw [Res.readBuffered_dirty h3.1 e]
        have := hshow 0 (Nat.zero_le _)
        rw [← hpage] at this
        exact sees_readPage this hpage

theorem sees_op {cap elem : Nat} {content : List Byte} (op : InOp) {l : Lens} {r : Res Ctr}
    (h : Shows cap elem content l r) :
    Goes (Shows cap elem content) (Res.doIn Ctr.readRaw Ctr.seek op r) (op.see cap elem content l) := by
  obtain ⟨b, d⟩ := r
  obtain ⟨hd, hl, hp⟩ := h
  simp only at hd hl hp
  subst hd
  cases op with
  | read n =>
    have e := sees_read n (show Shows cap elem content l ⟨b, _⟩ from ⟨rfl, hl, hp⟩)
    simp only [Res.doIn, InOp.see]
    rw [M.bind_apply]
    rcases hx : Res.read Ctr.readRaw n ⟨b, _⟩ with ⟨y, r'⟩
    rw [hx] at e
    cases ho : l.read cap elem content n with
    | none =>
      rw [ho] at e
      have : y = .ub := e
      subst this
      rfl
    | some q =>
      obtain ⟨bytes, l'⟩ := q
      rw [ho] at e
      obtain ⟨h1, h2⟩ := e
      have : y = .ok ⟨bytes, bytes.length⟩ := h1
      subst this
      exact ⟨rfl, h2⟩
  | seek k => exact ⟨rfl, rfl, hl, rfl, rfl⟩
  | move k => exact ⟨rfl, rfl, hl, rfl, rfl⟩
  | toEnd =>
    refine ⟨rfl, ?_, hl, rfl, rfl⟩
    show (⟨elem, content, ((content.length / elem : Nat) - 0) * elem, 0⟩ : Ctr) = _
    simp

theorem sees_all {cap elem : Nat} {content : List Byte} (ops : List InOp) {l : Lens} {r : Res Ctr}
    (h : Shows cap elem content l r) :
    Goes (Shows cap elem content) (M.runList (Res.doIn Ctr.readRaw Ctr.seek) ops r)
      (InOp.seeAll cap elem content ops l) := by
  induction ops generalizing l r with
  | nil => exact ⟨rfl, h⟩
  | cons op ops ih =>
    refine goes_bind (sees_op op h) fun a l' r' h' => ?_
    exact goes_bind (ih h') fun as l'' r'' h'' => ⟨rfl, h''⟩

/-! ### Writing -/

/-- What an operation on a resource for writing gives and makes of the pen. -/
def PenOp.draw (cap elem : Nat) : PenOp → Pen → Option ((List Byte × Nat) × Pen)
  | .write data, p => (p.write cap elem data).map fun p => (([], data.length), p)
  | .seek k, p => (p.flush elem).map fun p => (([], 0), { p with place := k * elem })
  | .move d, p => (p.flush elem).map fun p => (([], 0), { p with place := p.place + d * elem })
  | .toEnd, p => (p.flush elem).map fun p =>
    (([], 0), { p with place := (p.content.length / elem * elem : Nat) })
  | .flush, p => (p.flush elem).map fun p => (([], 0), p)

/-- The same for a sequence. -/
def PenOp.drawAll (cap elem : Nat) : List PenOp → Pen → Option (List (List Byte × Nat) × Pen)
  | [], p => some ([], p)
  | op :: ops, p => do
    let (x, p) ← op.draw cap elem p
    let (xs, p) ← drawAll cap elem ops p
    pure (x :: xs, p)

/-- A resource for writing that is where the pen is. -/
structure Draws (cap elem : Nat) (p : Pen) (r : Res Ctr) : Prop where
  elem : r.dev.elem = elem
  content : r.dev.content = p.content
  place : r.dev.position = p.place
  keeps : Res.Keeps cap p.kept r
  direct : cap = 0 → p.kept = none

theorem writeRaw_put {elem : Nat} (data : List Byte) {p : Pen} {d : Ctr} (he : d.elem = elem)
    (hc : d.content = p.content) (hp : d.position = p.place) :
    match p.put elem data with
    | none => (Ctr.writeRaw data d).1 = .ub
    | some p' => Ctr.writeRaw data d =
        (.ok data.length, { d with content := p'.content, position := p'.place })
      ∧ p'.kept = p.kept := by
  obtain ⟨e, c, q, s⟩ := d
  obtain ⟨c', q', k⟩ := p
  simp only at he hc hp
  subst he hc hp
  unfold Pen.put
  simp only [Ctr.writeRaw]
  by_cases hneg : q < 0
  · rw [if_pos hneg, if_pos hneg]
  · rw [if_neg hneg, if_neg hneg]
    have hr : (if q.toNat + data.length > c.length then
        c ++ List.replicate (data.length / e * e) 0 else c) =
        if q.toNat + data.length ≤ c.length then c
          else c ++ List.replicate (data.length / e * e) 0 := by
      by_cases h : q.toNat + data.length ≤ c.length
      · rw [if_neg (by omega), if_pos h]
      · rw [if_pos (by omega), if_neg h]
    rw [hr]
    generalize (if q.toNat + data.length ≤ c.length then c
          else c ++ List.replicate (data.length / e * e) 0) = room
    by_cases h : q.toNat + data.length ≤ room.length
    · rw [if_pos h, if_neg (by omega)]
      exact ⟨rfl, rfl⟩
    · rw [if_neg h, if_pos (by omega)]

theorem goes_put {cap elem : Nat} (data : List Byte) {p : Pen} {r : Res Ctr} (h : Draws cap elem p r) :
    Goes (Draws cap elem) (Res.onDev (Ctr.writeRaw data) r)
      ((p.put elem data).map fun p => (data.length, p)) := by
  have e := writeRaw_put data h.elem h.content h.place
  cases hx : p.put elem data with
  | none =>
    rw [hx] at e
    exact e
  | some p' =>
    rw [hx] at e
    obtain ⟨e, hk⟩ := e
    rw [Res.onDev_ok e]
    have := h.keeps
    refine ⟨rfl, h.elem, rfl, rfl, ?_, ?_⟩
    · rw [hk]
      exact ⟨this.length, this.position, this.fits, this.dirty, this.data⟩
    · rw [hk]
      exact h.direct

theorem goes_flush {cap elem : Nat} {p : Pen} {r : Res Ctr} (h : Draws cap elem p r) :
    Goes (fun p r => Draws cap elem p r ∧ p.kept = none) (Res.flush Ctr.writeRaw r)
      ((p.flush elem).map fun p => ((), p)) := by
  have hk := h.keeps
  unfold Pen.flush
  cases hp : p.kept with
  | none =>
    rw [hp] at hk
    rw [Res.flush_clean _ _ (by simpa using hk.dirty)]
    exact ⟨rfl, h, hp⟩
  | some data =>
    rw [hp] at hk
    have hd := hk.data
    have hq := hk.position
    have hl := hk.length
    have hf := hk.fits
    simp only [Option.getD_some] at hd hq hf
    dsimp only
    have e := writeRaw_put data h.elem h.content h.place
    cases hx : p.put elem data with
    | none =>
      rw [hx] at e
      show (Res.flush Ctr.writeRaw r).1 = .ub
      rw [Res.flush, M.bind_ok (M.get_apply r), if_pos (by simpa using hk.dirty),
        if_neg (by omega), hd, M.bind_apply]
      simp only [Res.onDev]
      simp only at e
      rcases hy : Ctr.writeRaw data r.dev with ⟨y, d⟩
      rw [hy] at e
      have : y = .ub := e
      rw [this]
    | some p' =>
      rw [hx] at e
      obtain ⟨e, hk'⟩ := e
      rw [Res.flush_dirty (by simpa using hk.dirty) (by omega) (by rw [hd]; exact e)]
      exact ⟨rfl, ⟨h.elem, rfl, rfl, ⟨hl, rfl, by simp, rfl, by simp⟩, fun _ => rfl⟩, rfl⟩

theorem goes_keep {cap elem : Nat} (data : List Byte) {p : Pen} {r : Res Ctr} (hc : cap ≠ 0)
    (h : Draws cap elem p r) (hf : (p.kept.getD []).length + data.length ≤ cap) :
    Goes (Draws cap elem) (Res.bufWrite data r)
      (some (data.length, { p with kept := some (p.kept.getD [] ++ data) })) := by
  have hk := h.keeps
  obtain ⟨-, -, h3⟩ := Res.gives_keep (raw := Ctr.writeRaw) hk data hf
  have e := Res.bufWrite_ok r data (by rw [hk.position, hk.length]; exact hf)
  rw [e] at h3
  rw [e]
  exact ⟨rfl, h.elem, h.content, h.place, h3 rfl, fun h => absurd h hc⟩

theorem goes_write {cap elem : Nat} (data : List Byte) {p : Pen} {r : Res Ctr}
    (h : Draws cap elem p r) :
    Goes (Draws cap elem) (Res.write Ctr.writeRaw data r)
      ((p.write cap elem data).map fun p => (data.length, p)) := by
  have hl := h.keeps.length
  have hq := h.keeps.position
  unfold Pen.write
  by_cases hc : cap = 0
  · rw [if_pos hc]
    have e : Res.write Ctr.writeRaw data r = Res.onDev (Ctr.writeRaw data) r := by
      rw [Res.write, M.bind_ok (M.get_apply r), if_neg (by simp only [IoBuffer.capacity]; omega)]
    rw [e]
    exact goes_put data h
  · rw [if_neg hc]
    have e : Res.write Ctr.writeRaw data r = Res.writeBuffered Ctr.writeRaw data r := by
      rw [Res.write, M.bind_ok (M.get_apply r), if_pos (by simp only [IoBuffer.capacity]; omega)]
    rw [e, Res.writeBuffered, M.bind_ok (M.get_apply r)]
    by_cases hover : cap < (p.kept.getD []).length + data.length
    · rw [if_pos hover, if_pos (by simp only [IoBuffer.capacity]; omega), M.bind_apply]
      have hfl := goes_flush h
      rcases hy : Res.flush Ctr.writeRaw r with ⟨y, r'⟩
      rw [hy] at hfl
      cases hx : p.flush elem with
      | none =>
        rw [hx] at hfl
        have : y = .ub := hfl
        rw [this]
        rfl
      | some p' =>
        rw [hx] at hfl
        obtain ⟨h1, h2, h3⟩ := hfl
        have : y = .ok () := h1
        rw [this]
        simp only [Option.bind_eq_bind, Option.bind_some, IoBuffer.capacity, hl]
        by_cases hbig : cap < data.length
        · rw [if_pos hbig, if_pos (by omega)]
          exact goes_put data h2
        · rw [if_neg hbig, if_neg (by omega)]
          have := goes_keep data hc h2 (by rw [h3]; simpa using hbig)
          rw [h3] at this
          exact this
    · rw [if_neg hover, if_neg (by simp only [IoBuffer.capacity]; omega)]
      exact goes_keep data hc h (by omega)

theorem goes_place {cap elem : Nat} {p : Pen} {r : Res Ctr} (h : Draws cap elem p r) (k : Int)
    (pr : PositionReference) (f : Pen → Int)
    (hf : ∀ p r, Draws cap elem p r → (Ctr.seek k pr r.dev).2.position = f p) :
    Goes (Draws cap elem) ((do Res.setPositionOut Ctr.writeRaw Ctr.seek k pr
                               pure ([], 0) : M (Res Ctr) (List Byte × Nat)) r)
      ((p.flush elem).map fun p => (([], 0), { p with place := f p })) := by
  have hfl := goes_flush h
  rw [M.bind_apply, Res.setPositionOut, M.noexcept_apply, M.bind_apply]
  rcases hy : Res.flush Ctr.writeRaw r with ⟨y, r'⟩
  rw [hy] at hfl
  cases hx : p.flush elem with
  | none =>
    rw [hx] at hfl
    have : y = .ub := hfl
    rw [this]
    rfl
  | some p' =>
    rw [hx] at hfl
    obtain ⟨h1, h2, h3⟩ := hfl
    have : y = .ok () := h1
    rw [this]
    have hp := hf p' r' h2
    obtain ⟨b, d⟩ := r'
    have hk := h2.keeps
    refine ⟨by cases pr <;> rfl, ?_, ?_, ?_, ?_, h2.direct⟩
    · have := h2.elem
      cases pr <;> exact this
    · have := h2.content
      cases pr <;> exact this
    · rw [← hp]
      cases pr <;> rfl
    · refine ⟨?_, ?_, hk.fits, ?_, ?_⟩
      · cases pr <;> exact hk.length
      · cases pr <;> exact hk.position
      · cases pr <;> exact hk.dirty
      · cases pr <;> exact hk.data

theorem draws_op {cap elem : Nat} (op : PenOp) {p : Pen} {r : Res Ctr} (h : Draws cap elem p r) :
    Goes (Draws cap elem) (Res.doPen Ctr.writeRaw Ctr.seek op r) (op.draw cap elem p) := by
  cases op with
  | write data =>
    have := goes_bind (f := fun n => (pure ([], n) : M (Res Ctr) (List Byte × Nat)))
      (g := fun q => some (([], q.1), q.2)) (goes_write data h) fun a l r' h' => ⟨rfl, h'⟩
    simp only [PenOp.draw, Res.doPen]
    rw [Option.map_eq_bind] at this ⊢
    rw [Option.bind_assoc] at this
    exact this
  | seek k => exact goes_place h k .begin _ fun p r h => by rw [← h.elem]; rfl
  | move d =>
    refine goes_place h d .current (fun p => p.place + d * elem) fun p r h => ?_
    rw [← h.elem, ← h.place]
    rfl
  | toEnd =>
    refine goes_place h 0 .end (fun p => (p.content.length / elem * elem : Nat)) fun p r h => ?_
    rw [← h.elem, ← h.content]
    show ((r.dev.content.length / r.dev.elem : Nat) - 0 : Int) * r.dev.elem = _
    simp
  | flush =>
    have := goes_bind (f := fun _ => (pure ([], 0) : M (Res Ctr) (List Byte × Nat)))
      (g := fun q => some (([], 0), q.2)) (goes_flush h) fun a l r' h' => ⟨rfl, h'⟩
    simp only [PenOp.draw, Res.doPen]
    cases ho : p.flush elem with
    | none =>
      rw [ho] at this
      exact this
    | some q =>
      rw [ho] at this
      exact ⟨this.1, this.2.1⟩

theorem draws_all {cap elem : Nat} (ops : List PenOp) {p : Pen} {r : Res Ctr}
    (h : Draws cap elem p r) :
    Goes (Draws cap elem) (M.runList (Res.doPen Ctr.writeRaw Ctr.seek) ops r)
      (PenOp.drawAll cap elem ops p) := by
  induction ops generalizing p r with
  | nil => exact ⟨rfl, h⟩
  | cons op ops ih =>
    refine goes_bind (draws_op op h) fun a l' r' h' => ?_
    exact goes_bind (ih h') fun as l'' r'' h'' => ⟨rfl, h''⟩

/-! ### C100 -/

/-- C100 in full, for every content, every size of elements, every buffer and every sequence of
operations, with positions inside and outside the content.  Reading gives what the lens of the
specification sees, and the position it has, and is undefined exactly if the lens has no answer;
writing gives what the pen of the specification draws, and the position it has, and is undefined
exactly if the pen has no answer. -/
theorem C100_exact (cap elem : Nat) (content : List Byte) :
    (∀ ops : List InOp,
      match InOp.seeAll cap elem content ops Lens.start with
      | none => (M.runList (Res.doIn Ctr.readRaw Ctr.seek) ops (freshCtr cap elem content)).1 = .ub
      | some (results, l) => ∃ r,
        M.runList (Res.doIn Ctr.readRaw Ctr.seek) ops (freshCtr cap elem content) = (.ok results, r)
        ∧ Ctr.getPosition r = l.position ∧ r.dev.content = content)
    ∧ ∀ ops : List PenOp,
      match PenOp.drawAll cap elem ops (Pen.start content) with
      | none => (M.runList (Res.doPen Ctr.writeRaw Ctr.seek) ops (freshCtr cap elem content)).1 = .ub
      | some (results, p) => ∃ r,
        M.runList (Res.doPen Ctr.writeRaw Ctr.seek) ops (freshCtr cap elem content) = (.ok results, r)
        ∧ Ctr.getPosition r = p.position ∧ r.dev.content = p.content
        ∧ match p.flush elem with
          | none => (Res.flush Ctr.writeRaw r).1 = .ub
          | some p' => ∃ r', Res.flush Ctr.writeRaw r = (.ok (), r')
            ∧ Ctr.getPosition r' = p'.position ∧ r'.dev.content = p'.content := by
  have pos : ∀ {p : Pen} {r : Res Ctr}, Draws cap elem p r → Ctr.getPosition r = p.position := by
    intro p r h
    rw [Ctr.getPosition, h.place, h.keeps.position]
    rfl
  constructor
  · intro ops
    have h := sees_all ops (show Shows cap elem content Lens.start (freshCtr cap elem content) from
      ⟨rfl, by simp [freshCtr, IoBuffer.make], rfl, rfl⟩)
    cases hx : InOp.seeAll cap elem content ops Lens.start with
    | none =>
      rw [hx] at h
      exact h
    | some q =>
      obtain ⟨results, l⟩ := q
      rw [hx] at h
      obtain ⟨h1, h2⟩ := h
      refine ⟨_, Prod.ext h1 rfl, ?_, by rw [h2.dev]⟩
      rw [Ctr.getPosition, h2.dev, Lens.position]
      have := h2.page
      cases hp : l.page with
      | none =>
        rw [hp] at this
        rw [this.2]
        rfl
      | some q =>
        rw [hp] at this
        rw [this.2.2.2.2.1]
        rfl
  · intro ops
    have h := draws_all (cap := cap) (elem := elem) ops (show Draws cap elem (Pen.start content)
      (freshCtr cap elem content) from ⟨rfl, rfl, rfl, Res.keeps_make cap _, fun _ => rfl⟩)
    cases hx : PenOp.drawAll cap elem ops (Pen.start content) with
    | none =>
      rw [hx] at h
      exact h
    | some q =>
      obtain ⟨results, p⟩ := q
      rw [hx] at h
      obtain ⟨h1, h2⟩ := h
      refine ⟨_, Prod.ext h1 rfl, pos h2, h2.content, ?_⟩
      have h3 := goes_flush h2
      cases hy : p.flush elem with
      | none =>
        rw [hy] at h3
        exact h3
      | some p' =>
        rw [hy] at h3
        exact ⟨_, Prod.ext h3.1 rfl, pos h3.2.1, h3.2.1.content⟩

/-- A read larger than what is left of the page starts again at the page; a move starts from where the
page does; with elements of two bytes the positions reported are too small, and a large read is
undefined. -/
example : InOp.seeAll 1 1 [1, 2, 3, 4] [.seek 1, .read 3] Lens.start
      = some ([([], 0), ([2, 2, 3], 3)], ⟨3, 1, some ([2], 1)⟩)
    ∧ InOp.seeAll 2 1 [1, 2, 3, 4] [.read 1, .move 1, .read 1] Lens.start
      = some ([([1], 1), ([], 0), ([2], 1)], ⟨1, 2, some ([2, 3], 1)⟩)
    ∧ InOp.seeAll 4 2 [1, 2, 3, 4, 5, 6, 7, 8, 9, 10] [.read 4, .read 4, .read 4] Lens.start
      = some ([([1, 2, 3, 4], 4), ([5, 6, 7, 8], 4), ([9, 10], 2)], ⟨6, 2, some ([9, 10], 2)⟩)
    ∧ (InOp.seeAll 4 2 [1, 2, 3, 4, 5, 6, 7, 8, 9, 10] [.read 4] Lens.start).map (·.2.position)
      = some 0
    ∧ InOp.seeAll 4 2 [1, 2, 3, 4, 5, 6] [.read 1, .read 8] Lens.start = none
    ∧ InOp.seeAll 4 1 [1, 2, 3, 4] [.read 3, .move (-1), .read 1] Lens.start = none
    ∧ InOp.seeAll 4 1 [1, 2, 3, 4] [.seek 5] Lens.start = some ([([], 0)], ⟨5, 0, none⟩)
    ∧ InOp.seeAll 4 1 [1, 2, 3, 4] [.seek 5, .read 0] Lens.start = none := by
  refine ⟨?_, ?_, ?_, ?_, ?_, ?_, ?_, ?_⟩ <;> decide +kernel

/-- Data kept back and put in their place together make the content larger than data put in their
place one after the other; a flush too late meets a place outside. -/
example : PenOp.drawAll 4 1 [.seek 3, .write [7], .write [8], .flush] (Pen.start [1, 2, 3, 4])
      = some ([([], 0), ([], 1), ([], 1), ([], 0)], ⟨[1, 2, 3, 7, 8, 0], 5, none⟩)
    ∧ PenOp.drawAll 0 1 [.seek 3, .write [7], .write [8], .flush] (Pen.start [1, 2, 3, 4])
      = some ([([], 0), ([], 1), ([], 1), ([], 0)], ⟨[1, 2, 3, 7, 8], 5, none⟩)
    ∧ PenOp.drawAll 4 1 [.seek 6, .write [7]] (Pen.start [1, 2, 3, 4])
      = some ([([], 0), ([], 1)], ⟨[1, 2, 3, 4], 6, some [7]⟩)
    ∧ Pen.flush 1 ⟨[1, 2, 3, 4], 6, some [7]⟩ = none
    ∧ PenOp.drawAll 4 1 [.seek 6, .write [7], .toEnd] (Pen.start [1, 2, 3, 4]) = none
    ∧ PenOp.drawAll 4 1 [.write [7], .move (-1), .write [8, 9]] (Pen.start [1, 2, 3, 4])
      = some ([([], 1), ([], 0), ([], 2)], ⟨[7, 2, 3, 4], 0, some [8, 9]⟩) := by
  refine ⟨?_, ?_, ?_, ?_, ?_, ?_⟩ <;> decide +kernel

end Cmp
