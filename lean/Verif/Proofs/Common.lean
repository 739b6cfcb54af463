import Verif.Model.Common
import Verif.Spec.Board
import Verif.Props.OneWayExact

/-
What several resources on one container do, step by step, against the board of the specification.
-/

namespace Cmp

open Cmp.Spec (Lens Pen excerpt Seen Goal BoardOp Board)

/-- The arguments of `set_position` for a goal. -/
def Goal.args : Goal → Int × PositionReference
  | .element k => (k, .begin)
  | .on d => (d, .current)
  | .beforeEnd k => (k, .end)

/-- Do on a container and its resources what is done with a board. -/
def Common.act : BoardOp → M Common Seen
  | .newReader i cap => do Common.openReader i cap; pure .done
  | .newWriter i cap => do Common.openWriter i cap; pure .done
  | .dropReader i => do Common.closeReader i; pure .done
  | .dropWriter i => do Common.closeWriter i; pure .done
  | .copyReader i j => do Common.copyReader i j; pure .done
  | .copyWriter i j => do Common.copyWriter i j; pure .done
  | .read i n => do let got ← Common.read i n; pure (.bytes got.bytes got.count)
  | .readerTo i g => do Common.seekReader i (Goal.args g).1 (Goal.args g).2; pure .done
  | .readerPlace i => do let p ← Common.readerPosition i; pure (.place p)
  | .readerAtEnd i => do let b ← Common.readerAtEnd i; pure (.atEnd b)
  | .write i data => do let n ← Common.write i data; pure (.bytes [] n)
  | .flush i => do Common.flush i; pure .done
  | .writerTo i g => do Common.seekWriter i (Goal.args g).1 (Goal.args g).2; pure .done
  | .writerPlace i => do let p ← Common.writerPosition i; pure (.place p)
  | .writerAtEnd i => do let b ← Common.writerAtEnd i; pure (.atEnd b)
  | .look => do let data ← Common.look; pure (.bytes data data.length)
  | .assign content => do Common.assign content; pure .done

namespace Board

/-- A container and resources that are as on the board. -/
structure Pictures (b : Board) (c : Common) : Prop where
  elem : c.elem = b.elem
  content : c.content = b.content
  readers : ∀ i, match b.lenses i with
    | none => c.readers i = none
    | some (cap, l) => ∃ r, c.readers i = some r ∧ Shows cap b.elem r.dev.content l r
  writers : ∀ i, match b.pens i with
    | none => c.writers i = none
    | some (cap, place, kept) => ∃ r, c.writers i = some r
      ∧ Draws cap b.elem ⟨r.dev.content, place, kept⟩ r

/-- An operation that goes the way of the board. -/
def Acts {α : Type} (x : Outcome α × Common) : Option (α × Board) → Prop
  | none => x.1 = .ub
  | some (a, b) => x.1 = .ok a ∧ Pictures b x.2

theorem acts_map {α β : Type} {x : M Common α} {f : α → β} {c : Common} {o : Option (α × Board)}
    (h : Acts (x c) o) :
    Acts ((do let a ← x; pure (f a) : M Common β) c) (o.map fun (a, b) => (f a, b)) := by
  rcases hx : x c with ⟨y, c'⟩
  rw [hx] at h
  cases o with
  | none =>
    have : y = .ub := h
    subst this
    rw [Option.map_none, M.bind_apply, hx]
    rfl
  | some q =>
    obtain ⟨a, b⟩ := q
    obtain ⟨h1, h2⟩ := h
    have : y = .ok a := h1
    subst this
    rw [Option.map_some, M.bind_apply, hx]
    exact ⟨rfl, h2⟩

theorem Shows.reload {cap elem : Nat} {content content' : List Byte} {l : Lens} {r : Res Ctr}
    (h : Shows cap elem content l r) : Shows cap elem content' l (Common.load content' r) :=
  ⟨by simp [Common.load, h.dev], h.length, h.page⟩

theorem Draws.reload {cap elem : Nat} {content content' : List Byte} {place : Int}
    {kept : Option (List Byte)} {r : Res Ctr} (h : Draws cap elem ⟨content, place, kept⟩ r) :
    Draws cap elem ⟨content', place, kept⟩ (Common.load content' r) :=
  ⟨h.elem, rfl, h.place, ⟨h.keeps.length, h.keeps.position, h.keeps.fits, h.keeps.dirty, h.keeps.data⟩,
    h.direct⟩

theorem pictures_lens {b : Board} {c : Common} (h : Pictures b c) (i : Nat)
    {o : Option (Nat × Lens)} {q : Option (Res Ctr)}
    (hq : match o with
      | none => q = none
      | some (cap, l) => ∃ r, q = some r ∧ Shows cap b.elem r.dev.content l r) :
    Pictures (b.withLens i o) (c.putReader i q) := by
  refine ⟨h.elem, h.content, fun j => ?_, h.writers⟩
  simp only [Board.withLens, Common.putReader]
  by_cases hj : j = i
  · rw [if_pos hj, if_pos hj]
    exact hq
  · rw [if_neg hj, if_neg hj]
    exact h.readers j

theorem pictures_pen {b : Board} {c : Common} (h : Pictures b c) (i : Nat)
    {o : Option (Nat × Int × Option (List Byte))} {q : Option (Res Ctr)}
    (hq : match o with
      | none => q = none
      | some (cap, place, kept) => ∃ r, q = some r
        ∧ Draws cap b.elem ⟨r.dev.content, place, kept⟩ r) :
    Pictures (b.withPen i o) (c.putWriter i q) := by
  refine ⟨h.elem, h.content, h.readers, fun j => ?_⟩
  simp only [Board.withPen, Common.putWriter]
  by_cases hj : j = i
  · rw [if_pos hj, if_pos hj]
    exact hq
  · rw [if_neg hj, if_neg hj]
    exact h.writers j

theorem acts_reader {α : Type} {b : Board} {c : Common} (h : Pictures b c) (i : Nat)
    {x : M (Res Ctr) α} {g : Nat → Lens → Option (α × Lens)}
    (hx : ∀ cap l r, Shows cap b.elem b.content l r →
      Goes (Shows cap b.elem b.content) (x r) (g cap l)) :
    Acts (Common.useReader i x c) ((b.lenses i).bind fun q => (g q.1 q.2).map fun y =>
      (y.1, b.withLens i (some (q.1, y.2)))) := by
  have hi := h.readers i
  unfold Common.useReader
  cases hl : b.lenses i with
  | none =>
    rw [hl] at hi
    simp only at hi
    rw [hi]
    rfl
  | some q =>
    obtain ⟨cap, l⟩ := q
    rw [hl] at hi
    obtain ⟨r, hr, hs⟩ := hi
    rw [hr]
    have e := hx cap l (Common.load c.content r) (by rw [h.content]; exact Shows.reload hs)
    simp only [Option.bind_some]
    cases hg : g cap l with
    | none =>
      rw [hg] at e
      exact e
    | some y =>
      obtain ⟨a, l'⟩ := y
      rw [hg] at e
      obtain ⟨e1, e2⟩ := e
      refine ⟨e1, ?_⟩
      have hd : (x (Common.load c.content r)).2.dev.content = b.content := by rw [e2.dev]
      have hp := pictures_lens h i (o := some (cap, l')) (q := some (x (Common.load c.content r)).2)
        ⟨_, rfl, by rw [hd]; exact e2⟩
      exact ⟨hp.elem, hd, hp.readers, hp.writers⟩

theorem acts_writer {α : Type} {b : Board} {c : Common} (h : Pictures b c) (i : Nat)
    {x : M (Res Ctr) α} {g : Nat → Pen → Option (α × Pen)}
    (hx : ∀ cap p r, Draws cap b.elem p r → Goes (Draws cap b.elem) (x r) (g cap p)) :
    Acts (Common.useWriter i x c) ((b.pen i).bind fun q => (g q.1 q.2).map fun y =>
      (y.1, b.drawn i q.1 y.2)) := by
  have hi := h.writers i
  unfold Common.useWriter Board.pen
  cases hl : b.pens i with
  | none =>
    rw [hl] at hi
    simp only at hi
    rw [hi]
    rfl
  | some q =>
    obtain ⟨cap, place, kept⟩ := q
    rw [hl] at hi
    obtain ⟨r, hr, hs⟩ := hi
    rw [hr]
    have e := hx cap ⟨b.content, place, kept⟩ (Common.load c.content r)
      (by rw [h.content]; exact Draws.reload hs)
    simp only [Option.map_some, Option.bind_some]
    cases hg : g cap ⟨b.content, place, kept⟩ with
    | none =>
      rw [hg] at e
      exact e
    | some y =>
      obtain ⟨a, p⟩ := y
      rw [hg] at e
      obtain ⟨e1, e2⟩ := e
      refine ⟨e1, ?_⟩
      have hp := pictures_pen h i (o := some (cap, p.place, p.kept))
        (q := some (x (Common.load c.content r)).2) ⟨_, rfl, by rw [e2.content]; exact e2⟩
      exact ⟨hp.elem, e2.content, hp.readers, hp.writers⟩

theorem shows_position {cap elem : Nat} {content : List Byte} {l : Lens} {r : Res Ctr}
    (h : Shows cap elem content l r) : Ctr.getPosition r = l.position := by
  rw [Ctr.getPosition, h.dev, Lens.position]
  have := h.page
  cases hp : l.page with
  | none =>
    rw [hp] at this
    rw [this.2]
    rfl
  | some q =>
    rw [hp] at this
    rw [this.2.2.2.2.1]
    rfl

theorem draws_position {cap elem : Nat} {p : Pen} {r : Res Ctr} (h : Draws cap elem p r) :
    Ctr.getPosition r = p.position := by
  rw [Ctr.getPosition, h.place, h.keeps.position]
  rfl

theorem sees_place {cap elem : Nat} {content : List Byte} (g : Goal) {l : Lens} {r : Res Ctr}
    (h : Shows cap elem content l r) :
    Goes (Shows cap elem content) (Res.setPositionIn Ctr.seek (Goal.args g).1 (Goal.args g).2 r)
      (some ((), ⟨g.from elem content l.place, 0, none⟩)) := by
  obtain ⟨b, d⟩ := r
  obtain ⟨hd, hl, hp⟩ := h
  simp only at hd hl hp
  subst hd
  cases g <;> exact ⟨rfl, rfl, hl, rfl, rfl⟩

theorem draws_place {cap elem : Nat} (g : Goal) {p : Pen} {r : Res Ctr} (h : Draws cap elem p r) :
    Goes (Draws cap elem)
      (Res.setPositionOut Ctr.writeRaw Ctr.seek (Goal.args g).1 (Goal.args g).2 r)
      ((p.flush elem).map fun p => ((), { p with place := g.from elem p.content p.place })) := by
  have e := goes_place h (Goal.args g).1 (Goal.args g).2
    (fun p => g.from elem p.content p.place) (fun p r h => by
      rw [← h.elem, ← h.content, ← h.place]
      cases g <;> rfl)
  rw [M.bind_apply] at e
  rcases hx : Res.setPositionOut Ctr.writeRaw Ctr.seek (Goal.args g).1 (Goal.args g).2 r with ⟨y, r'⟩
  rw [hx] at e
  cases ho : p.flush elem with
  | none =>
    rw [ho] at e
    cases y with
    | ok a => cases e
    | ub => rfl
    | _ => cases e
  | some p' =>
    rw [ho] at e
    cases y with
    | ok a => exact ⟨rfl, e.2⟩
    | _ => cases e.1

theorem withLens_self {b : Board} {i : Nat} {q : Option (Nat × Lens)} (h : b.lenses i = q) :
    b.withLens i q = b := by
  have : (fun j => if j = i then q else b.lenses j) = b.lenses := by
    funext j
    split
    · rw [‹j = i›, h]
    · rfl
  simp only [Board.withLens, this]

theorem drawn_self {b : Board} {i cap : Nat} {place : Int} {kept : Option (List Byte)}
    (h : b.pens i = some (cap, place, kept)) : b.drawn i cap ⟨b.content, place, kept⟩ = b := by
  have : (fun j => if j = i then some (cap, place, kept) else b.pens j) = b.pens := by
    funext j
    split
    · rw [‹j = i›, h]
    · rfl
  simp only [Board.drawn, Board.withPen, this]

theorem acts_act {b : Board} {c : Common} (h : Pictures b c) (op : BoardOp) :
    Acts (Common.act op c) (b.act op) := by
  cases op with
  | newReader i cap =>
    refine ⟨rfl, pictures_lens h i (q := some ⟨IoBuffer.make cap, Ctr.make c.elem c.content⟩)
      ⟨_, rfl, ?_⟩⟩
    rw [h.elem]
    exact ⟨rfl, by simp [IoBuffer.make], rfl, rfl⟩
  | newWriter i cap =>
    refine ⟨rfl, pictures_pen h i (q := some ⟨IoBuffer.make cap, Ctr.make c.elem c.content⟩)
      ⟨_, rfl, ?_⟩⟩
    rw [h.elem]
    exact ⟨rfl, rfl, rfl, Res.keeps_make cap _, fun _ => rfl⟩
  | dropReader i => exact ⟨rfl, pictures_lens h i (o := none) (q := none) rfl⟩
  | dropWriter i => exact ⟨rfl, pictures_pen h i (o := none) (q := none) rfl⟩
  | copyReader i j =>
    have e : Acts (Common.copyReader i j c) ((b.lenses i).map fun l => ((), b.withLens j (some l))) := by
      have hi := h.readers i
      unfold Common.copyReader
      cases hl : b.lenses i with
      | none =>
        rw [hl] at hi
        simp only at hi
        rw [hi]
        rfl
      | some q =>
        rw [hl] at hi
        obtain ⟨r, hr, hs⟩ := hi
        rw [hr]
        exact ⟨rfl, pictures_lens h j ⟨_, rfl, hs⟩⟩
    have := acts_map (f := fun _ => Seen.done) e
    rw [Option.map_map] at this
    exact this
  | copyWriter i j =>
    have e : Acts (Common.copyWriter i j c) ((b.pens i).map fun l => ((), b.withPen j (some l))) := by
      have hi := h.writers i
      unfold Common.copyWriter
      cases hl : b.pens i with
      | none =>
        rw [hl] at hi
        simp only at hi
        rw [hi]
        rfl
      | some q =>
        rw [hl] at hi
        obtain ⟨r, hr, hs⟩ := hi
        rw [hr]
        exact ⟨rfl, pictures_pen h j ⟨_, rfl, hs⟩⟩
    have := acts_map (f := fun _ => Seen.done) e
    rw [Option.map_map] at this
    exact this
  | read i n =>
    have e := acts_map (f := fun got : ReadResult => Seen.bytes got.bytes got.count)
      (acts_reader h i (x := Res.read Ctr.readRaw n)
        (g := fun cap l => (l.read cap b.elem b.content n).map fun (bytes, l) =>
          (⟨bytes, bytes.length⟩, l)) fun cap l r hs => sees_read n hs)
    simp only [Board.act]
    rw [show (do let (cap, l) ← b.lenses i
                 let (data, l) ← l.read cap b.elem b.content n
                 pure (Seen.bytes data data.length, b.withLens i (some (cap, l))) :
        Option (Seen × Board)) = _ from ?_]
    · exact e
    · cases b.lenses i with
      | none => rfl
      | some q =>
        simp only [Option.bind_eq_bind, Option.bind_some]
        cases q.2.read q.1 b.elem b.content n <;> rfl
  | readerTo i g =>
    have e := acts_map (f := fun _ => Seen.done)
      (acts_reader h i (x := Res.setPositionIn Ctr.seek (Goal.args g).1 (Goal.args g).2)
        (g := fun _ l => some ((), ⟨g.from b.elem b.content l.place, 0, none⟩))
        fun cap l r hs => sees_place g hs)
    simp only [Board.act]
    cases hl : b.lenses i with
    | none =>
      rw [hl] at e
      exact e
    | some q =>
      rw [hl] at e
      exact e
  | readerPlace i =>
    have e := acts_map (f := Seen.place)
      (acts_reader h i (x := fun r => (.ok (Ctr.getPosition r), r)) (g := fun _ l => some (l.position, l))
        fun cap l r hs => ⟨by rw [shows_position hs], hs⟩)
    simp only [Board.act]
    cases hl : b.lenses i with
    | none =>
      rw [hl] at e
      exact e
    | some q =>
      rw [hl] at e
      have hb := withLens_self hl
      obtain ⟨e1, e2⟩ := e
      rw [hb] at e2
      exact ⟨e1, e2⟩
  | readerAtEnd i =>
    have e := acts_map (f := Seen.atEnd)
      (acts_reader h i (x := fun r => (.ok (Ctr.isAtEnd r), r))
        (g := fun _ l => some (decide (l.position = b.last), l))
        fun cap l r hs => ⟨by
          simp only [Ctr.isAtEnd, Ctr.count]
          rw [shows_position hs, hs.dev]
          rfl, hs⟩)
    simp only [Board.act]
    cases hl : b.lenses i with
    | none =>
      rw [hl] at e
      exact e
    | some q =>
      rw [hl] at e
      have hb := withLens_self hl
      obtain ⟨e1, e2⟩ := e
      rw [hb] at e2
      exact ⟨e1, e2⟩
  | write i data =>
    have e := acts_map (f := fun n => Seen.bytes [] n)
      (acts_writer h i (x := Res.write Ctr.writeRaw data)
        (g := fun cap p => (p.write cap b.elem data).map fun p => (data.length, p))
        fun cap p r hs => goes_write data hs)
    simp only [Board.act]
    rw [show (do let (cap, p) ← b.pen i
                 let p ← p.write cap b.elem data
                 pure (Seen.bytes [] data.length, b.drawn i cap p) :
        Option (Seen × Board)) = _ from ?_]
    · exact e
    · cases b.pen i with
      | none => rfl
      | some q =>
        simp only [Option.bind_eq_bind, Option.bind_some]
        cases q.2.write q.1 b.elem data <;> rfl
  | flush i =>
    have e := acts_map (f := fun _ => Seen.done)
      (acts_writer h i (x := Res.flush Ctr.writeRaw)
        (g := fun cap p => (p.flush b.elem).map fun p => ((), p))
        fun cap p r hs => by
          have := goes_flush hs
          cases ho : p.flush b.elem with
          | none =>
            rw [ho] at this
            exact this
          | some p' =>
            rw [ho] at this
            exact ⟨this.1, this.2.1⟩)
    simp only [Board.act]
    rw [show (do let (cap, p) ← b.pen i
                 let p ← p.flush b.elem
                 pure (Seen.done, b.drawn i cap p) : Option (Seen × Board)) = _ from ?_]
    · exact e
    · cases b.pen i with
      | none => rfl
      | some q =>
        simp only [Option.bind_eq_bind, Option.bind_some]
        cases q.2.flush b.elem <;> rfl
  | writerTo i g =>
    have e := acts_map (f := fun _ => Seen.done)
      (acts_writer h i (x := Res.setPositionOut Ctr.writeRaw Ctr.seek (Goal.args g).1 (Goal.args g).2)
        (g := fun cap p => (p.flush b.elem).map fun p =>
          ((), { p with place := g.from b.elem p.content p.place }))
        fun cap p r hs => draws_place g hs)
    simp only [Board.act]
    rw [show (do let (cap, p) ← b.pen i
                 let p ← p.flush b.elem
                 pure (Seen.done, b.drawn i cap { p with place := g.from b.elem p.content p.place }) :
        Option (Seen × Board)) = _ from ?_]
    · exact e
    · cases b.pen i with
      | none => rfl
      | some q =>
        simp only [Option.bind_eq_bind, Option.bind_some]
        cases q.2.flush b.elem <;> rfl
  | writerPlace i =>
    have e := acts_map (f := Seen.place)
      (acts_writer h i (x := fun r => (.ok (Ctr.getPosition r), r)) (g := fun _ p => some (p.position, p))
        fun cap p r hs => ⟨by rw [draws_position hs], hs⟩)
    simp only [Board.act]
    unfold Board.pen at e ⊢
    cases hl : b.pens i with
    | none =>
      rw [hl] at e
      exact e
    | some q =>
      rw [hl] at e
      obtain ⟨cap, place, kept⟩ := q
      have hb := drawn_self hl
      obtain ⟨e1, e2⟩ := e
      simp only at e2
      rw [hb] at e2
      exact ⟨e1, e2⟩
  | writerAtEnd i =>
    have e := acts_map (f := Seen.atEnd)
      (acts_writer h i (x := fun r => (.ok (Ctr.isAtEnd r), r))
        (g := fun _ p => some (decide (p.position = (p.content.length / b.elem * b.elem : Nat)), p))
        fun cap p r hs => ⟨by
          simp only [Ctr.isAtEnd, Ctr.count]
          rw [draws_position hs, hs.content, hs.elem]
          rfl, hs⟩)
    simp only [Board.act]
    unfold Board.pen at e ⊢
    cases hl : b.pens i with
    | none =>
      rw [hl] at e
      exact e
    | some q =>
      rw [hl] at e
      obtain ⟨cap, place, kept⟩ := q
      have hb := drawn_self hl
      obtain ⟨e1, e2⟩ := e
      simp only at e2
      rw [hb] at e2
      exact ⟨e1, e2⟩
  | look => exact ⟨by rw [← h.content]; rfl, h⟩
  | assign content => exact ⟨rfl, h.elem, rfl, h.readers, h.writers⟩

theorem acts_all {b : Board} {c : Common} (h : Pictures b c) (ops : List BoardOp) :
    Acts (M.runList Common.act ops c) (b.actAll ops) := by
  induction ops generalizing b c with
  | nil => exact ⟨rfl, h⟩
  | cons op ops ih =>
    have e := acts_act h op
    rw [M.runList, M.bind_apply, Board.actAll]
    rcases hx : Common.act op c with ⟨y, c'⟩
    rw [hx] at e
    cases ho : b.act op with
    | none =>
      rw [ho] at e
      have : y = .ub := e
      subst this
      rfl
    | some q =>
      obtain ⟨x, b'⟩ := q
      rw [ho] at e
      obtain ⟨e1, e2⟩ := e
      have : y = .ok x := e1
      subst this
      have e3 := acts_map (f := fun xs => x :: xs) (ih e2)
      simp only [Option.bind_eq_bind, Option.bind_some]
      cases ha : b'.actAll ops with
      | none =>
        rw [ha] at e3
        exact e3
      | some q =>
        rw [ha] at e3
        exact e3

theorem pictures_start (elem : Nat) (content : List Byte) :
    Pictures (Board.start elem content) (Common.make elem content) :=
  ⟨rfl, rfl, fun _ => rfl, fun _ => rfl⟩

end Board

end Cmp
