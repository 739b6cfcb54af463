import Verif.Proofs.Common

/-
A board on which one person writes from its start is a log for readers that do not ask for more than
their buffer holds.
-/

namespace Cmp

open Cmp.Spec (Lens Pen excerpt Seen BoardOp Board LogOp Log)

/-- A lens of a reader that read `cur` bytes. -/
structure Follows (content : List Byte) (cap cur : Nat) (l : Lens) : Prop where
  inside : cur ≤ content.length
  direct : cap = 0 → l.page = none
  page : match l.page with
    | none => l.place = cur ∧ l.skip = 0
    | some (page, given) => ∃ p : Nat, l.place = p ∧ p + given = cur ∧ l.skip = page.length
      ∧ page = (content.drop p).take page.length ∧ given ≤ page.length

theorem Follows.grow {content : List Byte} {cap cur : Nat} {l : Lens} (h : Follows content cap cur l)
    (more : List Byte) : Follows (content ++ more) cap cur l := by
  have h1 := h.inside
  refine ⟨by rw [List.length_append]; omega, h.direct, ?_⟩
  have h3 := h.page
  cases hp : l.page with
  | none =>
    rw [hp] at h3
    exact h3
  | some q =>
    obtain ⟨page, given⟩ := q
    rw [hp] at h3
    obtain ⟨p, e1, e2, e3, e4, e5⟩ := h3
    refine ⟨p, e1, e2, e3, ?_, e5⟩
    have hl := congrArg List.length e4
    rw [List.length_take, List.length_drop] at hl
    rw [List.drop_append_of_le_length (by omega), List.take_append_of_le_length
      (by rw [List.length_drop]; omega)]
    exact e4

theorem turn_follows {content : List Byte} {cap p : Nat} {l : Lens} (hp : l.place + l.skip = p)
    (h : p ≤ content.length) :
    l.turn cap 1 content = some ((content.drop p).take cap,
      ⟨p, ((content.drop p).take cap).length, some ((content.drop p).take cap, 0)⟩) := by
  have e : excerpt content (l.place + l.skip * (1 : Nat)) cap = some ((content.drop p).take cap) := by
    unfold excerpt
    rw [show l.place + l.skip * ((1 : Nat) : Int) = (p : Int) by omega, if_pos (by omega),
      Int.toNat_natCast]
  unfold Lens.turn
  rw [e]
  simp only [Option.bind_eq_bind, Option.bind_some, Option.pure_def, Option.some.injEq, Prod.mk.injEq,
    true_and, Lens.mk.injEq, and_true]
  omega

theorem readPage_follows {content : List Byte} {cap cur n : Nat} {l : Lens} {page : List Byte}
    {given : Nat} (h : Follows content cap cur l) (hp : l.page = some (page, given)) (hc : cap ≠ 0)
    (hn : n ≤ cap) :
    ∃ l', l.readPage cap 1 content n page given = some ((content.drop cur).take n, l')
      ∧ Follows content cap (cur + ((content.drop cur).take n).length) l' := by
  have h3 := h.page
  rw [hp] at h3
  obtain ⟨p, e1, e2, e3, e4, e5⟩ := h3
  have hin := h.inside
  have hl := congrArg List.length e4
  rw [List.length_take, List.length_drop] at hl
  have hlen : p + page.length ≤ content.length := by omega
  have hrest : page.drop given = (content.drop cur).take (page.length - given) := by
    rw [e4, List.drop_take, List.drop_drop, e2, List.length_take, List.length_drop]
    congr 1
    omega
  unfold Lens.readPage
  simp only
  by_cases hsmall : n ≤ (page.drop given).length
  · rw [if_pos hsmall]
    rw [List.length_drop] at hsmall
    refine ⟨_, by rw [hrest, List.take_take, Nat.min_eq_left hsmall], ?_⟩
    have : ((content.drop cur).take n).length = n := by
      rw [List.length_take, List.length_drop]
      omega
    rw [this]
    exact ⟨by omega, fun h => absurd h hc, p, e1, by omega, e3, e4, by omega⟩
  · rw [if_neg hsmall, if_neg (by omega)]
    rw [List.length_drop] at hsmall
    rw [turn_follows (p := p + page.length) (by omega) hlen]
    simp only [Option.bind_eq_bind, Option.bind_some, Option.pure_def]
    have hd : (content.drop cur).take n = page.drop given
        ++ (((content.drop (p + page.length)).take cap).take (n - (page.drop given).length)) := by
      rw [hrest, List.take_take, List.length_take, List.length_drop]
      rw [show min (page.length - given) (content.length - cur) = page.length - given by omega,
        Nat.min_eq_left (by omega)]
      have e : content.drop (p + page.length) = (content.drop cur).drop (page.length - given) := by
        rw [List.drop_drop]
        congr 1
        omega
      rw [e]
      conv_lhs => rw [show n = (page.length - given) + (n - (page.length - given)) by omega]
      rw [List.take_add]
    refine ⟨_, by rw [hd], ?_⟩
    have hlen2 : ((content.drop cur).take n).length = min n (content.length - cur) := by
      rw [List.length_take, List.length_drop]
    rw [hlen2]
    refine ⟨by omega, fun h => absurd h hc, p + page.length, rfl, ?_, rfl, ?_, ?_⟩
    · simp only [List.length_take, List.length_drop]
      omega
    · simp
    · simp only [List.length_take, List.length_drop]
      omega

theorem read_follows {content : List Byte} {cap cur n : Nat} {l : Lens}
    (h : Follows content cap cur l) (hn : cap = 0 ∨ n ≤ cap) :
    ∃ l', l.read cap 1 content n = some ((content.drop cur).take n, l')
      ∧ Follows content cap (cur + ((content.drop cur).take n).length) l' := by
  have hin := h.inside
  unfold Lens.read
  by_cases hc : cap = 0
  · rw [if_pos hc]
    have h2 := h.page
    rw [h.direct hc] at h2
    have e : excerpt content l.place n = some ((content.drop cur).take n) := by
      unfold excerpt
      rw [h2.1, if_pos (by omega), Int.toNat_natCast]
    rw [e]
    refine ⟨_, rfl, ?_⟩
    refine ⟨?_, h.direct, ?_⟩
    · rw [List.length_take, List.length_drop]
      omega
    · simp only [h.direct hc]
      exact ⟨by rw [h2.1]; simp, h2.2⟩
  · rw [if_neg hc]
    cases hp : l.page with
    | some q =>
      obtain ⟨page, given⟩ := q
      exact readPage_follows h hp hc (by omega)
    | none =>
      have h2 := h.page
      rw [hp] at h2
      simp only [Option.bind_eq_bind]
      rw [turn_follows (p := cur) (by omega) hin, Option.bind_some]
      exact readPage_follows
        (l := ⟨cur, ((content.drop cur).take cap).length, some ((content.drop cur).take cap, 0)⟩)
        ⟨hin, fun h => absurd h hc, cur, rfl, rfl, rfl, by simp, Nat.zero_le _⟩ rfl hc (by omega)

theorem follows_position {content : List Byte} {cap cur : Nat} {l : Lens}
    (h : Follows content cap cur l) : l.position = cur := by
  have h3 := h.page
  unfold Lens.position
  cases hp : l.page with
  | none =>
    rw [hp] at h3
    simp [h3.1]
  | some q =>
    rw [hp] at h3
    obtain ⟨p, e1, e2, -⟩ := h3
    rw [e1]
    simp only [Option.elim_some]
    omega

theorem follows_start (content : List Byte) (cap : Nat) : Follows content cap 0 Lens.start :=
  ⟨Nat.zero_le _, fun _ => rfl, rfl, rfl⟩

/-- A board that is as the log says. -/
structure Logs (readers : Nat → Option Nat) (s : Log) (b : Board) : Prop where
  elem : b.elem = 1
  pen : ∃ (cap : Nat) (kept : Option (List Byte)),
    b.pens 0 = some (cap, (b.content.length : Int), kept) ∧ (cap = 0 → kept = none)
    ∧ s.written = b.content ++ kept.getD []
  flushed : s.flushed ≤ b.content.length
  readers : ∀ i cap, readers i = some cap → ∃ l, b.lenses i = some (cap, l)
    ∧ Follows b.content cap (s.cursors i) l

theorem put_end (content data : List Byte) (kept : Option (List Byte)) :
    Pen.put 1 data ⟨content, (content.length : Nat), kept⟩
      = some ⟨content ++ data, ((content ++ data).length : Nat), kept⟩ := by
  unfold Pen.put
  dsimp only
  rw [if_neg (by omega), Int.toNat_natCast]
  by_cases hd : data = []
  · subst hd
    simp
  · have : data.length ≠ 0 := fun h => hd (List.length_eq_zero_iff.mp h)
    rw [if_neg (show ¬ content.length + data.length ≤ content.length by omega), if_pos (by simp)]
    simp

theorem flush_end (content : List Byte) (kept : Option (List Byte)) :
    Pen.flush 1 ⟨content, (content.length : Nat), kept⟩
      = some ⟨content ++ kept.getD [], ((content ++ kept.getD []).length : Nat), none⟩ := by
  unfold Pen.flush
  cases kept with
  | none => simp
  | some data =>
    dsimp only
    rw [put_end]
    rfl

theorem write_end (cap : Nat) (content data : List Byte) {kept : Option (List Byte)}
    (hk : cap = 0 → kept = none) :
    ∃ more kept', Pen.write cap 1 data ⟨content, (content.length : Nat), kept⟩
      = some ⟨content ++ more, ((content ++ more).length : Nat), kept'⟩
    ∧ (cap = 0 → kept' = none)
    ∧ content ++ more ++ kept'.getD [] = content ++ kept.getD [] ++ data := by
  unfold Pen.write
  by_cases hc : cap = 0
  · rw [if_pos hc, put_end]
    exact ⟨data, kept, rfl, hk, by rw [hk hc]; simp⟩
  · rw [if_neg hc]
    dsimp only
    by_cases hover : cap < (kept.getD []).length + data.length
    · rw [if_pos hover, flush_end]
      simp only [Option.bind_eq_bind, Option.bind_some]
      by_cases hbig : cap < data.length
      · rw [if_pos hbig, put_end]
        exact ⟨kept.getD [] ++ data, none, by rw [List.append_assoc], fun _ => rfl, by simp⟩
      · rw [if_neg hbig]
        exact ⟨kept.getD [], some data, rfl, fun h => absurd h hc, rfl⟩
    · rw [if_neg hover]
      exact ⟨[], some (kept.getD [] ++ data), by simp, fun h => absurd h hc, by simp⟩

/-- A board the writer went on with. -/
theorem Logs.drawn {readers : Nat → Option Nat} {s s' : Log} {b : Board} (h : Logs readers s b)
    (more : List Byte) {cap : Nat} {kept : Option (List Byte)} (hk : cap = 0 → kept = none)
    (hw : s'.written = b.content ++ more ++ kept.getD [])
    (hf : s'.flushed ≤ (b.content ++ more).length) (hc : s'.cursors = s.cursors) :
    Logs readers s' (b.drawn 0 cap ⟨b.content ++ more, ((b.content ++ more).length : Nat), kept⟩) := by
  refine ⟨h.elem, ⟨cap, kept, rfl, hk, hw⟩, hf, fun i c hi => ?_⟩
  obtain ⟨l, hl, hfl⟩ := h.readers i c hi
  exact ⟨l, hl, by rw [hc]; exact hfl.grow more⟩

/-- One step.  `small` is what the theorem asks of reads. -/
theorem logs_step {readers : Nat → Option Nat} {s : Log} {b : Board} (h : Logs readers s b)
    (op : LogOp) (ops : List LogOp)
    (hp : LogOp.Proper (fun cap n => cap = 0 ∨ n ≤ cap) readers (op :: ops)) :
    ∃ x s' b', b.act op.onBoard = some (x, b') ∧ Logs (op.joined readers) s' b'
      ∧ ∀ t, s'.Explains t → s.Explains ((op, x) :: t) := by
  have hp1 := hp.1
  have hel := h.elem
  cases op with
  | join i cap =>
    refine ⟨.done, s.withCursor i 0, _, rfl, ⟨hel, h.pen, h.flushed, fun j c hj => ?_⟩,
      fun t ht => ⟨rfl, ht⟩⟩
    simp only [LogOp.joined] at hj
    by_cases hij : j = i
    · rw [if_pos hij] at hj
      cases hj
      exact ⟨Lens.start, if_pos hij, by
        simp only [Log.withCursor, if_pos hij]
        exact follows_start _ _⟩
    · rw [if_neg hij] at hj
      obtain ⟨l, hl, hf⟩ := h.readers j c hj
      exact ⟨l, (if_neg hij).trans hl, by
        simp only [Log.withCursor, if_neg hij]
        exact hf⟩
  | clone i j =>
    obtain ⟨cap, hcap⟩ := Option.isSome_iff_exists.mp hp1
    obtain ⟨l, hl, hf⟩ := h.readers i cap hcap
    refine ⟨.done, s.withCursor j (s.cursors i), b.withLens j (some (cap, l)), ?_,
      ⟨hel, h.pen, h.flushed, fun k c hk => ?_⟩, fun t ht => ⟨rfl, ht⟩⟩
    · simp only [LogOp.onBoard, Board.act, hl, Option.map_some]
    · simp only [LogOp.joined] at hk
      by_cases hkj : k = j
      · rw [if_pos hkj, hcap] at hk
        cases hk
        exact ⟨l, if_pos hkj, by
          simp only [Log.withCursor, if_pos hkj]
          exact hf⟩
      · rw [if_neg hkj] at hk
        obtain ⟨l', hl', hf'⟩ := h.readers k c hk
        exact ⟨l', (if_neg hkj).trans hl', by
          simp only [Log.withCursor, if_neg hkj]
          exact hf'⟩
  | write data =>
    obtain ⟨cap, kept, hpen, hk, hw⟩ := h.pen
    obtain ⟨more, kept', e, hk', hw'⟩ := write_end cap b.content data hk
    refine ⟨.bytes [] data.length, { s with written := s.written ++ data }, _, ?_,
      h.drawn more hk' (by rw [hw', hw]) ?_ rfl, fun t ht => ⟨rfl, ht⟩⟩
    · simp only [LogOp.onBoard, Board.act, Board.pen, hpen, hel, Option.map_some, Option.bind_eq_bind,
        Option.bind_some, e, Option.pure_def]
    · have := h.flushed
      rw [List.length_append]
      exact Nat.le_trans this (Nat.le_add_right _ _)
  | flush =>
    obtain ⟨cap, kept, hpen, hk, hw⟩ := h.pen
    have e := flush_end b.content kept
    refine ⟨.done, { s with flushed := s.written.length }, _, ?_,
      h.drawn (kept.getD []) (cap := cap) (fun _ => rfl) (by rw [hw]; simp) (by rw [hw]) rfl,
      fun t ht => ⟨rfl, ht⟩⟩
    simp only [LogOp.onBoard, Board.act, Board.pen, hpen, hel, Option.map_some, Option.bind_eq_bind,
      Option.bind_some, e, Option.pure_def]
  | read i n =>
    obtain ⟨cap, hcap, hn⟩ := hp1
    obtain ⟨l, hl, hf⟩ := h.readers i cap hcap
    obtain ⟨l', e, hf'⟩ := read_follows hf hn
    obtain ⟨wcap, kept, -, -, hw⟩ := h.pen
    have hin := hf.inside
    have hfl := h.flushed
    refine ⟨.bytes ((b.content.drop (s.cursors i)).take n)
        ((b.content.drop (s.cursors i)).take n).length,
      s.withCursor i (s.cursors i + ((b.content.drop (s.cursors i)).take n).length),
      b.withLens i (some (cap, l')), ?_, ⟨hel, h.pen, h.flushed, fun j c hj => ?_⟩,
      fun t ht => ⟨_, rfl, ?_, ?_, ?_, ht⟩⟩
    · simp only [LogOp.onBoard, Board.act, hl, hel, Option.bind_eq_bind, Option.bind_some, e,
        Option.pure_def]
    · simp only [LogOp.joined] at hj
      by_cases hij : j = i
      · subst hij
        rw [hcap] at hj
        cases hj
        exact ⟨l', if_pos rfl, by
          simp only [Log.withCursor, if_pos]
          exact hf'⟩
      · obtain ⟨l2, hl2, hf2⟩ := h.readers j c hj
        exact ⟨l2, (if_neg hij).trans hl2, by
          simp only [Log.withCursor, if_neg hij]
          exact hf2⟩
    · rw [hw, List.drop_append_of_le_length hin, List.take_append_of_le_length (by simp)]
      simp [List.take_eq_take_iff]
    · rw [List.length_take, List.length_drop]
      omega
    · rw [List.length_take]
      omega
  | place i =>
    obtain ⟨cap, hcap⟩ := Option.isSome_iff_exists.mp hp1
    obtain ⟨l, hl, hf⟩ := h.readers i cap hcap
    refine ⟨.place l.position, s, b, ?_, h, fun t ht => ⟨?_, ht⟩⟩
    · simp only [LogOp.onBoard, Board.act, hl, Option.map_some]
    · rw [follows_position hf]
  | atEnd i =>
    obtain ⟨cap, hcap⟩ := Option.isSome_iff_exists.mp hp1
    obtain ⟨l, hl, hf⟩ := h.readers i cap hcap
    obtain ⟨wcap, kept, -, -, hw⟩ := h.pen
    have hin := hf.inside
    have hfl := h.flushed
    refine ⟨.atEnd (l.position = b.last), s, b, ?_, h, fun t ht => ⟨_, rfl, ?_, ?_, ht⟩⟩
    · simp only [LogOp.onBoard, Board.act, hl, Option.map_some]
    · rw [follows_position hf, decide_eq_true_eq, Board.last, hel]
      simp only [Nat.div_one, Nat.mul_one]
      omega
    · intro hc
      rw [hw, List.length_append] at hc
      rw [follows_position hf, decide_eq_true_eq, Board.last, hel]
      simp only [Nat.div_one, Nat.mul_one]
      omega
  | look =>
    obtain ⟨wcap, kept, -, -, hw⟩ := h.pen
    refine ⟨_, s, b, rfl, h, fun t ht => ⟨b.content, rfl, ?_, h.flushed, ht⟩⟩
    rw [hw]
    simp

theorem logs_all {readers : Nat → Option Nat} {s : Log} {b : Board} (h : Logs readers s b)
    (ops : List LogOp) (hp : LogOp.Proper (fun cap n => cap = 0 ∨ n ≤ cap) readers ops) :
    ∃ xs b', b.actAll (ops.map LogOp.onBoard) = some (xs, b') ∧ xs.length = ops.length
      ∧ s.Explains (ops.zip xs) := by
  induction ops generalizing readers s b with
  | nil => exact ⟨[], b, rfl, rfl, trivial⟩
  | cons op ops ih =>
    obtain ⟨x, s', b', e, hl, ht⟩ := logs_step h op ops hp
    obtain ⟨xs, b'', e', hlen, hx⟩ := ih hl hp.2
    refine ⟨x :: xs, b'', ?_, by simp [hlen], ht _ hx⟩
    rw [List.map_cons, Board.actAll, e]
    simp only [Option.bind_eq_bind, Option.bind_some, e', Option.pure_def]

end Cmp
