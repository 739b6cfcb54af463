import Verif.Proofs.Batches
import Verif.Props.Transfer
import Verif.Props.StdCounts

/-
Properties C38 and C99 in full: writing to containers at every position, and what the counts returned
by standard output are worth.
-/

namespace Cmp

open Cmp.Spec (ArrayCursor batches)

/-! ### C38 -/

namespace Spec

/-- The size of a container of `len` bytes after batches of the sizes `ns` have been written from
byte `p` on: a batch that does not fit makes it larger by as many whole elements as the batch has,
however much of the batch would have fitted; if even that is not enough there is no answer. -/
def grown (elem : Nat) : Nat → Nat → List Nat → Option Nat
  | len, _, [] => some len
  | len, p, n :: ns =>
    let len' := if p + n ≤ len then len else len + n / elem * elem
    if p + n ≤ len' then grown elem len' (p + n) ns else none

end Spec

open Cmp.Spec (grown)

theorem grown_ge {elem : Nat} (ns : List Nat) {len p len' : Nat}
    (h : grown elem len p ns = some len') : len ≤ len' := by
  induction ns generalizing len p with
  | nil => simp [grown] at h; omega
  | cons n ns ih =>
    simp only [grown] at h
    generalize hl : (if p + n ≤ len then len else len + n / elem * elem) = len₁ at h
    have hle : len ≤ len₁ := by rw [← hl]; split <;> omega
    by_cases hf : p + n ≤ len₁
    · rw [if_pos hf] at h
      have := ih h
      omega
    · rw [if_neg hf] at h
      cases h

theorem overlay_pad (c : List Byte) (p : Nat) (w : List Byte) (m : Nat) (h : p + w.length ≤ c.length) :
    Res.overlay c p w ++ List.replicate m 0 = Res.overlay (c ++ List.replicate m 0) p w := by
  simp only [Res.overlay]
  rw [List.take_append_of_le_length (by omega), List.drop_append_of_le_length (by omega)]
  simp

theorem writeRaw_grown (elem : Nat) (bs : List (List Byte)) (c : Ctr) (p : Nat) (hp : c.position = p)
    (he : c.elem = elem) :
    (grown elem c.content.length p (bs.map List.length) = none →
      (M.runList Ctr.writeRaw bs c).1 = .ub)
    ∧ ∀ len, grown elem c.content.length p (bs.map List.length) = some len →
      ∃ ks c', M.runList Ctr.writeRaw bs c = (.ok ks, c')
        ∧ c'.content = Res.overlay (c.content ++ List.replicate (len - c.content.length) 0) p bs.flatten := by
  induction bs generalizing c p with
  | nil =>
    refine ⟨by simp [grown], fun len h => ⟨[], c, rfl, ?_⟩⟩
    simp only [List.map_nil, grown, Option.some.injEq] at h
    simp [h, Res.overlay]
  | cons b bs ih =>
    subst he
    have hneg : ¬ c.position < 0 := by omega
    have hat : c.position.toNat = p := by omega
    simp only [List.map_cons, grown]
    generalize hC : (if p + b.length > c.content.length then
      c.content ++ List.replicate (b.length / c.elem * c.elem) 0 else c.content) = C
    have hCl : C.length = if p + b.length ≤ c.content.length then c.content.length
        else c.content.length + b.length / c.elem * c.elem := by
      rw [← hC]
      by_cases h : p + b.length ≤ c.content.length
      · rw [if_neg (by omega), if_pos h]
      · rw [if_pos (by omega), if_neg h]; simp
    have hCe : C = c.content ++ List.replicate (C.length - c.content.length) 0 := by
      rw [hCl, ← hC]
      by_cases h : p + b.length ≤ c.content.length
      · rw [if_neg (by omega), if_pos h]; simp
      · rw [if_pos (by omega), if_neg h]; simp
    rw [← hCl]
    by_cases hfit : p + b.length ≤ C.length
    · rw [if_pos hfit]
      have e : Ctr.writeRaw b c = (.ok b.length, { c with
          content := Res.overlay C p b, position := c.position + b.length }) := by
        simp only [Ctr.writeRaw, if_neg hneg, hat, hC]
        rw [if_neg (by omega)]
        rfl
      obtain ⟨h1, h2⟩ := ih { c with content := Res.overlay C p b, position := c.position + b.length }
        (p + b.length) (by simp [hp]) rfl
      have hol : (Res.overlay C p b).length = C.length := by
        rw [Res.overlay_length _ _ _ (by omega)]; omega
      simp only [hol] at h1 h2
      refine ⟨fun h => ?_, fun len h => ?_⟩
      · have := h1 h
        simp only [M.runList, M.bind_apply, e]
        rcases hr : M.runList Ctr.writeRaw bs _ with ⟨o, d⟩
        rw [hr] at this
        simp only at this
        rw [this]
      · obtain ⟨ks, c', e', h'⟩ := h2 len h
        refine ⟨_, c', M.runList_cons e e', ?_⟩
        have hge := grown_ge _ h
        have hle : c.content.length ≤ C.length := by rw [hCe]; simp
        rw [h', overlay_pad _ _ _ _ hfit, List.flatten_cons, Res.overlay_append _ _ _ _ (by simp; omega),
          hCe, List.append_assoc, List.replicate_append_replicate]
        simp only [List.length_append, List.length_replicate]
        rw [show C.length - c.content.length + (len - (c.content.length + (C.length - c.content.length)))
          = len - c.content.length by omega]
    · rw [if_neg hfit]
      refine ⟨fun _ => ?_, fun len h => by cases h⟩
      have e : Ctr.writeRaw b c = (.ub, c) := by
        simp only [Ctr.writeRaw, if_neg hneg, hat, hC]
        rw [if_pos (by omega)]
      simp only [M.runList, M.bind_apply, e]

/-- C38 in full, for every position, every portioning and every buffer.  After writing and flushing
from element `k` on, the content is what was there, filled up with zero bytes to the size the
specification of growth says, with the data in its place; where that size is not enough the
behaviour is undefined, as it is for negative positions. -/
theorem C38_exact (cap elem : Nat) (content : List Byte) (k : Int) (ops : List OutOp) :
    ∃ r, Res.setPositionOut Ctr.writeRaw Ctr.seek k .begin (freshCtr cap elem content) = (.ok (), r)
      ∧ (∀ p : Nat, k * elem = p →
        let sizes := (batches cap none ops).map List.length
        (grown elem content.length p sizes = none →
          ((do let _ ← M.runList (Res.doOut Ctr.writeRaw) ops; Res.flush Ctr.writeRaw :
            M (Res Ctr) Unit) r).1 = .ub)
        ∧ ∀ len, grown elem content.length p sizes = some len →
          ∃ r', (do let _ ← M.runList (Res.doOut Ctr.writeRaw) ops; Res.flush Ctr.writeRaw :
              M (Res Ctr) Unit) r = (.ok (), r')
            ∧ r'.dev.content = ((⟨content ++ List.replicate (len - content.length) 0, p⟩ :
                ArrayCursor).afterWrite (ops.flatMap (·.bytes))).bytes)
      ∧ (k * elem < 0 → batches cap none ops ≠ [] →
          ((do let _ ← M.runList (Res.doOut Ctr.writeRaw) ops; Res.flush Ctr.writeRaw :
            M (Res Ctr) Unit) r).1 = .ub) := by
  refine ⟨⟨IoBuffer.make cap, ⟨elem, content, k * elem, 0⟩⟩, rfl, fun p hp => ?_, fun hneg hbs => ?_⟩
  · intro sizes
    obtain ⟨g1, g2, -⟩ := Res.gives_run (raw := Ctr.writeRaw) ops
      (Res.keeps_make cap (⟨elem, content, k * elem, 0⟩ : Ctr)) (fun _ => rfl)
    obtain ⟨h1, h2⟩ := writeRaw_grown elem (batches cap none ops) ⟨elem, content, k * elem, 0⟩ p
      (by simpa using hp) rfl
    rcases hx : (do let _ ← M.runList (Res.doOut Ctr.writeRaw) ops; Res.flush Ctr.writeRaw :
        M (Res Ctr) Unit) ⟨IoBuffer.make cap, ⟨elem, content, k * elem, 0⟩⟩ with ⟨o, r'⟩
    rw [hx] at g1 g2
    simp only at g1 g2
    refine ⟨fun h => ?_, fun len h => ?_⟩
    · rw [h1 h] at g1
      cases o <;> simp [Outcome.ending] at g1 ⊢
    · obtain ⟨ks, c', e, h'⟩ := h2 len h
      rw [e] at g1 g2
      simp only at g2
      refine ⟨r', ?_, ?_⟩
      · cases o <;> simp [Outcome.ending] at g1 ⊢
      · rw [g2, h', Spec.batches_flatten _ _ _ (fun _ => rfl)]
        simp [Res.overlay, ArrayCursor.afterWrite]
  · obtain ⟨g1, -, -⟩ := Res.gives_run (raw := Ctr.writeRaw) ops
      (Res.keeps_make cap (⟨elem, content, k * elem, 0⟩ : Ctr)) (fun _ => rfl)
    obtain ⟨b, bs, hb⟩ : ∃ b bs, batches cap none ops = b :: bs := by
      cases h : batches cap none ops with
      | nil => exact absurd h hbs
      | cons b bs => exact ⟨b, bs, rfl⟩
    have hpos : (⟨elem, content, k * elem, 0⟩ : Ctr).position < 0 := hneg
    rw [hb] at g1
    have e : (M.runList Ctr.writeRaw (b :: bs) ⟨elem, content, k * elem, 0⟩).1 = .ub := by
      simp only [M.runList, M.bind_apply, Ctr.writeRaw, if_pos hpos]
    change _ = (M.runList Ctr.writeRaw (b :: bs) ⟨elem, content, k * elem, 0⟩).1.ending at g1
    rw [e] at g1
    revert g1
    generalize (do let _ ← M.runList (Res.doOut Ctr.writeRaw) ops; Res.flush Ctr.writeRaw :
        M (Res Ctr) Unit) ⟨IoBuffer.make cap, ⟨elem, content, k * elem, 0⟩⟩ = x
    intro g1
    rcases x with ⟨o, r'⟩
    cases o <;> simp [Outcome.ending] at g1 ⊢

/-- Four bytes at byte eight of ten make fourteen, if they come at once; if they come two by two,
twelve, as they should. -/
example : grown 1 10 8 ((batches 0 none [.write [1, 2, 3, 4]]).map List.length) = some 14
    ∧ grown 1 10 8 ((batches 0 none [.write [1, 2], .write [3, 4]]).map List.length) = some 12
    ∧ grown 1 10 8 ((batches 4 none [.write [1, 2], .write [3, 4]]).map List.length) = some 14
    ∧ grown 2 10 10 ((batches 0 none [.write [1, 2, 3]]).map List.length) = none := by decide

/-! ### C99 -/

namespace Spec

/-- A program that offers again what was not counted gets `bytes` through: what is larger than the
buffer is offered to the system directly, and as much is left as it does not accept; what then
fits into the buffer is offered to the system once. -/
def GetsThrough (cap : Nat) : List (Option Nat) → List Byte → Prop
  | [], _ => True
  | w :: writes, bytes =>
    if bytes.length ≤ cap then bytes.length ≤ w.getD 0
    else GetsThrough cap writes (bytes.drop (w.getD 0))

end Spec

open Cmp.Spec (GetsThrough)

theorem writeRaw_sys (P : StdPlatform) (bytes : List Byte) (d : Sys) : P.writeRaw bytes d =
    (.ok ((Sys.transferred bytes.length d.writes).getD 0), { d with
      writes := d.writes.tail
      log := d.log ++ [.wrote (bytes.take ((Sys.transferred bytes.length d.writes).getD 0))] }) := by
  cases P with
  | unix =>
    show Stdout.writeRaw bytes d = _
    rw [Stdout.writeRaw, M.bind_apply]
    simp only [Sys.write]
    cases Sys.transferred bytes.length d.writes <;> rfl
  | windows => rfl

theorem transferred_head (n : Nat) (w : Option Nat) (writes : List (Option Nat)) :
    (Sys.transferred n (w :: writes)).getD 0 = min n (w.getD 0) := by
  cases w <;> simp [Sys.transferred, Nat.min_comm]

/-- The whole course: an unused buffer, the system with what is left of its schedule. -/
theorem sendAll_exact (P : StdPlatform) (cap : Nat) (hc : 0 < cap) (writes : List (Option Nat)) :
    ∀ (bytes : List Byte) (r : Res Sys), r.buf.data.length = cap → r.buf.position = 0 →
      r.buf.writeDirty = false → r.dev.writes = writes →
      ∃ r1 r2 sent, sendAll P.writeRaw (writes.length + 1) bytes r = (.ok (), r1)
        ∧ Res.flush P.writeRaw r1 = (.ok (), r2)
        ∧ Sys.output r2.dev.log = Sys.output r.dev.log ++ sent ∧ sent.length ≤ bytes.length
        ∧ (sent = bytes ↔ GetsThrough cap writes bytes) := by
  -- what fits into the buffer
  have small : ∀ (fuel : Nat) (bytes : List Byte) (r : Res Sys), bytes ≠ [] → bytes.length ≤ cap →
      r.buf.data.length = cap → r.buf.position = 0 → r.buf.writeDirty = false →
      ∃ r1 r2, sendAll P.writeRaw (fuel + 1) bytes r = (.ok (), r1)
        ∧ Res.flush P.writeRaw r1 = (.ok (), r2)
        ∧ Sys.output r2.dev.log = Sys.output r.dev.log
            ++ bytes.take ((Sys.transferred bytes.length r.dev.writes).getD 0) := by
    intro fuel bytes r hb hle hl hp hw
    have e1 : Res.write P.writeRaw bytes r = Res.bufWrite bytes r := by
      rw [Res.write, M.bind_ok (M.get_apply r), if_pos (by simp only [IoBuffer.capacity]; omega),
        Res.writeBuffered, M.bind_ok (M.get_apply r),
        if_neg (by simp only [IoBuffer.capacity]; omega)]
    have e2 := Res.bufWrite_ok r bytes (by omega)
    have hpos : r.buf.data.take r.buf.position = [] := by rw [hp]; rfl
    have hfl := Res.flush_dirty (raw := P.writeRaw) (r := ⟨{ r.buf with
        data := r.buf.data.take r.buf.position ++ bytes ++ r.buf.data.drop (r.buf.position + bytes.length)
        position := r.buf.position + bytes.length
        writeDirty := true }, r.dev⟩) rfl (by simp; omega)
        (n := (Sys.transferred bytes.length r.dev.writes).getD 0) (by
          simp only
          rw [hpos, hp, List.nil_append, Nat.zero_add, List.take_left]
          exact writeRaw_sys P bytes r.dev)
    refine ⟨_, _, ?_, hfl, ?_⟩
    · rw [sendAll, if_neg hb, M.bind_ok (e1.trans e2), List.drop_length]
      cases fuel <;> simp [sendAll]
    · simp [Sys.output]
  -- what does not
  have big : ∀ (fuel : Nat) (bytes : List Byte) (r : Res Sys), cap < bytes.length →
      r.buf.data.length = cap → r.buf.position = 0 → r.buf.writeDirty = false →
      sendAll P.writeRaw (fuel + 1) bytes r = sendAll P.writeRaw fuel
        (bytes.drop ((Sys.transferred bytes.length r.dev.writes).getD 0))
        { r with dev := { r.dev with
          writes := r.dev.writes.tail
          log := r.dev.log ++
            [.wrote (bytes.take ((Sys.transferred bytes.length r.dev.writes).getD 0))] } } := by
    intro fuel bytes r hlt hl hp hw
    have hb : bytes ≠ [] := by intro h; simp [h] at hlt
    have e1 : Res.write P.writeRaw bytes r =
        (.ok ((Sys.transferred bytes.length r.dev.writes).getD 0), { r with dev := { r.dev with
          writes := r.dev.writes.tail
          log := r.dev.log ++
            [.wrote (bytes.take ((Sys.transferred bytes.length r.dev.writes).getD 0))] } }) := by
      rw [Res.write, M.bind_ok (M.get_apply r), if_pos (by simp only [IoBuffer.capacity]; omega),
        Res.writeBuffered, M.bind_ok (M.get_apply r),
        if_pos (by simp only [IoBuffer.capacity]; omega), M.bind_ok (Res.flush_clean _ _ hw),
        if_pos (by simp only [IoBuffer.capacity]; omega)]
      exact Res.onDev_ok (writeRaw_sys P bytes r.dev)
    rw [sendAll, if_neg hb, M.bind_ok e1]
  induction writes with
  | nil =>
    intro bytes r hl hp hw hs
    by_cases hb : bytes = []
    · subst hb
      exact ⟨r, r, [], by simp [sendAll], Res.flush_clean _ _ hw, by simp, by simp, by
        simp [GetsThrough]⟩
    · by_cases hle : bytes.length ≤ cap
      · obtain ⟨r1, r2, a, b, c⟩ := small 0 bytes r hb hle hl hp hw
        refine ⟨r1, r2, _, a, b, c, by simp, ?_⟩
        rw [hs]
        simp [Sys.transferred, GetsThrough]
      · have e := big 0 bytes r (by omega) hl hp hw
        rw [hs] at e
        simp only [Sys.transferred, Option.getD_some, List.drop_length] at e
        rw [sendAll, if_pos rfl] at e
        refine ⟨_, _, bytes, e, Res.flush_clean _ _ hw, by simp [Sys.output], by simp, by
          simp [GetsThrough]⟩
  | cons w writes ih =>
    intro bytes r hl hp hw hs
    by_cases hb : bytes = []
    · subst hb
      exact ⟨r, r, [], by simp [sendAll], Res.flush_clean _ _ hw, by simp, by simp, by
        simp [GetsThrough]⟩
    · by_cases hle : bytes.length ≤ cap
      · obtain ⟨r1, r2, a, b, c⟩ := small (writes.length + 1) bytes r hb hle hl hp hw
        refine ⟨r1, r2, _, a, b, c, by simp, ?_⟩
        rw [hs, transferred_head, GetsThrough, if_pos hle]
        constructor
        · intro h
          have := congrArg List.length h
          rw [List.length_take] at this
          omega
        · intro h
          rw [Nat.min_eq_left h, List.take_length]
      · have e := big (writes.length + 1) bytes r (by omega) hl hp hw
        rw [hs, transferred_head] at e
        have hdrop : bytes.drop (min bytes.length (w.getD 0)) = bytes.drop (w.getD 0) := by
          by_cases h : w.getD 0 ≤ bytes.length
          · rw [Nat.min_eq_right h]
          · rw [Nat.min_eq_left (by omega), List.drop_length, List.drop_eq_nil_of_le (by omega)]
        have htake : bytes.take (min bytes.length (w.getD 0)) = bytes.take (w.getD 0) := by
          by_cases h : w.getD 0 ≤ bytes.length
          · rw [Nat.min_eq_right h]
          · rw [Nat.min_eq_left (by omega), List.take_length, List.take_of_length_le (by omega)]
        rw [hdrop, htake] at e
        obtain ⟨r1, r2, sent, a, b, c, hlen, d⟩ := ih (bytes.drop (w.getD 0)) { r with dev := { r.dev with
          writes := (w :: writes).tail
          log := r.dev.log ++ [.wrote (bytes.take (w.getD 0))] } } hl hp hw rfl
        refine ⟨r1, r2, bytes.take (w.getD 0) ++ sent, by rw [List.length_cons, e]; exact a, b, ?_, ?_, ?_⟩
        · rw [c]
          simp [Sys.output]
        · simp only [List.length_append, List.length_take, List.length_drop] at hlen ⊢
          omega
        · rw [GetsThrough, if_neg hle, ← d]
          constructor
          · intro h
            conv at h => rhs; rw [← List.take_append_drop (w.getD 0) bytes]
            exact List.append_cancel_left h
          · intro h
            rw [h, List.take_append_drop]

/-- C99 in full: with a buffer such a program gets everything through just if the system accepts at
once what in the end fits into the buffer. -/
theorem C99_exact (P : StdPlatform) (cap : Nat) (writes : List (Option Nat)) (bytes : List Byte)
    (hc : 0 < cap) : CountsTell P cap writes bytes ↔ GetsThrough cap writes bytes := by
  obtain ⟨r1, r2, sent, a, b, c, -, d⟩ := sendAll_exact P cap hc writes bytes (freshStdout cap writes)
    (by simp [freshStdout, IoBuffer.make]) rfl rfl rfl
  rw [show Sys.output (freshStdout cap writes).dev.log = [] from rfl, List.nil_append] at c
  rw [← d]
  constructor
  · rintro ⟨r, r', a', b', e⟩
    rw [a] at a'
    simp only [Prod.mk.injEq, true_and] at a'
    rw [← a', b] at b'
    simp only [Prod.mk.injEq, true_and] at b'
    rw [← b', Res.accepted, c] at e
    exact e
  · intro h
    exact ⟨r1, r2, a, b, by rw [Res.accepted, c, h]⟩

/-- Six bytes through a buffer of four: the system takes three, and then has to take the rest. -/
example : GetsThrough 4 [some 3, some 3] [1, 2, 3, 4, 5, 6]
    ∧ ¬ GetsThrough 4 [some 3, some 2] [1, 2, 3, 4, 5, 6]
    ∧ GetsThrough 4 [none, some 4, some 9, none] [1, 2, 3, 4, 5, 6] := by
  simp [GetsThrough]

end Cmp
