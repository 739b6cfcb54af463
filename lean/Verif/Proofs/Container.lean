import Verif.Model.Container
import Verif.Proofs.Store
import Mathlib.Data.Int.Basic

/-
Container resources: reading, seeking, writing.
-/

namespace Cmp

open Spec (ArrayCursor)

namespace Ctr

/- ### The raw operations -/

theorem copyOut_ok (c : Ctr) (n q : Nat) (hp : c.position = q) (hq : q ≤ c.content.length) :
    copyOut n c = (.ok ((c.content.drop q).take n),
      { c with position := ((q + ((c.content.drop q).take n).length : Nat) : Int) }) := by
  have h1 : ¬ ((q : Int) < 0 ∨ (q : Int) > c.content.length) := by omega
  simp only [copyOut, hp]
  rw [if_neg h1]
  have h2 : (if (q : Int).toNat + n > c.content.length then c.content.length - (q : Int).toNat
      else n) = min n (c.content.length - q) := by
    simp only [Int.toNat_natCast]
    split <;> omega
  rw [h2]
  have h3 : (c.content.drop q).take (min n (c.content.length - q)) =
      (c.content.drop q).take n := by
    rw [List.take_eq_take_min (i := n), List.length_drop]
  simp only [Int.toNat_natCast, h3, List.length_take, List.length_drop, Int.natCast_add]

theorem readRaw_lean (c : Ctr) (n q : Nat) (hp : c.position = q) (hq : q ≤ c.content.length) :
    readRaw n .leanRetrieval c =
      (.ok ⟨(c.content.drop q).take n, ((c.content.drop q).take n).length⟩,
        { c with position := ((q + ((c.content.drop q).take n).length : Nat) : Int) }) := by
  simp only [readRaw]
  rw [M.bind_ok (show skipFill .leanRetrieval c = (.ok (), c) from rfl),
    M.bind_ok (copyOut_ok c n q hp hq),
    M.bind_ok (show noteFill .leanRetrieval _ _ = (.ok (), _) from rfl)]
  rfl

theorem seek_current (c : Ctr) (p : Int) : Ctr.seek p .current c =
    (.ok (), { c with position := c.position + p * c.elem, lastFill := 0 }) := rfl

theorem goForward_ok (c : Ctr) (n : Int) : Res.goForward Ctr.seek n c =
    (.ok (), { c with position := c.position + n * c.elem, lastFill := 0 }) := rfl

theorem goBack_ok (c : Ctr) (n : Int) : Res.goBack Ctr.seek n c =
    (.ok (), { c with position := c.position + -n * c.elem, lastFill := 0 }) := rfl

theorem readRaw_fill (c : Ctr) (n q : Nat) (hp : c.position + c.lastFill * c.elem = q)
    (hq : q ≤ c.content.length) :
    readRaw n .fillBuffer c =
      (.ok ⟨(c.content.drop q).take n, ((c.content.drop q).take n).length⟩,
        { c with
          position := ((q + ((c.content.drop q).take n).length : Nat) : Int) +
            -(((c.content.drop q).take n).length : Int) * c.elem
          lastFill := ((c.content.drop q).take n).length }) := by
  have hf : skipFill .fillBuffer c = (.ok (), { c with position := q, lastFill := 0 }) := by
    simp only [skipFill]
    rw [M.bind_ok (M.get_apply c)]
    by_cases h : c.lastFill > 0
    · rw [if_pos ⟨trivial, h⟩, goForward_ok, hp]
    · rw [if_neg (by simp [h])]
      have h0 : c.lastFill = 0 := by omega
      rw [h0] at hp
      cases c
      simp_all
  simp only [readRaw]
  rw [M.bind_ok hf, M.bind_ok (copyOut_ok { c with position := q, lastFill := 0 } n q rfl hq)]
  rfl

/- ### Reading -/

/-- A container resource with nothing loaded, byte `q` next. -/
structure Idle (elem : Nat) (content : List Byte) (q : Nat) (c : Ctr) : Prop where
  content_eq : c.content = content
  elem_eq : c.elem = elem
  lastFill : c.lastFill = 0
  position : c.position = q

/-- A container resource that loaded bytes `b` up to `q` last. -/
structure Loaded (elem : Nat) (content : List Byte) (b q : Nat) (c : Ctr) : Prop where
  content_eq : c.content = content
  elem_eq : c.elem = elem
  lastFill : b + c.lastFill = q
  position : c.position + c.lastFill * elem = q

theorem source (elem : Nat) (content : List Byte) :
    Res.Source readRaw (fun _ => True) content (Idle elem content) (Loaded elem content) where
  fill := by
    intro n q c _ h hq
    have hp : c.position + c.lastFill * c.elem = q ∧ c.content = content ∧ c.elem = elem := by
      rcases h with h | ⟨b, h⟩
      · exact ⟨by rw [h.lastFill, h.position]; simp, h.content_eq, h.elem_eq⟩
      · exact ⟨by rw [h.elem_eq]; exact h.position, h.content_eq, h.elem_eq⟩
    obtain ⟨hp, rfl, rfl⟩ := hp
    refine ⟨_, readRaw_fill c n q hp hq, rfl, rfl, rfl, ?_⟩
    simp only
    rw [Int.neg_mul, Int.neg_add_cancel_right]
  lean := by
    intro n q c _ h hq
    obtain ⟨rfl, rfl, hl, hp⟩ := h
    exact ⟨_, readRaw_lean c n q hp hq, rfl, rfl, hl, rfl⟩

/-- The state of an input container resource whose next byte to deliver is number `p`. -/
abbrev Reading (cap : Nat) (content : List Byte) (elem : Nat) (p : Nat) (r : Res Ctr) : Prop :=
  Res.Delivering cap content (Idle elem content) (Loaded elem content) p r

theorem reading_make (cap : Nat) (content : List Byte) (elem : Nat) :
    Reading cap content elem 0 ⟨IoBuffer.make cap, Ctr.make elem content⟩ :=
  Res.delivering_make _ _ ⟨rfl, rfl, rfl, rfl⟩

theorem setPositionIn_eq (r : Res Ctr) (p : Int) (pr : PositionReference) :
    Res.setPositionIn Ctr.seek p pr r =
      (.ok (), ⟨r.buf.setReadDirty true, (Ctr.seek p pr r.dev).2⟩) := rfl

theorem setPositionIn_reading (r : Res Ctr) (k : Nat) (hk : k * r.dev.elem ≤ r.dev.content.length) :
    ∃ r', Res.setPositionIn Ctr.seek k .begin r = (.ok (), r') ∧
      Reading r.buf.data.length r.dev.content r.dev.elem (k * r.dev.elem) r' :=
  ⟨_, setPositionIn_eq r _ _, rfl, hk, Or.inl ⟨rfl, rfl, rfl, rfl, rfl, by simp [seek]⟩⟩

theorem getPosition_reading {cap : Nat} {content : List Byte} {elem p : Nat} {r : Res Ctr}
    (h : Reading cap content elem p r) (he : elem = 1 ∨ cap = 0) : getPosition r = p := by
  unfold getPosition
  rcases h.state with ⟨-, h2, h4⟩ | ⟨-, hc, h2, h3, b, hb, -, h4, -⟩
  · rw [h2, h4.position]; simp
  · rcases he with rfl | rfl
    · have := h4.position
      have := h4.lastFill
      omega
    · omega

theorem reading_content {cap : Nat} {content : List Byte} {elem p : Nat} {r : Res Ctr}
    (h : Reading cap content elem p r) : r.dev.content = content ∧ r.dev.elem = elem := by
  rcases h.state with ⟨-, -, h⟩ | ⟨-, -, -, -, b, -, -, h, -⟩
  · exact ⟨h.content_eq, h.elem_eq⟩
  · exact ⟨h.content_eq, h.elem_eq⟩

theorem isAtEnd_reading {cap : Nat} {content : List Byte} {elem p : Nat} {r : Res Ctr}
    (h : Reading cap content elem p r) (he : elem = 1 ∨ cap = 0) (hd : elem ∣ content.length) :
    isAtEnd r = true ↔ p = content.length := by
  have hp := getPosition_reading h he
  obtain ⟨h1, h2⟩ := reading_content h
  simp only [isAtEnd, hp, count, h1, h2, beq_iff_eq, Nat.div_mul_cancel hd]
  exact Int.natCast_inj

/- ### Writing -/

/-- Writing inside the content. -/
theorem writeRaw_inside (c : Ctr) (bytes : List Byte) (q : Nat) (hp : c.position = q)
    (hq : q + bytes.length ≤ c.content.length) :
    writeRaw bytes c = (.ok bytes.length, { c with
      content := c.content.take q ++ bytes ++ c.content.drop (q + bytes.length),
      position := ((q + bytes.length : Nat) : Int) }) := by
  have h1 : ¬ ((q : Int) < 0) := by omega
  have h2 : ¬ (q + bytes.length > c.content.length) := by omega
  simp only [writeRaw, hp]
  rw [if_neg h1]
  simp only [Int.toNat_natCast, h2, if_false]
  simp

/-- Writing whole elements across or at the end. -/
theorem writeRaw_across (c : Ctr) (bytes : List Byte) (q : Nat) (hp : c.position = q)
    (hq : q ≤ c.content.length) (hb : c.content.length < q + bytes.length)
    (he : c.elem ∣ bytes.length) :
    writeRaw bytes c = (.ok bytes.length, { c with
      content := c.content.take q ++ bytes ++ List.replicate (c.content.length - q) 0,
      position := ((q + bytes.length : Nat) : Int) }) := by
  have h1 : ¬ ((q : Int) < 0) := by omega
  simp only [writeRaw, hp]
  rw [if_neg h1]
  simp only [Int.toNat_natCast]
  rw [if_pos hb, Nat.div_mul_cancel he]
  have h2 : ¬ (q + bytes.length > (c.content ++ List.replicate bytes.length 0).length) := by
    simp; omega
  rw [if_neg h2]
  have e1 : (c.content ++ List.replicate bytes.length 0).take q = c.content.take q := by
    rw [List.take_append_of_le_length hq]
  have e2 : (c.content ++ List.replicate bytes.length (0 : Byte)).drop (q + bytes.length) =
      List.replicate (c.content.length - q) 0 := by
    rw [List.drop_append, List.drop_eq_nil_of_le (by omega), List.nil_append, List.drop_replicate]
    congr 1; omega
  rw [e1, e2]
  simp

/-- Where writing is exact: inside the content, or appending whole elements. -/
def allowed (elem : Nat) (size start n : Nat) : Prop :=
  start + n ≤ size ∨ (start = size ∧ elem ∣ n)

/-- Container resources are stores, if writing keeps to that. -/
theorem store (elem : Nat) : Res.Store readRaw writeRaw seek (fun _ => True) elem (allowed elem)
    (Idle elem) (Loaded elem) where
  source := source elem
  allowed_zero := fun n s h => .inl (by omega)
  write := by
    intro o s w data c hs hw hd h
    have hlen := Res.overlay_length o s w hs
    rw [Res.overlay_append _ _ _ _ hs, List.length_append, ← Nat.add_assoc]
    rw [List.length_append] at hd
    obtain ⟨hc, he, hl, hp⟩ := h
    generalize Res.overlay o s w = content at *
    subst hc
    by_cases hin : s + w.length + data.length ≤ c.content.length
    · exact ⟨_, writeRaw_inside c data _ hp hin, rfl, he, hl, rfl⟩
    · rcases hd with hd | ⟨h1, h2⟩
      · omega
      · have h3 : elem ∣ w.length := by
          rcases hw with hw | hw
          · rw [show w.length = 0 by omega]; exact Nat.dvd_zero _
          · exact hw.2
        refine ⟨_, writeRaw_across c data _ hp (by omega) (by omega)
          (by rw [he]; exact (Nat.dvd_add_right h3).mp h2), ?_, he, hl, rfl⟩
        simp only [Res.overlay]
        rw [List.drop_eq_nil_of_le (by omega), show c.content.length - (s + w.length) = 0 by omega]
        rfl
  seek := by
    intro c d k h _
    have : d.content = c ∧ d.elem = elem := by
      rcases h with ⟨q, h⟩ | ⟨b, q, h⟩
      · exact ⟨h.content_eq, h.elem_eq⟩
      · exact ⟨h.content_eq, h.elem_eq⟩
    obtain ⟨rfl, rfl⟩ := this
    exact ⟨_, rfl, rfl, rfl, rfl, by simp⟩
  move := by
    intro c q d k h h0
    obtain ⟨rfl, rfl, h1, h2⟩ := h
    refine ⟨_, rfl, rfl, rfl, rfl, ?_⟩
    simp only [h2]
    omega
  toEnd := by
    intro c d h hd
    have : d.content = c ∧ d.elem = elem := by
      rcases h with ⟨q, h⟩ | ⟨b, q, h⟩
      · exact ⟨h.content_eq, h.elem_eq⟩
      · exact ⟨h.content_eq, h.elem_eq⟩
    obtain ⟨rfl, rfl⟩ := this
    refine ⟨_, rfl, rfl, rfl, rfl, ?_⟩
    have := Nat.div_mul_cancel hd
    simp only [count, Int.sub_zero]
    exact_mod_cast this

end Ctr

end Cmp
