import Verif.Proofs.Output
import Verif.Spec.ByteArray

/-
Devices that hold bytes: buffered reading, writing and seeking on any of them is reading, writing
and seeking on an array with a cursor.
-/

namespace Cmp

open Spec (ArrayCursor IoOp Session Disciplined)

namespace Res

variable {δ : Type}

/-- A device delivering `content` when asked for `lim` bytes: `idle q d` says that nothing is loaded
into the buffer and byte `q` is next, `loaded b q d` that bytes `b` up to `q` were loaded into the
buffer last. -/
structure Source (raw : Nat → ReadRequest → M δ ReadResult) (lim : Nat → Prop)
    (content : List Byte) (idle : Nat → δ → Prop) (loaded : Nat → Nat → δ → Prop) : Prop where
  fill : ∀ n q d, lim n → (idle q d ∨ ∃ b, loaded b q d) → q ≤ content.length →
    ∃ d', raw n .fillBuffer d =
        (.ok ⟨(content.drop q).take n, ((content.drop q).take n).length⟩, d') ∧
      loaded q (q + ((content.drop q).take n).length) d'
  lean : ∀ n q d, lim n → idle q d → q ≤ content.length →
    ∃ d', raw n .leanRetrieval d =
        (.ok ⟨(content.drop q).take n, ((content.drop q).take n).length⟩, d') ∧
      idle (q + ((content.drop q).take n).length) d'

/-- The state of an input resource whose next byte to deliver is number `p`. -/
structure Delivering (cap : Nat) (content : List Byte) (idle : Nat → δ → Prop)
    (loaded : Nat → Nat → δ → Prop) (p : Nat) (r : Res δ) : Prop where
  length : r.buf.data.length = cap
  inside : p ≤ content.length
  state : (r.buf.readDirty = true ∧ r.buf.position = 0 ∧ idle p r.dev) ∨
    (r.buf.readDirty = false ∧ 0 < cap ∧ r.buf.size ≤ cap ∧ r.buf.position ≤ r.buf.size ∧
      ∃ b, b + r.buf.position = p ∧ b + r.buf.size ≤ content.length ∧
        loaded b (b + r.buf.size) r.dev ∧
        r.buf.data.take r.buf.size = (content.drop b).take r.buf.size)

variable {raw : Nat → ReadRequest → M δ ReadResult} {lim : Nat → Prop} {content : List Byte}
  {idle : Nat → δ → Prop} {loaded : Nat → Nat → δ → Prop}

theorem take_take_drop {α : Type} (l : List α) (p a n : Nat) (h : a ≤ n) :
    (l.drop p).take a ++ ((l.drop (p + a)).take (n - a)) = (l.drop p).take n := by
  obtain ⟨b, rfl⟩ := Nat.exists_eq_add_of_le h
  rw [Nat.add_sub_cancel_left, List.take_add, List.drop_drop]

theorem readLoaded_delivering (S : Source raw lim content idle loaded) {cap p : Nat} {r : Res δ}
    (h : Delivering cap content idle loaded p r) (hd : r.buf.readDirty = false) (n : Nat)
    (hcap : lim cap) (hn : n ≤ cap) :
    ∃ r', readLoaded raw n r =
        (.ok ⟨(content.drop p).take n, ((content.drop p).take n).length⟩, r') ∧
      Delivering cap content idle loaded (p + ((content.drop p).take n).length) r' ∧
      r'.buf.writeDirty = r.buf.writeDirty := by
  obtain ⟨hl, hin, hs⟩ := h
  rcases hs with ⟨h0, -⟩ | ⟨-, hc, hs, hp, b, rfl, hb, hld, hdata⟩
  · simp [hd] at h0
  have hul := r.buf.unread_length (by omega)
  have hu : r.buf.unread =
      (content.drop (b + r.buf.position)).take (r.buf.size - r.buf.position) := by
    rw [IoBuffer.unread, hdata, List.drop_take, List.drop_drop]
  by_cases hw : r.buf.position + n ≤ r.buf.size
  · have hlen : ((content.drop (b + r.buf.position)).take n).length = n := by simp; omega
    have hload := readLoaded_within raw r n (by omega) hw
    rw [hu, List.take_take, Nat.min_eq_left (by omega)] at hload
    rw [hlen]
    exact ⟨_, hload, ⟨hl, by omega, Or.inr ⟨hd, hc, hs, hw, b, by simp only; omega, hb, hld, hdata⟩⟩,
      rfl⟩
  · obtain ⟨d', hfill, hld'⟩ := S.fill r.buf.data.length (b + r.buf.size) r.dev
      (by rw [hl]; exact hcap) (.inr ⟨b, hld⟩) hb
    have hnl : ((content.drop (b + r.buf.position)).take n).length =
        min n (content.length - (b + r.buf.position)) := by simp
    generalize hG : (content.drop (b + r.buf.size)).take r.buf.data.length = G at *
    have hGl : G.length ≤ r.buf.data.length := by rw [← hG]; simp; omega
    have hload := readLoaded_fill (n := n) (by omega) hp (by omega) (by omega) hGl hfill
    have hout : r.buf.unread ++ G.take (n - r.buf.unread.length) =
        (content.drop (b + r.buf.position)).take n := by
      rw [hul, hu, ← hG, List.take_take, Nat.min_eq_left (by omega)]
      have := take_take_drop content (b + r.buf.position) (r.buf.size - r.buf.position) n (by omega)
      rw [show b + r.buf.position + (r.buf.size - r.buf.position) = b + r.buf.size by omega] at this
      exact this
    rw [hout] at hload
    have hGlen : G.length = min cap (content.length - (b + r.buf.size)) := by
      rw [← hG]; simp [hl]
    refine ⟨_, hload, ⟨by rw [← hl]; exact filled_length _ _ _, by omega,
      Or.inr ⟨rfl, hc, by simp only [filled]; omega, by simp only [filled]; omega,
        b + r.buf.size, by simp only; omega, by simp only [filled]; omega, hld', ?_⟩⟩, rfl⟩
    simp only [filled]
    rw [List.take_of_length_le hGl, List.take_left]
    rw [← hG, List.length_take, List.length_drop, ← List.length_drop, ← List.take_eq_take_min]

/-- A read of at most the capacity, or of any size without a buffer. -/
theorem read_delivering (S : Source raw lim content idle loaded) {cap p : Nat} {r : Res δ}
    (h : Delivering cap content idle loaded p r) (n : Nat) (hcap : lim cap)
    (hlim : lim n) (hn : n ≤ cap ∨ cap = 0) :
    ∃ r', read raw n r =
        (.ok ⟨(content.drop p).take n, ((content.drop p).take n).length⟩, r') ∧
      Delivering cap content idle loaded (p + ((content.drop p).take n).length) r' ∧
      r'.buf.writeDirty = r.buf.writeDirty := by
  obtain ⟨hl, hin, hs⟩ := id h
  by_cases h0 : cap = 0
  · rw [read_unbuffered _ _ _ (by omega)]
    rcases hs with ⟨h1, h2, h3⟩ | ⟨-, hc, -⟩
    · obtain ⟨d', e, hi⟩ := S.lean n p r.dev hlim h3 hin
      exact ⟨_, onDev_ok e, ⟨hl, by simp; omega, .inl ⟨h1, h2, hi⟩⟩, rfl⟩
    · omega
  · rw [read_buffered _ _ _ (by omega)]
    have hn : n ≤ cap := by omega
    cases hd : r.buf.readDirty with
    | false =>
      rw [readBuffered_clean _ _ _ hd]
      exact readLoaded_delivering S h hd n hcap hn
    | true =>
      rcases hs with ⟨h1, h2, h3⟩ | ⟨h1, -⟩
      · obtain ⟨d', hfill, hld⟩ := S.fill r.buf.data.length p r.dev
          (by rw [hl]; exact hcap) (.inl h3) hin
        rw [readBuffered_dirty hd hfill]
        have hGlen : ((content.drop p).take r.buf.data.length).length =
            min cap (content.length - p) := by simp [hl]
        have hG : (content.drop p).take r.buf.data.length =
            (content.drop p).take ((content.drop p).take r.buf.data.length).length := by
          rw [List.length_take, List.length_drop, ← List.length_drop, ← List.take_eq_take_min]
        generalize (content.drop p).take r.buf.data.length = G at *
        have hr : Delivering cap content idle loaded p ⟨filled r.buf ⟨G, G.length⟩, d'⟩ := by
          refine ⟨by rw [← hl]; exact filled_length _ _ _, hin,
            .inr ⟨rfl, by omega, by simp only [filled]; omega, Nat.zero_le _, p, rfl,
              by simp only [filled]; omega, hld, ?_⟩⟩
          simp only [filled]
          rw [List.take_of_length_le (show G.length ≤ r.buf.data.length by omega), List.take_left]
          exact hG
        exact readLoaded_delivering S hr rfl n hcap hn
      · simp [hd] at h1

/-- A sequence of reads. -/
theorem reads_delivering (S : Source raw lim content idle loaded) {cap p : Nat} {r : Res δ}
    (h : Delivering cap content idle loaded p r) (ns : List Nat) (hcap : lim cap)
    (hlim : ∀ n ∈ ns, lim n) (hn : cap = 0 ∨ ∀ n ∈ ns, n ≤ cap) :
    ∃ r', M.runList (read raw) ns r =
        (.ok (((⟨content, p⟩ : ArrayCursor).reads ns).map fun g => ⟨g, g.length⟩), r') ∧
      Delivering cap content idle loaded ((⟨content, p⟩ : ArrayCursor).afterReads ns).cursor r' ∧
      r'.buf.writeDirty = r.buf.writeDirty := by
  induction ns generalizing p r with
  | nil => exact ⟨r, rfl, h, rfl⟩
  | cons n ns ih =>
    obtain ⟨r', a, b, c⟩ := read_delivering S h n hcap (hlim n (by simp)) (by
      rcases hn with hn | hn
      · exact Or.inr hn
      · exact Or.inl (hn n (by simp)))
    obtain ⟨r'', a', b', c'⟩ := ih b (fun m hm => hlim m (by simp [hm])) (by
      rcases hn with hn | hn
      · exact Or.inl hn
      · exact Or.inr fun m hm => hn m (by simp [hm]))
    exact ⟨r'', M.runList_cons a a', b', c'.trans c⟩

theorem delivering_make (cap : Nat) (d : δ) (h : idle 0 d) :
    Delivering cap content idle loaded 0 ⟨IoBuffer.make cap, d⟩ :=
  ⟨by simp [IoBuffer.make], Nat.zero_le _, Or.inl ⟨rfl, rfl, h⟩⟩

/- ### Reading and writing -/

/-- Writing `w` over `original` from byte `start` on. -/
def overlay (original : List Byte) (start : Nat) (w : List Byte) : List Byte :=
  original.take start ++ w ++ original.drop (start + w.length)

theorem overlay_nil (original : List Byte) (start : Nat) : overlay original start [] = original := by
  simp [overlay]

theorem overlay_append (o : List Byte) (s : Nat) (w data : List Byte) (hs : s ≤ o.length) :
    overlay o s (w ++ data) = overlay (overlay o s w) (s + w.length) data := by
  have h1 : (o.take s ++ w).length = s + w.length := by simp; omega
  simp only [overlay]
  rw [List.take_left' h1, ← List.drop_drop (i := data.length), List.drop_left' h1, List.drop_drop,
    List.length_append, Nat.add_assoc]
  simp only [List.append_assoc]

theorem overlay_length (o : List Byte) (s : Nat) (w : List Byte) (hs : s ≤ o.length) :
    (overlay o s w).length = max o.length (s + w.length) := by
  simp only [overlay, List.length_append, List.length_take, List.length_drop]
  omega

/-- A device holding bytes that can be read (by requests of `lim` bytes), written (as `allowed`
says) and repositioned. -/
structure Store (rd : Nat → ReadRequest → M δ ReadResult) (wr : List Byte → M δ Nat)
    (sk : Int → PositionReference → M δ Unit) (lim : Nat → Prop) (elem : Nat) (allowed : Nat → Nat → Nat → Prop)
    (idle : List Byte → Nat → δ → Prop) (loaded : List Byte → Nat → Nat → δ → Prop) : Prop where
  source : ∀ c, Source rd lim c (idle c) (loaded c)
  allowed_zero : ∀ n s, s ≤ n → allowed n s 0
  write : ∀ o s w data d, s ≤ o.length → allowed o.length s w.length →
    allowed o.length s (w ++ data).length → idle (overlay o s w) (s + w.length) d →
    ∃ d', wr data d = (.ok data.length, d') ∧
      idle (overlay o s (w ++ data)) (s + (w ++ data).length) d'
  seek : ∀ c d (k : Nat), ((∃ q, idle c q d) ∨ ∃ b q, loaded c b q d) → k * elem ≤ c.length →
    ∃ d', sk k .begin d = (.ok (), d') ∧ idle c (k * elem) d'
  move : ∀ c q d (k : Int), idle c q d → 0 ≤ q + k * elem →
    ∃ d', sk k .current d = (.ok (), d') ∧ idle c (q + k * elem).toNat d'
  toEnd : ∀ c d, ((∃ q, idle c q d) ∨ ∃ b q, loaded c b q d) → elem ∣ c.length →
    ∃ d', sk 0 .end d = (.ok (), d') ∧ idle c c.length d'

variable {rd : Nat → ReadRequest → M δ ReadResult} {wr : List Byte → M δ Nat}
  {sk : Int → PositionReference → M δ Unit} {elem : Nat} {allowed : Nat → Nat → Nat → Prop}
  {idle : List Byte → Nat → δ → Prop} {loaded : List Byte → Nat → Nat → δ → Prop}

/-- Perform an operation on a resource for reading and writing. -/
def doIo (rd : Nat → ReadRequest → M δ ReadResult) (wr : List Byte → M δ Nat)
    (sk : Int → PositionReference → M δ Unit) : IoOp → M (Res δ) (List Byte × Nat)
  | .read n => do
    let got ← Res.read rd n
    pure (got.bytes, got.count)
  | .write data => do
    let n ← Res.write wr data
    pure ([], n)
  | .seek k => do
    Res.setPositionIO wr sk k .begin
    pure ([], 0)
  | .move d => do
    Res.setPositionIO wr sk d .current
    pure ([], 0)
  | .toEnd => do
    Res.setPositionIO wr sk 0 .end
    pure ([], 0)
  | .flush => do
    Res.flush wr
    pure ([], 0)

/-- What a session of writing has put on the device. -/
def Overwrote (idle : List Byte → Nat → δ → Prop) (o : List Byte) (s : Nat) (d : δ)
    (w : List Byte) : Prop := idle (overlay o s w) (s + w.length) d

theorem takes_overlay (S : Store rd wr sk lim elem allowed idle loaded) (o : List Byte) (s : Nat)
    (hs : s ≤ o.length) :
    Takes wr (fun w => allowed o.length s w.length) (Overwrote idle o s) :=
  ⟨fun d w bytes hg ha hb => S.write o s w bytes d hs ha hb hg⟩

/-- How the resource represents the array in each kind of session. -/
def Represents (cap : Nat) (allowed : Nat → Nat → Nat → Prop) (idle : List Byte → Nat → δ → Prop)
    (loaded : List Byte → Nat → Nat → δ → Prop) : Session → ArrayCursor → Res δ → Prop
  | .fresh, a, r => Delivering cap a.bytes (idle a.bytes) (loaded a.bytes) a.cursor r ∧
      r.buf.readDirty = true ∧ r.buf.writeDirty = false
  | .reading, a, r => Delivering cap a.bytes (idle a.bytes) (loaded a.bytes) a.cursor r ∧
      r.buf.writeDirty = false
  | .writing size start, a, r => r.buf.readDirty = true ∧
      ∃ original w, original.length = size ∧ start ≤ size ∧
        allowed original.length start w.length ∧
        a = ⟨overlay original start w, start + w.length⟩ ∧
        Writing cap (fun w => allowed original.length start w.length)
          (Overwrote idle original start) r w

theorem fresh_writing (S : Store rd wr sk lim elem allowed idle loaded) {cap : Nat} {a : ArrayCursor}
    {r : Res δ} (h : Represents cap allowed idle loaded .fresh a r) :
    Represents cap allowed idle loaded (.writing a.bytes.length a.cursor) a r := by
  obtain ⟨⟨hl, hin, hs⟩, h2, h3⟩ := h
  rcases hs with ⟨-, hp, hq⟩ | ⟨h0, -⟩
  · have ha := S.allowed_zero _ _ hin
    refine ⟨h2, a.bytes, [], rfl, hin, ha, by simp [overlay_nil], hl, by omega, fun _ => hp, [],
      ?_, ha, by simp [IoBuffer.pending, h3]⟩
    simpa [Overwrote, overlay_nil] using hq
  · simp [h2] at h0

/-- Flushing. -/
theorem flush_represents (S : Store rd wr sk lim elem allowed idle loaded) {cap : Nat} {s : Session}
    {a : ArrayCursor} {r : Res δ} (h : Represents cap allowed idle loaded s a r) :
    ∃ r', Res.flush wr r = (.ok (), r') ∧ Represents cap allowed idle loaded s.flushed a r' ∧
      ((∃ q, idle a.bytes q r'.dev) ∨ ∃ b q, loaded a.bytes b q r'.dev) ∧
      r'.buf.data.length = cap ∧ r'.buf.writeDirty = false := by
  have dev : ∀ (r : Res δ), Delivering cap a.bytes (idle a.bytes) (loaded a.bytes) a.cursor r →
      (∃ q, idle a.bytes q r.dev) ∨ ∃ b q, loaded a.bytes b q r.dev := by
    intro r h
    rcases h.state with ⟨-, -, h⟩ | ⟨-, -, -, -, b, -, -, h, -⟩
    · exact .inl ⟨_, h⟩
    · exact .inr ⟨_, _, h⟩
  cases s with
  | fresh =>
    obtain ⟨h1, h3, h4⟩ := id h
    exact ⟨r, Res.flush_clean _ _ h4, h, dev r h1, h1.length, h4⟩
  | reading =>
    obtain ⟨h1, h3⟩ := id h
    exact ⟨r, Res.flush_clean _ _ h3, h, dev r h1, h1.length, h3⟩
  | writing size start =>
    obtain ⟨h2, o, w, rfl, hst, ha, rfl, hw⟩ := h
    obtain ⟨d, e, h', q⟩ := Res.flush_writing (takes_overlay S o start hst) hw ha
    refine ⟨_, e, ⟨⟨h'.length, ?_, .inl ⟨h2, rfl, q⟩⟩, h2, rfl⟩, .inl ⟨_, q⟩, h'.length, rfl⟩
    simp only
    rw [overlay_length _ _ _ hst]
    omega

/-- Right after a change of position, a flush of written data, or without a buffer, the device is at
the cursor. -/
theorem represents_idle {cap : Nat} {s : Session} {a : ArrayCursor} {r : Res δ}
    (h : Represents cap allowed idle loaded s a r) (hs : s = .fresh ∨ s = .reading ∧ cap = 0) :
    idle a.bytes a.cursor r.dev := by
  rcases hs with rfl | ⟨rfl, h0⟩
  · rcases h.1.state with ⟨-, -, h⟩ | ⟨h1, -⟩
    · exact h
    · rw [h.2.1] at h1
      simp at h1
  · rcases h.1.state with ⟨-, -, h⟩ | ⟨-, h1, -⟩
    · exact h
    · omega

/-- Setting the position: whatever the session, written data are flushed and the buffer is
emptied; the new position is anywhere. -/
theorem setPosition_empties (S : Store rd wr sk lim elem allowed idle loaded) {cap : Nat}
    {s : Session} {a : ArrayCursor} {r : Res δ} (h : Represents cap allowed idle loaded s a r)
    (p : Int) (pr : PositionReference) (q : Nat)
    (hsk : ∀ r', Represents cap allowed idle loaded s.flushed a r' →
      ((∃ q, idle a.bytes q r'.dev) ∨ ∃ b q, loaded a.bytes b q r'.dev) →
      ∃ d', sk p pr r'.dev = (.ok (), d') ∧ idle a.bytes q d') :
    ∃ r', Res.setPositionIO wr sk p pr r = (.ok (), r') ∧ r'.buf.data.length = cap ∧
      r'.buf.readDirty = true ∧ r'.buf.position = 0 ∧ r'.buf.writeDirty = false ∧
      idle a.bytes q r'.dev := by
  obtain ⟨r', e, hrep, hdev, hl, hw⟩ := flush_represents S h
  obtain ⟨d', e', hi⟩ := hsk r' hrep hdev
  refine ⟨⟨r'.buf.setReadDirty true, d'⟩, ?_, hl, rfl, rfl, hw, hi⟩
  simp only [Res.setPositionIO, M.noexcept_apply]
  rw [M.bind_ok e, M.bind_ok (onDev_ok e')]
  rfl

/-- The same with a new position inside the array. -/
theorem setPosition_represents (S : Store rd wr sk lim elem allowed idle loaded) {cap : Nat}
    {s : Session} {a : ArrayCursor} {r : Res δ} (h : Represents cap allowed idle loaded s a r)
    (p : Int) (pr : PositionReference) (q : Nat) (hq : q ≤ a.bytes.length)
    (hsk : ∀ r', Represents cap allowed idle loaded s.flushed a r' →
      ((∃ q, idle a.bytes q r'.dev) ∨ ∃ b q, loaded a.bytes b q r'.dev) →
      ∃ d', sk p pr r'.dev = (.ok (), d') ∧ idle a.bytes q d') :
    ∃ r', Res.setPositionIO wr sk p pr r = (.ok (), r') ∧
      Represents cap allowed idle loaded .fresh ⟨a.bytes, q⟩ r' := by
  obtain ⟨r', e, hl, h1, h2, h3, hi⟩ := setPosition_empties S h p pr q hsk
  exact ⟨r', e, ⟨hl, hq, .inl ⟨h1, h2, hi⟩⟩, h1, h3⟩

/-- Reading. -/
theorem read_represents (S : Store rd wr sk lim elem allowed idle loaded) {cap : Nat} {s : Session}
    {a : ArrayCursor} {r : Res δ} (h : Represents cap allowed idle loaded s a r)
    (hs : s = .fresh ∨ s = .reading) (n : Nat) (hcap : lim cap) (hlim : lim n)
    (hn : n ≤ cap ∨ cap = 0) :
    ∃ r', Res.read rd n r = (.ok ⟨a.next n, (a.next n).length⟩, r') ∧
      Represents cap allowed idle loaded .reading (a.afterRead n) r' := by
  have hr : Delivering cap a.bytes (idle a.bytes) (loaded a.bytes) a.cursor r ∧
      r.buf.writeDirty = false := by
    rcases hs with rfl | rfl
    · exact ⟨h.1, h.2.2⟩
    · exact h
  obtain ⟨r', e, h', hw⟩ := read_delivering (S.source _) hr.1 n hcap hlim hn
  exact ⟨r', e, h', by rw [hw]; exact hr.2⟩

/-- Writing. -/
theorem write_represents (S : Store rd wr sk lim elem allowed idle loaded) {cap size start : Nat}
    {a : ArrayCursor} {r : Res δ}
    (h : Represents cap allowed idle loaded (.writing size start) a r) (data : List Byte)
    (ha : allowed size start (a.cursor + data.length - start)) :
    ∃ r', Res.write wr data r = (.ok data.length, r') ∧
      Represents cap allowed idle loaded (.writing size start) (a.afterWrite data) r' := by
  obtain ⟨h2, o, w, rfl, hst, hw0, rfl, hw⟩ := h
  have hallow' : allowed o.length start (w ++ data).length := by
    rw [List.length_append]
    simp only at ha
    rwa [show start + w.length + data.length - start = w.length + data.length by omega] at ha
  obtain ⟨r', e, h', hdirty⟩ := Res.write_writing (takes_overlay S o start hst) hw hw0
    (bytes := data) hallow'
  refine ⟨r', e, by rw [hdirty]; exact h2, o, w ++ data, rfl, hst, hallow', ?_, h'⟩
  simp only [ArrayCursor.afterWrite]
  rw [overlay_append _ _ _ _ hst, List.length_append]
  simp only [overlay, Nat.add_assoc]

/-- The session is one of writing. -/
def _root_.Cmp.Spec.Session.IsWriting : Session → Prop
  | .writing .. => True
  | _ => False

/-- One operation of a disciplined sequence.  Only writing begins or continues a session of
writing. -/
theorem doIo_represents (S : Store rd wr sk lim elem allowed idle loaded) {cap : Nat} {s : Session}
    {a : ArrayCursor} {r : Res δ} {op : IoOp} {ops : List IoOp}
    (h : Represents cap allowed idle loaded s a r)
    (hcap : lim cap) (hlim : ∀ n, IoOp.read n ∈ op :: ops → lim n)
    (hd : Disciplined cap elem allowed s a (op :: ops)) :
    ∃ r' s', doIo rd wr sk op r = (.ok (op.result a), r') ∧
      Represents cap allowed idle loaded s' (op.effect elem a) r' ∧
      Disciplined cap elem allowed s' (op.effect elem a) ops ∧
      ((∀ data, op ≠ .write data) → ¬ s'.IsWriting) := by
  cases hd with
  | read hs hn hrest =>
    rename_i n
    obtain ⟨r', e, h'⟩ := read_represents S h hs n hcap (hlim n (by simp)) hn
    refine ⟨r', .reading, ?_, h', hrest, fun _ h => h⟩
    simp only [doIo]
    rw [M.bind_ok e]
    rfl
  | write hs hallow hrest =>
    rename_i data size start
    have hr : Represents cap allowed idle loaded (.writing size start) a r := by
      rcases hs with ⟨rfl, rfl, rfl⟩ | rfl
      · exact fresh_writing S h
      · exact h
    obtain ⟨r', e, h'⟩ := write_represents S hr data hallow
    refine ⟨r', .writing size start, ?_, h', hrest, fun h => absurd rfl (h data)⟩
    simp only [doIo]
    rw [M.bind_ok e]
    rfl
  | seek hk hrest =>
    rename_i k
    obtain ⟨r', e, hr⟩ := setPosition_represents S h k .begin (k * elem) hk
      fun r' _ hdev => S.seek a.bytes r'.dev k hdev hk
    exact ⟨r', .fresh, by simp only [doIo]; rw [M.bind_ok e]; rfl, hr, hrest, fun _ h => h⟩
  | move hs h0 h1 hrest =>
    rename_i d
    obtain ⟨r', e, hr⟩ := setPosition_represents S h d .current (a.cursor + d * elem).toNat
      (by omega) fun r' hrep _ => S.move a.bytes a.cursor r'.dev d (represents_idle hrep (by
        cases s with
        | fresh => exact .inl rfl
        | reading => exact .inr ⟨rfl, hs.resolve_left (fun h => h rfl)⟩
        | writing => exact .inl rfl)) h0
    exact ⟨r', .fresh, by simp only [doIo]; rw [M.bind_ok e]; rfl, hr, hrest, fun _ h => h⟩
  | toEnd hk hrest =>
    obtain ⟨r', e, hr⟩ := setPosition_represents S h 0 .end a.bytes.length (Nat.le_refl _)
      fun r' _ hdev => S.toEnd a.bytes r'.dev hdev hk
    exact ⟨r', .fresh, by simp only [doIo]; rw [M.bind_ok e]; rfl, hr, hrest, fun _ h => h⟩
  | flush hrest =>
    obtain ⟨r', e, hrep, -⟩ := flush_represents S h
    exact ⟨r', _, by simp only [doIo]; rw [M.bind_ok e]; rfl, hrep, hrest, fun _ h => by
      cases s <;> exact h⟩

/-- A disciplined sequence of operations. -/
theorem runIo_represents (S : Store rd wr sk lim elem allowed idle loaded) {cap : Nat} {s : Session}
    {a : ArrayCursor} {r : Res δ} {ops : List IoOp}
    (h : Represents cap allowed idle loaded s a r) (hcap : lim cap)
    (hlim : ∀ n, IoOp.read n ∈ ops → lim n) (hd : Disciplined cap elem allowed s a ops) :
    ∃ r' s', M.runList (doIo rd wr sk) ops r = (.ok (Spec.results elem a ops), r') ∧
      Represents cap allowed idle loaded s' (Spec.after elem a ops) r' ∧
      (ops = [] → s' = s) ∧
      (ops ≠ [] → (∀ data, ops.getLast? ≠ some (.write data)) → ¬ s'.IsWriting) := by
  induction ops generalizing s a r with
  | nil => exact ⟨r, s, rfl, h, fun _ => rfl, fun h => absurd rfl h⟩
  | cons op ops ih =>
    obtain ⟨r', s', e, h', hd', hw⟩ := doIo_represents S h hcap hlim hd
    obtain ⟨r'', s'', e', h'', hnil, hlast⟩ := ih h' (fun n hn => hlim n (by simp [hn])) hd'
    refine ⟨r'', s'', M.runList_cons e e', h'', by simp, fun _ hl => ?_⟩
    cases ops with
    | nil =>
      rw [hnil rfl]
      exact hw fun data hop => hl data (by rw [hop]; rfl)
    | cons op' ops => exact hlast (by simp) fun data => by simpa using hl data

/-- The offset of the device and the position in the buffer add up to the cursor. -/
theorem represents_position {cap : Nat} {s : Session} {a : ArrayCursor} {r : Res δ}
    (offset : δ → Option Int) (hidle : ∀ c q d, idle c q d → offset d = some (q : Int))
    (hloaded : 0 < cap → r.buf.readDirty = false → ∀ c b q d, loaded c b q d →
      offset d = some (b : Int))
    (h : Represents cap allowed idle loaded s a r) :
    ∃ q, offset r.dev = some q ∧ q + r.buf.position = a.cursor := by
  have dev : Delivering cap a.bytes (idle a.bytes) (loaded a.bytes) a.cursor r →
      ∃ q, offset r.dev = some q ∧ q + r.buf.position = a.cursor := by
    intro h
    rcases h.state with ⟨-, hp, h⟩ | ⟨hr, hc, -, -, b, hb, -, h, -⟩
    · exact ⟨_, hidle _ _ _ h, by omega⟩
    · exact ⟨_, hloaded hc hr _ _ _ _ h, by omega⟩
  cases s with
  | fresh => exact dev h.1
  | reading => exact dev h.1
  | writing size start =>
    obtain ⟨-, o, w, -, -, -, rfl, hw⟩ := h
    obtain ⟨w0, hg, -, rfl⟩ := hw.written
    refine ⟨_, hidle _ _ _ hg, ?_⟩
    simp only [List.length_append]
    have : r.buf.pending.length = r.buf.position := by
      cases hd : r.buf.writeDirty with
      | true =>
        have := hw.position
        have := hw.length
        simp [IoBuffer.pending, hd]
        omega
      | false => simp [IoBuffer.pending, hd, hw.clean hd]
    omega

/-- Unless data are waiting to be written the device holds the array. -/
theorem represents_held {cap : Nat} {s : Session} {a : ArrayCursor} {r : Res δ}
    (h : Represents cap allowed idle loaded s a r) (hs : ¬ s.IsWriting) :
    (∃ q, idle a.bytes q r.dev) ∨ ∃ b q, loaded a.bytes b q r.dev := by
  have dev : Delivering cap a.bytes (idle a.bytes) (loaded a.bytes) a.cursor r →
      (∃ q, idle a.bytes q r.dev) ∨ ∃ b q, loaded a.bytes b q r.dev := by
    intro h
    rcases h.state with ⟨-, -, h⟩ | ⟨-, -, -, -, b, -, -, h, -⟩
    · exact .inl ⟨_, h⟩
    · exact .inr ⟨_, _, h⟩
  cases s with
  | fresh => exact dev h.1
  | reading => exact dev h.1
  | writing size start => exact absurd trivial hs

theorem represents_make (cap : Nat) (content : List Byte) (d : δ) (h : idle content 0 d) :
    Represents cap allowed idle loaded .fresh ⟨content, 0⟩ ⟨IoBuffer.make cap, d⟩ :=
  ⟨delivering_make cap d h, rfl, rfl⟩

end Res

end Cmp
