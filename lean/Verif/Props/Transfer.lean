import Verif.Proofs.Container

/-
Properties C31 to C40: buffered transfer and container resources.
-/

namespace Cmp

open Spec (ArrayCursor IoOp Disciplined)

/-- An input container resource as constructed. -/
def freshCtr (cap elem : Nat) (content : List Byte) : Res Ctr :=
  ⟨IoBuffer.make cap, Ctr.make elem content⟩

/-- A device for the examples: it keeps all it gets. -/
def sink (bytes : List Byte) : M (List Byte) Nat := fun d => (.ok bytes.length, d ++ bytes)

/-! ### C31 -/

/-- For every device that takes all it is given, every capacity and every sequence of writes and
flushes: each write returns its count; what the device has received is what was written without
at most the last `cap` bytes; and a flush delivers everything. -/
theorem C31_output_in_order {δ : Type} (raw : List Byte → M δ Nat) (received : δ → List Byte)
    (accepts : ∀ bytes d, ∃ d', raw bytes d = (.ok bytes.length, d') ∧
      received d' = received d ++ bytes)
    (cap : Nat) (d : δ) (ops : List OutOp) :
    ∃ r, M.runList (Res.doOut raw) ops ⟨IoBuffer.make cap, d⟩ =
        (.ok (ops.map (·.bytes.length)), r)
      ∧ (∃ pending : List Byte, pending.length ≤ cap ∧
          received r.dev ++ pending = received d ++ ops.flatMap (·.bytes))
      ∧ ∃ r', Res.flush raw r = (.ok (), r') ∧
          received r'.dev = received d ++ ops.flatMap (·.bytes) := by
  have T : Res.Takes raw (fun _ => True) (fun d w => received d = w) :=
    ⟨fun d w bytes hw _ _ => by
      obtain ⟨d', e, h⟩ := accepts bytes d
      exact ⟨d', e, by rw [h, hw]⟩⟩
  obtain ⟨r, e, h⟩ := Res.runOut_writing T (Res.writing_make cap d _ rfl trivial) ops
    (fun _ _ => trivial)
  obtain ⟨w, hw, -, hp⟩ := h.written
  refine ⟨r, e, ⟨r.buf.pending, ?_, by rw [hw]; exact hp⟩, ?_⟩
  · have h1 := h.position
    simp only [IoBuffer.pending]
    split
    · simp; omega
    · simp
  · obtain ⟨d', e', -, q⟩ := Res.flush_writing T h trivial
    exact ⟨_, e', q⟩

/-- The hypothesis is met: buffering three bytes and writing two, two, nothing and four, the device
has the first two before the flush. -/
example : (∀ bytes d, ∃ d', sink bytes d = (.ok bytes.length, d') ∧ id d' = id d ++ bytes)
    ∧ (M.runList (Res.doOut sink) [.write [1, 2], .write [3, 4]] ⟨IoBuffer.make 3, []⟩).2.dev =
      [1, 2]
    ∧ (M.runList (Res.doOut sink) [.write [1, 2], .write [3, 4], .flush, .write [],
        .write [5, 6, 7, 8]] ⟨IoBuffer.make 3, []⟩).2.dev = [1, 2, 3, 4, 5, 6, 7, 8] :=
  ⟨fun _ d => ⟨d ++ _, rfl, rfl⟩, by decide +kernel, by decide +kernel⟩

/-! ### C32 -/

/-- Whatever the device does (short counts, exceptions, and a user who catches them and carries
on), no operation of a sequence of writes and flushes copies outside the buffer, and the position
in the buffer stays within the capacity. -/
theorem C32_output_memory_safe {δ : Type} (raw : List Byte → M δ Nat)
    (hraw : ∀ bytes d, (raw bytes d).1 ≠ .ub) (cap : Nat) (d : δ) (ops : List OutOp) (op : OutOp) :
    (M.stateAfter (Res.doOut raw) ⟨IoBuffer.make cap, d⟩ ops).buf.position ≤ cap
    ∧ (M.stateAfter (Res.doOut raw) ⟨IoBuffer.make cap, d⟩ ops).buf.data.length = cap
    ∧ (Res.doOut raw op (M.stateAfter (Res.doOut raw) ⟨IoBuffer.make cap, d⟩ ops)).1 ≠ .ub := by
  have h0 : Res.Bounded cap (⟨IoBuffer.make cap, d⟩ : Res δ) :=
    ⟨by simp [IoBuffer.make], by simp [IoBuffer.make], fun _ => rfl⟩
  have h := Res.stateAfter_bounded (raw := raw) h0 hraw ops
  exact ⟨h.position, h.length, (Res.doOut_bounded h hraw op).1⟩

/-- The hypothesis is met by a device that always throws. -/
example : ∀ bytes d, ((fun _ => M.throw .readPastEnd : List Byte → M Unit Nat) bytes d).1 ≠ .ub :=
  by simp

/-! ### C33 -/

/-- The claim for input resources of every kind: reads of any size deliver the content in order. -/
def InOrder (cap elem : Nat) (content : List Byte) (ns : List Nat) : Prop :=
  ∃ outs r, M.runList (Res.read Ctr.readRaw) ns (freshCtr cap elem content) = (.ok outs, r)
    ∧ (outs.map (·.bytes)).flatten = content.take ns.sum
    ∧ ∀ g ∈ outs, g.count = g.bytes.length

/-- Reading five bytes of "abcdefghij" through a buffer of two gives "ababc". -/
theorem C33_violated : ¬ ∀ cap elem content ns, elem ∣ content.length →
    InOrder cap elem content ns := by
  intro h
  obtain ⟨outs, r, e, q, -⟩ := h 2 1 [97, 98, 99, 100, 101, 102, 103, 104, 105, 106] [5] (by simp)
  have : M.runList (Res.read Ctr.readRaw) [5]
      (freshCtr 2 1 [97, 98, 99, 100, 101, 102, 103, 104, 105, 106]) =
      (.ok [⟨[97, 98, 97, 98, 99], 5⟩], ⟨⟨[97, 98], 2, 2, false, false⟩,
        ⟨1, [97, 98, 99, 100, 101, 102, 103, 104, 105, 106], 3, 2⟩⟩) := by decide +kernel
  rw [this] at e
  simp only [Prod.mk.injEq, Outcome.ok.injEq] at e
  rw [← e.1] at q
  exact absurd q (by decide +kernel)

/-- It is not one unlucky case: every first read that asks for more than the buffer twice over
delivers the start of the content twice. -/
theorem C33_violated_always (cap : Nat) (content : List Byte) (n : Nat) (hc : 0 < cap)
    (hn : 2 * cap < n) :
    (Res.read Ctr.readRaw n (freshCtr cap 1 content)).1 =
      .ok ⟨content.take cap ++ content.take (n - min cap content.length),
        (content.take cap ++ content.take (n - min cap content.length)).length⟩ := by
  have key : ∀ b : IoBuffer, b.data.length = cap → b.readDirty = true →
      (Res.read Ctr.readRaw n ⟨b, Ctr.make 1 content⟩).1 =
        .ok ⟨content.take cap ++ content.take (n - min cap content.length),
          (content.take cap ++ content.take (n - min cap content.length)).length⟩ := by
    intro b hl hd
    rw [Res.read_buffered _ _ _ (show 0 < b.data.length by omega)]
    have hfill := Ctr.readRaw_fill (Ctr.make 1 content) b.data.length 0 rfl (Nat.zero_le _)
    rw [Res.readBuffered_dirty hd hfill]
    have hG : ((Ctr.make 1 content).content.drop 0).take b.data.length = content.take cap := by
      rw [hl]; rfl
    rw [hG]
    have hlen : (content.take cap).length = min cap content.length := by simp
    generalize content.take cap = G at hlen
    have hdl := Res.filled_length b G G.length
    have hun := Res.filled_unread b G (by omega)
    have hpos : (Res.filled b ⟨G, G.length⟩).position = 0 := rfl
    have hsize : (Res.filled b ⟨G, G.length⟩).size = G.length := rfl
    generalize Res.filled b ⟨G, G.length⟩ = b' at *
    have hlean := Ctr.readRaw_lean
      ⟨(Ctr.make 1 content).elem, (Ctr.make 1 content).content,
        ((0 + G.length : Nat) : Int) + -(G.length : Int) * ((Ctr.make 1 content).elem : Nat),
        G.length⟩ (n - (b'.size - b'.position)) 0 (by simp [Ctr.make]; omega) (Nat.zero_le _)
    have := Res.readLoaded_lean (r := ⟨b', _⟩) (show b'.size ≤ b'.data.length by omega)
      (show b'.position ≤ b'.size by omega) (show b'.position + n > b'.size by omega)
      (show n - (b'.size - b'.position) > b'.data.length by omega) hlean
    rw [this, hun]
    simp [Ctr.make, hpos, hsize, hlen]
  exact key _ (by simp [IoBuffer.make]) rfl

/-- The hypotheses are met by the case above: `2 * 2 < 5`. -/
example : (Res.read Ctr.readRaw 5 (freshCtr 2 1 [97, 98, 99])).1 =
    .ok ⟨[97, 98, 97, 98, 99], 5⟩ := by decide +kernel

/-- Reads of at most the capacity, or of any size without a buffer, deliver the content in order.
Missing: larger reads, which the code gets wrong. -/
theorem C33_partial (cap elem : Nat) (content : List Byte) (ns : List Nat)
    (hn : cap = 0 ∨ ∀ n ∈ ns, n ≤ cap) : InOrder cap elem content ns := by
  obtain ⟨r, e, -⟩ := Res.reads_delivering (Ctr.source elem content) (Ctr.reading_make cap content elem) ns
    trivial (fun _ _ => trivial) hn
  refine ⟨_, r, e, ?_, ?_⟩
  · have := (⟨content, 0⟩ : ArrayCursor).reads_flatten ns
    simpa [List.map_map, Function.comp_def] using this
  · intro g hg
    obtain ⟨a, -, rfl⟩ := List.mem_map.mp hg
    rfl

example : InOrder 4 2 [1, 2, 3, 4, 5, 6, 7, 8, 9, 10] [3, 4, 1, 4, 4] :=
  C33_partial _ _ _ _ (by decide +kernel)

/-! ### C34 -/

/-- Reading with requests of at most the capacity (any size without a buffer) is reading from an
array with a cursor: every read returns the next bytes, as many as asked for unless the content
ends. -/
theorem C34_small_reads (cap elem : Nat) (content : List Byte) (ns : List Nat)
    (hn : cap = 0 ∨ ∀ n ∈ ns, n ≤ cap) :
    (M.runList (Res.read Ctr.readRaw) ns (freshCtr cap elem content)).1 =
        .ok (((⟨content, 0⟩ : ArrayCursor).reads ns).map fun g => ⟨g, g.length⟩)
    ∧ ∀ (n : Nat) (a : ArrayCursor), (a.next n).length < n →
        a.bytes.length ≤ (a.afterRead n).cursor := by
  obtain ⟨r, e, -⟩ := Res.reads_delivering (Ctr.source elem content) (Ctr.reading_make cap content elem) ns
    trivial (fun _ _ => trivial) hn
  refine ⟨?_, fun n a => a.next_short n⟩
  rw [freshCtr, e]

example : (M.runList (Res.read Ctr.readRaw) [3, 2, 3, 1] (freshCtr 3 2 [1, 2, 3, 4, 5, 6])).1 =
    .ok [⟨[1, 2, 3], 3⟩, ⟨[4, 5], 2⟩, ⟨[6], 1⟩, ⟨[], 0⟩] := by decide +kernel

/-! ### C35 -/

/-- Position and end test agree with what has been delivered. -/
def ReportsPosition (cap elem : Nat) (content : List Byte) (ns : List Nat) : Prop :=
  ∃ outs r, M.runList (Res.read Ctr.readRaw) ns (freshCtr cap elem content) = (.ok outs, r)
    ∧ Ctr.getPosition r = (outs.map (·.bytes)).flatten.length
    ∧ (Ctr.isAtEnd r = true ↔ (outs.map (·.bytes)).flatten = content)

/-- With elements of four bytes and a buffer of eight, after one read of four bytes the position
reported is negative; and after all is read `is_at_end` is false. -/
theorem C35_violated : ¬ ∀ cap elem content ns, 0 < elem → elem ∣ content.length →
    (cap = 0 ∨ ∀ n ∈ ns, n ≤ cap) → ReportsPosition cap elem content ns := by
  intro h
  obtain ⟨outs, r, e, q, -⟩ := h 8 4 [1, 2, 3, 4, 5, 6, 7, 8] [4] (by omega) (by simp) (by simp)
  have : M.runList (Res.read Ctr.readRaw) [4] (freshCtr 8 4 [1, 2, 3, 4, 5, 6, 7, 8]) =
      (.ok [⟨[1, 2, 3, 4], 4⟩], ⟨⟨[1, 2, 3, 4, 5, 6, 7, 8], 8, 4, false, false⟩,
        ⟨4, [1, 2, 3, 4, 5, 6, 7, 8], -24, 8⟩⟩) := by decide +kernel
  rw [this] at e
  simp only [Prod.mk.injEq, Outcome.ok.injEq] at e
  rw [← e.1, ← e.2] at q
  exact absurd q (by decide +kernel)

/-- For elements of one byte, or without a buffer.  Missing: larger elements with a buffer, and
reads larger than the buffer, which the code gets wrong. -/
theorem C35_partial (cap elem : Nat) (content : List Byte) (ns : List Nat)
    (he : elem = 1 ∨ cap = 0) (hd : elem ∣ content.length) (hn : cap = 0 ∨ ∀ n ∈ ns, n ≤ cap) :
    ReportsPosition cap elem content ns := by
  obtain ⟨r, e, h, -⟩ := Res.reads_delivering (Ctr.source elem content) (Ctr.reading_make cap content elem) ns
    trivial (fun _ _ => trivial) hn
  have hflat : (((⟨content, 0⟩ : ArrayCursor).reads ns).flatten) = content.take ns.sum := by
    simpa using (⟨content, 0⟩ : ArrayCursor).reads_flatten ns
  have hcur : ∀ (a : ArrayCursor) (ns : List Nat), (a.afterReads ns).cursor =
      a.cursor + (a.reads ns).flatten.length := by
    intro a ns
    induction ns generalizing a with
    | nil => simp [ArrayCursor.afterReads, ArrayCursor.reads]
    | cons n ns ih =>
      have := ih (a.afterRead n)
      simp only [ArrayCursor.afterReads, List.foldl_cons, ArrayCursor.reads, List.flatten_cons,
        List.length_append] at this ⊢
      rw [this]
      simp [ArrayCursor.afterRead, Nat.add_assoc]
  have houts : ((((⟨content, 0⟩ : ArrayCursor).reads ns).map
      fun g => (⟨g, g.length⟩ : ReadResult)).map (·.bytes)).flatten = content.take ns.sum := by
    rw [← hflat]; simp [List.map_map, Function.comp_def]
  refine ⟨_, r, e, ?_, ?_⟩
  · rw [Ctr.getPosition_reading h he, hcur, hflat, houts]
    simp
  · rw [Ctr.isAtEnd_reading h he hd, hcur, hflat, houts]
    simp only [Nat.zero_add, List.length_take]
    constructor
    · intro h
      exact List.take_of_length_le (by omega)
    · intro h
      have := congrArg List.length h
      simpa using this

example : ReportsPosition 4 1 [1, 2, 3, 4, 5, 6] [3, 2] :=
  C35_partial _ _ _ _ (.inl rfl) (by simp) (by decide +kernel)

/-! ### C36 -/

/-- The claim: whatever has happened to the resource before, after `set_position(k, begin)` reads
deliver the content from element `k` on. -/
def SeeksFromBeginning (r : Res Ctr) (k : Nat) (ns : List Nat) : Prop :=
  ∃ r' outs, Res.setPositionIn Ctr.seek k .begin r = (.ok (), r')
    ∧ (M.runList (Res.read Ctr.readRaw) ns r').1 = .ok outs
    ∧ (outs.map (·.bytes)).flatten = (r.dev.content.drop (k * r.dev.elem)).take ns.sum

/-- A read larger than the buffer is wrong after a seek, too. -/
theorem C36_violated : ¬ ∀ r k ns, k * r.dev.elem ≤ r.dev.content.length →
    SeeksFromBeginning r k ns := by
  intro h
  obtain ⟨r', outs, e, q, f⟩ := h (freshCtr 1 1 [1, 2, 3, 4]) 1 [3] (by decide +kernel)
  have e' : Res.setPositionIn Ctr.seek 1 .begin (freshCtr 1 1 [1, 2, 3, 4]) =
      (.ok (), ⟨⟨[0], 0, 0, true, false⟩, ⟨1, [1, 2, 3, 4], 1, 0⟩⟩) := rfl
  rw [show ((1 : Nat) : Int) = 1 from rfl, e'] at e
  simp only [Prod.mk.injEq, true_and] at e
  rw [← e] at q
  have : (M.runList (Res.read Ctr.readRaw) [3]
      ⟨⟨[0], 0, 0, true, false⟩, ⟨1, [1, 2, 3, 4], 1, 0⟩⟩).1 =
      .ok [⟨[2, 2, 3], 3⟩] := by decide +kernel
  rw [this] at q
  simp only [Outcome.ok.injEq] at q
  rw [← q] at f
  exact absurd f (by decide +kernel)

/-- For all prior states (also ones no history leads to) and reads of at most the capacity.
Missing: larger reads. -/
theorem C36_partial (r : Res Ctr) (k : Nat) (ns : List Nat)
    (hk : k * r.dev.elem ≤ r.dev.content.length)
    (hn : r.buf.data.length = 0 ∨ ∀ n ∈ ns, n ≤ r.buf.data.length) :
    SeeksFromBeginning r k ns := by
  obtain ⟨r', e, h⟩ := Ctr.setPositionIn_reading r k hk
  obtain ⟨r'', e', -⟩ := Res.reads_delivering (Ctr.source _ _) h ns trivial
    (fun _ _ => trivial) hn
  refine ⟨r', _, e, by rw [e'], ?_⟩
  have := (⟨r.dev.content, k * r.dev.elem⟩ : ArrayCursor).reads_flatten ns
  simpa [List.map_map, Function.comp_def] using this

example : SeeksFromBeginning (M.runList (Res.read Ctr.readRaw) [3, 1]
    (freshCtr 4 2 [1, 2, 3, 4, 5, 6])).2 1 [2, 1] :=
  C36_partial _ _ _ (by decide +kernel) (by decide +kernel)

/-! ### C37 -/

/-- The claim: after some reads, a relative seek by `d` elements moves the position by exactly
`d` elements from where the last read stopped. -/
def SeeksRelative (cap elem : Nat) (content : List Byte) (ns : List Nat) (d : Int)
    (ms : List Nat) : Prop :=
  ∃ outs r r' outs', M.runList (Res.read Ctr.readRaw) ns (freshCtr cap elem content) = (.ok outs, r)
    ∧ Res.setPositionIn Ctr.seek d .current r = (.ok (), r')
    ∧ (M.runList (Res.read Ctr.readRaw) ms r').1 = .ok outs'
    ∧ (outs'.map (·.bytes)).flatten =
        (content.drop (((outs.map (·.bytes)).flatten.length + d * elem).toNat)).take ms.sum

/-- After one byte of eight is read through a buffer of four, seeking one element forward leads to
the byte that was just to be read. -/
theorem C37_violated : ¬ ∀ (cap elem : Nat) content ns d ms, 0 < elem → elem ∣ content.length →
    (cap = 0 ∨ ∀ n ∈ ns ++ ms, n ≤ cap) →
    0 ≤ (ns.sum : Int) + d * (elem : Nat) → (ns.sum : Int) + d * (elem : Nat) ≤ content.length →
    ns.sum ≤ content.length →
    SeeksRelative cap elem content ns d ms := by
  intro h
  obtain ⟨outs, r, r', outs', e, e', q, f⟩ := h 4 1 [1, 2, 3, 4, 5, 6, 7, 8] [1] 1 [1]
    (by omega) (by simp) (by decide +kernel) (by decide +kernel) (by decide +kernel) (by decide +kernel)
  have e0 : M.runList (Res.read Ctr.readRaw) [1] (freshCtr 4 1 [1, 2, 3, 4, 5, 6, 7, 8]) =
      (.ok [⟨[1], 1⟩], ⟨⟨[1, 2, 3, 4], 4, 1, false, false⟩,
        ⟨1, [1, 2, 3, 4, 5, 6, 7, 8], 0, 4⟩⟩) := by decide +kernel
  rw [e0] at e
  simp only [Prod.mk.injEq, Outcome.ok.injEq] at e
  obtain ⟨rfl, rfl⟩ := e
  have e1 : Res.setPositionIn Ctr.seek 1 .current ⟨⟨[1, 2, 3, 4], 4, 1, false, false⟩,
        ⟨1, [1, 2, 3, 4, 5, 6, 7, 8], 0, 4⟩⟩ = (.ok (), ⟨⟨[1, 2, 3, 4], 4, 0, true, false⟩,
        ⟨1, [1, 2, 3, 4, 5, 6, 7, 8], 1, 0⟩⟩) := rfl
  rw [e1] at e'
  simp only [Prod.mk.injEq, true_and] at e'
  subst e'
  have e2 : (M.runList (Res.read Ctr.readRaw) [1] ⟨⟨[1, 2, 3, 4], 4, 0, true, false⟩,
        ⟨1, [1, 2, 3, 4, 5, 6, 7, 8], 1, 0⟩⟩).1 = .ok [⟨[2], 1⟩] := by decide +kernel
  rw [e2] at q
  simp only [Outcome.ok.injEq] at q
  subst q
  exact absurd f (by decide +kernel)

/-- Without a buffer, for `set_position`; and `go_forward` and `go_back` are the same moves.
Missing: the buffered case, which the code gets wrong. -/
theorem C37_partial (elem : Nat) (content : List Byte) (ns : List Nat) (d : Int) (ms : List Nat)
    (hs : ns.sum ≤ content.length) (h0 : 0 ≤ (ns.sum : Int) + d * elem)
    (h1 : (ns.sum : Int) + d * elem ≤ content.length) :
    SeeksRelative 0 elem content ns d ms
    ∧ ∀ c : Ctr, Res.goForward Ctr.seek d c = Ctr.seek d .current c
        ∧ Res.goBack Ctr.seek d c = Ctr.seek (-d) .current c := by
  refine ⟨?_, fun c => ⟨rfl, rfl⟩⟩
  obtain ⟨r, e, h, -⟩ := Res.reads_delivering (Ctr.source elem content) (Ctr.reading_make 0 content elem) ns
    trivial (fun _ _ => trivial) (.inl rfl)
  have hflat : (((⟨content, 0⟩ : ArrayCursor).reads ns).flatten) = content.take ns.sum := by
    simpa using (⟨content, 0⟩ : ArrayCursor).reads_flatten ns
  have houts : ((((⟨content, 0⟩ : ArrayCursor).reads ns).map
      fun g => (⟨g, g.length⟩ : ReadResult)).map (·.bytes)).flatten = content.take ns.sum := by
    rw [← hflat]; simp [List.map_map, Function.comp_def]
  have hp : (⟨content, 0⟩ : ArrayCursor).afterReads ns = ⟨content, ns.sum⟩ := by
    have : ∀ (ns : List Nat) (k : Nat), k + ns.sum ≤ content.length →
        (⟨content, k⟩ : ArrayCursor).afterReads ns = ⟨content, k + ns.sum⟩ := by
      intro ns
      induction ns with
      | nil => intro k _; simp [ArrayCursor.afterReads]
      | cons n ns ih =>
        intro k hk
        have hs : (n :: ns).sum = n + ns.sum := by simp
        rw [hs] at hk ⊢
        have h1 : (⟨content, k⟩ : ArrayCursor).afterRead n = ⟨content, k + n⟩ := by
          simp [ArrayCursor.afterRead, ArrayCursor.next]; omega
        have := ih (k + n) (by omega)
        simp only [ArrayCursor.afterReads, List.foldl_cons] at this ⊢
        rw [h1, this, Nat.add_assoc]
    simpa using this ns 0 (by simpa using hs)
  rw [hp] at h
  have hz : Ctr.getPosition r = (ns.sum : Nat) := Ctr.getPosition_reading h (.inr rfl)
  have hb : r.buf.position = 0 := by
    rcases h.state with ⟨-, h, -⟩ | ⟨-, h2, -⟩
    · exact h
    · omega
  have hpos : r.dev.position = (ns.sum : Nat) := by simpa [Ctr.getPosition, hb] using hz
  have hce := Ctr.reading_content h
  have hr : Ctr.Reading 0 content elem ((ns.sum : Int) + d * elem).toNat
      ⟨r.buf.setReadDirty true, (Ctr.seek d .current r.dev).2⟩ := by
    refine ⟨h.length, by omega, .inl ⟨rfl, rfl, hce.1, hce.2, rfl, ?_⟩⟩
    simp only [Ctr.seek_current, hce.2, hpos]
    omega
  obtain ⟨r', e', -⟩ := Res.reads_delivering (Ctr.source _ _) hr ms trivial (fun _ _ => trivial)
    (.inl rfl)
  refine ⟨_, r, _, _, e, Ctr.setPositionIn_eq r d .current, by rw [e'], ?_⟩
  rw [houts]
  have := (⟨content, ((ns.sum : Int) + d * elem).toNat⟩ : ArrayCursor).reads_flatten ms
  simpa [List.map_map, Function.comp_def, Nat.min_eq_left hs] using this

example : SeeksRelative 0 2 [1, 2, 3, 4, 5, 6, 7, 8] [1, 3] (-1) [5] :=
  (C37_partial _ _ _ _ _ (by decide +kernel) (by decide +kernel) (by decide +kernel)).1

/-! ### C38 -/

/-- The claim: writing at a position inside the content, or at its end, is writing to an array. -/
def WritesLikeArray (elem : Nat) (content : List Byte) (k : Nat) (data : List Byte) : Prop :=
  ∃ r r', Res.setPositionOut Ctr.writeRaw Ctr.seek k .begin (freshCtr 0 elem content) = (.ok (), r)
    ∧ Res.write Ctr.writeRaw data r = (.ok data.length, r')
    ∧ r'.dev.content = ((⟨content, k * elem⟩ : ArrayCursor).afterWrite data).bytes

/-- Writing four bytes at position eight of ten gives fourteen bytes instead of twelve. -/
theorem C38_violated : ¬ ∀ elem content k data, 0 < elem → elem ∣ content.length →
    elem ∣ data.length → k * elem ≤ content.length → WritesLikeArray elem content k data := by
  intro h
  obtain ⟨r, r', e, e', q⟩ := h 1 [0, 1, 2, 3, 4, 5, 6, 7, 8, 9] 8 [10, 11, 12, 13] (by omega)
    (by simp) (by simp) (by decide +kernel)
  have e0 : Res.setPositionOut Ctr.writeRaw Ctr.seek (8 : Nat) .begin
      (freshCtr 0 1 [0, 1, 2, 3, 4, 5, 6, 7, 8, 9]) =
      (.ok (), ⟨⟨[], 0, 0, true, false⟩, ⟨1, [0, 1, 2, 3, 4, 5, 6, 7, 8, 9], 8, 0⟩⟩) := rfl
  rw [e0] at e
  simp only [Prod.mk.injEq, true_and] at e
  subst e
  have e1 : Res.write Ctr.writeRaw [10, 11, 12, 13]
      ⟨⟨[], 0, 0, true, false⟩, ⟨1, [0, 1, 2, 3, 4, 5, 6, 7, 8, 9], 8, 0⟩⟩ =
      (.ok 4, ⟨⟨[], 0, 0, true, false⟩,
        ⟨1, [0, 1, 2, 3, 4, 5, 6, 7, 10, 11, 12, 13, 0, 0], 12, 0⟩⟩) := by decide +kernel
  rw [e1] at e'
  simp only [Prod.mk.injEq] at e'
  rw [← e'.2] at q
  exact absurd q (by decide +kernel)

theorem setPositionOut_fresh (elem : Nat) (content : List Byte) (k : Nat) :
    Res.setPositionOut Ctr.writeRaw Ctr.seek k .begin (freshCtr 0 elem content) =
      (.ok (), ⟨IoBuffer.make 0, ⟨elem, content, k * elem, 0⟩⟩) := rfl

theorem write_unbuffered (data : List Byte) (c : Ctr) :
    Res.write Ctr.writeRaw data ⟨IoBuffer.make 0, c⟩ =
      ((Ctr.writeRaw data c).1, ⟨IoBuffer.make 0, (Ctr.writeRaw data c).2⟩) := rfl

/-- Right when the data ends inside the content or starts at its end; in the remaining case the
data is written in the right place and everything before it kept, but `size - p` zero bytes too
many are appended.  Missing: exact growth in that case, which the code gets wrong. -/
theorem C38_partial (elem : Nat) (content : List Byte) (k : Nat) (data : List Byte)
    (hk : k * elem ≤ content.length) :
    (k * elem + data.length ≤ content.length → WritesLikeArray elem content k data)
    ∧ (k * elem = content.length → elem ∣ data.length → WritesLikeArray elem content k data)
    ∧ (content.length < k * elem + data.length → elem ∣ data.length →
        ∃ r r', Res.setPositionOut Ctr.writeRaw Ctr.seek k .begin (freshCtr 0 elem content) =
            (.ok (), r)
          ∧ Res.write Ctr.writeRaw data r = (.ok data.length, r')
          ∧ r'.dev.content = ((⟨content, k * elem⟩ : ArrayCursor).afterWrite data).bytes ++
              List.replicate (content.length - k * elem) 0) := by
  have across : content.length < k * elem + data.length → elem ∣ data.length →
        ∃ r r', Res.setPositionOut Ctr.writeRaw Ctr.seek k .begin (freshCtr 0 elem content) =
            (.ok (), r)
          ∧ Res.write Ctr.writeRaw data r = (.ok data.length, r')
          ∧ r'.dev.content = ((⟨content, k * elem⟩ : ArrayCursor).afterWrite data).bytes ++
              List.replicate (content.length - k * elem) 0 := by
    intro h hd
    have := Ctr.writeRaw_across ⟨elem, content, k * elem, 0⟩ data (k * elem) (by simp) hk h hd
    refine ⟨_, ⟨IoBuffer.make 0, (Ctr.writeRaw data ⟨elem, content, k * elem, 0⟩).2⟩,
      setPositionOut_fresh elem content k, ?_, ?_⟩
    · rw [write_unbuffered, this]
    · rw [this]
      simp only [ArrayCursor.afterWrite]
      rw [List.drop_eq_nil_of_le (by omega), List.append_nil]
  have inside : k * elem + data.length ≤ content.length → WritesLikeArray elem content k data := by
    intro h
    have := Ctr.writeRaw_inside ⟨elem, content, k * elem, 0⟩ data (k * elem) (by simp) h
    refine ⟨_, ⟨IoBuffer.make 0, (Ctr.writeRaw data ⟨elem, content, k * elem, 0⟩).2⟩,
      setPositionOut_fresh elem content k, ?_, ?_⟩
    · rw [write_unbuffered, this]
    · rw [this]
      rfl
  refine ⟨inside, fun h hd => ?_, across⟩
  by_cases h0 : data.length = 0
  · exact inside (by omega)
  · obtain ⟨r, r', a, b, c⟩ := across (by omega) hd
    exact ⟨r, r', a, b, by simpa [h] using c⟩

example : WritesLikeArray 2 [1, 2, 3, 4, 5, 6] 1 [7, 8, 9]
    ∧ WritesLikeArray 2 [1, 2, 3, 4, 5, 6] 3 [7, 8] :=
  ⟨(C38_partial _ _ _ _ (by decide +kernel)).1 (by decide +kernel),
    (C38_partial _ _ _ _ (by decide +kernel)).2.1 (by decide +kernel) (by decide +kernel)⟩

/-! ### C39 -/

/-- Seeking to the end and writing whole elements, in any portions and with any buffer, appends
exactly the data written. -/
theorem C39_append (cap elem : Nat) (content : List Byte) (hd : elem ∣ content.length)
    (ops : List OutOp) (hops : ∀ op ∈ ops, elem ∣ op.bytes.length) :
    ∃ r r' r'', Res.setPositionOut Ctr.writeRaw Ctr.seek 0 .end (freshCtr cap elem content) =
          (.ok (), r)
      ∧ M.runList (Res.doOut Ctr.writeRaw) ops r = (.ok (ops.map (·.bytes.length)), r')
      ∧ Res.flush Ctr.writeRaw r' = (.ok (), r'')
      ∧ r''.dev.content = content ++ ops.flatMap (·.bytes) := by
  have hend : Ctr.Idle elem content content.length
      ⟨elem, content, ((content.length / elem : Nat) - 0) * elem, 0⟩ := by
    refine ⟨rfl, rfl, rfl, ?_⟩
    simp only [Int.sub_zero]
    rw [← Int.natCast_mul, Nat.div_mul_cancel hd]
  have T := Res.takes_overlay (Ctr.store elem) content content.length (Nat.le_refl _)
  have hw := Res.writing_make (adm := fun w => Ctr.allowed elem content.length content.length
    w.length) (got := Res.Overwrote (Ctr.Idle elem) content content.length) cap
    ⟨elem, content, ((content.length / elem : Nat) - 0) * elem, 0⟩ []
    (by simpa [Res.Overwrote, Res.overlay_nil] using hend) (.inl (by simp))
  have hadm : ∀ pre, pre <+: ops → Ctr.allowed elem content.length content.length
      ([] ++ pre.flatMap OutOp.bytes).length := by
    intro pre hp
    have hpre : ∀ op ∈ pre, elem ∣ op.bytes.length := fun op ho => hops op (hp.subset ho)
    clear hp
    refine .inr ⟨rfl, ?_⟩
    rw [List.nil_append]
    induction pre with
    | nil => simp
    | cons op pre ih =>
      rw [List.flatMap_cons, List.length_append]
      exact Nat.dvd_add (hpre op (by simp)) (ih fun o ho => hpre o (by simp [ho]))
  obtain ⟨r', e, h⟩ := Res.runOut_writing T hw ops hadm
  obtain ⟨d, e', -, q⟩ := Res.flush_writing T h (hadm ops (List.prefix_refl _))
  refine ⟨_, r', _, rfl, e, e', ?_⟩
  have := q.content_eq
  simp only [Res.overlay, List.nil_append] at this
  rw [this, List.take_of_length_le (Nat.le_refl _), List.drop_eq_nil_of_le (by omega),
    List.append_nil]

example : (2 : Nat) ∣ [(1 : Byte), 2].length
    ∧ ∀ op ∈ [OutOp.write [3, 4, 5, 6], .flush, .write [7, 8]], 2 ∣ op.bytes.length := by decide +kernel

/-! ### C40 -/

/-- The claim: reads, writes, seeks and flushes on a buffered container give the results and,
after a final flush, the content they give on an array with a cursor. -/
def ActsLikeArray (cap elem : Nat) (content : List Byte) (ops : List IoOp) : Prop :=
  ∃ r r', M.runList (Res.doIo Ctr.readRaw Ctr.writeRaw Ctr.seek) ops (freshCtr cap elem content) =
        (.ok (Spec.results elem ⟨content, 0⟩ ops), r)
    ∧ Res.flush Ctr.writeRaw r = (.ok (), r')
    ∧ r'.dev.content = (Spec.after elem ⟨content, 0⟩ ops).bytes

/-- Writing right after reading copies behind the end of the buffer; reading right after writing
loses what was written. -/
theorem C40_violated :
    (M.runList (Res.doIo Ctr.readRaw Ctr.writeRaw Ctr.seek) [.read 1, .write [7, 8]] (freshCtr 2 1 [1, 2, 3])).1 = .ub
    ∧ ¬ ActsLikeArray 2 1 [1, 2, 3] [.write [7], .read 1]
    ∧ ¬ ∀ cap elem content ops, 0 < elem → elem ∣ content.length →
        ActsLikeArray cap elem content ops := by
  have h : ¬ ActsLikeArray 2 1 [1, 2, 3] [.write [7], .read 1] := by
    rintro ⟨r, r', e, e', q⟩
    have e0 : (M.runList (Res.doIo Ctr.readRaw Ctr.writeRaw Ctr.seek) [.write [7], .read 1] (freshCtr 2 1 [1, 2, 3])).1 =
        .ok [([], 1), ([1], 1)] := by decide +kernel
    rw [e] at e0
    change Outcome.ok _ = _ at e0
    exact absurd e0 (by decide +kernel)
  exact ⟨by decide +kernel, h, fun hall => h (hall _ _ _ _ (by omega) (by simp))⟩

/-- Right for all sequences in which reading and writing are separated by a seek to a position from
the beginning (or, after writing, by a flush), reads are no larger than the buffer, and writing
either stays inside the content or appends whole elements to it.  Missing: the sequences the
code gets wrong. -/
theorem C40_partial (cap elem : Nat) (content : List Byte)
    (ops : List IoOp) (h : Disciplined cap elem (Ctr.allowed elem) .fresh ⟨content, 0⟩ ops) :
    ActsLikeArray cap elem content ops := by
  obtain ⟨r, s, e, hr, -⟩ := Res.runIo_represents (Ctr.store elem)
    (Res.represents_make cap content (Ctr.make elem content) ⟨rfl, rfl, rfl, rfl⟩)
    trivial (fun _ _ => trivial) h
  obtain ⟨r', e', -, q, -⟩ := Res.flush_represents (Ctr.store elem) hr
  refine ⟨r, r', e, e', ?_⟩
  rcases q with ⟨_, q⟩ | ⟨_, _, q⟩
  · exact q.content_eq
  · exact q.content_eq

example : Disciplined 4 2 (Ctr.allowed 2) .fresh ⟨[1, 2, 3, 4, 5, 6], 0⟩
    [.read 3, .read 2, .seek 1, .write [7], .write [8, 9], .flush, .read 1, .seek 3,
      .write [10, 11], .write [12, 13, 14, 15], .seek 0, .read 4] :=
  .read (by decide +kernel) (by decide +kernel) <|
  .read (by decide +kernel) (by decide +kernel) <| .seek (by decide +kernel) <|
  .write (.inl ⟨rfl, rfl, rfl⟩) (.inl (by decide +kernel)) <|
  .write (.inr rfl) (.inl (by decide +kernel)) <| .flush <|
  .read (by decide +kernel) (by decide +kernel) <| .seek (by decide +kernel) <|
  .write (.inl ⟨rfl, rfl, rfl⟩) (.inr (by decide +kernel)) <|
  .write (.inr rfl) (.inr (by decide +kernel)) <|
  .seek (by decide +kernel) <| .read (by decide +kernel) (by decide +kernel) <| .nil _ _

end Cmp
