import Verif.Model.Quills
import Verif.Proofs.Resource
import Verif.Proofs.MemoryText
import Verif.Props.PrintExact

/-
Property C147: an output resource on a container can be moved while it is written to.  The
specification is one writer that is handed from object to object.
-/

namespace Cmp

namespace Spec

/-- The object that is written to, the objects that were moved from and are still alive, and whether
nothing was written since the last flush. -/
structure Hand where
  holder : Nat
  husks : List Nat
  clean : Bool
  deriving DecidableEq

/-- How the writer is handed on. -/
def handStep (s : Hand) : QuillOp → Hand
  | .write _ bytes => { s with clean := s.clean && bytes.isEmpty }
  | .flush _ => { s with clean := true }
  | .moveConstruct i _ => { s with holder := i, husks := s.holder :: s.husks }
  | .moveAssign i _ _ => { s with holder := i, husks := s.holder :: s.husks.filter (· ≠ i) }
  | .destroy i => { s with husks := s.husks.filter (· ≠ i) }

/-- What a program may do: write to, flush and move from the holder; move to an object that does not
exist, or to one that was moved from; destroy objects that were moved from. -/
def handLegal (s : Hand) : QuillOp → Bool
  | .write i _ => i = s.holder
  | .flush i => i = s.holder
  | .moveConstruct i j => j = s.holder && i ≠ s.holder && i ∉ s.husks
  | .moveAssign i j _ => j = s.holder && i ≠ s.holder && i ∈ s.husks
  | .destroy i => i ≠ s.holder && i ∈ s.husks

/-- A careful program flushes before it assigns by moving, if the base class may be assigned more than
once. -/
def handCareful (s : Hand) : QuillOp → Bool
  | .moveAssign _ _ again => !again || s.clean
  | _ => true

/-- A condition at every step. -/
def handAll (P : Hand → QuillOp → Bool) : Hand → List QuillOp → Bool
  | _, [] => true
  | s, op :: ops => P s op && handAll P (handStep s op) ops

/-- Where the writer is in the end. -/
def handAfter : Hand → List QuillOp → Hand
  | s, [] => s
  | s, op :: ops => handAfter (handStep s op) ops

/-- The bytes an operation writes. -/
def quillBytes : QuillOp → List Byte
  | .write _ bytes => bytes
  | _ => []

/-- Everything that is written, in order. -/
def quillWritten : List QuillOp → List Byte
  | [] => []
  | op :: ops => quillBytes op ++ quillWritten ops

/-- At first object 0 is the writer, and there is no other. -/
def handStart : Hand := ⟨0, [], true⟩

end Spec

open Cmp.Spec

/-- The program starts with object 0, which has a buffer of `cap` bytes and is positioned at the end of
a container. -/
def Quills.start (cap : Nat) (content : List Byte) : Quills :=
  ⟨content, fun k => if k = 0 then some ⟨IoBuffer.make cap, content.length, 0⟩ else none⟩

/-- The claim is false: if the compiler lets the move assignment assign the base class twice, bytes
that were accepted are lost, and the next flush is undefined. -/
theorem C147_violated :
    (∃ cap content ops, handAll handLegal handStart ops = true ∧
      (M.runList Quills.step (ops ++ [.flush (handAfter handStart ops).holder])
        (Quills.start cap content)).1 = .ub)
    ∧ ¬ ∀ cap content ops, handAll handLegal handStart ops = true →
      (M.runList Quills.step ops (Quills.start cap content)).1 =
        .ok (ops.map fun op => (quillBytes op).length) ∧
      (M.runList Quills.step (ops ++ [.flush (handAfter handStart ops).holder])
        (Quills.start cap content)).2.content = content ++ quillWritten ops := by
  have h1 : handAll handLegal handStart
      [.moveConstruct 1 0, .write 1 [7, 8], .moveAssign 0 1 true] = true := by decide +kernel
  refine ⟨⟨4, [5], _, h1, by decide +kernel⟩, fun h => ?_⟩
  have := (h 4 [5] _ h1).2
  revert this
  decide +kernel

namespace Quills

/-- The holder has been given `w` beyond the initial content. -/
structure Held (content w : List Byte) (s : Hand) (W : Quills) : Prop where
  holder : ∃ cap p, W.objs s.holder = some p ∧
    Res.Writing cap (fun _ => True) (Res.Overwrote (Ctr.Idle 1) content content.length)
      (res W.content p) w ∧ (s.clean = true → p.buf.position = 0)
  alive : ∀ i, i ≠ s.holder → ((W.objs i).isSome ↔ i ∈ s.husks)

theorem takes (content : List Byte) :
    Res.Takes Ctr.writeRaw (fun _ => True)
      (Res.Overwrote (Ctr.Idle 1) content content.length) :=
  ⟨fun d w bytes h _ _ => (Res.takes_overlay (Ctr.store 1) content content.length
    (Nat.le_refl _)).take d w bytes h (.inr ⟨rfl, Nat.one_dvd _⟩) (.inr ⟨rfl, Nat.one_dvd _⟩)⟩

theorem held_start (cap : Nat) (content : List Byte) :
    Held content [] handStart (start cap content) := by
  refine ⟨⟨cap, _, rfl, ?_, fun _ => rfl⟩, ?_⟩
  · have hg : Res.Overwrote (Ctr.Idle 1) content content.length ⟨1, content, content.length, 0⟩ [] := by
      simpa [Res.Overwrote, Res.overlay_nil] using
        (⟨rfl, rfl, rfl, rfl⟩ : Ctr.Idle 1 content content.length ⟨1, content, content.length, 0⟩)
    exact Res.writing_make cap _ [] hg trivial
  · intro i hi
    simp only [handStart] at hi
    simp [start, handStart, hi]

/-- Only the content of the container and the object `i` change when `i` is used. -/
theorem use_ok {i : Nat} {x : M (Res Ctr) Nat} {W : Quills} {p : Quill} (hp : W.objs i = some p) {n : Nat}
    {r : Res Ctr} (e : x (res W.content p) = (.ok n, r)) :
    use i x W = (.ok n, ⟨r.dev.content, fun k => if k = i then some (pen r) else W.objs k⟩) := by
  simp only [use, hp, e, put]

/-- Taking a resource from its container and giving it back changes nothing. -/
theorem res_pen {r : Res Ctr} (h : r.dev.elem = 1) : res r.dev.content (pen r) = r := by
  obtain ⟨b, ⟨e, c, p, l⟩⟩ := r
  obtain rfl : e = 1 := h
  rfl

theorem elem_of_writing {cap : Nat} {content w : List Byte} {r : Res Ctr}
    (h : Res.Writing cap (fun _ => True) (Res.Overwrote (Ctr.Idle 1) content content.length) r w) :
    r.dev.elem = 1 := by
  obtain ⟨_, hg, -, -⟩ := h.written
  exact hg.elem_eq

/-- A flush with its result. -/
theorem flush_zero {r r' : Res Ctr} (e : Res.flush Ctr.writeRaw r = (.ok (), r')) :
    (do Res.flush Ctr.writeRaw; pure 0 : M (Res Ctr) Nat) r = (.ok 0, r') := by
  rw [M.bind_ok e]; rfl

/-- The holder after its use. -/
theorem held_used {content w w' : List Byte} {s : Hand} {W : Quills} (h : Held content w s W)
    {cap : Nat} {r : Res Ctr} {clean : Bool}
    (hr : Res.Writing cap (fun _ => True) (Res.Overwrote (Ctr.Idle 1) content content.length) r w')
    (hc : clean = true → r.buf.position = 0) :
    Held content w' { s with clean := clean }
      ⟨r.dev.content, fun k => if k = s.holder then some (pen r) else W.objs k⟩ := by
  refine ⟨⟨cap, pen r, by simp, ?_, hc⟩, fun i hi => ?_⟩
  · rw [res_pen (elem_of_writing hr)]; exact hr
  · have hi' : i ≠ s.holder := hi
    simp only [hi', if_false]
    exact h.alive i hi'

/-- Writing nothing leaves an empty buffer empty. -/
theorem write_nil_position {r r' : Res Ctr} {n : Nat} (e : Res.write Ctr.writeRaw [] r = (.ok n, r'))
    (h : r.buf.position = 0) : r'.buf.position = 0 := by
  simp only [Res.write] at e
  rw [M.bind_ok (M.get_apply r)] at e
  by_cases hc : r.buf.capacity > 0
  · rw [if_pos hc] at e
    simp only [Res.writeBuffered] at e
    rw [M.bind_ok (M.get_apply r), if_neg (by simp [h]), Res.bufWrite_ok r [] (by simp [h])] at e
    cases e
    simp [h]
  · rw [if_neg hc] at e
    simp only [Res.onDev] at e
    have := congrArg (fun x => x.2.buf.position) e
    simpa [h] using this.symm

/-- An emptied writer with nothing in the buffer is a writer without a buffer. -/
theorem writing_emptied {cap : Nat} {content w : List Byte} {c : List Byte} {p : Quill}
    (h : Res.Writing cap (fun _ => True) (Res.Overwrote (Ctr.Idle 1) content content.length)
      (res c p) w) (hp : p.buf.position = 0) :
    Res.Writing 0 (fun _ => True) (Res.Overwrote (Ctr.Idle 1) content content.length)
      (res c (emptied p)) w := by
  obtain ⟨w0, hg, -, hw⟩ := h.written
  refine ⟨rfl, Nat.le_of_eq hp, fun _ => hp, w0, hg, trivial, ?_⟩
  have e1 : (res c p).buf.pending = [] := by simp [IoBuffer.pending, res, hp]
  have e2 : (res c (emptied p)).buf.pending = [] := by simp [IoBuffer.pending, res, emptied]
  rw [e2]
  rw [e1] at hw
  exact hw

theorem held_step {content w : List Byte} {s : Hand} {W : Quills} (h : Held content w s W) (op : QuillOp)
    (hl : handLegal s op = true) (hc : handCareful s op = true) :
    ∃ W', step op W = (.ok (quillBytes op).length, W') ∧
      Held content (w ++ quillBytes op) (handStep s op) W' := by
  obtain ⟨cap, p, hp, hw, hz⟩ := h.holder
  cases op with
  | write i bytes =>
    obtain rfl : i = s.holder := by simpa [handLegal] using hl
    obtain ⟨r', e, h', -⟩ := Res.write_writing (takes content) hw trivial (bytes := bytes) trivial
    refine ⟨_, use_ok hp e, held_used h h' ?_⟩
    intro hcl
    simp only [Bool.and_eq_true, List.isEmpty_iff] at hcl
    obtain ⟨h1, rfl⟩ := hcl
    exact write_nil_position e (hz h1)
  | flush i =>
    obtain rfl : i = s.holder := by simpa [handLegal] using hl
    obtain ⟨d, e, h', -⟩ := Res.flush_writing (takes content) hw trivial
    refine ⟨_, use_ok hp (flush_zero e), ?_⟩
    have hn : w ++ quillBytes (.flush s.holder) = w := List.append_nil w
    rw [hn]
    exact held_used h h' fun _ => rfl
  | moveConstruct i j =>
    simp only [handLegal, Bool.and_eq_true, decide_eq_true_eq] at hl
    obtain ⟨⟨rfl, hi⟩, hu⟩ := hl
    have hn : W.objs i = none := by
      have := h.alive i hi
      cases ho : W.objs i with
      | none => rfl
      | some o => exact absurd (this.1 (by simp [ho])) hu
    refine ⟨_, by simp only [step, hn, hp]; rfl, ⟨⟨cap, p, by simp [put, handStep], ?_, ?_⟩, ?_⟩⟩
    · simpa [put, quillBytes] using hw
    · simpa [handStep] using hz
    · intro k hk
      have hk' : k ≠ i := hk
      simp only [put, handStep, hk', if_false, List.mem_cons]
      by_cases hks : k = s.holder
      · simp [hks]
      · simp [hks, h.alive k hks]
  | moveAssign i j again =>
    simp only [handLegal, Bool.and_eq_true, decide_eq_true_eq] at hl
    obtain ⟨⟨rfl, hi⟩, hu⟩ := hl
    obtain ⟨o, ho⟩ := Option.isSome_iff_exists.1 ((h.alive i hi).2 hu)
    have hq : ∃ cap', Res.Writing cap' (fun _ => True)
        (Res.Overwrote (Ctr.Idle 1) content content.length)
        (res W.content (if again then emptied p else p)) w := by
      cases again with
      | false => exact ⟨cap, hw⟩
      | true => exact ⟨0, writing_emptied hw (hz (by simpa [handCareful] using hc))⟩
    obtain ⟨cap', hq⟩ := hq
    refine ⟨_, by simp only [step, hi, if_false, ho, hp]; rfl,
      ⟨⟨cap', if again then emptied p else p, by simp [put, handStep], ?_, ?_⟩, ?_⟩⟩
    · simpa [put, quillBytes] using hq
    · intro hcl
      have := hz (by simpa [handStep] using hcl)
      cases again <;> exact this
    · intro k hk
      have hk' : k ≠ i := hk
      simp only [put, handStep, hk', if_false, List.mem_cons]
      by_cases hks : k = s.holder
      · simp [hks]
      · simp [hks, hk', h.alive k hks]
  | destroy i =>
    simp only [handLegal, Bool.and_eq_true, decide_eq_true_eq] at hl
    obtain ⟨hi, hu⟩ := hl
    obtain ⟨o, ho⟩ := Option.isSome_iff_exists.1 ((h.alive i hi).2 hu)
    refine ⟨_, by simp only [step, ho]; rfl, ⟨⟨cap, p, ?_, ?_, ?_⟩, ?_⟩⟩
    · simp only [put, handStep]
      rw [if_neg (Ne.symm hi)]
      exact hp
    · simpa [put, quillBytes] using hw
    · simpa [handStep] using hz
    · intro k hk
      have hk' : k ≠ s.holder := hk
      simp only [put, handStep]
      by_cases hki : k = i
      · simp [hki]
      · simp [hki, h.alive k hk']

theorem held_run {content w : List Byte} {s : Hand} {W : Quills} (h : Held content w s W)
    (ops : List QuillOp) (hl : handAll handLegal s ops = true) (hc : handAll handCareful s ops = true) :
    ∃ W', M.runList step ops W = (.ok (ops.map fun op => (quillBytes op).length), W') ∧
      Held content (w ++ quillWritten ops) (handAfter s ops) W' := by
  induction ops generalizing w s W with
  | nil => exact ⟨W, rfl, by simpa [quillWritten, handAfter] using h⟩
  | cons op ops ih =>
    simp only [handAll, Bool.and_eq_true] at hl hc
    obtain ⟨W1, e1, h1⟩ := held_step h op hl.1 hc.1
    obtain ⟨W2, e2, h2⟩ := ih h1 hl.2 hc.2
    refine ⟨W2, ?_, ?_⟩
    · simp only [M.runList]
      rw [M.bind_ok e1, M.bind_ok e2]
      rfl
    · rw [List.append_assoc] at h2
      exact h2

/-- Where the bytes are. -/
theorem Held.content_eq {content w : List Byte} {s : Hand} {W : Quills} (h : Held content w s W) :
    ∃ p, W.objs s.holder = some p ∧ W.content ++ p.buf.pending = content ++ w ∧
      p.buf.position ≤ p.buf.data.length := by
  obtain ⟨cap, p, hp, hw, -⟩ := h.holder
  obtain ⟨w0, hg, -, hq⟩ := hw.written
  have := hg.content_eq
  rw [MCtr.overlay_end] at this
  refine ⟨p, hp, ?_, ?_⟩
  · rw [show W.content = _ from this, List.append_assoc]
    exact congrArg _ hq
  · have h1 := hw.length
    have h2 := hw.position
    simp only [res] at h1 h2
    omega

/-- Where the next bytes go. -/
theorem Held.position_eq {content w : List Byte} {s : Hand} {W : Quills} (h : Held content w s W)
    {p : Quill} (hp : W.objs s.holder = some p) : p.position = W.content.length := by
  obtain ⟨cap, p', hp', hw, -⟩ := h.holder
  obtain rfl : p' = p := Option.some.inj (hp'.symm.trans hp)
  obtain ⟨w0, hg, -, -⟩ := hw.written
  have h1 := hg.content_eq
  have h2 := hg.position
  rw [MCtr.overlay_end] at h1
  simp only [res] at h1 h2
  rw [h1, h2, List.length_append]

/-- After a flush everything is in the container. -/
theorem held_flush {content w : List Byte} {s : Hand} {W : Quills} (h : Held content w s W) :
    ∃ W', step (.flush s.holder) W = (.ok 0, W') ∧ W'.content = content ++ w := by
  obtain ⟨cap, p, hp, hw, -⟩ := h.holder
  obtain ⟨d, e, -, hg⟩ := Res.flush_writing (takes content) hw trivial
  refine ⟨_, use_ok hp (flush_zero e), ?_⟩
  have := hg.content_eq
  rw [MCtr.overlay_end] at this
  exact this

end Quills

/-- What is proved: every operation of a careful program succeeds, each `write` takes all bytes, and
after a flush of the object that holds the writer in the end the container has its old content followed
by everything that was written through any of the objects, in order.  Missing: programs that assign
while bytes wait in the buffer, with compilers that assign the base class twice, see `C147_exact`. -/
theorem C147_partial (cap : Nat) (content : List Byte) (ops : List QuillOp)
    (hl : handAll handLegal handStart ops = true) (hc : handAll handCareful handStart ops = true) :
    (M.runList Quills.step ops (Quills.start cap content)).1 =
        .ok (ops.map fun op => (quillBytes op).length) ∧
    (M.runList Quills.step (ops ++ [.flush (handAfter handStart ops).holder])
        (Quills.start cap content)).1 = .ok ((ops.map fun op => (quillBytes op).length) ++ [0]) ∧
    (M.runList Quills.step (ops ++ [.flush (handAfter handStart ops).holder])
        (Quills.start cap content)).2.content = content ++ quillWritten ops := by
  obtain ⟨W, e, h⟩ := Quills.held_run (Quills.held_start cap content) ops hl hc
  obtain ⟨W', e', h'⟩ := Quills.held_flush h
  rw [M.runList_append e (M.runList_cons e' (M.runList_nil _ _)), e]
  exact ⟨rfl, rfl, h'⟩

/-- Compilers that assign the base class once need no care. -/
theorem C147_partial_once (cap : Nat) (content : List Byte) (ops : List QuillOp)
    (hl : handAll handLegal handStart ops = true)
    (ho : ∀ i j, QuillOp.moveAssign i j true ∉ ops) :
    (M.runList Quills.step (ops ++ [.flush (handAfter handStart ops).holder])
        (Quills.start cap content)).1 = .ok ((ops.map fun op => (quillBytes op).length) ++ [0]) ∧
    (M.runList Quills.step (ops ++ [.flush (handAfter handStart ops).holder])
        (Quills.start cap content)).2.content = content ++ quillWritten ops := by
  refine (C147_partial cap content ops hl ?_).2
  clear hl
  generalize handStart = s
  induction ops generalizing s with
  | nil => rfl
  | cons op ops ih =>
    simp only [handAll, Bool.and_eq_true]
    refine ⟨?_, ih (fun i j hm => ho i j (List.mem_cons_of_mem _ hm)) _⟩
    cases op with
    | moveAssign i j again =>
      cases again with
      | false => rfl
      | true => exact absurd List.mem_cons_self (ho i j)
    | _ => rfl

namespace Quills

/-- Writing to an object that lost its buffer. -/
theorem write_emptied {c : List Byte} {p : Quill} {bytes : List Byte} (hd : p.buf.data = [])
    (hp : p.position = c.length) :
    Res.write Ctr.writeRaw bytes (res c p) =
      (.ok bytes.length, res (c ++ bytes) { p with position := ((c ++ bytes).length : Int) }) := by
  simp only [Res.write]
  rw [M.bind_ok (M.get_apply _), if_neg (by simp [IoBuffer.capacity, res, hd])]
  have hz : bytes.length / 1 * 1 = bytes.length := by omega
  have hc : Ctr.writeRaw bytes (res c p).dev =
      (.ok bytes.length, ⟨1, c ++ bytes, ((c ++ bytes).length : Int), p.lastFill⟩) := by
    simp only [Ctr.writeRaw, res, hp, Int.toNat_natCast, hz]
    rw [if_neg (show ¬ ((c.length : Int) < 0) by omega)]
    cases bytes with
    | nil => simp
    | cons b bs => simp
  rw [Res.onDev_ok hc]
  rfl

/-- Writing several times to an object that lost its buffer. -/
theorem writes_emptied {i : Nat} (later : List (List Byte)) {W : Quills} {p : Quill}
    (hp : W.objs i = some p) (hd : p.buf.data = []) (hq : p.position = W.content.length) :
    ∃ W' p', M.runList step (later.map (QuillOp.write i)) W = (.ok (later.map List.length), W') ∧
      W'.objs i = some p' ∧ p'.buf = p.buf ∧ p'.position = W'.content.length ∧
      W'.content = W.content ++ later.flatten := by
  induction later generalizing W p with
  | nil => exact ⟨W, p, rfl, hp, rfl, hq, by simp⟩
  | cons bytes later ih =>
    have e : step (.write i bytes) W = _ := use_ok hp (write_emptied (bytes := bytes) hd hq)
    generalize hr : res (W.content ++ bytes)
      { p with position := ((W.content ++ bytes).length : Int) } = r at e
    obtain ⟨W', p', e', h1, h2, h3, h4⟩ := ih
      (W := ⟨r.dev.content, fun k => if k = i then some (pen r) else W.objs k⟩) (p := pen r)
      (if_pos rfl) (by rw [← hr]; exact hd) (by rw [← hr]; rfl)
    refine ⟨W', p', M.runList_cons e e', h1, ?_, h3, ?_⟩
    · rw [h2, ← hr]; rfl
    · rw [h4, ← hr, List.flatten_cons, ← List.append_assoc]; rfl

/-- Flushing an object that lost its buffer while bytes waited in it changes nothing. -/
theorem flush_emptied_state {c : List Byte} {p : Quill} (hd : p.buf.data = [])
    (hw : p.buf.writeDirty = true) (hp : 0 < p.buf.position) :
    ((do Res.flush Ctr.writeRaw; pure 0 : M (Res Ctr) Nat) (res c p)).2 = res c p := by
  have e : Res.flush Ctr.writeRaw (res c p) = (.ub, res c p) := by
    simp only [Res.flush]
    rw [M.bind_ok (M.get_apply _)]
    simp [res, hd, hw, hp, M.ub]
  rw [M.bind_apply, e]

/-- Flushing an object that lost its buffer while no bytes waited in it. -/
theorem flush_idle {c : List Byte} {p : Quill} (hd : p.buf.data = [])
    (hw : ¬ (p.buf.writeDirty = true ∧ 0 < p.buf.position)) (hq : p.position = c.length) :
    ∃ r, Res.flush Ctr.writeRaw (res c p) = (.ok (), r) ∧ r.dev.content = c := by
  cases hb : p.buf.writeDirty with
  | false => exact ⟨_, Res.flush_clean _ _ hb, rfl⟩
  | true =>
    have h0 : p.buf.position = 0 := by
      rw [hb] at hw
      simp only [true_and] at hw
      omega
    have e : Ctr.writeRaw ((res c p).buf.data.take (res c p).buf.position) (res c p).dev =
        (.ok 0, (res c p).dev) := by
      simp [Ctr.writeRaw, res, hd, hq]
    exact ⟨_, Res.flush_dirty hb (by simp [res, h0]) e, rfl⟩

/-- Flushing an object that lost its buffer while bytes waited in it. -/
theorem flush_emptied {c : List Byte} {p : Quill} (hd : p.buf.data = []) (hw : p.buf.writeDirty = true)
    (hp : 0 < p.buf.position) :
    ((do Res.flush Ctr.writeRaw; pure 0 : M (Res Ctr) Nat) (res c p)).1 = .ub := by
  have e : (Res.flush Ctr.writeRaw (res c p)).1 = .ub := by
    simp only [Res.flush]
    rw [M.bind_ok (M.get_apply _)]
    simp [res, hd, hw, hp, M.ub]
  rw [M.bind_apply]
  generalize Res.flush Ctr.writeRaw (res c p) = x at e
  obtain ⟨a, b⟩ := x
  obtain rfl : a = .ub := e
  rfl

end Quills

/-- A program whose last operation is undefined. -/
theorem runList_ub {ops : List QuillOp} {op : QuillOp} {W W1 W2 : Quills} {ns : List Nat}
    (e1 : M.runList Quills.step ops W = (.ok ns, W1)) (e2 : Quills.step op W1 = (.ub, W2)) :
    M.runList Quills.step (ops ++ [op]) W = (.ub, W2) :=
  runList_halt (w := .undefined) e1 e2

/-- Exactly when a move assignment that assigns the base class twice is harmless: after any careful
program, whatever is written to the new holder afterwards, a flush of it is defined if and only if
everything had been in the container when the assignment was made. -/
theorem C147_exact (cap : Nat) (content : List Byte) (ops : List QuillOp)
    (hl : handAll handLegal handStart ops = true) (hc : handAll handCareful handStart ops = true)
    (i : Nat)
    (hi : handLegal (handAfter handStart ops)
      (.moveAssign i (handAfter handStart ops).holder true) = true)
    (later : List (List Byte)) :
    let W := (M.runList Quills.step ops (Quills.start cap content)).2
    let rest := QuillOp.moveAssign i (handAfter handStart ops).holder true ::
      later.map (QuillOp.write i) ++ [.flush i]
    (M.runList Quills.step rest W).1 = (if W.content = content ++ quillWritten ops then
        .ok (0 :: later.map List.length ++ [0]) else .ub) ∧
    (M.runList Quills.step rest W).2.content = W.content ++ later.flatten := by
  obtain ⟨W, e, h⟩ := Quills.held_run (Quills.held_start cap content) ops hl hc
  rw [List.nil_append] at h
  obtain ⟨p, hp, hcon, hle⟩ := h.content_eq
  simp only [e]
  simp only [handLegal, Bool.and_eq_true, decide_eq_true_eq, true_and] at hi
  obtain ⟨o, ho⟩ := Option.isSome_iff_exists.1 ((h.alive i hi.1).2 hi.2)
  obtain ⟨W1, e1, hW1, hi1⟩ : ∃ W1, Quills.step
      (.moveAssign i (handAfter handStart ops).holder true) W = (.ok 0, W1) ∧
      W1.content = W.content ∧ W1.objs i = some (Quills.emptied p) := by
    refine ⟨(W.put (handAfter handStart ops).holder (some (Quills.emptied p))).put i
      (some (Quills.emptied p)), ?_, rfl, by simp [Quills.put]⟩
    simp only [Quills.step, hi.1, if_false, ho, hp, if_true]
  have hpos : p.position = W1.content.length := by
    rw [hW1]; exact h.position_eq hp
  obtain ⟨W2, q, e2, hq, hb, hqp, hW2⟩ := Quills.writes_emptied later hi1 rfl hpos
  have e12 := M.runList_cons e1 e2
  have hz : W.content = content ++ quillWritten ops ↔
      ¬ (p.buf.writeDirty = true ∧ 0 < p.buf.position) := by
    have h0 : W.content = content ++ quillWritten ops ↔ p.buf.pending = [] := by
      rw [← hcon]; simp
    rw [h0]
    cases hd : p.buf.writeDirty with
    | false => simp [IoBuffer.pending, hd]
    | true =>
      simp only [IoBuffer.pending, hd, if_true, List.take_eq_nil_iff, true_and]
      constructor
      · rintro (h0 | h0)
        · omega
        · rw [h0] at hle
          simp only [List.length_nil] at hle
          omega
      · intro h0
        left; omega
  rw [hW1] at hW2
  by_cases hx : p.buf.writeDirty = true ∧ 0 < p.buf.position
  · rw [if_neg (by rw [hz]; exact fun hn => hn hx)]
    have e3 := Quills.flush_emptied (c := W2.content) (p := q) (by rw [hb]; rfl)
      (by rw [hb]; exact hx.1) (by rw [hb]; exact hx.2)
    have e4 : Quills.step (.flush i) W2 = (.ub, (Quills.step (.flush i) W2).2) := by
      refine Prod.ext ?_ rfl
      simp only [Quills.step, Quills.use, hq, e3]
    have e5 := runList_ub e12 e4
    rw [e5]
    refine ⟨rfl, ?_⟩
    rw [← hW2]
    simp only [Quills.step, Quills.use, hq, Quills.flush_emptied_state (c := W2.content) (p := q)
      (by rw [hb]; rfl) (by rw [hb]; exact hx.1) (by rw [hb]; exact hx.2)]
    rfl
  · rw [if_pos (hz.2 hx)]
    obtain ⟨r, e3, hr⟩ := Quills.flush_idle (c := W2.content) (p := q) (by rw [hb]; rfl)
      (by rw [hb]; exact hx) hqp
    have e4 : Quills.step (.flush i) W2 = _ := Quills.use_ok hq (Quills.flush_zero e3)
    rw [M.runList_append e12 (M.runList_cons e4 (M.runList_nil _ _))]
    refine ⟨rfl, ?_⟩
    rw [← hW2]
    exact hr

/-- A writer is made, moved, assigned and destroyed while it is written to. -/
example : handAll handLegal handStart
    [.write 0 [1, 2], .moveConstruct 1 0, .write 1 [3], .moveAssign 0 1 false, .write 0 [4, 5, 6],
      .destroy 1, .flush 0, .moveConstruct 2 0, .moveAssign 0 2 true, .write 0 [7]] = true
    ∧ handAll handCareful handStart
    [.write 0 [1, 2], .moveConstruct 1 0, .write 1 [3], .moveAssign 0 1 false, .write 0 [4, 5, 6],
      .destroy 1, .flush 0, .moveConstruct 2 0, .moveAssign 0 2 true, .write 0 [7]] = true := by
  decide +kernel

/-- Both cases of `C147_exact` arise. -/
example : handAll handLegal handStart [.moveConstruct 1 0, .write 1 [7, 8]] = true
    ∧ handLegal (handAfter handStart [.moveConstruct 1 0, .write 1 [7, 8]]) (.moveAssign 0 1 true) = true
    ∧ (M.runList Quills.step [.moveConstruct 1 0, .write 1 [7, 8]] (Quills.start 4 [5])).2.content = [5]
    ∧ (M.runList Quills.step [.moveConstruct 1 0, .write 1 [7, 8]] (Quills.start 0 [5])).2.content
      = [5, 7, 8] := by
  decide +kernel

end Cmp
