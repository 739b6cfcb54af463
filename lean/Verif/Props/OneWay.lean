import Verif.Props.Transfer
import Verif.Proofs.Untouched
import Mathlib.Tactic.SplitIfs

/-
Property C100: container resources for one direction.
-/

namespace Cmp

open Spec (ArrayCursor IoOp Disciplined)

/-! ### C100 -/

/-- An operation on a resource for reading. -/
inductive InOp
  | read (n : Nat)
  | seek (k : Nat)
  | move (d : Int)
  | toEnd
  deriving DecidableEq

/-- The same on an array. -/
def InOp.io : InOp → IoOp
  | read n => .read n
  | seek k => .seek k
  | move d => .move d
  | toEnd => .toEnd

/-- An operation on a resource for writing. -/
inductive PenOp
  | write (data : List Byte)
  | seek (k : Nat)
  | move (d : Int)
  | toEnd
  | flush
  deriving DecidableEq

/-- The same on an array. -/
def PenOp.io : PenOp → IoOp
  | write data => .write data
  | seek k => .seek k
  | move d => .move d
  | toEnd => .toEnd
  | flush => .flush

namespace Res

variable {δ : Type}

/-- Perform an operation on a resource for reading. -/
def doIn (rd : Nat → ReadRequest → M δ ReadResult) (sk : Int → PositionReference → M δ Unit) :
    InOp → M (Res δ) (List Byte × Nat)
  | .read n => do
    let got ← Res.read rd n
    pure (got.bytes, got.count)
  | .seek k => do
    Res.setPositionIn sk k .begin
    pure ([], 0)
  | .move d => do
    Res.setPositionIn sk d .current
    pure ([], 0)
  | .toEnd => do
    Res.setPositionIn sk 0 .end
    pure ([], 0)

/-- Perform an operation on a resource for writing. -/
def doPen (wr : List Byte → M δ Nat) (sk : Int → PositionReference → M δ Unit) :
    PenOp → M (Res δ) (List Byte × Nat)
  | .write data => do
    let n ← Res.write wr data
    pure ([], n)
  | .seek k => do
    Res.setPositionOut wr sk k .begin
    pure ([], 0)
  | .move d => do
    Res.setPositionOut wr sk d .current
    pure ([], 0)
  | .toEnd => do
    Res.setPositionOut wr sk 0 .end
    pure ([], 0)
  | .flush => do
    Res.flush wr
    pure ([], 0)

variable {rd : Nat → ReadRequest → M δ ReadResult} {wr : List Byte → M δ Nat}
  {sk : Int → PositionReference → M δ Unit}

theorem bufRead_writeDirty (n : Nat) :
    M.Untouched (fun r : Res δ => r.buf.writeDirty) (bufRead n) := by
  intro r
  simp only [bufRead]
  cases h : r.buf.read n with
  | ok x =>
    obtain ⟨bytes, b⟩ := x
    simp only [IoBuffer.read] at h
    split_ifs at h <;> cases h <;> rfl
  | _ => rfl

theorem fill_writeDirty : M.Untouched (fun r : Res δ => r.buf.writeDirty) (fill rd) :=
  .bind (.get _) fun _ => .bind (fun _ => rfl) fun _ => .bind (.modify fun _ => rfl) fun _ =>
    .bind (.modify fun _ => rfl) fun _ => .bind (.modify fun _ => rfl) fun _ => .pure _ _

theorem readLoaded_writeDirty (n : Nat) :
    M.Untouched (fun r : Res δ => r.buf.writeDirty) (readLoaded rd n) :=
  .bind (.get _) fun _ => .ite
    (.ite (.ub _) (.bind (.ite (bufRead_writeDirty _) (.pure _ _)) fun _ => .ite
      (.bind (fun _ => rfl) fun _ => .pure _ _)
      (.bind fill_writeDirty fun _ => .bind (bufRead_writeDirty _) fun _ => .pure _ _)))
    (.bind (bufRead_writeDirty _) fun _ => .pure _ _)

theorem read_writeDirty (n : Nat) : M.Untouched (fun r : Res δ => r.buf.writeDirty) (read rd n) :=
  .bind (.get _) fun _ => .ite
    (.bind (.get _) fun _ => .ite (.bind fill_writeDirty fun _ => readLoaded_writeDirty n)
      (readLoaded_writeDirty n))
    (fun _ => rfl)

/-- Without data to be written, setting the position of a resource for reading is the same as of one
for both. -/
theorem setPositionIn_io (p : Int) (pr : PositionReference) (r : Res δ)
    (h : r.buf.writeDirty = false) : setPositionIn sk p pr r = setPositionIO wr sk p pr r := by
  rw [setPositionIn, setPositionIO, M.noexcept_apply, M.noexcept_apply, M.bind_ok (flush_clean wr r h)]

theorem setPositionIn_writeDirty (p : Int) (pr : PositionReference) :
    M.Untouched (fun r : Res δ => r.buf.writeDirty) (setPositionIn sk p pr) :=
  .noexcept (.bind (fun _ => rfl) fun _ => .modify fun _ => rfl)

theorem doIn_io (op : InOp) (r : Res δ) (h : r.buf.writeDirty = false) :
    doIn rd sk op r = doIo rd wr sk op.io r := by
  cases op <;> simp only [doIn, InOp.io, doIo, M.bind_apply, setPositionIn_io (wr := wr) _ _ r h]

theorem doIn_writeDirty (op : InOp) :
    M.Untouched (fun r : Res δ => r.buf.writeDirty) (doIn rd sk op) := by
  cases op
  · exact .bind (read_writeDirty _) fun _ => .pure _ _
  all_goals exact .bind (setPositionIn_writeDirty _ _) fun _ => .pure _ _

theorem runIn_io (ops : List InOp) (r : Res δ) (h : r.buf.writeDirty = false) :
    M.runList (doIn rd sk) ops r = M.runList (doIo rd wr sk) (ops.map InOp.io) r := by
  induction ops generalizing r with
  | nil => rfl
  | cons op ops ih =>
    have e := doIn_io (rd := rd) (wr := wr) (sk := sk) op r h
    have h' : ((doIn rd sk op) r).2.buf.writeDirty = false := (doIn_writeDirty op r).trans h
    rw [List.map_cons, M.runList, M.runList, M.bind_apply, M.bind_apply, ← e]
    cases h1 : doIn rd sk op r with
    | mk o r' =>
      rw [h1] at h'
      cases o with
      | ok x =>
        simp only
        rw [M.bind_apply, M.bind_apply, ih r' h']
      | _ => rfl

theorem flush_readDirty : M.Untouched (fun r : Res δ => r.buf.readDirty) (flush wr) :=
  .bind (.get _) fun _ => .ite
    (.ite (.ub _) (.bind (fun _ => rfl) fun _ => .modify fun _ => rfl)) (.pure _ _)

theorem bufWrite_readDirty (bytes : List Byte) :
    M.Untouched (fun r : Res δ => r.buf.readDirty) (bufWrite bytes) := by
  intro r
  simp only [bufWrite]
  cases h : r.buf.write bytes with
  | ok b =>
    simp only [IoBuffer.write] at h
    split_ifs at h
    cases h
    rfl
  | _ => rfl

theorem write_readDirty (bytes : List Byte) :
    M.Untouched (fun r : Res δ => r.buf.readDirty) (write wr bytes) :=
  .bind (.get _) fun _ => .ite
    (.bind (.get _) fun _ => .ite
      (.bind flush_readDirty fun _ => .ite (fun _ => rfl) (bufWrite_readDirty bytes))
      (bufWrite_readDirty bytes))
    (fun _ => rfl)

theorem setPositionOut_readDirty (p : Int) (pr : PositionReference) :
    M.Untouched (fun r : Res δ => r.buf.readDirty) (setPositionOut wr sk p pr) :=
  .noexcept (.bind flush_readDirty fun _ _ => rfl)

theorem doPen_readDirty (op : PenOp) :
    M.Untouched (fun r : Res δ => r.buf.readDirty) (doPen wr sk op) := by
  cases op
  · exact .bind (write_readDirty _) fun _ => .pure _ _
  · exact .bind (setPositionOut_readDirty _ _) fun _ => .pure _ _
  · exact .bind (setPositionOut_readDirty _ _) fun _ => .pure _ _
  · exact .bind (setPositionOut_readDirty _ _) fun _ => .pure _ _
  · exact .bind flush_readDirty fun _ => .pure _ _

variable {lim : Nat → Prop} {elem : Nat} {allowed : Nat → Nat → Nat → Prop}
  {idle : List Byte → Nat → δ → Prop} {loaded : List Byte → Nat → Nat → δ → Prop}

/-- If nothing was read, setting the position of a resource for writing is the same as of one for
both. -/
theorem setPositionOut_io (S : Store rd wr sk lim elem allowed idle loaded) {cap : Nat}
    {s : Spec.Session} {a : ArrayCursor} {r : Res δ}
    (h : Represents cap allowed idle loaded s a r) (hr : r.buf.readDirty = true)
    (p : Int) (pr : PositionReference) :
    setPositionOut wr sk p pr r = setPositionIO wr sk p pr r := by
  obtain ⟨r', e, hrep, -⟩ := flush_represents S h
  have hd : r'.buf.readDirty = true := by
    have := flush_readDirty (wr := wr) r
    rw [e] at this
    exact this.trans hr
  have hp : r'.buf.position = 0 := by
    have hdel : Delivering cap a.bytes (idle a.bytes) (loaded a.bytes) a.cursor r' := by
      cases s with
      | fresh => exact hrep.1
      | reading => exact hrep.1
      | writing => exact hrep.1
    rcases hdel.state with ⟨-, h, -⟩ | ⟨h, -⟩
    · exact h
    · rw [hd] at h
      cases h
  rw [setPositionOut, setPositionIO, M.noexcept_apply, M.noexcept_apply, M.bind_ok e, M.bind_ok e,
    M.bind_apply]
  have hb : r'.buf.setReadDirty true = r'.buf := by
    rw [IoBuffer.setReadDirty, ← hp, ← hd]
  simp only [onDev]
  cases (sk p pr r'.dev).1 <;> simp only [M.modify_apply, hb]

theorem doPen_io (S : Store rd wr sk lim elem allowed idle loaded) {cap : Nat}
    {s : Spec.Session} {a : ArrayCursor} {r : Res δ}
    (h : Represents cap allowed idle loaded s a r) (hr : r.buf.readDirty = true) (op : PenOp) :
    doPen wr sk op r = doIo rd wr sk op.io r := by
  cases op <;> simp only [doPen, PenOp.io, doIo, M.bind_apply, setPositionOut_io S h hr]

theorem runPen_io (S : Store rd wr sk lim elem allowed idle loaded) {cap : Nat} (hcap : lim cap)
    {s : Spec.Session} {a : ArrayCursor} {r : Res δ}
    (h : Represents cap allowed idle loaded s a r) (hr : r.buf.readDirty = true) (ops : List PenOp)
    (hd : Disciplined cap elem allowed s a (ops.map PenOp.io)) :
    M.runList (doPen wr sk) ops r = M.runList (doIo rd wr sk) (ops.map PenOp.io) r := by
  induction ops generalizing s a r with
  | nil => rfl
  | cons op ops ih =>
    have e := doPen_io S h hr op
    rw [List.map_cons] at hd
    obtain ⟨r', s', e', h', hd', -⟩ := doIo_represents S h hcap (fun n hn => by
      have : IoOp.read n ∈ (op :: ops).map PenOp.io := hn
      obtain ⟨o, -, ho⟩ := List.mem_map.mp this
      cases o <;> cases ho) hd
    have hr' : r'.buf.readDirty = true := by
      have := doPen_readDirty (wr := wr) (sk := sk) op r
      rw [e, e'] at this
      exact this.trans hr
    rw [List.map_cons, M.runList, M.runList, M.bind_ok (e.trans e'), M.bind_ok e', M.bind_apply,
      M.bind_apply, ih h' hr' hd']

end Res

/-- The claim for reading: reads and seeks give the results they give on an array with a cursor, and
the position reported is that of the cursor. -/
def ReadsLikeArray (cap elem : Nat) (content : List Byte) (ops : List InOp) : Prop :=
  ∃ r, M.runList (Res.doIn Ctr.readRaw Ctr.seek) ops (freshCtr cap elem content) =
      (.ok (Spec.results elem ⟨content, 0⟩ (ops.map InOp.io)), r)
    ∧ Ctr.getPosition r = (Spec.after elem ⟨content, 0⟩ (ops.map InOp.io)).cursor

/-- The claim for writing: writes and seeks give, after a final flush, the content they give on an
array with a cursor, and the position reported is that of the cursor. -/
def PensLikeArray (cap elem : Nat) (content : List Byte) (ops : List PenOp) : Prop :=
  ∃ r r', M.runList (Res.doPen Ctr.writeRaw Ctr.seek) ops (freshCtr cap elem content) =
      (.ok (Spec.results elem ⟨content, 0⟩ (ops.map PenOp.io)), r)
    ∧ Ctr.getPosition r = (Spec.after elem ⟨content, 0⟩ (ops.map PenOp.io)).cursor
    ∧ Res.flush Ctr.writeRaw r = (.ok (), r')
    ∧ r'.dev.content = (Spec.after elem ⟨content, 0⟩ (ops.map PenOp.io)).bytes

/-- Reading: the position in elements of more than one byte is wrong, a move after a read starts from
where the buffer was filled, and a read larger than the buffer repeats bytes.  Writing: data that begin inside and end behind the content make the container
too large. -/
theorem C100_violated :
    ¬ ReadsLikeArray 2 2 [1, 2, 3, 4] [.seek 1, .read 1]
    ∧ ¬ ReadsLikeArray 2 1 [1, 2, 3, 4] [.read 1, .move 1, .read 1]
    ∧ ¬ ReadsLikeArray 1 1 [1, 2, 3, 4] [.seek 1, .read 3]
    ∧ (∀ cap, cap = 0 ∨ cap = 4 →
      ¬ PensLikeArray cap 1 [1, 2, 3, 4] [.seek 3, .write [7, 8], .flush]) := by
  refine ⟨?_, ?_, ?_, ?_⟩
  · rintro ⟨r, e, q⟩
    have h : Ctr.getPosition (M.runList (Res.doIn Ctr.readRaw Ctr.seek) [.seek 1, .read 1]
        (freshCtr 2 2 [1, 2, 3, 4])).2 = Ctr.getPosition r := by rw [e]
    rw [q] at h
    clear e q
    revert h
    decide +kernel
  · rintro ⟨r, e, -⟩
    have := congrArg Prod.fst e
    clear e
    revert this
    simp only
    decide +kernel
  · rintro ⟨r, e, -⟩
    have := congrArg Prod.fst e
    clear e
    revert this
    simp only
    decide +kernel
  · intro cap hcap
    rintro ⟨r, r', e, -, e', q⟩
    have h : (Res.flush Ctr.writeRaw (M.runList (Res.doPen Ctr.writeRaw Ctr.seek)
        [.seek 3, .write [7, 8], .flush] (freshCtr cap 1 [1, 2, 3, 4])).2).2.dev.content = r'.dev.content := by
      rw [e, e']
    rw [q] at h
    rcases hcap with rfl | rfl <;> revert h <;> decide +kernel

/-- Right for all sequences in which reads are no larger than the buffer, moves follow reads only
without a buffer, positions are inside the content, and writing either stays inside the content or
appends whole elements to it, except for the position after buffered reads of elements of more than a
byte.  Missing: what the code gets wrong, which `C100_exact` describes. -/
theorem C100_partial (cap elem : Nat) (content : List Byte) :
    (∀ ops : List InOp, Disciplined cap elem (Ctr.allowed elem) .fresh ⟨content, 0⟩
      (ops.map InOp.io) →
      (cap = 0 ∨ elem = 1 → ReadsLikeArray cap elem content ops)
      ∧ (M.runList (Res.doIn Ctr.readRaw Ctr.seek) ops (freshCtr cap elem content)).1 =
        .ok (Spec.results elem ⟨content, 0⟩ (ops.map InOp.io)))
    ∧ ∀ ops : List PenOp, Disciplined cap elem (Ctr.allowed elem) .fresh ⟨content, 0⟩
      (ops.map PenOp.io) → PensLikeArray cap elem content ops := by
  have make := Res.represents_make (allowed := Ctr.allowed elem) (loaded := Ctr.Loaded elem) cap
    content (Ctr.make elem content) (idle := Ctr.Idle elem) ⟨rfl, rfl, rfl, rfl⟩
  have position : ∀ {s a r}, Res.Represents cap (Ctr.allowed elem) (Ctr.Idle elem) (Ctr.Loaded elem)
      s a r → (cap = 0 ∨ elem = 1 ∨ r.buf.readDirty = true) →
      Ctr.getPosition r = (a.cursor : Int) := by
    intro s a r hr hc
    obtain ⟨q, hq, hsum⟩ := Res.represents_position (fun c : Ctr => some c.position)
      (fun c q d h => by rw [h.position])
      (fun h0 hrd c b q d h => by
        have h1 := h.position
        have h2 := h.lastFill
        have he : elem = 1 := by
          rcases hc with h | h | h
          · omega
          · exact h
          · rw [hrd] at h
            cases h
        rw [Option.some.injEq]
        rw [he] at h1
        omega) hr
    simp only [Option.some.injEq] at hq
    rw [Ctr.getPosition, hq, hsum]
  constructor
  · intro ops h
    obtain ⟨r, s, e, hr, -⟩ := Res.runIo_represents (Ctr.store elem) make trivial
      (fun _ _ => trivial) h
    have e' := (Res.runIn_io ops _ rfl).trans e
    exact ⟨fun hc => ⟨r, e', position hr (hc.imp_right .inl)⟩, congrArg Prod.fst e'⟩
  · intro ops h
    obtain ⟨r, s, e, hr, -⟩ := Res.runIo_represents (Ctr.store elem) make trivial
      (fun _ _ => trivial) h
    obtain ⟨r', e', -, q, -⟩ := Res.flush_represents (Ctr.store elem) hr
    have e0 := (Res.runPen_io (Ctr.store elem) trivial make rfl ops h).trans e
    have hrd : r.buf.readDirty = true := by
      have := M.Untouched.runList (Res.doPen_readDirty (wr := Ctr.writeRaw) (sk := Ctr.seek)) ops
        ⟨IoBuffer.make cap, Ctr.make elem content⟩
      rw [e0] at this
      exact this
    refine ⟨r, r', e0, position hr (.inr (.inr hrd)), e', ?_⟩
    rcases q with ⟨_, q⟩ | ⟨_, _, q⟩
    · exact q.content_eq
    · exact q.content_eq

example : Disciplined 4 2 (Ctr.allowed 2) .fresh ⟨[1, 2, 3, 4, 5, 6], 0⟩
    ([InOp.move 1, .read 3, .toEnd, .read 1, .seek 0, .read 4].map InOp.io) :=
  .move (by decide +kernel) (by decide +kernel) (by decide +kernel) <|
  .read (by decide +kernel) (by decide +kernel) <| .toEnd (by decide +kernel) <|
  .read (by decide +kernel) (by decide +kernel) <| .seek (by decide +kernel) <|
  .read (by decide +kernel) (by decide +kernel) <| .nil _ _

example : Disciplined 4 2 (Ctr.allowed 2) .fresh ⟨[1, 2, 3, 4, 5, 6], 0⟩
    ([PenOp.write [7, 8], .move 1, .write [9], .flush, .toEnd, .write [10, 11], .write [12, 13],
      .seek 0, .write [14]].map PenOp.io) :=
  .write (.inl ⟨rfl, rfl, rfl⟩) (.inl (by decide +kernel)) <|
  .move (by decide +kernel) (by decide +kernel) (by decide +kernel) <|
  .write (.inl ⟨rfl, rfl, rfl⟩) (.inl (by decide +kernel)) <| .flush <|
  .toEnd (by decide +kernel) <|
  .write (.inl ⟨rfl, rfl, rfl⟩) (.inr (by decide +kernel)) <|
  .write (.inr rfl) (.inr (by decide +kernel)) <| .seek (by decide +kernel) <|
  .write (.inl ⟨rfl, rfl, rfl⟩) (.inl (by decide +kernel)) <| .nil _ _

end Cmp
