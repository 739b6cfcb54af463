import Verif.Proofs.Stdio

/-
An input resource tied to an output resource.
-/

namespace Cmp

namespace Res

variable {δ α β : Type}

/-- Running `x` takes the device from a state to one related to it. -/
def Moves (R : δ → δ → Prop) (x : M (Res δ) α) : Prop := ∀ r, R r.dev (x r).2.dev

variable {R : δ → δ → Prop}

theorem moves_bind (trans : ∀ a b c, R a b → R b c → R a c) {x : M (Res δ) α}
    {f : α → M (Res δ) β} (hx : Moves R x) (hf : ∀ a, Moves R (f a)) : Moves R (x >>= f) := by
  intro r
  have h := hx r
  rw [M.bind_apply]
  cases e : x r with
  | mk o s =>
    rw [e] at h
    cases o with
    | ok a => exact trans _ _ _ h (hf a s)
    | throw => exact h
    | terminate => exact h
    | ub => exact h
    | hang => exact h

/-- Reading moves the device only as the device's own reading does. -/
theorem moves_read (refl : ∀ a, R a a) (trans : ∀ a b c, R a b → R b c → R a c)
    (raw : Nat → ReadRequest → M δ ReadResult) (hraw : ∀ n rr d, R d (raw n rr d).2) (n : Nat) :
    Moves R (read raw n) := by
  have hget : Moves R (M.get : M (Res δ) (Res δ)) := fun r => refl _
  have hpure : ∀ {α : Type} (a : α), Moves R (pure a : M (Res δ) α) := fun a r => refl _
  have hdev : ∀ n rr, Moves R (onDev (raw n rr)) := fun n rr r => hraw n rr r.dev
  have hbuf : ∀ n, Moves R (bufRead n : M (Res δ) _) := by
    intro n r
    unfold bufRead
    split <;> exact refl _
  have hmod : ∀ f : IoBuffer → IoBuffer,
      Moves R (M.modify fun r : Res δ => { r with buf := f r.buf }) := fun f r => refl _
  have hfill : Moves R (fill raw) := by
    unfold fill
    refine moves_bind trans hget fun r => moves_bind trans (hdev _ _) fun g =>
      moves_bind trans (hmod fun b =>
        { b with data := g.bytes.take b.data.length ++ b.data.drop g.bytes.length }) fun _ => moves_bind trans (hmod fun b => b.setReadDirty false)
        fun _ => moves_bind trans (hmod fun b => { b with size := g.count }) fun _ => hpure _
  have hloaded : ∀ n, Moves R (readLoaded raw n) := by
    intro n
    unfold readLoaded
    refine moves_bind trans hget fun r => ?_
    dsimp only
    split
    · split
      · exact fun r => refl _
      · refine moves_bind trans ?_ fun first => ?_
        · unfold drain
          split
          · exact hbuf _
          · exact hpure _
        · split
          · exact moves_bind trans (hdev _ _) fun _ => hpure _
          · exact moves_bind trans hfill fun _ => moves_bind trans (hbuf _) fun _ => hpure _
    · exact moves_bind trans (hbuf _) fun _ => hpure _
  unfold read
  refine moves_bind trans hget fun r => ?_
  split
  · unfold readBuffered
    refine moves_bind trans hget fun r => ?_
    split
    · exact moves_bind trans hfill fun _ => hloaded n
    · exact hloaded n
  · exact hdev _ _

end Res

/-- The system was only asked for input. -/
def Sys.Asks (s s' : Sys) : Prop :=
  s'.writes = s.writes ∧ ∃ asks, s'.log = s.log ++ asks ∧ ∀ e ∈ asks, ∃ n g, e = StdEvent.asked n g

theorem Sys.asks_refl (s : Sys) : s.Asks s := ⟨rfl, [], by simp, by simp⟩

theorem Sys.asks_trans (a b c : Sys) (h : a.Asks b) (h' : b.Asks c) : a.Asks c := by
  obtain ⟨h1, l, h2, h3⟩ := h
  obtain ⟨h1', l', h2', h3'⟩ := h'
  refine ⟨h1'.trans h1, l ++ l', by rw [h2', h2, List.append_assoc], fun e he => ?_⟩
  rcases List.mem_append.mp he with he | he
  · exact h3 e he
  · exact h3' e he

theorem Stdin.asks (n : Nat) (rr : ReadRequest) (s : Sys) :
    Sys.Asks s (Stdin.readRaw n rr s).2 := by
  simp only [Stdin.readRaw]
  rw [M.bind_ok (show Sys.read n s = _ from rfl)]
  cases (Sys.transferred n s.reads).map s.supply.take with
  | none => exact ⟨rfl, _, rfl, by simp⟩
  | some g => exact ⟨rfl, _, rfl, by simp⟩

/-- Operations on standard output and input. -/
inductive StdOp
  | write (bytes : List Byte)
  | flush
  | read (n : Nat)
  deriving DecidableEq, Repr

/-- What is written. -/
def StdOp.bytes : StdOp → List Byte
  | .write bytes => bytes
  | .flush => []
  | .read _ => []

/-- Perform an operation; the result is a byte count. -/
def Tied.doStd : StdOp → M (Tied Sys) Nat
  | .write bytes => Tied.write Stdout.writeRaw bytes
  | .flush => do
    Tied.flush Stdout.writeRaw
    pure 0
  | .read n => do
    let g ← Tied.read Stdin.readRaw Stdout.writeRaw n
    pure g.count

/-- The system accepted `w` so far and will accept anything. -/
def Sys.Got (s : Sys) (w : List Byte) : Prop := Sys.output s.log = w ∧ s.writes = []

theorem Stdout.takes : Res.Takes Stdout.writeRaw (fun _ => True) Sys.Got where
  take := by
    intro s w bytes hg _ _
    simp only [Stdout.writeRaw]
    rw [M.bind_ok (Sys.write_all s bytes hg.2)]
    refine ⟨_, rfl, ?_, hg.2⟩
    rw [Sys.output_append, hg.1]
    simp [Sys.output]

/-- Writing does not touch the input side. -/
theorem Stdout.input_side (bytes : List Byte) (s : Sys) :
    (Stdout.writeRaw bytes s).2.reads = s.reads ∧ (Stdout.writeRaw bytes s).2.supply = s.supply ∧
    ∃ w, (Stdout.writeRaw bytes s).2.log = s.log ++ [.wrote w] := by
  simp only [Stdout.writeRaw]
  rw [M.bind_ok (show Sys.write bytes s = _ from rfl)]
  cases Sys.transferred bytes.length s.writes with
  | none => exact ⟨rfl, rfl, _, rfl⟩
  | some g => exact ⟨rfl, rfl, _, rfl⟩

/-- The system was only given output. -/
def Sys.Writes (s s' : Sys) : Prop :=
  s'.reads = s.reads ∧ s'.supply = s.supply ∧
    ∃ ws, s'.log = s.log ++ ws ∧ ∀ e ∈ ws, ∃ w, e = StdEvent.wrote w

theorem Sys.writes_refl (s : Sys) : s.Writes s := ⟨rfl, rfl, [], by simp, by simp⟩

theorem Sys.writes_trans (a b c : Sys) (h : a.Writes b) (h' : b.Writes c) : a.Writes c := by
  obtain ⟨h0, h1, l, h2, h3⟩ := h
  obtain ⟨h0', h1', l', h2', h3'⟩ := h'
  refine ⟨h0'.trans h0, h1'.trans h1, l ++ l', by rw [h2', h2, List.append_assoc], fun e he => ?_⟩
  rcases List.mem_append.mp he with he | he
  · exact h3 e he
  · exact h3' e he

theorem Stdout.writes (bytes : List Byte) (s : Sys) : Sys.Writes s (Stdout.writeRaw bytes s).2 := by
  obtain ⟨h1, h2, w, h3⟩ := Stdout.input_side bytes s
  exact ⟨h1, h2, [.wrote w], h3, by simp⟩

namespace Res

variable {δ : Type} {R : δ → δ → Prop}

theorem moves_flush (refl : ∀ a, R a a) (trans : ∀ a b c, R a b → R b c → R a c)
    (raw : List Byte → M δ Nat) (hraw : ∀ bytes d, R d (raw bytes d).2) : Moves R (flush raw) := by
  unfold flush
  refine moves_bind trans (fun r => refl _) fun r => ?_
  split
  · split
    · exact fun r => refl _
    · exact moves_bind trans (fun r => hraw _ r.dev) fun _ r => refl _
  · exact fun r => refl _

theorem moves_write (refl : ∀ a, R a a) (trans : ∀ a b c, R a b → R b c → R a c)
    (raw : List Byte → M δ Nat) (hraw : ∀ bytes d, R d (raw bytes d).2) (bytes : List Byte) :
    Moves R (write raw bytes) := by
  have hbuf : Moves R (bufWrite bytes : M (Res δ) _) := by
    intro r
    unfold bufWrite
    split <;> exact refl _
  have hdev : Moves R (onDev (raw bytes)) := fun r => hraw _ r.dev
  unfold write
  refine moves_bind trans (fun r => refl _) fun r => ?_
  split
  · unfold writeBuffered
    refine moves_bind trans (fun r => refl _) fun r => ?_
    split
    · refine moves_bind trans (moves_flush refl trans raw hraw) fun _ => ?_
      split
      · exact hdev
      · exact hbuf
    · exact hbuf
  · exact hdev

end Res

namespace Tied

/-- The state of the two resources after `written` was written. -/
structure Ready (capIn capOut : Nat) (written : List Byte) (t : Tied Sys) : Prop where
  out : Res.Writing capOut (fun _ => True) Sys.Got ⟨t.out, t.world⟩ written
  inp : Res.Fed capIn Sys.ReadsSucceed ⟨t.inp, t.world⟩

theorem onIn_ok {ω α : Type} {x : M (Res ω) α} {t : Tied ω} {a : α} {r : Res ω}
    (h : x ⟨t.inp, t.world⟩ = (.ok a, r)) :
    onIn x t = (.ok a, { t with inp := r.buf, world := r.dev }) := by
  simp [onIn, h]

theorem onOut_ok {ω α : Type} {x : M (Res ω) α} {t : Tied ω} {a : α} {r : Res ω}
    (h : x ⟨t.out, t.world⟩ = (.ok a, r)) :
    onOut x t = (.ok a, { t with out := r.buf, world := r.dev }) := by
  simp [onOut, h]

theorem write_ready {capIn capOut : Nat} {w : List Byte} {t : Tied Sys}
    (h : Ready capIn capOut w t) (bytes : List Byte) :
    ∃ t', Tied.write Stdout.writeRaw bytes t = (.ok bytes.length, t') ∧
      Ready capIn capOut (w ++ bytes) t' := by
  obtain ⟨r, e, h', -⟩ := Res.write_writing Stdout.takes h.out trivial (bytes := bytes) trivial
  have hm := Res.moves_write Sys.writes_refl Sys.writes_trans _ Stdout.writes bytes
    ⟨t.out, t.world⟩
  rw [e] at hm
  refine ⟨_, onOut_ok e, h', h.inp.length, ?_, h.inp.loaded⟩
  have hr := hm.1
  intro e he
  rw [hr] at he
  exact h.inp.inv e he

theorem flush_ready {capIn capOut : Nat} {w : List Byte} {t : Tied Sys}
    (h : Ready capIn capOut w t) :
    ∃ t', Tied.flush Stdout.writeRaw t = (.ok (), t') ∧ Ready capIn capOut w t' ∧
      t'.world.Got w ∧ t.world.Writes t'.world ∧ t'.out.pending = [] := by
  obtain ⟨d, e, h', hg⟩ := Res.flush_writing Stdout.takes h.out trivial
  have hm := Res.moves_flush Sys.writes_refl Sys.writes_trans _ Stdout.writes ⟨t.out, t.world⟩
  rw [e] at hm
  refine ⟨_, onOut_ok e, ⟨h', h.inp.length, ?_, h.inp.loaded⟩, hg, hm, by simp [IoBuffer.pending]⟩
  have hr := hm.1
  intro e he
  rw [hr] at he
  exact h.inp.inv e he

theorem read_ready {capIn capOut : Nat} {w : List Byte} {t : Tied Sys}
    (h : Ready capIn capOut w t) (n : Nat) :
    ∃ g t' s, Tied.read Stdin.readRaw Stdout.writeRaw n t = (.ok g, t') ∧
      Ready capIn capOut w t' ∧ s.Got w ∧ t.world.Writes s ∧ s.Asks t'.world := by
  obtain ⟨t1, e, h1, hg, hw, hp⟩ := flush_ready h
  obtain ⟨g, r, e', -, -, h2, -⟩ := Res.read_fed Stdin.feeds h1.inp n
  have hm := Res.moves_read Sys.asks_refl Sys.asks_trans _ Stdin.asks n ⟨t1.inp, t1.world⟩
  rw [e'] at hm
  have hlog : r.dev.Got w := by
    obtain ⟨ha, l, hl, hl'⟩ := hm
    refine ⟨?_, ha.trans hg.2⟩
    rw [hl, Sys.output_append, hg.1]
    have : Sys.output l = [] := by
      simp only [Sys.output, List.flatMap_eq_nil_iff]
      intro e he
      obtain ⟨n, g, rfl⟩ := hl' e he
      rfl
    rw [this, List.append_nil]
  refine ⟨⟨g, g.length⟩, { t1 with inp := r.buf, world := r.dev }, t1.world, ?_,
    ⟨⟨h1.out.length, h1.out.position, h1.out.clean, w, hlog, trivial, ?_⟩, h2⟩, hg, hw, hm⟩
  · simp only [Tied.read]
    rw [M.bind_ok (show onOut (Res.flush Stdout.writeRaw) t = _ from e)]
    exact onIn_ok e'
  · simp only [hp, List.append_nil]

theorem doStd_ready {capIn capOut : Nat} {w : List Byte} {t : Tied Sys}
    (h : Ready capIn capOut w t) (op : StdOp) :
    ∃ k t', Tied.doStd op t = (.ok k, t') ∧ Ready capIn capOut (w ++ op.bytes) t' := by
  cases op with
  | write bytes =>
    obtain ⟨t', e, h'⟩ := write_ready h bytes
    exact ⟨_, t', e, h'⟩
  | flush =>
    obtain ⟨t', e, h', -⟩ := flush_ready h
    exact ⟨0, t', by simp only [doStd]; rw [M.bind_ok e]; rfl, by simpa [StdOp.bytes] using h'⟩
  | read n =>
    obtain ⟨g, t', s, e, h', -⟩ := read_ready h n
    exact ⟨_, t', by simp only [doStd]; rw [M.bind_ok e]; rfl, by simpa [StdOp.bytes] using h'⟩

theorem runStd_ready {capIn capOut : Nat} {w : List Byte} {t : Tied Sys}
    (h : Ready capIn capOut w t) (ops : List StdOp) :
    ∃ ks t', M.runList Tied.doStd ops t = (.ok ks, t') ∧
      Ready capIn capOut (w ++ ops.flatMap (·.bytes)) t' := by
  induction ops generalizing t w with
  | nil => exact ⟨[], t, rfl, by simpa using h⟩
  | cons op ops ih =>
    obtain ⟨k, t', e, h'⟩ := doStd_ready h op
    obtain ⟨ks, t'', e', h''⟩ := ih h'
    exact ⟨_, t'', M.runList_cons e e', by simpa [List.flatMap_cons] using h''⟩

end Tied

end Cmp
