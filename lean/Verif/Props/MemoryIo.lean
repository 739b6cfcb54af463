import Verif.Proofs.MemoryIo

/-
Properties of container resources when memory runs out.
-/

namespace Cmp

/-- A resource on a container, as constructed. -/
def freshMem (cap elem : Nat) (content : List Byte) (capacity asked : Nat) : Res MCtr :=
  ⟨IoBuffer.make cap, ⟨Ctr.make elem content, capacity, asked⟩⟩

/-- C144 fails: a change of the position ends the program if the memory for what is in the buffer is
refused. -/
theorem C144_violated :
    ¬ ∀ (H : Heap) (x : Exn) (cap elem : Nat) (content : List Byte) (capacity asked : Nat)
      (bytes : List Byte) (p : Int) (pr : PositionReference),
      ((do
        let _ ← Res.write (MCtr.writeRaw H x) bytes
        Res.setPositionOut (MCtr.writeRaw H x) MCtr.seek p pr : M (Res MCtr) Unit)
        (freshMem cap elem content capacity asked)).1 ≠ .terminate := by
  intro h
  exact h ⟨fun _ => false, id, 100⟩ .outOfRange 4 1 [] 0 0 [7] 0 .begin (by decide +kernel)

/-- C144, refinement: whatever requests for memory are refused, a caller who catches the exceptions and
carries on gets the results and the content that they would have got in unlimited memory by doing nothing,
or a flush, instead of each call that threw. -/
theorem C144_refines (H : Heap) (x : Exn) (r : Res MCtr) (ops : List OutOp) :
    ∃ ops', Instead x ops (outcomes (Res.doOut (MCtr.writeRaw H x)) r ops) ops'
        (outcomes (Res.doOut Ctr.writeRaw) (Res.with_ MCtr.ctr r) ops') ∧
      Res.with_ MCtr.ctr (M.stateAfter (Res.doOut (MCtr.writeRaw H x)) r ops) =
        M.stateAfter (Res.doOut Ctr.writeRaw) (Res.with_ MCtr.ctr r) ops' :=
  Res.run_limits (MCtr.limits H x) ops r

/-- C144, part: whole elements are appended, in any portions, with any buffer, while any requests for
memory are refused.  Every call returns its count or throws; the content and what is in the buffer are the
old content and the bytes of the calls that returned; a flush that returns leaves nothing in the buffer, one
that throws changes nothing, and one that gets the memory it asks for returns.
What is missing: changes of the position while there is something in the buffer. -/
theorem C144_partial (H : Heap) (x : Exn) (cap elem : Nat) (content : List Byte) (capacity asked : Nat)
    (hd : elem ∣ content.length) (ops : List OutOp) (hops : ∀ op ∈ ops, elem ∣ op.bytes.length) :
    ∃ r, Res.setPositionOut (MCtr.writeRaw H x) MCtr.seek 0 .end (freshMem cap elem content capacity asked)
          = (.ok (), r) ∧
      ∀ outs r', outcomes (Res.doOut (MCtr.writeRaw H x)) r ops = outs →
        M.stateAfter (Res.doOut (MCtr.writeRaw H x)) r ops = r' →
        outs.length = ops.length ∧
        (∀ p ∈ ops.zip outs, p.2 = .ok p.1.bytes.length ∨ p.2 = .throw x) ∧
        r'.dev.ctr.content ++ r'.buf.pending = content ++ accepted ops outs ∧
        ((∃ r'', Res.flush (MCtr.writeRaw H x) r' = (.ok (), r'') ∧
            r''.dev.ctr.content = content ++ accepted ops outs) ∨
          ∃ r'', Res.flush (MCtr.writeRaw H x) r' = (.throw x, r'') ∧
            r''.dev.ctr = r'.dev.ctr ∧ r''.buf = r'.buf) ∧
        (H.grants r'.dev.asked = true → content.length + (accepted ops outs).length ≤ H.maxSize →
          (Res.flush (MCtr.writeRaw H x) r').1 = .ok ()) := by
  refine ⟨⟨IoBuffer.make cap, ⟨⟨elem, content, ((content.length / elem : Nat) - 0) * elem, 0⟩,
    capacity, asked⟩⟩, rfl, ?_⟩
  generalize hr0 : (⟨IoBuffer.make cap, ⟨⟨elem, content, ((content.length / elem : Nat) - 0) * elem, 0⟩,
    capacity, asked⟩⟩ : Res MCtr) = r0
  rintro outs r' rfl rfl
  obtain ⟨ops', h1, h2⟩ := C144_refines H x r0 ops
  obtain ⟨f', e, hp, hc, f'', e', hf⟩ := append_writing cap elem content hd ops' (h1.dvd hops)
  have hw : Res.with_ MCtr.ctr r0 = ⟨IoBuffer.make cap,
      ⟨elem, content, ((content.length / elem : Nat) - 0) * elem, 0⟩⟩ := by rw [← hr0]; rfl
  rw [← hw] at e
  obtain ⟨o1, o2⟩ := outcomes_of_runList e
  obtain ⟨b1, b2, b3⟩ := h1.bytes (o1.trans (by simp))
  rw [o2] at h2
  generalize M.stateAfter (Res.doOut (MCtr.writeRaw H x)) r0 ops = r' at h2 ⊢
  generalize outcomes (Res.doOut (MCtr.writeRaw H x)) r0 ops = outs at b1 b2 b3 ⊢
  subst h2
  have hc : r'.dev.ctr.content ++ r'.buf.pending = content ++ accepted ops outs := by
    rw [← b1]; exact hc
  refine ⟨b2, b3, hc, ?_, ?_⟩
  · rcases Res.flush_limits (MCtr.limits H x) r' with ⟨a1, a2⟩ | ⟨a1, a2⟩
    · right
      rcases hr : Res.flush (MCtr.writeRaw H x) r' with ⟨o, s⟩
      rw [hr] at a1 a2
      obtain rfl : o = .throw x := a1
      exact ⟨s, rfl, congrArg (fun q : Res Ctr => q.dev) a2, congrArg (fun q : Res Ctr => q.buf) a2⟩
    · left
      rcases hr : Res.flush (MCtr.writeRaw H x) r' with ⟨o, s⟩
      rw [hr] at a1 a2
      rw [e'] at a1 a2
      obtain rfl : o = .ok () := a1
      refine ⟨s, rfl, ?_⟩
      rw [← b1, ← hf]
      exact congrArg (fun q : Res Ctr => q.dev.content) a2
  · intro hg hm
    by_cases hw : r'.buf.writeDirty = true
    · have hlen := congrArg List.length hc
      simp only [List.length_append, IoBuffer.pending, hw, if_true, List.length_take] at hlen
      have hp : r'.buf.position ≤ r'.buf.data.length := hp
      have := flush_granted (x := x) hg (by omega) hp
      rw [this.1, e']
    · rw [Res.flush_clean _ _ (by simpa using hw)]

/-- C144, changes of the position, for every resource: the program is ended exactly if the flush that comes
first throws; otherwise they do what they do in unlimited memory. -/
theorem C144_exact (H : Heap) (x : Exn) (p : Int) (pr : PositionReference) (r : Res MCtr) :
    ((Res.flush (MCtr.writeRaw H x) r).1 = .throw x →
      (Res.setPositionOut (MCtr.writeRaw H x) MCtr.seek p pr r).1 = .terminate ∧
      (Res.setPositionIO (MCtr.writeRaw H x) MCtr.seek p pr r).1 = .terminate) ∧
    ((Res.flush (MCtr.writeRaw H x) r).1 ≠ .throw x →
      Res.Agree MCtr.ctr (Res.setPositionOut (MCtr.writeRaw H x) MCtr.seek p pr)
        (Res.setPositionOut Ctr.writeRaw Ctr.seek p pr) r ∧
      Res.Agree MCtr.ctr (Res.setPositionIO (MCtr.writeRaw H x) MCtr.seek p pr)
        (Res.setPositionIO Ctr.writeRaw Ctr.seek p pr) r) := by
  constructor
  · intro h
    rcases hr : Res.flush (MCtr.writeRaw H x) r with ⟨o, s⟩
    rw [hr] at h
    obtain rfl : o = .throw x := h
    constructor
    · simp only [Res.setPositionOut, M.noexcept_apply]
      rw [M.bind_throw hr]
      rfl
    · simp only [Res.setPositionIO, M.noexcept_apply]
      rw [M.bind_throw hr]
      rfl
  · intro h
    have ha : Res.Agree MCtr.ctr (Res.flush (MCtr.writeRaw H x)) (Res.flush Ctr.writeRaw) r :=
      (Res.flush_limits (MCtr.limits H x) r).resolve_left (fun h' => h h'.1)
    have nx : ∀ {a : M (Res MCtr) Unit} {b : M (Res Ctr) Unit}, Res.Agree MCtr.ctr a b r →
        Res.Agree MCtr.ctr (M.noexcept a) (M.noexcept b) r := fun h => ⟨by
      rw [M.noexcept_apply, M.noexcept_apply, h.1], h.2⟩
    have hs : ∀ s : Res MCtr, Res.Agree MCtr.ctr (Res.onDev (MCtr.seek p pr)) (Res.onDev (Ctr.seek p pr)) s :=
      fun _ => ⟨rfl, rfl⟩
    exact ⟨nx (Res.agree_bind ha fun _ s _ => hs s),
      nx (Res.agree_bind ha fun _ s _ => Res.agree_bind (hs s) fun _ _ _ => ⟨rfl, rfl⟩)⟩

/-- Two of four requests are refused: what was accepted is in the content, in order. -/
example :
    let H : Heap := ⟨fun k => k % 2 = 1, id, 100⟩
    let ops : List OutOp := [.write [1, 2], .write [3, 4], .write [3, 4], .flush, .write [5, 6, 7, 8], .flush]
    let step := Res.doOut (MCtr.writeRaw H .outOfRange)
    outcomes step (freshMem 3 1 [] 0 0) ops
      = [.ok 2, .throw .outOfRange, .ok 2, .throw .outOfRange, .throw .outOfRange, .ok 0]
    ∧ (M.stateAfter step (freshMem 3 1 [] 0 0) ops).dev.ctr.content = [1, 2, 3, 4] := by
  decide +kernel

end Cmp
