import Verif.Model.MemoryIo
import Verif.Proofs.Container

/-
Lemmas about container resources in limited memory.
-/

namespace Cmp

namespace Res

variable {δ ε α β : Type}

/-- The same resource with another device. -/
def with_ (er : δ → ε) (r : Res δ) : Res ε := ⟨r.buf, er r.dev⟩

/-- Two computations do the same, if the devices are related by `er`. -/
def Agree (er : δ → ε) (a : M (Res δ) α) (b : M (Res ε) α) (r : Res δ) : Prop :=
  (a r).1 = (b (with_ er r)).1 ∧ with_ er (a r).2 = (b (with_ er r)).2

/-- A computation throws and changes nothing but what `er` forgets. -/
def Refused (er : δ → ε) (x : Exn) (a : M (Res δ) α) (r : Res δ) : Prop :=
  (a r).1 = .throw x ∧ with_ er (a r).2 = with_ er r

/-- A device that does what another one does, or throws `x` and does nothing. -/
def Limits (raw : List Byte → M δ Nat) (free : List Byte → M ε Nat) (er : δ → ε) (x : Exn) : Prop :=
  ∀ bytes d, ((raw bytes d).1 = .throw x ∧ er (raw bytes d).2 = er d) ∨
    ((raw bytes d).1 = (free bytes (er d)).1 ∧ er (raw bytes d).2 = (free bytes (er d)).2)

variable {raw : List Byte → M δ Nat} {free : List Byte → M ε Nat} {er : δ → ε} {x : Exn}

theorem agree_bind {a : M (Res δ) α} {b : M (Res ε) α} {f : α → M (Res δ) β} {g : α → M (Res ε) β}
    {r : Res δ} (h : Agree er a b r) (hf : ∀ v r', a r = (.ok v, r') → Agree er (f v) (g v) r') :
    Agree er (a >>= f) (b >>= g) r := by
  obtain ⟨h1, h2⟩ := h
  unfold Agree
  rw [M.bind_apply, M.bind_apply]
  rcases hb : b (with_ er r) with ⟨o', s'⟩
  rcases ha : a r with ⟨o, s⟩
  rw [ha, hb] at h1 h2
  dsimp only at h1 h2
  subst h1 h2
  cases o with
  | ok v => exact hf v s ha
  | _ => exact ⟨rfl, rfl⟩

theorem refused_bind {a : M (Res δ) α} {f : α → M (Res δ) β} {r : Res δ} (h : Refused er x a r) :
    Refused er x (a >>= f) r := by
  obtain ⟨h1, h2⟩ := h
  unfold Refused
  rw [M.bind_apply]
  rcases ha : a r with ⟨o, s⟩
  rw [ha] at h1 h2
  obtain rfl : o = .throw x := h1
  exact ⟨rfl, h2⟩

theorem onDev_limits (h : Limits raw free er x) (bytes : List Byte) (r : Res δ) :
    Refused er x (onDev (raw bytes)) r ∨ Agree er (onDev (raw bytes)) (onDev (free bytes)) r := by
  rcases h bytes r.dev with ⟨h1, h2⟩ | ⟨h1, h2⟩
  · exact Or.inl ⟨h1, by simp only [with_, onDev, h2]⟩
  · exact Or.inr ⟨h1, by simp only [with_, onDev, h2]⟩

theorem get_bind {σ : Type} (f : σ → M σ β) (r : σ) : (M.get >>= f) r = f r r := by
  rw [M.bind_ok (M.get_apply r)]

theorem bufWrite_agree (bytes : List Byte) (r : Res δ) :
    Agree er (bufWrite bytes) (bufWrite bytes) r := by
  unfold Agree bufWrite
  dsimp only [with_]
  cases r.buf.write bytes <;> exact ⟨rfl, rfl⟩

theorem flush_limits (h : Limits raw free er x) (r : Res δ) :
    Refused er x (flush raw) r ∨ Agree er (flush raw) (flush free) r := by
  have e : ∀ {κ : Type} (raw : List Byte → M κ Nat) (r : Res κ), flush raw r =
      (if r.buf.writeDirty then
        if r.buf.position > r.buf.data.length then M.ub
        else onDev (raw (r.buf.data.take r.buf.position)) >>= fun _ =>
          M.modify fun r => { r with buf := r.buf.setWriteDirty false }
      else pure () : M (Res κ) Unit) r := fun raw r => get_bind _ r
  unfold Refused Agree
  rw [e raw, e free]
  have c : (with_ er r).buf = r.buf := rfl
  rw [c]
  by_cases h1 : r.buf.writeDirty = true
  · rw [if_pos h1, if_pos h1]
    by_cases h2 : r.buf.position > r.buf.data.length
    · rw [if_pos h2, if_pos h2]
      exact Or.inr ⟨rfl, rfl⟩
    · rw [if_neg h2, if_neg h2]
      rcases onDev_limits h (r.buf.data.take r.buf.position) r with h | h
      · exact Or.inl (refused_bind h)
      · exact Or.inr (agree_bind h fun _ _ _ => ⟨rfl, rfl⟩)
  · rw [if_neg h1, if_neg h1]
    exact Or.inr ⟨rfl, rfl⟩

/-- What a write does if the device may refuse: it does what it would otherwise do; or it throws and does
nothing; or it throws and does a flush. -/
theorem write_limits (h : Limits raw free er x) (bytes : List Byte) (r : Res δ) :
    Refused er x (write raw bytes) r ∨ Agree er (write raw bytes) (write free bytes) r ∨
    ((write raw bytes r).1 = .throw x ∧ (flush free (with_ er r)).1 = .ok () ∧
      with_ er (write raw bytes r).2 = (flush free (with_ er r)).2) := by
  have e : ∀ {κ : Type} (raw : List Byte → M κ Nat) (r : Res κ), write raw bytes r =
      (if r.buf.capacity > 0 then
        if r.buf.position + bytes.length > r.buf.capacity then
          flush raw >>= fun _ =>
            if bytes.length > r.buf.capacity then onDev (raw bytes) else bufWrite bytes
        else bufWrite bytes
      else onDev (raw bytes) : M (Res κ) Nat) r := by
    intro κ raw r
    refine (get_bind _ r).trans ?_
    split
    · exact get_bind _ r
    · rfl
  unfold Refused Agree
  rw [e raw, e free]
  have c : (with_ er r).buf = r.buf := rfl
  rw [c]
  by_cases h1 : r.buf.capacity > 0
  · rw [if_pos h1, if_pos h1]
    by_cases h2 : r.buf.position + bytes.length > r.buf.capacity
    · rw [if_pos h2, if_pos h2]
      rcases flush_limits h r with hr | ha
      · exact Or.inl (refused_bind hr)
      · by_cases h3 : bytes.length > r.buf.capacity
        · simp only [if_pos h3]
          rcases hf : flush raw r with ⟨o, s⟩
          cases o with
          | ok u =>
            rcases onDev_limits h bytes s with h4 | h4
            · right; right
              rw [M.bind_ok hf]
              obtain ⟨a1, a2⟩ := ha
              rw [hf] at a1 a2
              exact ⟨h4.1, a1.symm, h4.2.trans a2⟩
            · right; left
              refine agree_bind ha fun v r' hv => ?_
              rw [hf] at hv
              obtain rfl := (Prod.mk.inj hv).2
              exact h4
          | _ =>
            right; left
            refine agree_bind ha fun v r' hv => ?_
            rw [hf] at hv
            cases (Prod.mk.inj hv).1
        · simp only [if_neg h3]
          exact Or.inr (Or.inl (agree_bind ha fun _ _ _ => bufWrite_agree bytes _))
    · rw [if_neg h2, if_neg h2]
      exact Or.inr (Or.inl (bufWrite_agree bytes r))
  · rw [if_neg h1, if_neg h1]
    exact (onDev_limits h bytes r).imp_right Or.inl

end Res

theorem MCtr.limits (H : Heap) (x : Exn) :
    Res.Limits (MCtr.writeRaw H x) Ctr.writeRaw MCtr.ctr x := by
  intro bytes m
  unfold MCtr.writeRaw
  dsimp only
  split
  · right
    simp [Ctr.writeRaw, *]
  · generalize (if m.ctr.position + bytes.length > m.ctr.content.length then
      m.ctr.content.length + bytes.length / m.ctr.elem * m.ctr.elem else m.ctr.content.length) = n
    unfold MCtr.room
    by_cases h1 : n ≤ m.capacity
    · rw [if_pos h1]; exact Or.inr ⟨rfl, rfl⟩
    · rw [if_neg h1]
      by_cases h2 : H.maxSize < n
      · rw [if_pos h2]; exact Or.inl ⟨rfl, rfl⟩
      · rw [if_neg h2]
        by_cases h3 : H.grants m.asked = true
        · rw [if_pos h3]; exact Or.inr ⟨rfl, rfl⟩
        · rw [if_neg h3]; exact Or.inl ⟨rfl, rfl⟩

/-- How each operation ends, for a caller who catches every exception and carries on. -/
def outcomes {σ : Type} (step : OutOp → M σ Nat) : σ → List OutOp → List (Outcome Nat)
  | _, [] => []
  | s, op :: ops => (step op s).1 :: outcomes step (step op s).2 ops

/-- The bytes of the operations that returned. -/
def accepted : List OutOp → List (Outcome Nat) → List Byte
  | op :: ops, .ok _ :: outs => op.bytes ++ accepted ops outs
  | _ :: ops, _ :: outs => accepted ops outs
  | _, _ => []

/-- Operations `ops'` that end as `outs'` were done instead of `ops` that ended as `outs`: the same, except
that nothing was done, or a write became a flush, where `x` was thrown. -/
inductive Instead (x : Exn) :
    List OutOp → List (Outcome Nat) → List OutOp → List (Outcome Nat) → Prop
  | nil : Instead x [] [] [] []
  | done {op ops o outs ops' outs'} : Instead x ops outs ops' outs' →
      Instead x (op :: ops) (o :: outs) (op :: ops') (o :: outs')
  | nothing {op ops outs ops' outs'} : Instead x ops outs ops' outs' →
      Instead x (op :: ops) (.throw x :: outs) ops' outs'
  | flushed {bytes ops outs ops' outs'} : Instead x ops outs ops' outs' →
      Instead x (.write bytes :: ops) (.throw x :: outs) (.flush :: ops') (.ok 0 :: outs')

namespace Res

variable {δ ε : Type} {raw : List Byte → M δ Nat} {free : List Byte → M ε Nat} {er : δ → ε} {x : Exn}

theorem doOut_limits (h : Limits raw free er x) (op : OutOp) (r : Res δ) :
    Refused er x (doOut raw op) r ∨ Agree er (doOut raw op) (doOut free op) r ∨
    ((∃ bytes, op = .write bytes) ∧ (doOut raw op r).1 = .throw x ∧
      (doOut free .flush (with_ er r)).1 = .ok 0 ∧
      with_ er (doOut raw op r).2 = (doOut free .flush (with_ er r)).2) := by
  cases op with
  | flush =>
    rcases flush_limits h r with h | h
    · exact Or.inl (refused_bind h)
    · exact Or.inr (Or.inl (agree_bind h fun _ _ _ => ⟨rfl, rfl⟩))
  | write bytes =>
    rcases write_limits h bytes r with h | h | ⟨h1, h2, h3⟩
    · exact Or.inl h
    · exact Or.inr (Or.inl h)
    · right; right
      rcases hf : flush free (with_ er r) with ⟨o, s⟩
      rw [hf] at h2 h3
      obtain rfl : o = .ok () := h2
      have e : doOut free .flush (with_ er r) = (.ok 0, s) := by
        simp only [doOut]
        rw [M.bind_ok hf]
        rfl
      exact ⟨⟨_, rfl⟩, h1, by rw [e], by rw [e]; exact h3⟩

theorem run_limits (h : Limits raw free er x) (ops : List OutOp) (r : Res δ) :
    ∃ ops', Instead x ops (outcomes (doOut raw) r ops) ops' (outcomes (doOut free) (with_ er r) ops') ∧
      with_ er (M.stateAfter (doOut raw) r ops) = M.stateAfter (doOut free) (with_ er r) ops' := by
  induction ops generalizing r with
  | nil => exact ⟨[], .nil, rfl⟩
  | cons op ops ih =>
    obtain ⟨ops', h1, h2⟩ := ih (doOut raw op r).2
    rcases doOut_limits h op r with ⟨a1, a2⟩ | ⟨a1, a2⟩ | ⟨⟨bytes, rfl⟩, a1, a2, a3⟩
    · refine ⟨ops', ?_, ?_⟩
      · rw [a2] at h1
        simp only [outcomes, a1]
        exact .nothing h1
      · rw [a2] at h2
        exact h2
    · refine ⟨op :: ops', ?_, ?_⟩
      · rw [a2] at h1
        simp only [outcomes, a1]
        exact .done h1
      · rw [a2] at h2
        exact h2
    · refine ⟨.flush :: ops', ?_, ?_⟩
      · rw [a3] at h1
        simp only [outcomes, a1, a2]
        exact .flushed h1
      · rw [a3] at h2
        exact h2

end Res

theorem outcomes_of_runList {σ : Type} {step : OutOp → M σ Nat} {ops : List OutOp} {s s' : σ}
    {ns : List Nat} (h : M.runList step ops s = (.ok ns, s')) :
    outcomes step s ops = ns.map .ok ∧ M.stateAfter step s ops = s' := by
  induction ops generalizing s ns with
  | nil =>
    cases h
    exact ⟨rfl, rfl⟩
  | cons op ops ih =>
    simp only [M.runList] at h
    rw [M.bind_apply] at h
    rcases hs : step op s with ⟨o, s1⟩
    rw [hs] at h
    cases o with
    | ok n =>
      dsimp only at h
      rw [M.bind_apply] at h
      rcases hr : M.runList step ops s1 with ⟨o, s2⟩
      rw [hr] at h
      cases o with
      | ok ms =>
        cases h
        obtain ⟨i1, i2⟩ := ih hr
        refine ⟨?_, ?_⟩
        · simp only [outcomes, hs, i1, List.map_cons]
        · rw [← i2]
          simp only [M.stateAfter, List.foldl_cons, hs]
      | _ => cases h
    | _ => cases h

theorem Instead.bytes {x : Exn} {ops ops' : List OutOp} {outs outs' : List (Outcome Nat)}
    (h : Instead x ops outs ops' outs') (ho : outs' = ops'.map (fun op => .ok op.bytes.length)) :
    ops'.flatMap OutOp.bytes = accepted ops outs ∧
    outs.length = ops.length ∧
    (∀ p ∈ ops.zip outs, p.2 = .ok p.1.bytes.length ∨ p.2 = .throw x) := by
  induction h with
  | nil => exact ⟨rfl, rfl, by simp⟩
  | done h ih =>
    simp only [List.map_cons, List.cons.injEq] at ho
    obtain ⟨rfl, ho⟩ := ho
    obtain ⟨i1, i2, i3⟩ := ih ho
    refine ⟨by simp [accepted, i1], by simp [i2], ?_⟩
    intro p hp
    rw [List.zip_cons_cons, List.mem_cons] at hp
    rcases hp with rfl | hp
    · exact Or.inl rfl
    · exact i3 p hp
  | nothing h ih =>
    obtain ⟨i1, i2, i3⟩ := ih ho
    refine ⟨by simp [accepted, i1], by simp [i2], ?_⟩
    intro p hp
    rw [List.zip_cons_cons, List.mem_cons] at hp
    rcases hp with rfl | hp
    · exact Or.inr rfl
    · exact i3 p hp
  | flushed h ih =>
    simp only [List.map_cons, List.cons.injEq] at ho
    obtain ⟨i1, i2, i3⟩ := ih ho.2
    refine ⟨by simp [accepted, i1, OutOp.bytes], by simp [i2], ?_⟩
    intro p hp
    rw [List.zip_cons_cons, List.mem_cons] at hp
    rcases hp with rfl | hp
    · exact Or.inr rfl
    · exact i3 p hp

theorem Instead.dvd {x : Exn} {ops ops' : List OutOp} {outs outs' : List (Outcome Nat)} {elem : Nat}
    (h : Instead x ops outs ops' outs') (hops : ∀ op ∈ ops, elem ∣ op.bytes.length) :
    ∀ op ∈ ops', elem ∣ op.bytes.length := by
  induction h with
  | nil => simp
  | done h ih =>
    simp only [List.forall_mem_cons] at hops ⊢
    exact ⟨hops.1, ih hops.2⟩
  | nothing h ih => exact ih (List.forall_mem_cons.1 hops).2
  | flushed h ih =>
    simp only [List.forall_mem_cons] at hops ⊢
    exact ⟨Nat.dvd_zero _, ih hops.2⟩

/-- Appending in unlimited memory, `C39_append` with the state of the buffer. -/
theorem append_writing (cap elem : Nat) (content : List Byte) (hd : elem ∣ content.length)
    (ops : List OutOp) (hops : ∀ op ∈ ops, elem ∣ op.bytes.length) :
    ∃ r', M.runList (Res.doOut Ctr.writeRaw) ops
        ⟨IoBuffer.make cap, ⟨elem, content, ((content.length / elem : Nat) - 0) * elem, 0⟩⟩
          = (.ok (ops.map (·.bytes.length)), r')
      ∧ r'.buf.position ≤ r'.buf.data.length
      ∧ r'.dev.content ++ r'.buf.pending = content ++ ops.flatMap (·.bytes)
      ∧ ∃ r'', Res.flush Ctr.writeRaw r' = (.ok (), r'')
        ∧ r''.dev.content = content ++ ops.flatMap (·.bytes) := by
  have hend : Ctr.Idle elem content content.length
      ⟨elem, content, ((content.length / elem : Nat) - 0) * elem, 0⟩ := by
    refine ⟨rfl, rfl, rfl, ?_⟩
    simp only [Int.sub_zero]
    rw [← Int.natCast_mul, Nat.div_mul_cancel hd]
  have T := Res.takes_overlay (Ctr.store elem) content content.length (Nat.le_refl _)
  have hw := Res.writing_make (adm := fun w => Ctr.allowed elem content.length content.length
    w.length) (got := Res.Overwrote (Ctr.Idle elem) content content.length) cap
    ⟨elem, content, ((content.length / elem : Nat) - 0) * elem, 0⟩ []
    (by simpa [Res.Overwrote, Res.overlay_nil] using hend) (.inl (by simp))
  have hadm : ∀ pre, pre <+: ops → Ctr.allowed elem content.length content.length
      ([] ++ pre.flatMap OutOp.bytes).length := by
    intro pre hp
    have hpre : ∀ op ∈ pre, elem ∣ op.bytes.length := fun op ho => hops op (hp.subset ho)
    clear hp
    refine .inr ⟨rfl, ?_⟩
    rw [List.nil_append]
    induction pre with
    | nil => simp
    | cons op pre ih =>
      rw [List.flatMap_cons, List.length_append]
      exact Nat.dvd_add (hpre op (by simp)) (ih fun o ho => hpre o (by simp [ho]))
  obtain ⟨r', e, h⟩ := Res.runOut_writing T hw ops hadm
  obtain ⟨d, e', -, q⟩ := Res.flush_writing T h (hadm ops (List.prefix_refl _))
  have over : ∀ w, Res.overlay content content.length w = content ++ w := by
    intro w
    simp only [Res.overlay]
    rw [List.take_of_length_le (Nat.le_refl _), List.drop_eq_nil_of_le (by omega), List.append_nil]
  refine ⟨r', e, by rw [h.length]; exact h.position, ?_, _, e', ?_⟩
  · obtain ⟨w, hg, -, hp⟩ := h.written
    have := hg.content_eq
    rw [over] at this
    rw [this, List.append_assoc, hp, List.nil_append]
  · have := q.content_eq
    rw [over] at this
    simpa using this

theorem MCtr.room_granted {H : Heap} {m : MCtr} (hg : H.grants m.asked = true) {n : Nat}
    (hn : n ≤ H.maxSize) (x : Exn) : (MCtr.room H x n m).1 = .ok () := by
  unfold MCtr.room
  split
  · rfl
  · rw [if_neg (Nat.not_lt.mpr hn)]

/-- With memory a flush does what it does in unlimited memory. -/
theorem flush_granted {H : Heap} {x : Exn} {r : Res MCtr} (hg : H.grants r.dev.asked = true)
    (hn : r.dev.ctr.content.length + r.buf.position ≤ H.maxSize) (hp : r.buf.position ≤ r.buf.data.length) :
    Res.Agree MCtr.ctr (Res.flush (MCtr.writeRaw H x)) (Res.flush Ctr.writeRaw) r := by
  have key : ∀ {κ : Type} (raw : List Byte → M κ Nat) (r : Res κ), Res.flush raw r =
      (if r.buf.writeDirty then
        if r.buf.position > r.buf.data.length then M.ub
        else Res.onDev (raw (r.buf.data.take r.buf.position)) >>= fun _ =>
          M.modify fun r => { r with buf := r.buf.setWriteDirty false }
      else pure () : M (Res κ) Unit) r := fun raw r => Res.get_bind _ r
  unfold Res.Agree
  rw [key (MCtr.writeRaw H x), key Ctr.writeRaw]
  have c : (Res.with_ MCtr.ctr r).buf = r.buf := rfl
  rw [c]
  by_cases h1 : r.buf.writeDirty = true
  · rw [if_pos h1, if_pos h1, if_neg (by omega), if_neg (by omega)]
    refine Res.agree_bind ?_ fun _ _ _ => ⟨rfl, rfl⟩
    suffices h : (MCtr.writeRaw H x (r.buf.data.take r.buf.position) r.dev).1
        = (Ctr.writeRaw (r.buf.data.take r.buf.position) r.dev.ctr).1 ∧
        (MCtr.writeRaw H x (r.buf.data.take r.buf.position) r.dev).2.ctr
        = (Ctr.writeRaw (r.buf.data.take r.buf.position) r.dev.ctr).2 by
      exact ⟨h.1, by simp only [Res.with_, Res.onDev, h.2]⟩
    have hl : (r.buf.data.take r.buf.position).length = r.buf.position := by simp; omega
    unfold MCtr.writeRaw
    dsimp only
    split
    · simp [Ctr.writeRaw, *]
    · rw [hl]
      have hm : (if r.dev.ctr.position + r.buf.position > r.dev.ctr.content.length then
          r.dev.ctr.content.length + r.buf.position / r.dev.ctr.elem * r.dev.ctr.elem
          else r.dev.ctr.content.length) ≤ H.maxSize := by
        have := Nat.div_mul_le_self r.buf.position r.dev.ctr.elem
        split <;> omega
      rcases hr : MCtr.room H x _ r.dev with ⟨o, m'⟩
      have ho := MCtr.room_granted hg hm x
      rw [hr] at ho
      obtain rfl : o = .ok () := ho
      exact ⟨rfl, rfl⟩
  · rw [if_neg h1, if_neg h1]
    exact ⟨rfl, rfl⟩

end Cmp
