import Verif.Proofs.Output

/-
Output resources on any device: the batches in which the device is given the data.
-/

namespace Cmp

namespace Spec

/-- The batches in which a buffer of `cap` bytes passes on what is written, `pending` being what it
keeps at the start; at the end it is flushed. -/
def batches (cap : Nat) : Option (List Byte) → List OutOp → List (List Byte)
  | pending, [] => pending.toList
  | pending, .flush :: ops => pending.toList ++ batches cap none ops
  | pending, .write bytes :: ops =>
    if cap = 0 then bytes :: batches cap pending ops
    else if (pending.getD []).length + bytes.length > cap then
      if bytes.length > cap then pending.toList ++ bytes :: batches cap none ops
      else pending.toList ++ batches cap (some bytes) ops
    else batches cap (some (pending.getD [] ++ bytes)) ops

/-- Nothing is lost on the way. -/
theorem batches_flatten (cap : Nat) (pending : Option (List Byte)) (ops : List OutOp)
    (h : cap = 0 → pending = none) :
    (batches cap pending ops).flatten = pending.getD [] ++ ops.flatMap (·.bytes) := by
  induction ops generalizing pending with
  | nil => cases pending <;> simp [batches]
  | cons op ops ih =>
    cases op with
    | flush =>
      rw [batches, List.flatten_append, ih none (fun _ => rfl)]
      cases pending <;> simp [OutOp.bytes]
    | write bytes =>
      rw [batches]
      split
      · next hc =>
        have := h hc
        subst this
        rw [List.flatten_cons, ih none (fun _ => rfl)]
        simp [OutOp.bytes]
      · next hc =>
        split
        · split
          · rw [List.flatten_append, List.flatten_cons, ih none (fun _ => rfl)]
            cases pending <;> simp [OutOp.bytes]
          · rw [List.flatten_append, ih _ (fun h => absurd h hc)]
            cases pending <;> simp [OutOp.bytes]
        · rw [ih _ (fun h => absurd h hc)]
          simp [OutOp.bytes]

end Spec

open Spec (batches)

/-- Only whether it is an orderly end, or which other one. -/
def Outcome.ending {α : Type} : Outcome α → Outcome Unit
  | .ok _ => .ok ()
  | .throw e => .throw e
  | .terminate => .terminate
  | .ub => .ub
  | .hang => .hang

@[simp] theorem Outcome.ending_ok {α : Type} (a : α) : (Outcome.ok a).ending = .ok () := rfl

namespace Res

variable {δ : Type}

theorem runList_then (raw : List Byte → M δ Nat) (bs cs : List (List Byte)) (d : δ) :
    M.runList raw (bs ++ cs) d
      = (do let ks ← M.runList raw bs; let as ← M.runList raw cs; pure (ks ++ as) : M δ (List Nat)) d := by
  induction bs generalizing d with
  | nil =>
    simp only [M.runList, M.bind_apply, List.nil_append, M.pure_apply]
    rcases M.runList raw cs d with ⟨_ | _ | _ | _ | _, _⟩ <;> rfl
  | cons b bs ih =>
    simp only [List.cons_append, M.runList, M.bind_apply]
    rcases raw b d with ⟨_ | _ | _ | _ | _, d1⟩ <;> try rfl
    simp only
    rw [ih, M.bind_apply]
    rcases M.runList raw bs d1 with ⟨_ | _ | _ | _ | _, d2⟩ <;> try rfl
    simp only [M.bind_apply, M.pure_apply]
    rcases M.runList raw cs d2 with ⟨_ | _ | _ | _ | _, d3⟩ <;> rfl

/-- An output resource that keeps `pending`. -/
structure Keeps (cap : Nat) (pending : Option (List Byte)) (r : Res δ) : Prop where
  length : r.buf.data.length = cap
  position : r.buf.position = (pending.getD []).length
  fits : (pending.getD []).length ≤ cap
  dirty : r.buf.writeDirty = pending.isSome
  data : r.buf.data.take r.buf.position = pending.getD []

theorem keeps_make (cap : Nat) (d : δ) : Keeps cap none ⟨IoBuffer.make cap, d⟩ :=
  ⟨by simp [IoBuffer.make], rfl, by simp, rfl, by simp [IoBuffer.make]⟩

/-- `x` gives the device the batches `bs`, and then `pending` is kept. -/
structure Gives {α : Type} (raw : List Byte → M δ Nat) (cap : Nat) (x : M (Res δ) α)
    (bs : List (List Byte)) (pending : Option (List Byte)) (r : Res δ) : Prop where
  ending : (x r).1.ending = (M.runList raw bs r.dev).1.ending
  dev : (x r).2.dev = (M.runList raw bs r.dev).2
  keeps : (x r).1.ending = .ok () → Keeps cap pending (x r).2

variable {raw : List Byte → M δ Nat} {cap : Nat} {α β : Type}

theorem gives_bind {x : M (Res δ) α} {f : α → M (Res δ) β} {bs cs : List (List Byte)}
    {p p' : Option (List Byte)} {r : Res δ} (h : Gives raw cap x bs p r)
    (hf : ∀ a r', Keeps cap p r' → Gives raw cap (f a) cs p' r') :
    Gives raw cap (x >>= f) (bs ++ cs) p' r := by
  obtain ⟨h1, h2, h3⟩ := h
  rcases hx : x r with ⟨o, r'⟩
  rw [hx] at h1 h2 h3
  simp only at h1 h2 h3
  rcases hb : M.runList raw bs r.dev with ⟨o', d⟩
  rw [hb] at h1 h2
  simp only at h1 h2
  cases o' with
  | ok ks =>
    cases o with
    | ok a =>
      obtain ⟨g1, g2, g3⟩ := hf a r' (h3 rfl)
      have hxf : (x >>= f) r = f a r' := M.bind_ok hx
      have happ : M.runList raw (bs ++ cs) r.dev
          = (do let as ← M.runList raw cs; pure (ks ++ as) : M δ (List Nat)) d := by
        rw [runList_then, M.bind_ok hb]
      subst h2
      constructor
      · rw [hxf, happ, g1, M.bind_apply]
        rcases M.runList raw cs r'.dev with ⟨_ | _ | _ | _ | _, _⟩ <;> rfl
      · rw [hxf, happ, g2, M.bind_apply]
        rcases M.runList raw cs r'.dev with ⟨_ | _ | _ | _ | _, _⟩ <;> rfl
      · rw [hxf]; exact g3
    | _ => simp [Outcome.ending] at h1
  | _ =>
    have hxf : ((x >>= f) r).1.ending = o.ending ∧ ((x >>= f) r).2 = r' := by
      rw [M.bind_apply, hx]
      cases o <;> first | exact ⟨rfl, rfl⟩ | simp [Outcome.ending] at h1
    have happ : (M.runList raw (bs ++ cs) r.dev).1.ending = o.ending
        ∧ (M.runList raw (bs ++ cs) r.dev).2 = d := by
      rw [runList_then, M.bind_apply, hb, h1]
      exact ⟨rfl, rfl⟩
    refine ⟨by rw [hxf.1, happ.1], by rw [hxf.2, happ.2, h2], fun h => ?_⟩
    rw [hxf.1, h1] at h
    simp [Outcome.ending] at h

/-- Something that does not concern the device. -/
theorem gives_none {x : M (Res δ) α} {p : Option (List Byte)} {r r' : Res δ} {a : α}
    (h : x r = (.ok a, r')) (hd : r'.dev = r.dev) (hk : Keeps cap p r') :
    Gives raw cap x [] p r := by
  refine ⟨?_, ?_, fun _ => ?_⟩
  · rw [h]; rfl
  · rw [h]; exact hd
  · rw [h]; exact hk

/-- Something that passes on one batch. -/
theorem gives_one {x : M (Res δ) α} {p : Option (List Byte)} {r : Res δ} {bs : List Byte}
    (h1 : (x r).1.ending = (raw bs r.dev).1.ending) (h2 : (x r).2.dev = (raw bs r.dev).2)
    (hk : (x r).1.ending = .ok () → Keeps cap p (x r).2) : Gives raw cap x [bs] p r := by
  refine ⟨?_, ?_, hk⟩
  · rw [h1]
    simp only [M.runList, M.bind_apply]
    rcases raw bs r.dev with ⟨_ | _ | _ | _ | _, _⟩ <;> rfl
  · rw [h2]
    simp only [M.runList, M.bind_apply]
    rcases raw bs r.dev with ⟨_ | _ | _ | _ | _, _⟩ <;> rfl

theorem gives_flush {p : Option (List Byte)} {r : Res δ} (h : Keeps cap p r) :
    Gives raw cap (flush raw) p.toList none r := by
  cases p with
  | none => exact gives_none (flush_clean raw r (by simpa using h.dirty)) rfl h
  | some bs =>
    have hd := h.data
    have hl := h.length
    have hp := h.position
    have hf := h.fits
    simp only [Option.getD_some] at hd hp hf
    have e : flush raw r = (do
        let _ ← onDev (raw bs)
        M.modify fun r => { r with buf := r.buf.setWriteDirty false } : M (Res δ) Unit) r := by
      rw [flush, M.bind_ok (M.get_apply r), if_pos (by simpa using h.dirty), if_neg (by omega), hd]
    rw [Option.toList_some]
    refine gives_one ?_ ?_ ?_
    · rw [e, M.bind_apply]
      simp only [onDev]
      rcases raw bs r.dev with ⟨_ | _ | _ | _ | _, _⟩ <;> rfl
    · rw [e, M.bind_apply]
      simp only [onDev]
      rcases raw bs r.dev with ⟨_ | _ | _ | _ | _, _⟩ <;> rfl
    · rw [e, M.bind_apply]
      simp only [onDev]
      rcases raw bs r.dev with ⟨_ | _ | _ | _ | _, d⟩
      · intro _
        exact ⟨hl, rfl, by simp, rfl, by simp [IoBuffer.setWriteDirty]⟩
      all_goals (intro h; simp [Outcome.ending] at h)

theorem gives_direct {p : Option (List Byte)} {r : Res δ} (h : Keeps cap p r) (bs : List Byte) :
    Gives raw cap (onDev (raw bs)) [bs] p r :=
  gives_one rfl rfl fun _ => ⟨h.length, h.position, h.fits, h.dirty, h.data⟩

theorem gives_keep {p : Option (List Byte)} {r : Res δ} (h : Keeps cap p r) (bs : List Byte)
    (hf : (p.getD []).length + bs.length ≤ cap) :
    Gives raw cap (bufWrite bs) [] (some (p.getD [] ++ bs)) r := by
  have hl := h.length
  have hp := h.position
  have hd := h.data
  refine gives_none (bufWrite_ok r bs (by omega)) rfl ⟨?_, ?_, ?_, rfl, ?_⟩
  · simp; omega
  · simp [hp]
  · simp; omega
  · simp only [Option.getD_some]
    rw [hd, List.take_append_of_le_length (by simp; omega), List.take_of_length_le (by simp; omega)]

/-- Whatever the device does, it is given the batches of the specification; and what it does with
them is what the program meets. -/
theorem gives_run (ops : List OutOp) {p : Option (List Byte)} {r : Res δ} (h : Keeps cap p r)
    (h0 : cap = 0 → p = none) :
    Gives raw cap (do let _ ← M.runList (doOut raw) ops; flush raw) (batches cap p ops) none r := by
  have tail : ∀ {x : M (Res δ) Nat} {bs : List (List Byte)}
      {p' : Option (List Byte)} (op : OutOp) (ops : List OutOp) (r : Res δ),
      Gives raw cap x bs p' r → doOut raw op r = x r →
      (∀ r', Keeps cap p' r' → Gives raw cap
        (do let _ ← M.runList (doOut raw) ops; flush raw) (batches cap p' ops) none r') →
      Gives raw cap (do let _ ← M.runList (doOut raw) (op :: ops); flush raw)
        (bs ++ batches cap p' ops) none r := by
    intro x bs p' op ops r hx hop hrest
    have e : (do let _ ← M.runList (doOut raw) (op :: ops); flush raw : M (Res δ) Unit) r
        = (do let _ ← x; let _ ← M.runList (doOut raw) ops; flush raw : M (Res δ) Unit) r := by
      simp only [M.runList, M.bind_apply, hop]
      rcases x r with ⟨_ | _ | _ | _ | _, r1⟩ <;> try rfl
      simp only
      rcases M.runList (doOut raw) ops r1 with ⟨_ | _ | _ | _ | _, r2⟩ <;> rfl
    obtain ⟨a1, a2, a3⟩ := gives_bind (f := fun _ => (do let _ ← M.runList (doOut raw) ops; flush raw :
      M (Res δ) Unit)) hx (fun _ r' hk => hrest r' hk)
    exact ⟨by rw [e]; exact a1, by rw [e]; exact a2, by rw [e]; exact a3⟩
  induction ops generalizing p r with
  | nil =>
    obtain ⟨a1, a2, a3⟩ := gives_flush (raw := raw) h
    exact ⟨a1, a2, a3⟩
  | cons op ops ih =>
    cases op with
    | flush =>
      rw [batches]
      have hx : Gives raw cap (do flush raw; pure 0 : M (Res δ) Nat) (p.toList ++ []) none r :=
        gives_bind (gives_flush h) fun a r' hk => gives_none rfl rfl hk
      rw [List.append_nil] at hx
      exact tail .flush ops r hx rfl fun r' hk => ih hk (fun _ => rfl)
    | write bs =>
      have hl := h.length
      have hp := h.position
      rw [batches]
      by_cases hc : cap = 0
      · rw [if_pos hc]
        exact tail (bs := [bs]) (.write bs) ops r (gives_direct h bs) (by
          show write raw bs r = _
          rw [write, M.bind_ok (M.get_apply r), if_neg (by simp only [IoBuffer.capacity]; omega)])
          fun r' hk => ih hk h0
      · rw [if_neg hc]
        have hw : doOut raw (.write bs) r = writeBuffered raw bs r := by
          show write raw bs r = _
          rw [write, M.bind_ok (M.get_apply r), if_pos (by simp only [IoBuffer.capacity]; omega)]
        by_cases hover : (p.getD []).length + bs.length > cap
        · rw [if_pos hover]
          by_cases hbig : bs.length > cap
          · rw [if_pos hbig]
            have hx : Gives raw cap (do flush raw; onDev (raw bs) : M (Res δ) Nat)
                (p.toList ++ [bs]) none r :=
              gives_bind (gives_flush h) fun a r' hk => gives_direct hk bs
            have := tail (.write bs) ops r hx (by
              rw [hw, writeBuffered, M.bind_ok (M.get_apply r),
                if_pos (by simp only [IoBuffer.capacity]; omega),
                if_pos (by simp only [IoBuffer.capacity]; omega)])
              fun r' hk => ih hk (fun _ => rfl)
            rwa [List.append_assoc] at this
          · rw [if_neg hbig]
            have hx : Gives raw cap (do flush raw; bufWrite bs : M (Res δ) Nat)
                (p.toList ++ []) (some bs) r :=
              gives_bind (gives_flush h) fun a r' hk => by
                simpa using gives_keep hk bs (by simp; omega)
            rw [List.append_nil] at hx
            exact tail (.write bs) ops r hx (by
              rw [hw, writeBuffered, M.bind_ok (M.get_apply r),
                if_pos (by simp only [IoBuffer.capacity]; omega),
                if_neg (by simp only [IoBuffer.capacity]; omega)])
              fun r' hk => ih hk (fun h => absurd h hc)
        · rw [if_neg hover]
          have := tail (.write bs) ops r (gives_keep h bs (by omega)) (by
              rw [hw, writeBuffered, M.bind_ok (M.get_apply r),
                if_neg (by simp only [IoBuffer.capacity]; omega)])
              fun r' hk => ih hk (fun h => absurd h hc)
          simpa using this

end Res

end Cmp
