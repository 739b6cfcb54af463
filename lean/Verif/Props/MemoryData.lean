import Verif.Props.MemoryText
import Verif.Props.Stream

/-
Properties of data streams on containers when memory runs out.
-/

namespace Cmp

open OutStream

/-- What a program does with a data output stream. -/
inductive DataOp where
  | value (object : List Byte)
  | flush

/-- The operation on the stream. -/
def DataOp.run {ρ : Type} (native : Endian) (W : Writer ρ) : DataOp → M (OutStream ρ) Unit
  | value object => writeValue native W object
  | flush => OutStream.flush W

/-- The results of operations whose exceptions are caught. -/
def dataOutcomes {ρ : Type} (native : Endian) (W : Writer ρ) :
    OutStream ρ → List DataOp → List (Outcome Unit)
  | _, [] => []
  | s, op :: ops => (op.run native W s).1 :: dataOutcomes native W (op.run native W s).2 ops

/-- The values whose operation returned. -/
def returnedValues : List DataOp → List (Outcome Unit) → List (List Byte)
  | .value object :: ops, .ok () :: outs => object :: returnedValues ops outs
  | _ :: ops, _ :: outs => returnedValues ops outs
  | _, _ => []

theorem emits_writeValue {ρ : Type} {W : Writer ρ} {got : List Byte → ρ → Prop} {x : Exn}
    (R : W.Refuses got x) {f : EncodingForm} {o : Endian} (native : Endian) (object : List Byte)
    (h : object ≠ []) :
    Emits got x f o (writeValue native W object) () [wireBytes native o object] := by
  refine emits_get fun s _ ho => ?_
  rw [ho, wireBytes]
  by_cases hn : o = native
  · rw [if_pos hn, if_pos hn]
    exact emits_write R _
  · rw [if_neg hn, if_neg hn]
    exact emits_reverseWrite R _ h fun _ => emits_pure ()

/-- The operations of a program, whatever is refused. -/
theorem runs_values (H : Heap) (x : Exn) (native : Endian) (cap : Nat) (content : List Byte)
    (ops : List DataOp) (hops : ∀ object, DataOp.value object ∈ ops → object ≠ []) :
    ∀ (s : OutStream (Res MCtr)) (w : List Byte), MCtr.Appending cap content w s.res →
      (∀ out ∈ dataOutcomes native (MCtr.writer H x) s ops, out = .ok () ∨ out = .throw x) ∧
      ∃ r', M.stateAfter (DataOp.run native (MCtr.writer H x)) s ops = { s with res := r' } ∧
        MCtr.Appending cap content (w ++
          (returnedValues ops (dataOutcomes native (MCtr.writer H x) s ops)).flatMap
            (wireBytes native s.endian)) r' := by
  induction ops with
  | nil =>
    intro s w hg
    exact ⟨by simp [dataOutcomes], s.res, rfl, by simpa [returnedValues] using hg⟩
  | cons op ops ih =>
    intro s w hg
    have hops' : ∀ object, DataOp.value object ∈ ops → object ≠ [] := fun o h => hops o (by simp [h])
    have step : ∀ (out : Outcome Unit) (r1 : Res MCtr) (w' : List Byte),
        op.run native (MCtr.writer H x) s = (out, { s with res := r1 }) → (out = .ok () ∨ out = .throw x) →
        MCtr.Appending cap content (w ++ w') r1 →
        (∀ outs, returnedValues (op :: ops) (out :: outs) =
          returnedValues [op] [out] ++ returnedValues ops outs) →
        w' = (returnedValues [op] [out]).flatMap
          (wireBytes native s.endian) →
        (∀ o' ∈ dataOutcomes native (MCtr.writer H x) s (op :: ops), o' = .ok () ∨ o' = .throw x) ∧
        ∃ r', M.stateAfter (DataOp.run native (MCtr.writer H x)) s (op :: ops) = { s with res := r' } ∧
          MCtr.Appending cap content (w ++
            (returnedValues (op :: ops) (dataOutcomes native (MCtr.writer H x) s (op :: ops))).flatMap
              (wireBytes native s.endian)) r' := by
      intro out r1 w' e ho hq hr hw
      obtain ⟨h1, r2, e2, q2⟩ := ih hops' { s with res := r1 } _ hq
      have hd : dataOutcomes native (MCtr.writer H x) s (op :: ops) =
          out :: dataOutcomes native (MCtr.writer H x) { s with res := r1 } ops := by
        rw [dataOutcomes, e]
      refine ⟨?_, r2, ?_, ?_⟩
      · rw [hd]
        intro o' h
        rcases List.mem_cons.mp h with rfl | h
        · exact ho
        · exact h1 o' h
      · change M.stateAfter (DataOp.run native (MCtr.writer H x)) (op.run native (MCtr.writer H x) s).2 ops = _
        rw [e]
        exact e2
      · rw [hd, hr, List.flatMap_append, ← hw, ← List.append_assoc]
        exact q2
    cases op with
    | value object =>
      rcases emits_writeValue (f := s.form) (o := s.endian) (MCtr.refuses H x cap content) native object
        (hops object (by simp)) s w rfl rfl hg with ⟨r', e, q⟩ | ⟨k, r', hk, e, q⟩
      · exact step (.ok ()) r' _ e (Or.inl rfl) q (fun _ => rfl) (by simp [returnedValues])
      · obtain rfl : k = 0 := by simpa using hk
        exact step (.throw x) r' [] e (Or.inr rfl) (by simpa using q) (fun _ => rfl) rfl
    | flush =>
      rcases flush_cases (flush_stream H x cap content) rfl s w hg with ⟨r', e, q⟩ | ⟨r', e, q⟩
      · exact step (.ok ()) r' [] e (Or.inl rfl) (by simpa using q) (fun _ => rfl) rfl
      · exact step (.throw x) r' [] e (Or.inr rfl) (by simpa using q) (fun _ => rfl) rfl

/-- C149: whatever requests for memory are refused, every operation returns or throws; a flush then either
returns, and the container has its old content and after it the values whose operation returned, each whole,
in order, and nothing else, or it throws and has lost nothing: the values are still in the container and the
buffer.  If there is memory for it, it returns. -/
theorem C149 (H : Heap) (x : Exn) (native e : Endian) (form : EncodingForm) (cap : Nat)
    (content : List Byte) (capacity asked : Nat) (ops : List DataOp)
    (hops : ∀ object, DataOp.value object ∈ ops → object ≠ []) :
    let start := appendStream form e cap content capacity asked
    let outs := dataOutcomes native (MCtr.writer H x) start ops
    let s := M.stateAfter (DataOp.run native (MCtr.writer H x)) start ops
    let wire := (returnedValues ops outs).flatMap (wireBytes native e)
    let f := OutStream.flush (MCtr.writer H x) s
    (∀ out ∈ outs, out = .ok () ∨ out = .throw x) ∧
    (f.1 = .ok () ∧ f.2.res.dev.ctr.content = content ++ wire ∨
      f.1 = .throw x ∧ f.2.res.dev.ctr.content ++ f.2.res.buf.pending = content ++ wire) ∧
    (H.grants s.res.dev.asked = true → content.length + wire.length ≤ H.maxSize → f.1 = .ok ()) := by
  obtain ⟨h1, r', es, q⟩ := runs_values H x native cap content ops hops
    (appendStream form e cap content capacity asked) [] (MCtr.appending_start cap content capacity asked)
  rw [List.nil_append] at q
  intro start outs s wire f
  have fl : f = ((Res.flush (MCtr.writeRaw H x) r').1,
      { start with res := (Res.flush (MCtr.writeRaw H x) r').2 }) := by
    change OutStream.flush (MCtr.writer H x) s = _
    rw [show s = { start with res := r' } from es]
    rfl
  have hsr : s.res = r' := by rw [show s = { start with res := r' } from es]
  refine ⟨h1, ?_, ?_⟩
  · rcases MCtr.flush_appending H x cap content _ r' q with ⟨r'', e, -, h⟩ | ⟨r'', e, q'⟩
    · left
      rw [fl, e]
      exact ⟨rfl, h⟩
    · right
      rw [fl, e]
      exact ⟨rfl, q'.content⟩
  · rw [hsr, fl]
    intro hg hm
    change (Res.flush (MCtr.writeRaw H x) r').1 = _
    by_cases hw : r'.buf.writeDirty = true
    · have hlen := congrArg List.length q.content
      simp only [List.length_append, IoBuffer.pending, hw, if_true, List.length_take] at hlen
      have hp := q.room
      have hlw : wire.length = ((returnedValues ops (dataOutcomes native (MCtr.writer H x)
        (appendStream form e cap content capacity asked) ops)).flatMap (wireBytes native
          (appendStream form e cap content capacity asked).endian)).length := rfl
      have := flush_granted (x := x) (r := r') hg (by omega) hp
      obtain ⟨d, e, -, -⟩ := Res.flush_writing (MCtr.takes content) q (MCtr.allowed_any _ _)
      rw [this.1, e]
    · rw [Res.flush_clean _ _ (by simpa using hw)]

/-- What was kept is read back by a data input stream of the byte order of the host: exactly the values whose
operation returned. -/
theorem C149_read (H : Heap) (x : Exn) (native : Endian) (form : EncodingForm) (cap cap' : Nat)
    (capacity asked : Nat) (ops : List DataOp)
    (hops : ∀ object, DataOp.value object ∈ ops → object ≠ [] ∧ (object.length ≤ cap' ∨ cap' = 0)) :
    let start := appendStream form native cap [] capacity asked
    let outs := dataOutcomes native (MCtr.writer H x) start ops
    let s := M.stateAfter (DataOp.run native (MCtr.writer H x)) start ops
    let f := OutStream.flush (MCtr.writer H x) s
    f.1 = .ok () →
      received cap' f.2.res.dev.ctr.content native form (readValues native (returnedValues ops outs))
        = .ok (returnedValues ops outs) := by
  intro start outs s f hf
  obtain ⟨-, h, -⟩ := C149 H x native native form cap [] capacity asked ops fun o ho => (hops o ho).1
  have hc : f.2.res.dev.ctr.content = (returnedValues ops outs).flatMap (wireBytes native native) := by
    rcases h with ⟨-, h⟩ | ⟨h, -⟩
    · simpa using h
    · exact absurd (hf.symm.trans h) (by simp)
  have mem : ∀ (ops : List DataOp) (outs : List (Outcome Unit)), ∀ o ∈ returnedValues ops outs,
      DataOp.value o ∈ ops := by
    intro ops
    induction ops with
    | nil => intro outs o h; cases outs <;> simp [returnedValues] at h
    | cons op ops ih =>
      intro outs o h
      cases outs with
      | nil => cases op <;> simp [returnedValues] at h
      | cons out outs =>
        cases op with
        | flush => exact List.mem_cons_of_mem _ (ih outs o h)
        | value object =>
          cases out with
          | ok u =>
            rcases List.mem_cons.mp h with rfl | h
            · exact List.mem_cons_self
            · exact List.mem_cons_of_mem _ (ih outs o h)
          | _ => exact List.mem_cons_of_mem _ (ih outs o h)
  rw [hc, received_values native native form cap' _ fun o ho => hops o (mem ops outs o ho)]
  congr 1
  conv => rhs; rw [← List.map_id (returnedValues ops outs)]
  apply List.map_congr_left
  intro o _
  simp [wireBytes]

/-- The second request for memory is refused while the third value is written into a full buffer: that value
is missing, the others are whole, here in the byte order of the other machine. -/
example :
    let H : Heap := ⟨fun k => k ≠ 1, id, 100⟩
    let ops : List DataOp := [.value [1, 2], .value [3, 4], .flush, .value [5, 6, 7, 8, 9], .value [10, 11], .flush]
    let start := appendStream .utf8 .big 4 [0] 1 0
    dataOutcomes .little (MCtr.writer H .outOfRange) start ops
      = [.ok (), .ok (), .ok (), .throw .outOfRange, .ok (), .ok ()]
    ∧ (M.stateAfter (DataOp.run .little (MCtr.writer H .outOfRange)) start ops).res.dev.ctr.content
      = [0, 2, 1, 4, 3, 11, 10] := by
  decide +kernel

end Cmp
