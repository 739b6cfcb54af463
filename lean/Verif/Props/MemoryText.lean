import Verif.Proofs.MemoryText
import Verif.Props.TextValues

/-
Properties of text streams on containers when memory runs out.
-/

namespace Cmp

open OutStream

/-- What a program does with a text output stream. -/
inductive TextOp where
  | point (c : Nat)
  | string (e : Enc) (s : Str e) (cs : List Nat)
  | flush

namespace TextOp

/-- The text that an operation is to write. -/
def text : TextOp → List Nat
  | point c => [c]
  | string _ _ cs => cs
  | flush => []

/-- The operation on the stream. -/
def run {ρ : Type} (native : Endian) (W : Writer ρ) : TextOp → M (OutStream ρ) Unit
  | point c => writeCodePoint native W (BitVec.ofNat 32 c)
  | string e s _ => writeString native W e s
  | flush => OutStream.flush W

/-- Text that is written as it should be in unlimited memory (`C75_partial`). -/
def Fine (native : Endian) (f : EncodingForm) (o : Endian) : TextOp → Prop
  | point c => Spec.IsScalar c ∧ (f = .utf8 → ¬ LowSurrogate c)
  | string e s cs => TextOf e s cs ∧ (SameUnits native o f e ∨
      (e.form = .utf16 → ∀ c ∈ cs, Spec.IsBmp c) ∧ (f = .utf8 → ∀ c ∈ cs, ¬ LowSurrogate c))
  | flush => True

/-- The portions in which an operation writes. -/
def portions (native : Endian) (f : EncodingForm) (o : Endian) : TextOp → List (List Byte)
  | point c => OutStream.portions native f o c
  | string e _ cs =>
    if SameUnits native o f e then [textBytes f o cs] else cs.flatMap (OutStream.portions native f o)
  | flush => []

end TextOp

/-- The results of operations whose exceptions are caught. -/
def textOutcomes {ρ : Type} (native : Endian) (W : Writer ρ) :
    OutStream ρ → List TextOp → List (Outcome Unit)
  | _, [] => []
  | s, op :: ops => (op.run native W s).1 :: textOutcomes native W (op.run native W s).2 ops

/-- A text stream that appends to a container of bytes. -/
def appendStream (f : EncodingForm) (o : Endian) (cap : Nat) (content : List Byte) (capacity asked : Nat) :
    OutStream (Res MCtr) :=
  ⟨⟨IoBuffer.make cap, ⟨⟨1, content, content.length, 0⟩, capacity, asked⟩⟩, o, f⟩

/-- Such a stream is what moving to the end of a container leaves. -/
theorem appendStream_res (H : Heap) (x : Exn) (f : EncodingForm) (o : Endian) (cap : Nat)
    (content : List Byte) (capacity asked : Nat) :
    Res.setPositionOut (MCtr.writeRaw H x) MCtr.seek 0 .end
      ⟨IoBuffer.make cap, ⟨Ctr.make 1 content, capacity, asked⟩⟩
        = (.ok (), (appendStream f o cap content capacity asked).res) := by
  have h : ((content.length / 1 : Nat) - 0 : Int) * (1 : Nat) = content.length := by simp
  have e : Res.setPositionOut (MCtr.writeRaw H x) MCtr.seek 0 .end
      ⟨IoBuffer.make cap, ⟨Ctr.make 1 content, capacity, asked⟩⟩ =
      (.ok (), ⟨IoBuffer.make cap, ⟨⟨1, content, ((content.length / 1 : Nat) - 0 : Int) * (1 : Nat), 0⟩,
        capacity, asked⟩⟩) := rfl
  rw [e, h]
  rfl

theorem takesMemory_iff {ρ : Type} (native : Endian) (e : Enc) (s : OutStream ρ) :
    takesMemory native e s = true ↔ SameUnits native s.endian s.form e := by
  unfold takesMemory SameUnits
  cases e <;> cases s.form <;> simp [Enc.form, EncodingForm.form]

/-- An operation ends as it should or throws; what it wrote are the first of its portions. -/
theorem run_portions {ρ : Type} {W : Writer ρ} {got : List Byte → ρ → Prop} {x : Exn}
    (R : W.Refuses got x)
    (F : ∀ w r, got w r → (∃ r', W.flush r = (.ok (), r') ∧ got w r') ∨
      ∃ r', W.flush r = (.throw x, r') ∧ got w r')
    (native : Endian) {f : EncodingForm} {o : Endian} (op : TextOp) (hop : op.Fine native f o)
    (s : OutStream ρ) (w : List Byte) (hf : s.form = f) (ho : s.endian = o) (hg : got w s.res) :
    ∃ out k r', op.run native W s = (out, { s with res := r' }) ∧
      got (w ++ ((op.portions native f o).take k).flatten) r' ∧
      (out = .ok () ∧ k = (op.portions native f o).length ∨
        out = .throw x ∧ (k < (op.portions native f o).length ∨ op = .flush ∧ k = 0)) := by
  have fin : ∀ (m : M (OutStream ρ) Unit) ps, Emits got x f o m () ps →
      ∃ out k r', m s = (out, { s with res := r' }) ∧ got (w ++ (ps.take k).flatten) r' ∧
        (out = .ok () ∧ k = ps.length ∨ out = .throw x ∧ k < ps.length) := by
    intro m ps h
    rcases h s w hf ho hg with ⟨r', e, q⟩ | ⟨k, r', hk, e, q⟩
    · exact ⟨_, ps.length, r', e, by rw [List.take_length]; exact q, Or.inl ⟨rfl, rfl⟩⟩
    · exact ⟨_, k, r', e, q, Or.inr ⟨rfl, hk⟩⟩
  cases op with
  | point c =>
    obtain ⟨out, k, r', e, q, h⟩ := fin _ _ (emits_writeCodePoint R native c (writeOk_of hop.1 hop.2))
    exact ⟨out, k, r', e, q, h.imp id fun h => ⟨h.1, Or.inl h.2⟩⟩
  | string e s' cs =>
    have hE : Emits got x f o (writeString native W e s') () ((TextOp.string e s' cs).portions native f o) := by
      obtain ⟨ht, hok⟩ := hop
      rw [ht.eq]
      have iff := takesMemory_iff (ρ := ρ) native e s
      rw [hf, ho] at iff
      rcases emits_writeString (f := f) (o := o) R native e cs (fun s hf ho => stringOk_of ht (by
        rw [hf, ho]; exact hok)) with ⟨h1, h2⟩ | ⟨h1, h2⟩
      · have hS : SameUnits native o f e := iff.mp (h1 s hf ho)
        simp only [TextOp.portions, if_pos hS]
        exact h2
      · have hS : ¬ SameUnits native o f e := fun h => by
          have := iff.mpr h
          rw [h1 s hf ho] at this
          cases this
        simp only [TextOp.portions, if_neg hS]
        exact h2
    obtain ⟨out, k, r', e, q, h⟩ := fin _ _ hE
    exact ⟨out, k, r', e, q, h.imp id fun h => ⟨h.1, Or.inl h.2⟩⟩
  | flush =>
    rcases flush_cases F rfl s w hg with ⟨r', e, q⟩ | ⟨r', e, q⟩
    · exact ⟨_, 0, r', e, by simpa using q, Or.inl ⟨rfl, rfl⟩⟩
    · exact ⟨_, 0, r', e, by simpa using q, Or.inr ⟨rfl, Or.inr ⟨rfl, rfl⟩⟩⟩

/-- `done` says of each operation how many of its portions were written: all, if it returned, and fewer, if
it threw. -/
inductive Portioned (native : Endian) (f : EncodingForm) (o : Endian) (x : Exn) :
    List TextOp → List (Outcome Unit) → List Nat → Prop where
  | nil : Portioned native f o x [] [] []
  | returned {op ops outs done} : Portioned native f o x ops outs done →
      Portioned native f o x (op :: ops) (.ok () :: outs) ((op.portions native f o).length :: done)
  | threw {op ops outs done k} : k < (op.portions native f o).length ∨ op = .flush ∧ k = 0 →
      Portioned native f o x ops outs done →
      Portioned native f o x (op :: ops) (.throw x :: outs) (k :: done)

/-- The bytes of the portions that were written. -/
def portionBytes (native : Endian) (f : EncodingForm) (o : Endian) (ops : List TextOp) (done : List Nat) :
    List Byte :=
  ((ops.zip done).map fun p => ((p.1.portions native f o).take p.2).flatten).flatten

theorem runs_portions {ρ : Type} {W : Writer ρ} {got : List Byte → ρ → Prop} {x : Exn}
    (R : W.Refuses got x)
    (F : ∀ w r, got w r → (∃ r', W.flush r = (.ok (), r') ∧ got w r') ∨
      ∃ r', W.flush r = (.throw x, r') ∧ got w r')
    (native : Endian) {f : EncodingForm} {o : Endian} (ops : List TextOp)
    (hops : ∀ op ∈ ops, op.Fine native f o) :
    ∀ (s : OutStream ρ) (w : List Byte), s.form = f → s.endian = o → got w s.res →
      ∃ done r', Portioned native f o x ops (textOutcomes native W s ops) done ∧
        M.stateAfter (TextOp.run native W) s ops = { s with res := r' } ∧
        got (w ++ portionBytes native f o ops done) r' := by
  induction ops with
  | nil =>
    intro s w _ _ hg
    exact ⟨[], s.res, .nil, rfl, by simpa [portionBytes] using hg⟩
  | cons op ops ih =>
    intro s w hf ho hg
    obtain ⟨out, k, r1, e1, q1, h1⟩ := run_portions R F native op (hops op (by simp)) s w hf ho hg
    obtain ⟨done, r2, p, e2, q2⟩ := ih (fun op h => hops op (by simp [h])) { s with res := r1 } _ hf ho q1
    refine ⟨k :: done, r2, ?_, ?_, ?_⟩
    · rw [textOutcomes, e1]
      rcases h1 with ⟨rfl, rfl⟩ | ⟨rfl, hk⟩
      · exact .returned p
      · exact .threw hk p
    · change M.stateAfter (TextOp.run native W) (TextOp.run native W op s).2 ops = _
      rw [e1]
      exact e2
    · simpa [portionBytes] using q2

/-- C145 fails twice: in UTF-16 of the other byte order a character may be torn, and the destructor of a
stream ends the program if memory is refused. -/
theorem C145_violated :
    (¬ ∀ (H : Heap) (x : Exn) (native o : Endian) (f : EncodingForm) (cap : Nat) (content : List Byte)
        (capacity asked : Nat) (op : TextOp), op.Fine native f o →
        ∀ s', (op.run native (MCtr.writer H x) (appendStream f o cap content capacity asked)).2 = s' →
        ∃ cs, cs <+: op.text ∧
          s'.res.dev.ctr.content ++ s'.res.buf.pending = content ++ textBytes f o cs) ∧
    ¬ ∀ (H : Heap) (x : Exn) (native o : Endian) (f : EncodingForm) (cap : Nat) (content : List Byte)
        (capacity asked : Nat) (op : TextOp), op.Fine native f o →
        (OutStream.destroy (MCtr.writer H x)
          (op.run native (MCtr.writer H x) (appendStream f o cap content capacity asked)).2).1
            ≠ .terminate := by
  constructor
  · intro h
    obtain ⟨cs, hp, hc⟩ := h ⟨fun k => k = 0, id, 100⟩ .outOfRange .little .big .utf16 0 [] 0 0 (.point 0x1F600)
      ⟨by unfold Spec.IsScalar; decide, by simp⟩ _ rfl
    have hl := congrArg List.length hc
    have hcs : cs = [] ∨ cs = [0x1F600] := by
      rcases cs with - | ⟨c, cs⟩
      · exact Or.inl rfl
      · have h1 := hp.length_le
        have h2 := hp.eq_of_length (by simp [TextOp.text] at h1 ⊢; omega)
        exact Or.inr h2
    rcases hcs with rfl | rfl
    · exact absurd hl (by decide +kernel)
    · exact absurd hl (by decide +kernel)
  · intro h
    exact h ⟨fun _ => false, id, 100⟩ .outOfRange .little .little .utf8 4 [] 0 0 (.point 65)
      ⟨by unfold Spec.IsScalar; decide, fun _ => by unfold LowSurrogate; decide⟩ (by decide +kernel)

theorem flush_stream (H : Heap) (x : Exn) (cap : Nat) (content : List Byte) (w : List Byte)
    (r : Res MCtr) (h : MCtr.Appending cap content w r) :
    (∃ r', (MCtr.writer H x).flush r = (.ok (), r') ∧ MCtr.Appending cap content w r') ∨
      ∃ r', (MCtr.writer H x).flush r = (.throw x, r') ∧ MCtr.Appending cap content w r' := by
  rcases MCtr.flush_appending H x cap content w r h with ⟨r', e, q, -⟩ | ⟨r', e, q⟩
  · exact Or.inl ⟨r', e, q⟩
  · exact Or.inr ⟨r', e, q⟩

/-- C145 in general: every operation returns or throws, and appends the first of its portions, all of them if
it returns.  The destructor writes what is in the buffer or, exactly if a flush would throw, ends the program;
with memory it does not. -/
theorem C145_exact (H : Heap) (x : Exn) (native o : Endian) (f : EncodingForm) (cap : Nat)
    (content : List Byte) (capacity asked : Nat) (ops : List TextOp)
    (hops : ∀ op ∈ ops, op.Fine native f o) (outs : List (Outcome Unit)) (s' : OutStream (Res MCtr))
    (ho : textOutcomes native (MCtr.writer H x) (appendStream f o cap content capacity asked) ops = outs)
    (hs : M.stateAfter (TextOp.run native (MCtr.writer H x)) (appendStream f o cap content capacity asked) ops
      = s') :
    ∃ done, Portioned native f o x ops outs done ∧
      s'.res.dev.ctr.content ++ s'.res.buf.pending = content ++ portionBytes native f o ops done ∧
      ((∃ s'', OutStream.destroy (MCtr.writer H x) s' = (.ok (), s'') ∧
          s''.res.dev.ctr.content = content ++ portionBytes native f o ops done) ∨
        (OutStream.destroy (MCtr.writer H x) s').1 = .terminate ∧
          (OutStream.flush (MCtr.writer H x) s').1 = .throw x) ∧
      (H.grants s'.res.dev.asked = true →
        content.length + (portionBytes native f o ops done).length ≤ H.maxSize →
        (OutStream.destroy (MCtr.writer H x) s').1 = .ok ()) := by
  obtain ⟨done, r', p, e, q⟩ := runs_portions (MCtr.refuses H x cap content) (flush_stream H x cap content)
    native ops hops (appendStream f o cap content capacity asked) [] rfl rfl
    (MCtr.appending_start cap content capacity asked)
  rw [List.nil_append] at q
  rw [ho] at p
  rw [hs] at e
  subst e
  have hc := q.content
  have fl : ∀ s : OutStream (Res MCtr), OutStream.flush (MCtr.writer H x) s =
      ((Res.flush (MCtr.writeRaw H x) s.res).1, { s with res := (Res.flush (MCtr.writeRaw H x) s.res).2 }) :=
    fun _ => rfl
  have de : ∀ s : OutStream (Res MCtr), OutStream.destroy (MCtr.writer H x) s =
      ((OutStream.flush (MCtr.writer H x) s).1.noexcept, (OutStream.flush (MCtr.writer H x) s).2) :=
    fun s => M.noexcept_apply _ _
  refine ⟨done, p, hc, ?_, ?_⟩
  · rcases MCtr.flush_appending H x cap content _ r' q with ⟨r'', e, -, h⟩ | ⟨r'', e, -⟩
    · left
      rw [de, fl]
      simp only [e]
      exact ⟨_, rfl, h⟩
    · right
      rw [de, fl]
      simp only [e]
      exact ⟨rfl, trivial⟩
  · intro hg hm
    rw [de, fl]
    simp only
    by_cases hw : r'.buf.writeDirty = true
    · have hlen := congrArg List.length hc
      simp only [List.length_append, IoBuffer.pending, hw, if_true, List.length_take] at hlen
      have hp := q.room
      have := flush_granted (x := x) (r := r') hg (by omega) hp
      obtain ⟨d, e, -, -⟩ := Res.flush_writing (MCtr.takes content) q (MCtr.allowed_any _ _)
      rw [this.1, e]
      rfl
    · rw [Res.flush_clean _ _ (by simpa using hw)]
      rfl

/-- How much of each text was written: all, if the operation returned. -/
inductive Prefixed (x : Exn) : List TextOp → List (Outcome Unit) → List (List Nat) → Prop where
  | nil : Prefixed x [] [] []
  | returned {op ops outs done} : Prefixed x ops outs done →
      Prefixed x (op :: ops) (.ok () :: outs) (op.text :: done)
  | threw {op ops outs done cs} : cs <+: op.text → (cs = op.text → op.text = []) →
      Prefixed x ops outs done → Prefixed x (op :: ops) (.throw x :: outs) (cs :: done)

theorem portions_whole {native o : Endian} {f : EncodingForm} {c : Nat}
    (h : f = .utf16 → o ≠ native → Spec.IsBmp c) : OutStream.portions native f o c = [cpBytes f o c] := by
  have hfl := portions_flatten native f o c
  unfold OutStream.portions at hfl ⊢
  split
  · next hc =>
    rw [if_pos hc] at hfl
    have hb := h hc.1 hc.2
    have : Spec.utf16 c = [c] := by
      unfold Spec.IsBmp at hb
      unfold Spec.utf16
      rw [if_pos (by omega)]
    rw [this] at hfl ⊢
    simpa using hfl
  · rfl

theorem flatMap_portions_whole {native o : Endian} {f : EncodingForm} {cs : List Nat}
    (h : f = .utf16 → o ≠ native → ∀ c ∈ cs, Spec.IsBmp c) :
    cs.flatMap (OutStream.portions native f o) = cs.map (cpBytes f o) := by
  induction cs with
  | nil => rfl
  | cons c cs ih =>
    rw [List.flatMap_cons, portions_whole (fun a b => h a b c (by simp)),
      ih fun a b d hd => h a b d (by simp [hd])]
    rfl

theorem textBytes_map (f : EncodingForm) (o : Endian) (cs : List Nat) :
    textBytes f o cs = (cs.map (cpBytes f o)).flatten := by
  induction cs with
  | nil => rfl
  | cons c cs ih => rw [textBytes_cons, ih]; rfl

/-- The first portions of an operation are the first characters of its text, if no character is written in
two. -/
theorem portions_prefix {native o : Endian} {f : EncodingForm} {op : TextOp} {k : Nat}
    (hw : f = .utf16 → o ≠ native → ∀ c ∈ op.text, Spec.IsBmp c)
    (hk : k < (op.portions native f o).length) :
    ∃ cs, cs <+: op.text ∧ (cs = op.text → op.text = []) ∧
      ((op.portions native f o).take k).flatten = textBytes f o cs := by
  have key : ∀ (cs : List Nat) (k : Nat), k < (cs.map (cpBytes f o)).length →
      ∃ ds, ds <+: cs ∧ (ds = cs → cs = []) ∧
        ((cs.map (cpBytes f o)).take k).flatten = textBytes f o ds := by
    intro cs k hk
    refine ⟨cs.take k, List.take_prefix _ _, fun h => ?_, by rw [textBytes_map, List.map_take]⟩
    have := congrArg List.length h
    simp at this hk
    omega
  cases op with
  | point c =>
    simp only [TextOp.portions, TextOp.text] at hk hw ⊢
    rw [portions_whole (fun a b => hw a b c (by simp))] at hk ⊢
    exact key [c] k hk
  | string e s cs =>
    simp only [TextOp.portions, TextOp.text] at hk hw ⊢
    split at hk
    · next h =>
      rw [if_pos h]
      obtain rfl : k = 0 := by simpa using hk
      exact ⟨[], List.nil_prefix, fun h => h.symm, by simp [textBytes_map]⟩
    · next h =>
      rw [if_neg h]
      rw [flatMap_portions_whole hw] at hk ⊢
      exact key cs k hk
  | flush => simp [TextOp.portions] at hk

theorem portions_text {native o : Endian} {f : EncodingForm} (op : TextOp) :
    (op.portions native f o).flatten = textBytes f o op.text := by
  cases op with
  | point c => simp [TextOp.portions, TextOp.text, portions_flatten, textBytes_map]
  | string e s cs =>
    simp only [TextOp.portions, TextOp.text]
    split
    · simp
    · rw [textBytes_map]
      induction cs with
      | nil => rfl
      | cons c cs ih => rw [List.flatMap_cons, List.flatten_append, portions_flatten, ih]; rfl
  | flush => rfl

theorem Portioned.prefixed {native o : Endian} {f : EncodingForm} {x : Exn} {ops : List TextOp}
    {outs : List (Outcome Unit)} {done : List Nat} (h : Portioned native f o x ops outs done)
    (hw : f = .utf16 → o ≠ native → ∀ op ∈ ops, ∀ c ∈ op.text, Spec.IsBmp c) :
    ∃ texts, Prefixed x ops outs texts ∧
      portionBytes native f o ops done = textBytes f o texts.flatten := by
  induction h with
  | nil => exact ⟨[], .nil, rfl⟩
  | @returned op ops outs done h ih =>
    obtain ⟨texts, p, e⟩ := ih fun a b op h => hw a b op (by simp [h])
    refine ⟨_, .returned p, ?_⟩
    rw [List.flatten_cons, textBytes_append, ← e, ← portions_text (native := native) op]
    simp [portionBytes]
  | @threw op ops outs done k hk h ih =>
    obtain ⟨texts, p, e⟩ := ih fun a b op h => hw a b op (by simp [h])
    rcases hk with hk | ⟨rfl, rfl⟩
    · obtain ⟨cs, h1, h2, h3⟩ := portions_prefix (fun a b => hw a b op (by simp)) hk
      refine ⟨cs :: texts, .threw h1 h2 p, ?_⟩
      rw [List.flatten_cons, textBytes_append, ← e, ← h3]
      simp [portionBytes]
    · refine ⟨[] :: texts, .threw List.nil_prefix (fun _ => rfl) p, ?_⟩
      rw [List.flatten_cons, List.nil_append, ← e]
      simp [portionBytes]

/-- C145, part: whatever requests for memory are refused, every operation returns or throws, and what was
written is made of whole characters: all of the text of an operation that returned, the first characters of
the text of one that threw.
What is missing: supplementary characters in UTF-16 of the other byte order, and the destructor when memory is
refused; both are in `C145_exact`. -/
theorem C145_partial (H : Heap) (x : Exn) (native o : Endian) (f : EncodingForm) (cap : Nat)
    (content : List Byte) (capacity asked : Nat) (ops : List TextOp)
    (hops : ∀ op ∈ ops, op.Fine native f o)
    (hw : f = .utf16 → o ≠ native → ∀ op ∈ ops, ∀ c ∈ op.text, Spec.IsBmp c) :
    ∃ texts, Prefixed x ops
        (textOutcomes native (MCtr.writer H x) (appendStream f o cap content capacity asked) ops) texts ∧
      ∀ s', M.stateAfter (TextOp.run native (MCtr.writer H x))
          (appendStream f o cap content capacity asked) ops = s' →
        s'.res.dev.ctr.content ++ s'.res.buf.pending = content ++ textBytes f o texts.flatten := by
  obtain ⟨done, p, hc, -⟩ := C145_exact H x native o f cap content capacity asked ops hops _ _ rfl rfl
  obtain ⟨texts, p', e⟩ := p.prefixed hw
  refine ⟨texts, p', ?_⟩
  rintro s' rfl
  rw [hc, e]

/-- The second request for memory is refused: a string breaks off after its first character, and the stream
goes on. -/
example :
    let H : Heap := ⟨fun k => k ≠ 1, id, 100⟩
    let ops : List TextOp := [.string .char32 (encs .char32 [0x41, 0x1F600]) [0x41, 0x1F600],
      .string .char32 (encs .char32 [0xE9]) [0xE9]]
    textOutcomes .little (MCtr.writer H .outOfRange) (appendStream .utf8 .big 0 [1] 1 0) ops
      = [.throw .outOfRange, .ok ()]
    ∧ (M.stateAfter (TextOp.run .little (MCtr.writer H .outOfRange)) (appendStream .utf8 .big 0 [1] 1 0)
        ops).res.dev.ctr.content = [1, 0x41, 0xC3, 0xA9] := by
  decide +kernel

/-- The hypotheses hold in this case. -/
example : ∀ op ∈ [TextOp.string .char32 (encs .char32 [0x41, 0x1F600]) [0x41, 0x1F600],
    .string .char32 (encs .char32 [0xE9]) [0xE9]], op.Fine .little .utf8 .big := by
  have h1 : Spec.IsText [0x41, 0x1F600] := by unfold Spec.IsText; decide
  have h2 : Spec.IsText [0xE9] := by unfold Spec.IsText; decide
  simp only [List.mem_cons, List.not_mem_nil, or_false, forall_eq_or_imp, forall_eq]
  refine ⟨⟨textOf_encs .char32 _ h1 (by decide), Or.inr ⟨by simp [Enc.form], fun _ => ?_⟩⟩,
    ⟨textOf_encs .char32 _ h2 (by decide), Or.inr ⟨by simp [Enc.form], fun _ => ?_⟩⟩⟩ <;>
  · simp [LowSurrogate]

end Cmp
