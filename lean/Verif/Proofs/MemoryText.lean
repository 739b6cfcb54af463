import Verif.Proofs.MemoryIo
import Verif.Proofs.TextWrite
import Mathlib.Tactic.ByContra

/-
Lemmas about text streams whose resource may refuse to write.
-/

namespace Cmp

/-- A resource that accepts all bytes of a write or throws `x` and accepts none; `got w r` says that it
has accepted `w`. -/
def Writer.Refuses {ρ : Type} (W : Writer ρ) (got : List Byte → ρ → Prop) (x : Exn) : Prop :=
  ∀ w r bytes, got w r → (∃ n r', W.write bytes r = (.ok n, r') ∧ got (w ++ bytes) r') ∨
    ∃ r', W.write bytes r = (.throw x, r') ∧ got w r'

namespace OutStream

variable {ρ α β : Type} {W : Writer ρ} {got : List Byte → ρ → Prop} {x : Exn}

/-- An operation writes the given portions, or throws `x` after some of them. -/
def Emits (got : List Byte → ρ → Prop) (x : Exn) (f : EncodingForm) (o : Endian)
    (op : M (OutStream ρ) α) (a : α) (portions : List (List Byte)) : Prop :=
  ∀ (s : OutStream ρ) w, s.form = f → s.endian = o → got w s.res →
    (∃ r', op s = (.ok a, { s with res := r' }) ∧ got (w ++ portions.flatten) r') ∨
    ∃ k r', k < portions.length ∧ op s = (.throw x, { s with res := r' }) ∧
      got (w ++ (portions.take k).flatten) r'

variable {f : EncodingForm} {o : Endian}

theorem emits_pure (a : α) : Emits got x f o (pure a) a [] := by
  intro s w _ _ h
  exact Or.inl ⟨s.res, rfl, by simpa using h⟩

theorem emits_bind {op : M (OutStream ρ) α} {g : α → M (OutStream ρ) β} {a : α} {b : β}
    {ps qs : List (List Byte)} (h1 : Emits got x f o op a ps) (h2 : Emits got x f o (g a) b qs) :
    Emits got x f o (op >>= g) b (ps ++ qs) := by
  intro s w hf ho h
  rcases h1 s w hf ho h with ⟨r', e, q⟩ | ⟨k, r', hk, e, q⟩
  · rcases h2 { s with res := r' } _ hf ho q with ⟨r'', e', q'⟩ | ⟨k, r'', hk, e', q'⟩
    · left
      refine ⟨r'', by rw [M.bind_ok e, e'], ?_⟩
      rw [List.flatten_append, ← List.append_assoc]
      exact q'
    · right
      refine ⟨ps.length + k, r'', by rw [List.length_append]; omega, by rw [M.bind_ok e, e'], ?_⟩
      rw [List.take_append, List.take_of_length_le (by omega), Nat.add_sub_cancel_left,
        List.flatten_append, ← List.append_assoc]
      exact q'
  · right
    refine ⟨k, r', by rw [List.length_append]; omega, by rw [M.bind_throw e], ?_⟩
    rw [List.take_append_of_le_length (by omega)]
    exact q

theorem emits_lift {g : α → M (OutStream ρ) β} {a : α} {b : β} {ps : List (List Byte)} {l : Outcome α}
    (hl : l = .ok a) (h : Emits got x f o (g a) b ps) : Emits got x f o (M.lift l >>= g) b ps := by
  subst hl
  intro s w hf ho hg
  have e : (M.lift (.ok a) >>= g) s = g a s := M.bind_ok (M.lift_apply _ _)
  rw [e]
  exact h s w hf ho hg

theorem emits_get {g : OutStream ρ → M (OutStream ρ) β} {b : β} {ps : List (List Byte)}
    (h : ∀ s : OutStream ρ, s.form = f → s.endian = o → Emits got x f o (g s) b ps) :
    Emits got x f o (M.get >>= g) b ps := by
  intro s w hf ho hg
  rw [M.bind_ok (M.get_apply s)]
  exact h s hf ho s w hf ho hg

/-- One write whose result is not used. -/
theorem emits_write (R : W.Refuses got x) (bytes : List Byte) :
    Emits got x f o (write W bytes >>= fun _ => pure ()) () [bytes] := by
  intro s w _ _ h
  rcases R w s.res bytes h with ⟨n, r', e, q⟩ | ⟨r', e, q⟩
  · left
    have : write W bytes s = (.ok n, { s with res := r' }) := by simp only [write, onRes, e]
    exact ⟨r', by rw [M.bind_ok this]; rfl, by simpa using q⟩
  · right
    have : write W bytes s = (.throw x, { s with res := r' }) := by simp only [write, onRes, e]
    exact ⟨0, r', by simp, by rw [M.bind_throw this], by simpa using q⟩

theorem emits_reverseWrite (R : W.Refuses got x) (bytes : List Byte) (hb : bytes ≠ [])
    {g : Nat → M (OutStream ρ) Unit} {qs : List (List Byte)}
    (h : ∀ n, Emits got x f o (g n) () qs) :
    Emits got x f o (reverseWrite W bytes >>= g) () (bytes.reverse :: qs) := by
  intro s w hf ho hg
  have e0 : reverseWrite W bytes s = onRes (W.write bytes.reverse) s := by
    rw [reverseWrite, invertEndianness_all bytes hb, M.bind_ok (M.lift_apply _ _)]
  rcases R w s.res bytes.reverse hg with ⟨n, r', e, q⟩ | ⟨r', e, q⟩
  · have e1 : reverseWrite W bytes s = (.ok n, { s with res := r' }) := by
      rw [e0]; simp only [onRes, e]
    rcases h n { s with res := r' } _ hf ho q with ⟨r'', e', q'⟩ | ⟨k, r'', hk, e', q'⟩
    · left
      refine ⟨r'', by rw [M.bind_ok e1, e'], ?_⟩
      rw [List.flatten_cons, ← List.append_assoc]
      exact q'
    · right
      refine ⟨k + 1, r'', by simp; omega, by rw [M.bind_ok e1, e'], ?_⟩
      rw [List.take_succ_cons, List.flatten_cons, ← List.append_assoc]
      exact q'
  · right
    have e1 : reverseWrite W bytes s = (.throw x, { s with res := r' }) := by
      rw [e0]; simp only [onRes, e]
    exact ⟨0, r', by simp, by rw [M.bind_throw e1], by simpa using q⟩

/-- The portions in which a code point is written: one, but the units of UTF-16 one by one if the byte
order is not that of the host. -/
def portions (native : Endian) (f : EncodingForm) (o : Endian) (c : Nat) : List (List Byte) :=
  if f = .utf16 ∧ o ≠ native then (Spec.utf16 c).map (fun u => objectBytes o 2 u)
  else [cpBytes f o c]

theorem portions_flatten (native : Endian) (f : EncodingForm) (o : Endian) (c : Nat) :
    (portions native f o c).flatten = cpBytes f o c := by
  unfold portions
  split
  · next h =>
    rw [h.1]
    rw [show cpBytes .utf16 o c = asBytes ((Spec.utf16 c).flatMap (o.order.bytes 2)) from rfl]
    generalize Spec.utf16 c = us
    induction us with
    | nil => rfl
    | cons u us ih => rw [asBytes_flatMap_cons, List.map_cons, List.flatten_cons, ih]
  · simp

theorem objectBytes_ne_nil (o : Endian) (k u : Nat) (hk : 0 < k) : objectBytes o k u ≠ [] := by
  intro h0
  have := congrArg List.length h0
  rw [objectBytes_length] at this
  simp at this
  omega

theorem emits_reverseUnits (R : W.Refuses got x) (native : Endian) (us : List Nat)
    (hu : ∀ u ∈ us, u < 65536) (hn : o ≠ native) :
    Emits got x f o (reverseUnits native W (us.map (BitVec.ofNat 16))) ()
      (us.map (fun u => objectBytes o 2 u)) := by
  induction us with
  | nil => exact emits_pure ()
  | cons u us ih =>
    rw [List.map_cons, reverseUnits, List.map_cons,
      ← objectBytes_reverse native o 2 u (fun h => hn h.symm), ofNat16_toNat (hu u (by simp))]
    exact emits_reverseWrite R _ (objectBytes_ne_nil _ _ _ (by omega))
      fun _ => ih (fun v hv => hu v (by simp [hv]))

theorem emits_writeCodePoint (R : W.Refuses got x) (native : Endian) (c : Nat) (hc : WriteOk f c) :
    Emits got x f o (writeCodePoint native W (BitVec.ofNat 32 c)) () (portions native f o c) := by
  have hsc := hc.scalar
  refine emits_get fun s hf ho => ?_
  rw [hf]
  cases f with
  | utf8 =>
    have hcp : cpBytes .utf8 o c = encU .char8 c := by
      rw [cpBytes, show EncodingForm.utf8.form.encode1 c = Spec.utf8 c from rfl,
        show EncodingForm.utf8.form.unitSize = 1 from rfl, flatMap_bytes_one _ _ (utf8_bound c hsc)]
      rfl
    rw [portions, if_neg (by simp), hcp]
    exact emits_lift (by rw [appendCP_enc .char8 c hc, List.nil_append]) (emits_write R _)
  | utf16 =>
    have hb := utf16_bound c hsc
    refine emits_lift (by rw [appendCP_enc .char16 c hsc, List.nil_append]) (emits_get fun s' hf' ho' => ?_)
    rw [ho']
    by_cases hn : o = native
    · rw [if_pos hn, portions, if_neg (by simp [hn])]
      have hq : ((encU .char16 c).flatMap fun u => objectBytes native 2 u.toNat) = cpBytes .utf16 o c := by
        rw [hn, show encU .char16 c = (Spec.utf16 c).map (BitVec.ofNat 16) from rfl,
          objectBytes_flatMap native 2 _ hb]
        rfl
      rw [hq]
      exact emits_write R _
    · rw [if_neg hn, portions, if_pos ⟨rfl, hn⟩]
      exact emits_reverseUnits R native _ hb hn
  | utf32 =>
    have hcp : cpBytes .utf32 o c = objectBytes o 4 c := by
      rw [objectBytes_eq]
      simp [cpBytes, EncodingForm.form, Spec.Form.encode1, Spec.Form.unitSize, Spec.utf32]
    have hv : (BitVec.ofNat 32 c).toNat = c := by
      rw [BitVec.toNat_ofNat, Nat.mod_eq_of_lt]
      have := hsc.1
      omega
    rw [portions, if_neg (by simp), hcp]
    refine emits_get fun s' hf' ho' => ?_
    rw [ho', hv]
    by_cases hn : o = native
    · rw [if_pos hn, ← hn]
      exact emits_write R _
    · rw [if_neg hn, ← objectBytes_reverse native o 4 c (fun h => hn h.symm)]
      exact emits_reverseWrite R _ (objectBytes_ne_nil _ _ _ (by omega)) fun _ => emits_pure ()

theorem emits_forCodePoints (R : W.Refuses got x) (native : Endian) (e : Enc) (cs : List Nat) :
    ∀ (pre : Str e) (fuel : Nat), (∀ c ∈ cs, FwdOk e c) → (∀ c ∈ cs, WriteOk f c) → cs.length < fuel →
      Emits got x f o (forCodePoints e (pre ++ encs e cs) (writeCodePoint native W) fuel pre.length) ()
        (cs.flatMap (portions native f o)) := by
  induction cs with
  | nil =>
    intro pre fuel _ _ hf
    obtain ⟨n, rfl⟩ : ∃ n, fuel = n + 1 := ⟨fuel - 1, by omega⟩
    rw [show forCodePoints e (pre ++ encs e []) (writeCodePoint native W) (n + 1) pre.length = pure () by
      simp [forCodePoints]]
    exact emits_pure ()
  | cons c cs ih =>
    intro pre fuel hfw hwo hf
    obtain ⟨n, rfl⟩ : ∃ n, fuel = n + 1 := ⟨fuel - 1, by omega⟩
    have hc : FwdOk e c := hfw c (by simp)
    have hpos := encU_length_pos e c
    rw [forCodePoints, if_neg (by rw [encs_cons, List.length_append, List.length_append]; omega),
      List.flatMap_cons, encs_cons]
    refine emits_lift (deref_enc e c hc.bwd _ _) ?_
    refine emits_bind (emits_writeCodePoint R native c (hwo c (by simp))) ?_
    refine emits_lift (advance_enc e c hc _ _) ?_
    have := ih (pre ++ encU e c) n (fun x hx => hfw x (by simp [hx])) (fun x hx => hwo x (by simp [hx]))
      (by simp at hf; omega)
    simpa using this

/-- The memory of a string that the stream takes as it is. -/
theorem memory_bytes (native : Endian) (e : Enc) (s : OutStream ρ) (hm : takesMemory native e s = true)
    (cs : List Nat) (ht : Spec.IsText cs) (hn : e = .narrow → ∀ c ∈ cs, c < 128) :
    (encs e cs).flatMap (fun u => objectBytes native (e.width / 8) u.toNat) =
      textBytes s.form s.endian cs := by
  have C : Writer.Collects (ρ := List Byte) ⟨fun bytes r => (.ok 0, r ++ bytes), pure ()⟩
      (fun _ => True) (fun w r => r = w) (fun w r => r = w) :=
    ⟨fun _ _ _ => trivial, fun w r bytes _ h => ⟨0, _, rfl, by rw [h]⟩, fun w r h => ⟨r, rfl, h⟩⟩
  have hm' : takesMemory native e (⟨[], s.endian, s.form⟩ : OutStream (List Byte)) = true := hm
  obtain ⟨r', e1, q⟩ := writeMemory_eq C native e ⟨[], s.endian, s.form⟩ hm' cs ht hn [] trivial rfl
  have e2 := congrArg (fun p : Outcome Unit × OutStream (List Byte) => p.2.res) e1
  simp only at e2
  rw [q] at e2
  exact e2

theorem emits_writeString (R : W.Refuses got x) (native : Endian) (e : Enc) (cs : List Nat)
    (hc : ∀ s : OutStream ρ, s.form = f → s.endian = o → ∀ c ∈ cs, StringOk native e s c) :
    (∀ s : OutStream ρ, s.form = f → s.endian = o → takesMemory native e s = true) ∧
      Emits got x f o (writeString native W e (encs e cs)) () [textBytes f o cs] ∨
    (∀ s : OutStream ρ, s.form = f → s.endian = o → takesMemory native e s = false) ∧
      Emits got x f o (writeString native W e (encs e cs)) () (cs.flatMap (portions native f o)) := by
  have same : ∀ s s' : OutStream ρ, s.form = f → s.endian = o → s'.form = f → s'.endian = o →
      takesMemory native e s = takesMemory native e s' := by
    intro s s' h1 h2 h3 h4
    unfold takesMemory
    rw [h1, h2, h3, h4]
  by_cases hm : ∀ s : OutStream ρ, s.form = f → s.endian = o → takesMemory native e s = true
  · refine Or.inl ⟨hm, emits_get fun s hf ho => ?_⟩
    rw [if_pos (hm s hf ho), writeMemory, memory_bytes native e s (hm s hf ho) cs
      (fun c hx => (hc s hf ho c hx).1) (fun he c hx => by
        have := (hc s hf ho c hx).2
        rw [if_pos (hm s hf ho)] at this
        exact this he), hf, ho]
    exact emits_write R _
  · have hm' : ∀ s : OutStream ρ, s.form = f → s.endian = o → takesMemory native e s = false := by
      intro s hf ho
      by_contra hs
      refine hm fun s' hf' ho' => ?_
      rw [same s' s hf' ho' hf ho]
      simpa using hs
    refine Or.inr ⟨hm', emits_get fun s hf ho => ?_⟩
    rw [hm' s hf ho, if_neg (by simp)]
    have hl := encs_length_ge e cs
    have key : ∀ c ∈ cs, FwdOk e c ∧ WriteOk f c := by
      intro c hx
      have := (hc s hf ho c hx).2
      rw [hm' s hf ho, if_neg (by simp), hf] at this
      exact this
    have := emits_forCodePoints (f := f) (o := o) R native e cs [] ((encs e cs).length + 1)
      (fun c hx => (key c hx).1) (fun c hx => (key c hx).2) (by omega)
    simpa using this

/-- A flush writes nothing more, or throws. -/
theorem flush_cases {flush : M ρ Unit} (h : ∀ w r, got w r → (∃ r', flush r = (.ok (), r') ∧ got w r') ∨
      ∃ r', flush r = (.throw x, r') ∧ got w r') (hW : W.flush = flush) (s : OutStream ρ) (w : List Byte)
    (hg : got w s.res) :
    (∃ r', OutStream.flush W s = (.ok (), { s with res := r' }) ∧ got w r') ∨
      ∃ r', OutStream.flush W s = (.throw x, { s with res := r' }) ∧ got w r' := by
  rcases h w s.res hg with ⟨r', e, q⟩ | ⟨r', e, q⟩
  · exact Or.inl ⟨r', by simp only [OutStream.flush, onRes, hW, e], q⟩
  · exact Or.inr ⟨r', by simp only [OutStream.flush, onRes, hW, e], q⟩

end OutStream

namespace MCtr

/-- A container of bytes to whose `content` the bytes `w` were appended, as far as memory allowed. -/
def Appending (cap : Nat) (content w : List Byte) (r : Res MCtr) : Prop :=
  Res.Writing cap (fun w => Ctr.allowed 1 content.length content.length w.length)
    (Res.Overwrote (Ctr.Idle 1) content content.length) (Res.with_ MCtr.ctr r) w

theorem allowed_any (n m : Nat) : Ctr.allowed 1 n n m := .inr ⟨rfl, Nat.one_dvd _⟩

theorem takes (content : List Byte) :
    Res.Takes Ctr.writeRaw (fun w => Ctr.allowed 1 content.length content.length w.length)
      (Res.Overwrote (Ctr.Idle 1) content content.length) :=
  Res.takes_overlay (Ctr.store 1) content content.length (Nat.le_refl _)

theorem appending_start (cap : Nat) (content : List Byte) (capacity asked : Nat) :
    Appending cap content [] ⟨IoBuffer.make cap, ⟨⟨1, content, content.length, 0⟩, capacity, asked⟩⟩ := by
  have hend : Ctr.Idle 1 content content.length ⟨1, content, content.length, 0⟩ := ⟨rfl, rfl, rfl, rfl⟩
  exact Res.writing_make (adm := fun w => Ctr.allowed 1 content.length content.length
    w.length) (got := Res.Overwrote (Ctr.Idle 1) content content.length) cap
    ⟨1, content, content.length, 0⟩ []
    (by simpa [Res.Overwrote, Res.overlay_nil] using hend) (.inl (by simp))

theorem overlay_end (content w : List Byte) : Res.overlay content content.length w = content ++ w := by
  simp only [Res.overlay]
  rw [List.take_of_length_le (Nat.le_refl _), List.drop_eq_nil_of_le (by omega), List.append_nil]

theorem Appending.content {cap : Nat} {content w : List Byte} {r : Res MCtr}
    (h : Appending cap content w r) : r.dev.ctr.content ++ r.buf.pending = content ++ w := by
  obtain ⟨w0, hg, -, hp⟩ := h.written
  have := hg.content_eq
  rw [overlay_end] at this
  rw [show r.dev.ctr.content = _ from this, List.append_assoc]
  exact congrArg _ hp

theorem Appending.room {cap : Nat} {content w : List Byte} {r : Res MCtr}
    (h : Appending cap content w r) : r.buf.position ≤ r.buf.data.length := by
  have h1 := h.length
  have h2 := h.position
  simp only [Res.with_] at h1 h2
  omega

theorem flush_appending (H : Heap) (x : Exn) (cap : Nat) (content w : List Byte) (r : Res MCtr)
    (h : Appending cap content w r) :
    (∃ r', Res.flush (writeRaw H x) r = (.ok (), r') ∧ Appending cap content w r' ∧
      r'.dev.ctr.content = content ++ w) ∨
    ∃ r', Res.flush (writeRaw H x) r = (.throw x, r') ∧ Appending cap content w r' := by
  rcases hr : Res.flush (writeRaw H x) r with ⟨out, s⟩
  rcases Res.flush_limits (MCtr.limits H x) r with ⟨a1, a2⟩ | ⟨a1, a2⟩
  · rw [hr] at a1 a2
    obtain rfl : out = .throw x := a1
    exact Or.inr ⟨s, rfl, by unfold Appending; rw [a2]; exact h⟩
  · obtain ⟨d, e, hq, hg⟩ := Res.flush_writing (takes content) h (allowed_any _ _)
    rw [hr, e] at a1 a2
    obtain rfl : out = .ok () := a1
    refine Or.inl ⟨s, rfl, by unfold Appending; rw [a2]; exact hq, ?_⟩
    have := hg.content_eq
    rw [overlay_end] at this
    rw [← this]
    exact congrArg (fun q : Res Ctr => q.dev.content) a2

theorem refuses (H : Heap) (x : Exn) (cap : Nat) (content : List Byte) :
    (writer H x).Refuses (Appending cap content) x := by
  intro w r bytes h
  change (∃ n r', Res.write (writeRaw H x) bytes r = (.ok n, r') ∧ _) ∨
    ∃ r', Res.write (writeRaw H x) bytes r = (.throw x, r') ∧ _
  rcases hr : Res.write (writeRaw H x) bytes r with ⟨out, s⟩
  rcases Res.write_limits (MCtr.limits H x) bytes r with ⟨a1, a2⟩ | ⟨a1, a2⟩ | ⟨a1, -, a2⟩
  · rw [hr] at a1 a2
    obtain rfl : out = .throw x := a1
    exact Or.inr ⟨s, rfl, by unfold Appending; rw [a2]; exact h⟩
  · obtain ⟨r', e, hq, -⟩ := Res.write_writing (takes content) h (allowed_any _ _) (bytes := bytes)
      (allowed_any _ _)
    rw [hr, e] at a1 a2
    obtain rfl : out = .ok bytes.length := a1
    exact Or.inl ⟨_, s, rfl, by unfold Appending; rw [a2]; exact hq⟩
  · obtain ⟨d, e, hq, hg⟩ := Res.flush_writing (takes content) h (allowed_any _ _)
    rw [hr] at a1 a2
    rw [e] at a2
    obtain rfl : out = .throw x := a1
    exact Or.inr ⟨s, rfl, by unfold Appending; rw [a2]; exact hq⟩

end MCtr

end Cmp
