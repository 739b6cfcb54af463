import Verif.Proofs.TextRead
import Verif.Base.History

/-
Writing code points and strings to a text stream.
-/

namespace Cmp

theorem ofNat16_toNat {u : Nat} (h : u < 65536) : (BitVec.ofNat 16 u).toNat = u := by
  rw [BitVec.toNat_ofNat]; omega

/-- The units of a string, each in its object representation. -/
theorem objectBytes_flatMap {w : Nat} (o : Endian) (k : Nat) (us : List Nat)
    (h : ∀ u ∈ us, u < 2 ^ w) :
    (us.map (BitVec.ofNat w)).flatMap (fun u => objectBytes o k u.toNat) =
      asBytes (us.flatMap (o.order.bytes k)) := by
  induction us with
  | nil => rfl
  | cons u us ih =>
    rw [List.map_cons, List.flatMap_cons, ih (fun x hx => h x (by simp [hx])), List.flatMap_cons,
      BitVec.toNat_ofNat, Nat.mod_eq_of_lt (h u (by simp)), objectBytes_eq, asBytes, asBytes,
      asBytes, List.map_append]

theorem asBytes_flatMap_cons (o : Endian) (k u : Nat) (us : List Nat) :
    asBytes ((u :: us).flatMap (o.order.bytes k)) =
      objectBytes o k u ++ asBytes (us.flatMap (o.order.bytes k)) := by
  rw [List.flatMap_cons, objectBytes_eq, asBytes, asBytes, asBytes, List.map_append]

/-- Code points that `write_code_point` serialises correctly. -/
def WriteOk : EncodingForm → Nat → Prop
  | .utf8, c => Spec.IsScalar c ∧ ¬ (0xD800 ≤ c % 65536 ∧ c % 65536 ≤ 0xDFFF)
  | _, c => Spec.IsScalar c

theorem WriteOk.scalar {f : EncodingForm} {c : Nat} (h : WriteOk f c) : Spec.IsScalar c := by
  cases f
  · exact h.1
  · exact h
  · exact h

namespace OutStream

variable {ρ : Type} {W : Writer ρ} {fits : List Byte → Prop} {got out : List Byte → ρ → Prop}

theorem reverseUnits_eq (C : W.Collects fits got out) (native : Endian) (us : List Nat)
    (hu : ∀ u ∈ us, u < 65536) :
    ∀ (s : OutStream ρ) (w : List Byte), s.endian ≠ native →
      fits (w ++ asBytes (us.flatMap (s.endian.order.bytes 2))) → got w s.res →
      ∃ r', reverseUnits native W (us.map (BitVec.ofNat 16)) s = (.ok (), { s with res := r' }) ∧
        got (w ++ asBytes (us.flatMap (s.endian.order.bytes 2))) r' := by
  induction us with
  | nil =>
    intro s w _ _ h
    exact ⟨s.res, rfl, by simpa [asBytes] using h⟩
  | cons u us ih =>
    intro s w hn hf h
    have hlt := hu u (by simp)
    rw [asBytes_flatMap_cons, ← List.append_assoc,
      ← objectBytes_reverse native s.endian 2 u (fun h => hn h.symm)] at hf ⊢
    obtain ⟨n, r1, e1, q1⟩ := reverseWrite_eq C s w (objectBytes native 2 u) (by
      intro h0
      have := congrArg List.length h0
      rw [objectBytes_length] at this
      simp at this) (C.shorter _ _ hf) h
    obtain ⟨r2, e2, q2⟩ := ih (fun x hx => hu x (by simp [hx])) { s with res := r1 } _ hn hf q1
    exact ⟨r2, by rw [List.map_cons, reverseUnits, ofNat16_toNat hlt, M.bind_ok e1, e2], q2⟩

/-- A code point is written as the encoding scheme demands. -/
theorem writeCodePoint_eq (C : W.Collects fits got out) (native : Endian) (s : OutStream ρ) (c : Nat)
    (hc : WriteOk s.form c) (w : List Byte) (hfit : fits (w ++ cpBytes s.form s.endian c))
    (h : got w s.res) :
    ∃ r', writeCodePoint native W (BitVec.ofNat 32 c) s = (.ok (), { s with res := r' }) ∧
      got (w ++ cpBytes s.form s.endian c) r' := by
  have hsc := hc.scalar
  rw [writeCodePoint, M.bind_ok (M.get_apply s)]
  cases hf : s.form with
  | utf8 =>
    rw [hf] at hc hfit
    have hcp : cpBytes .utf8 s.endian c = encU .char8 c := by
      rw [cpBytes, show EncodingForm.utf8.form.encode1 c = Spec.utf8 c from rfl,
        show EncodingForm.utf8.form.unitSize = 1 from rfl, flatMap_bytes_one _ _ (utf8_bound c hsc)]
      rfl
    rw [hcp] at hfit ⊢
    obtain ⟨n, r', e, q⟩ := write_eq C s w (encU .char8 c) hfit h
    refine ⟨r', ?_, q⟩
    simp only [writeUtf8]
    rw [appendCP_enc .char8 c hc, M.bind_ok (M.lift_apply _ _), List.nil_append, M.bind_ok e, hf]
    rfl
  | utf16 =>
    have hb := utf16_bound c hsc
    have hcp : cpBytes .utf16 s.endian c =
      asBytes ((Spec.utf16 c).flatMap (s.endian.order.bytes 2)) := rfl
    rw [hf, hcp] at hfit
    simp only [writeUtf16]
    rw [appendCP_enc .char16 c hsc, M.bind_ok (M.lift_apply _ _), List.nil_append,
      M.bind_ok (M.get_apply s)]
    by_cases hn : s.endian = native
    · rw [if_pos hn]
      have hq : ((encU .char16 c).flatMap fun u => objectBytes native 2 u.toNat) =
          asBytes ((Spec.utf16 c).flatMap (s.endian.order.bytes 2)) := by
        rw [hn, show encU .char16 c = (Spec.utf16 c).map (BitVec.ofNat 16) from rfl,
          objectBytes_flatMap native 2 _ hb]
      rw [← hq] at hfit
      obtain ⟨n, r', e, q⟩ := write_eq C s w
        ((encU .char16 c).flatMap fun u => objectBytes native 2 u.toNat) hfit h
      refine ⟨r', ?_, ?_⟩
      · rw [M.bind_ok e, hf]; rfl
      · rw [hcp, ← hq]
        exact q
    · rw [if_neg hn, hcp]
      have := reverseUnits_eq C native _ hb s w hn hfit h
      rw [hf] at this
      exact this
  | utf32 =>
    have hcp : cpBytes .utf32 s.endian c = objectBytes s.endian 4 c := by
      rw [objectBytes_eq]
      simp [cpBytes, EncodingForm.form, Spec.Form.encode1, Spec.Form.unitSize, Spec.utf32]
    have hv : (BitVec.ofNat 32 c).toNat = c := by
      rw [BitVec.toNat_ofNat, Nat.mod_eq_of_lt]
      have := hsc.1
      omega
    simp only [writeUtf32]
    rw [hf, hcp] at hfit
    rw [M.bind_ok (M.get_apply s), hv, hcp]
    by_cases hn : s.endian = native
    · rw [if_pos hn]
      obtain ⟨n, r', e, q⟩ := write_eq C s w (objectBytes native 4 c) (by rw [← hn]; exact hfit) h
      exact ⟨r', by rw [M.bind_ok e, hf]; rfl, by rw [hn]; exact q⟩
    · rw [if_neg hn]
      obtain ⟨n, r', e, q⟩ := reverseWrite_eq C s w (objectBytes native 4 c) (by
        intro h0
        have := congrArg List.length h0
        rw [objectBytes_length] at this
        simp at this) (by
          rw [objectBytes_reverse native s.endian 4 c (fun h => hn h.symm)]
          exact hfit) h
      rw [objectBytes_reverse native s.endian 4 c (fun h => hn h.symm)] at q
      exact ⟨r', by rw [M.bind_ok e, hf]; rfl, q⟩

/-- Code points written one after the other. -/
theorem writeCodePoints_eq (C : W.Collects fits got out) (native : Endian) (cs : List Nat) :
    ∀ (s : OutStream ρ) (w : List Byte), (∀ c ∈ cs, WriteOk s.form c) →
      fits (w ++ textBytes s.form s.endian cs) → got w s.res →
      ∃ us r', M.runList (fun c => writeCodePoint native W (BitVec.ofNat 32 c)) cs s =
          (.ok us, { s with res := r' }) ∧
        got (w ++ textBytes s.form s.endian cs) r' := by
  induction cs with
  | nil =>
    intro s w _ _ h
    exact ⟨[], s.res, rfl, by simpa [textBytes_nil] using h⟩
  | cons c cs ih =>
    intro s w hc hf h
    rw [textBytes_cons, ← List.append_assoc] at hf ⊢
    obtain ⟨r1, e1, q1⟩ := writeCodePoint_eq C native s c (hc c (by simp)) w (C.shorter _ _ hf) h
    obtain ⟨us, r2, e2, q2⟩ := ih { s with res := r1 } _ (fun x hx => hc x (by simp [hx])) hf q1
    exact ⟨() :: us, r2, M.runList_cons e1 e2, q2⟩

/-- A traversal of the code points of a string that writes each of them. -/
theorem forCodePoints_eq (C : W.Collects fits got out) (native : Endian) (e : Enc) (cs : List Nat) :
    ∀ (pre : Str e) (fuel : Nat) (s : OutStream ρ) (w : List Byte), (∀ c ∈ cs, FwdOk e c) →
      (∀ c ∈ cs, WriteOk s.form c) → cs.length < fuel →
      fits (w ++ textBytes s.form s.endian cs) → got w s.res →
      ∃ r', forCodePoints e (pre ++ encs e cs) (writeCodePoint native W) fuel pre.length s =
          (.ok (), { s with res := r' }) ∧
        got (w ++ textBytes s.form s.endian cs) r' := by
  induction cs with
  | nil =>
    intro pre fuel s w _ _ hf _ h
    obtain ⟨n, rfl⟩ : ∃ n, fuel = n + 1 := ⟨fuel - 1, by omega⟩
    exact ⟨s.res, by simp [forCodePoints], by simpa [textBytes_nil] using h⟩
  | cons c cs ih =>
    intro pre fuel s w hfw hwo hf hfit h
    rw [textBytes_cons, ← List.append_assoc] at hfit
    obtain ⟨n, rfl⟩ : ∃ n, fuel = n + 1 := ⟨fuel - 1, by omega⟩
    have hc : FwdOk e c := hfw c (by simp)
    have hpos := encU_length_pos e c
    obtain ⟨r1, e1, q1⟩ := writeCodePoint_eq C native s c (hwo c (by simp)) w
      (C.shorter _ _ hfit) h
    obtain ⟨r2, e2, q2⟩ := ih (pre ++ encU e c) n { s with res := r1 } _
      (fun x hx => hfw x (by simp [hx])) (fun x hx => hwo x (by simp [hx])) (by simp at hf; omega)
      hfit q1
    refine ⟨r2, ?_, by rw [textBytes_cons, ← List.append_assoc]; exact q2⟩
    rw [forCodePoints, if_neg (by rw [encs_cons, List.length_append, List.length_append]; omega),
      encs_cons, deref_enc e c hc.bwd, M.bind_ok (M.lift_apply _ _), M.bind_ok e1,
      advance_enc e c hc, M.bind_ok (M.lift_apply _ _)]
    simpa using e2

/-- Code points a string of the given character type holds and the stream writes correctly. -/
def StringOk (native : Endian) (e : Enc) (s : OutStream ρ) (c : Nat) : Prop :=
  Spec.IsScalar c ∧
    if takesMemory native e s then e = .narrow → c < 128 else FwdOk e c ∧ WriteOk s.form c

theorem writeMemory_eq (C : W.Collects fits got out) (native : Endian) (e : Enc) (s : OutStream ρ)
    (hm : takesMemory native e s = true) (cs : List Nat) (ht : Spec.IsText cs)
    (hn : e = .narrow → ∀ c ∈ cs, c < 128) (w : List Byte)
    (hfit : fits (w ++ textBytes s.form s.endian cs)) (h : got w s.res) :
    ∃ r', writeMemory native W (encs e cs) s = (.ok (), { s with res := r' }) ∧
      got (w ++ textBytes s.form s.endian cs) r' := by
  have key : (encs e cs).flatMap (fun u => objectBytes native (e.width / 8) u.toNat) =
      textBytes s.form s.endian cs := by
    have h1 : ∀ c, Spec.IsScalar c → (e = .narrow → c < 128) →
        (encU e c).flatMap (fun u => objectBytes native (e.width / 8) u.toNat) =
          cpBytes s.form s.endian c := by
      intro c hc hn
      have h8 := utf8_bound c hc
      have h16 := utf16_bound c hc
      have h32 := isScalar_lt' hc
      cases e <;> cases hf : s.form <;> simp only [takesMemory, hf] at hm <;>
        first
        | exact absurd hm (by decide)
        | skip
      · have hn := hn rfl
        have h2 : Spec.utf8 c = [c] := by simp [Spec.utf8]; omega
        have := objectBytes_flatMap (w := 8) native 1 [c] (by simp; omega)
        simp only [cpBytes, EncodingForm.form, Spec.Form.encode1, Spec.Form.unitSize, h2]
        rw [flatMap_bytes_one _ _ (by simp; omega)] at this ⊢
        exact this
      · have := objectBytes_flatMap (w := 8) native 1 (Spec.utf8 c) h8
        simp only [cpBytes, EncodingForm.form, Spec.Form.encode1, Spec.Form.unitSize]
        rw [flatMap_bytes_one _ _ h8] at this ⊢
        exact this
      · rw [beq_iff_eq] at hm
        rw [hm]
        exact objectBytes_flatMap (w := 16) native 2 (Spec.utf16 c) h16
      · rw [beq_iff_eq] at hm
        rw [hm]
        exact objectBytes_flatMap (w := 32) native 4 [c] (by simpa using h32)
      · rw [beq_iff_eq] at hm
        rw [hm]
        exact objectBytes_flatMap (w := 16) native 2 (Spec.utf16 c) h16
      · rw [beq_iff_eq] at hm
        rw [hm]
        exact objectBytes_flatMap (w := 32) native 4 [c] (by simpa using h32)
    clear h hfit
    induction cs with
    | nil => rfl
    | cons c cs ih =>
      rw [encs_cons, List.flatMap_append, h1 c (ht c (by simp)) (fun h => hn h c (by simp)),
        ih (fun x hx => ht x (by simp [hx])) (fun h x hx => hn h x (by simp [hx])), textBytes_cons]
  obtain ⟨n, r', e', q⟩ := write_eq C s w _ hfit h
  refine ⟨r', ?_, q⟩
  rw [writeMemory, key, M.bind_ok e']
  rfl
where
  isScalar_lt' {c : Nat} (h : Spec.IsScalar c) : c < 2 ^ 32 := by
    have := h.1
    omega

/-- A string is written in the encoding scheme of the stream. -/
theorem writeString_eq (C : W.Collects fits got out) (native : Endian) (e : Enc) (s : OutStream ρ)
    (cs : List Nat) (hc : ∀ c ∈ cs, StringOk native e s c) (w : List Byte)
    (hfit : fits (w ++ textBytes s.form s.endian cs)) (h : got w s.res) :
    ∃ r', writeString native W e (encs e cs) s = (.ok (), { s with res := r' }) ∧
      got (w ++ textBytes s.form s.endian cs) r' := by
  rw [writeString, M.bind_ok (M.get_apply s)]
  by_cases hm : takesMemory native e s = true
  · rw [if_pos hm]
    refine writeMemory_eq C native e s hm cs (fun c hx => (hc c hx).1) (fun he c hx => ?_) w hfit h
    have := (hc c hx).2
    rw [if_pos hm] at this
    exact this he
  · rw [if_neg hm]
    have hl := encs_length_ge e cs
    have := forCodePoints_eq C native e cs [] ((encs e cs).length + 1) s w
      (fun c hx => by
        have := (hc c hx).2
        rw [if_neg hm] at this
        exact this.1)
      (fun c hx => by
        have := (hc c hx).2
        rw [if_neg hm] at this
        exact this.2) (by omega) hfit h
    simpa using this

theorem stringOk_ascii (native : Endian) (e : Enc) (s : OutStream ρ) (c : Nat) (h : c < 128) :
    StringOk native e s c := by
  have hs : Spec.IsScalar c := by unfold Spec.IsScalar; omega
  refine ⟨hs, ?_⟩
  split
  · intro _; exact h
  · constructor
    · cases e <;> simp only [FwdOk]
      · exact h
      · exact hs
      · exact ⟨hs, by omega⟩
      · omega
      · exact ⟨hs, by omega⟩
      · omega
    · cases s.form <;> simp only [WriteOk]
      · exact ⟨hs, by omega⟩
      · exact hs
      · exact hs

end OutStream

end Cmp
