import Verif.Props.TextValues
import Verif.Props.UnicodeExact

/-
What happens to the texts for which claims C50, C51 and C75 fail: the output stream has written the
code points before the offending one and throws.
-/

namespace Cmp

open InStream OutStream

theorem split_first {α : Type} (p : α → Prop) [DecidablePred p] (cs : List α) :
    (∀ c ∈ cs, p c) ∨ ∃ as c bs, cs = as ++ c :: bs ∧ (∀ x ∈ as, p x) ∧ ¬ p c := by
  induction cs with
  | nil => left; simp
  | cons c cs ih =>
    by_cases hc : p c
    · rcases ih with h | ⟨as, x, bs, rfl, h, hx⟩
      · left
        intro x hx
        rcases List.mem_cons.mp hx with rfl | hx
        · exact hc
        · exact h x hx
      · right
        refine ⟨c :: as, x, bs, rfl, ?_, hx⟩
        intro y hy
        rcases List.mem_cons.mp hy with rfl | hy
        · exact hc
        · exact h y hy
    · exact .inr ⟨[], c, cs, rfl, by simp, hc⟩

section

variable {ρ : Type} {W : Writer ρ} {fits : List Byte → Prop} {got out : List Byte → ρ → Prop}

theorem writeCodePoint_refused (native : Endian) (W : Writer ρ) (s : OutStream ρ) (h8 : s.form = .utf8)
    {c : Nat} (hs : Spec.IsScalar c) (hl : LowSurrogate c) :
    writeCodePoint native W (BitVec.ofNat 32 c) s = (.throw .invalidCodePoint, s) := by
  rw [writeCodePoint, M.bind_ok (M.get_apply s), h8]
  simp only [writeUtf8]
  rw [appendCP_refused [] hs hl]
  rfl

theorem textBytes_snoc (form : EncodingForm) (o : Endian) (as : List Nat) (c : Nat) (bs : List Nat) :
    textBytes form o (as ++ c :: bs) = textBytes form o as ++ (cpBytes form o c ++ textBytes form o bs) := by
  induction as with
  | nil => rw [List.nil_append, textBytes_cons, textBytes_nil, List.nil_append]
  | cons a as ih => rw [List.cons_append, textBytes_cons, textBytes_cons, ih, List.append_assoc]

theorem runList_refused (C : W.Collects fits got out) (native : Endian) (as : List Nat) (c : Nat)
    (bs : List Nat) (hs : Spec.IsScalar c) (hl : LowSurrogate c) :
    ∀ (s : OutStream ρ) (w : List Byte), s.form = .utf8 → (∀ x ∈ as, WriteOk s.form x) →
      fits (w ++ textBytes s.form s.endian as) → got w s.res →
      ∃ r', M.runList (fun c => writeCodePoint native W (BitVec.ofNat 32 c)) (as ++ c :: bs) s =
          (.throw .invalidCodePoint, { s with res := r' }) ∧
        got (w ++ textBytes s.form s.endian as) r' := by
  induction as with
  | nil =>
    intro s w h8 _ _ h
    refine ⟨s.res, ?_, by simpa [textBytes_nil] using h⟩
    rw [List.nil_append, M.runList, M.bind_apply, writeCodePoint_refused native W s h8 hs hl]
  | cons a as ih =>
    intro s w h8 hok hf h
    rw [textBytes_cons, ← List.append_assoc] at hf ⊢
    obtain ⟨r1, e1, q1⟩ := writeCodePoint_eq C native s a (hok a (by simp)) w (C.shorter _ _ hf) h
    obtain ⟨r2, e2, q2⟩ := ih { s with res := r1 } _ h8 (fun x hx => hok x (by simp [hx])) hf q1
    refine ⟨r2, ?_, q2⟩
    rw [List.cons_append, M.runList, M.bind_ok e1, M.bind_apply, e2]

/-! ### C51 -/

/-- Code points written to an output stream: all of them arrive, or the stream is UTF-8, one of them
has low 16 bits that are a surrogate value, and after those before it the stream throws. -/
theorem C51_exact (C : W.Collects fits got out) (native : Endian) (s : OutStream ρ)
    (sofar : List Byte) (cs : List Nat) (ht : Spec.IsText cs)
    (hf : fits (sofar ++ asBytes (s.form.form.serialize s.endian.order cs))) (h : got sofar s.res) :
    ((s.form = .utf8 → ∀ c ∈ cs, ¬ LowSurrogate c)
      ∧ ∃ us r', M.runList (fun c => writeCodePoint native W (BitVec.ofNat 32 c)) cs s =
          (.ok us, { s with res := r' })
        ∧ got (sofar ++ asBytes (s.form.form.serialize s.endian.order cs)) r')
    ∨ ∃ as c bs r', cs = as ++ c :: bs ∧ s.form = .utf8 ∧ (∀ x ∈ as, ¬ LowSurrogate x) ∧ LowSurrogate c
      ∧ M.runList (fun c => writeCodePoint native W (BitVec.ofNat 32 c)) cs s =
          (.throw .invalidCodePoint, { s with res := r' })
      ∧ got (sofar ++ asBytes (s.form.form.serialize s.endian.order as)) r' := by
  by_cases h8 : s.form = .utf8
  · rcases split_first (fun c => ¬ LowSurrogate c) cs with hl | ⟨as, c, bs, rfl, hl, hc⟩
    · exact .inl ⟨fun _ => hl, C51_partial C native s sofar cs ht (fun _ => hl) hf h⟩
    · right
      have hc := not_not.mp hc
      have hok : ∀ x ∈ as, WriteOk s.form x := fun x hx =>
        writeOk_of (ht x (by simp [hx])) (fun _ => hl x hx)
      have hf' : fits (sofar ++ textBytes s.form s.endian as) := by
        have hf : fits (sofar ++ textBytes s.form s.endian (as ++ c :: bs)) := hf
        rw [textBytes_snoc, ← List.append_assoc] at hf
        exact C.shorter _ _ hf
      obtain ⟨r', e1, q1⟩ := runList_refused C native as c bs (ht c (by simp)) hc s sofar h8 hok hf' h
      exact ⟨as, c, bs, r', rfl, h8, hl, hc, e1, q1⟩
  · exact .inl ⟨fun hh => absurd hh h8,
      C51_partial C native s sofar cs ht (fun hh => absurd hh h8) hf h⟩

/-! ### C75 -/

/-- The loop over the code points of a string, where writing one of them fails. -/
theorem forCodePoints_refused (C : W.Collects fits got out) (native : Endian) (e : Enc) (as : List Nat)
    (c : Nat) (bs : List Nat) (hb : BwdOk e c) (hs : Spec.IsScalar c) (hl : LowSurrogate c) :
    ∀ (pre : Str e) (fuel : Nat) (s : OutStream ρ) (w : List Byte), s.form = .utf8 →
      (∀ x ∈ as, FwdOk e x) → (∀ x ∈ as, WriteOk s.form x) → as.length < fuel →
      fits (w ++ textBytes s.form s.endian as) → got w s.res →
      ∃ r', forCodePoints e (pre ++ encs e (as ++ c :: bs)) (writeCodePoint native W) fuel pre.length s =
          (.throw .invalidCodePoint, { s with res := r' }) ∧
        got (w ++ textBytes s.form s.endian as) r' := by
  induction as with
  | nil =>
    intro pre fuel s w h8 _ _ hf _ h
    obtain ⟨n, rfl⟩ : ∃ n, fuel = n + 1 := ⟨fuel - 1, by omega⟩
    have hpos := encU_length_pos e c
    refine ⟨s.res, ?_, by simpa [textBytes_nil] using h⟩
    rw [List.nil_append, forCodePoints,
      if_neg (by rw [encs_cons, List.length_append, List.length_append]; omega), encs_cons,
      deref_enc e c hb, M.bind_ok (M.lift_apply _ _), M.bind_apply,
      writeCodePoint_refused native W s h8 hs hl]
  | cons a as ih =>
    intro pre fuel s w h8 hfw hwo hf hfit h
    rw [textBytes_cons, ← List.append_assoc] at hfit
    obtain ⟨n, rfl⟩ : ∃ n, fuel = n + 1 := ⟨fuel - 1, by omega⟩
    have ha : FwdOk e a := hfw a (by simp)
    have hpos := encU_length_pos e a
    obtain ⟨r1, e1, q1⟩ := writeCodePoint_eq C native s a (hwo a (by simp)) w (C.shorter _ _ hfit) h
    obtain ⟨r2, e2, q2⟩ := ih (pre ++ encU e a) n { s with res := r1 } _ h8
      (fun x hx => hfw x (by simp [hx])) (fun x hx => hwo x (by simp [hx])) (by simp at hf; omega)
      hfit q1
    refine ⟨r2, ?_, by rw [textBytes_cons, ← List.append_assoc]; exact q2⟩
    rw [List.cons_append, forCodePoints,
      if_neg (by rw [encs_cons, List.length_append, List.length_append]; omega),
      encs_cons, deref_enc e a ha.bwd, M.bind_ok (M.lift_apply _ _), M.bind_ok e1,
      advance_enc e a ha, M.bind_ok (M.lift_apply _ _)]
    simpa using e2

/-- The loop over the code points of a UTF-16 string with a surrogate pair. -/
theorem forCodePoints_pair (C : W.Collects fits got out) (native : Endian) (e : Enc)
    (he : e.form = .utf16) (as : List Nat) (c : Nat) (bs : List Nat) (hs : Spec.IsScalar c)
    (hc : ¬ Spec.IsBmp c) :
    ∀ (pre : Str e) (fuel : Nat) (s : OutStream ρ) (w : List Byte), WriteOk s.form c →
      (∀ x ∈ as, FwdOk e x) → (∀ x ∈ as, WriteOk s.form x) → as.length + 1 < fuel →
      fits (w ++ textBytes s.form s.endian (as ++ [c])) → got w s.res →
      ∃ r', forCodePoints e (pre ++ encs e (as ++ c :: bs)) (writeCodePoint native W) fuel pre.length s =
          (.throw .invalidUnicodeEncoding, { s with res := r' }) ∧
        got (w ++ textBytes s.form s.endian (as ++ [c])) r' := by
  induction as with
  | nil =>
    intro pre fuel s w hwc _ _ hf hfit h
    obtain ⟨n, rfl⟩ : ∃ n, fuel = n + 2 := ⟨fuel - 2, by simp at hf; omega⟩
    obtain ⟨h2, p1, -, p3⟩ := pair_steps e he pre (encs e bs) hs.1 hc
    have hb : BwdOk e c := by cases e <;> first | (cases he; done) | exact hs
    rw [List.nil_append, textBytes_cons, textBytes_nil, List.append_nil] at hfit
    obtain ⟨r1, e1, q1⟩ := writeCodePoint_eq C native s c hwc w hfit h
    refine ⟨r1, ?_, by simpa [textBytes_cons, textBytes_nil] using q1⟩
    rw [List.nil_append, forCodePoints, encs_cons,
      if_neg (by rw [List.length_append, List.length_append]; omega),
      deref_enc e c hb, M.bind_ok (M.lift_apply _ _), M.bind_ok e1, p1, M.bind_ok (M.lift_apply _ _),
      forCodePoints, if_neg (by rw [List.length_append, List.length_append]; omega), p3]
    rfl
  | cons a as ih =>
    intro pre fuel s w hwc hfw hwo hf hfit h
    rw [List.cons_append, textBytes_cons, ← List.append_assoc] at hfit
    obtain ⟨n, rfl⟩ : ∃ n, fuel = n + 1 := ⟨fuel - 1, by omega⟩
    have ha : FwdOk e a := hfw a (by simp)
    have hpos := encU_length_pos e a
    obtain ⟨r1, e1, q1⟩ := writeCodePoint_eq C native s a (hwo a (by simp)) w (C.shorter _ _ hfit) h
    obtain ⟨r2, e2, q2⟩ := ih (pre ++ encU e a) n { s with res := r1 } _ hwc
      (fun x hx => hfw x (by simp [hx])) (fun x hx => hwo x (by simp [hx])) (by simp at hf; omega)
      hfit q1
    refine ⟨r2, ?_, by rw [List.cons_append, textBytes_cons, ← List.append_assoc]; exact q2⟩
    rw [List.cons_append, forCodePoints,
      if_neg (by rw [encs_cons, List.length_append, List.length_append]; omega),
      encs_cons, deref_enc e a ha.bwd, M.bind_ok (M.lift_apply _ _), M.bind_ok e1,
      advance_enc e a ha, M.bind_ok (M.lift_apply _ _)]
    simpa using e2

/-- A string written to an output stream: all of its text arrives, or the stream has other code units
or another byte order and one of two things happens.  On a UTF-8 stream a code point whose low 16
bits are a surrogate value makes it throw after what precedes it.  A supplementary code point of a
UTF-16 string is written, and then the stream throws. -/
theorem C75_exact (C : W.Collects fits got out) (native : Endian) (st : OutStream ρ)
    (sofar : List Byte) (e : Enc) (s : Str e) (cs : List Nat) (ht : TextOf e s cs)
    (hf : fits (sofar ++ asBytes (st.form.form.serialize st.endian.order cs))) (h : got sofar st.res) :
    ((SameUnits native st.endian st.form e ∨
        (e.form = .utf16 → ∀ c ∈ cs, Spec.IsBmp c) ∧ (st.form = .utf8 → ∀ c ∈ cs, ¬ LowSurrogate c))
      ∧ ∃ r', writeString native W e s st = (.ok (), { st with res := r' })
      ∧ got (sofar ++ asBytes (st.form.form.serialize st.endian.order cs)) r')
    ∨ ¬ SameUnits native st.endian st.form e ∧ ∃ as c bs r', cs = as ++ c :: bs
      ∧ (∀ x ∈ as, (e.form = .utf16 → Spec.IsBmp x) ∧ (st.form = .utf8 → ¬ LowSurrogate x))
      ∧ ((st.form = .utf8 ∧ LowSurrogate c
          ∧ writeString native W e s st = (.throw .invalidCodePoint, { st with res := r' })
          ∧ got (sofar ++ asBytes (st.form.form.serialize st.endian.order as)) r')
        ∨ (¬ (st.form = .utf8 ∧ LowSurrogate c) ∧ e.form = .utf16 ∧ ¬ Spec.IsBmp c
          ∧ writeString native W e s st = (.throw .invalidUnicodeEncoding, { st with res := r' })
          ∧ got (sofar ++ asBytes (st.form.form.serialize st.endian.order (as ++ [c]))) r')) := by
  by_cases hsame : SameUnits native st.endian st.form e
  · exact .inl ⟨.inl hsame, C75_partial C native st sofar e s cs ht (.inl hsame) hf h⟩
  classical
  rcases split_first (fun c => (e.form = .utf16 → Spec.IsBmp c) ∧ (st.form = .utf8 → ¬ LowSurrogate c)) cs
    with hall | ⟨as, c, bs, rfl, has, hc⟩
  · have hall' := And.intro (fun (he : e.form = .utf16) c hc => (hall c hc).1 he)
      (fun (h8 : st.form = .utf8) c hc => (hall c hc).2 h8)
    exact .inl ⟨.inr hall', C75_partial C native st sofar e s cs ht (.inr hall') hf h⟩
  right
  refine ⟨hsame, ?_⟩
  have hm : ¬ takesMemory native e st = true := by
    intro hm
    apply hsame
    unfold takesMemory at hm
    unfold SameUnits
    split at hm <;> simp_all [Enc.form, EncodingForm.form]
  have hpre : TextOf e (encs e as) as := textOf_encs e as (fun x hx => ht.1.1 x (by simp [hx]))
    (fun he x hx => ht.2 he x (by simp [hx]))
  have hfw : ∀ x ∈ as, FwdOk e x := hpre.fwd (fun he x hx => (has x hx).1 he)
  have hwo : ∀ x ∈ as, WriteOk st.form x := fun x hx =>
    writeOk_of (ht.1.1 x (by simp [hx])) ((has x hx).2)
  have hs : Spec.IsScalar c := ht.1.1 c (by simp)
  have hbw : BwdOk e c := ht.bwd c (by simp)
  have hla := encs_length_ge e as
  have hlen : (encs e (as ++ c :: bs)).length
      = (encs e as).length + ((encU e c).length + (encs e bs).length) := by
    rw [encs_append, encs_cons, List.length_append, List.length_append]
  have hpos := encU_length_pos e c
  have hfull : fits (sofar ++ textBytes st.form st.endian (as ++ c :: bs)) := hf
  have hw : writeString native W e s st
      = forCodePoints e (encs e (as ++ c :: bs)) (writeCodePoint native W)
          ((encs e (as ++ c :: bs)).length + 1) 0 st := by
    rw [ht.eq, writeString, M.bind_ok (M.get_apply st), if_neg hm]
  by_cases h8 : st.form = .utf8 ∧ LowSurrogate c
  · have hf' : fits (sofar ++ textBytes st.form st.endian as) := by
      rw [textBytes_snoc, ← List.append_assoc] at hfull
      exact C.shorter _ _ hfull
    obtain ⟨r', e1, q1⟩ := forCodePoints_refused C native e as c bs hbw hs h8.2 []
      ((encs e (as ++ c :: bs)).length + 1) st sofar h8.1 hfw hwo (by omega) hf' h
    rw [List.nil_append, List.length_nil] at e1
    exact ⟨as, c, bs, r', rfl, has, .inl ⟨h8.1, h8.2, hw.trans e1, q1⟩⟩
  · have h16 : e.form = .utf16 ∧ ¬ Spec.IsBmp c := by
      by_contra hcon
      exact hc ⟨fun he => by by_contra hb; exact hcon ⟨he, hb⟩, fun hu hl => h8 ⟨hu, hl⟩⟩
    have hf' : fits (sofar ++ textBytes st.form st.endian (as ++ [c])) := by
      rw [show as ++ c :: bs = (as ++ [c]) ++ bs by simp] at hfull
      cases bs with
      | nil => simpa using hfull
      | cons b bs =>
        rw [textBytes_snoc, ← List.append_assoc] at hfull
        exact C.shorter _ _ hfull
    have h2 := (pair_steps e h16.1 [] [] hs.1 h16.2).1
    obtain ⟨r', e1, q1⟩ := forCodePoints_pair C native e h16.1 as c bs hs h16.2 []
      ((encs e (as ++ c :: bs)).length + 1) st sofar
      (writeOk_of hs (fun hu hl => h8 ⟨hu, hl⟩)) hfw hwo (by omega) hf' h
    rw [List.nil_append, List.length_nil] at e1
    exact ⟨as, c, bs, r', rfl, has, .inr ⟨h8, h16.1, h16.2, hw.trans e1, q1⟩⟩

end

example : written 2 .little .utf8 (writeText .little [0x41, 0x1D800]) = .throw .invalidCodePoint
    ∧ Spec.IsText [0x41, 0x1D800] ∧ LowSurrogate 0x1D800 := by
  refine ⟨by decide +kernel, by unfold Spec.IsText; decide, by decide⟩

example : TextOf .char16 (encs .char16 [0x41, 0x1F600, 0x42]) [0x41, 0x1F600, 0x42]
    ∧ ¬ SameUnits .little .little .utf32 .char16
    ∧ written 2 .little .utf32 (writeString .little Ctr.writer .char16
        (encs .char16 [0x41, 0x1F600, 0x42])) = .throw .invalidUnicodeEncoding :=
  ⟨textOf_encs _ _ (by unfold Spec.IsText; decide) (by decide), by decide, by decide +kernel⟩

/-! ### C50 -/

/-- A text comes back from a container, or the container is UTF-8 and it cannot be written. -/
theorem C50_exact (native e : Endian) (form : EncodingForm) (cap cap' : Nat) (cs : List Nat)
    (ht : Spec.IsText cs) (h13 : 13 ∉ cs) (hcap : RoomFor form cap') :
    (∃ wire, written cap e form (writeText native cs) = .ok wire ∧
      received cap' wire e form (readText native cs.length) = .ok (cs.map (BitVec.ofNat 32)))
    ∨ form = .utf8 ∧ (∃ c ∈ cs, LowSurrogate c)
      ∧ written cap e form (writeText native cs) = .throw .invalidCodePoint := by
  by_cases h8 : form = .utf8 ∧ ∃ c ∈ cs, LowSurrogate c
  · right
    refine ⟨h8.1, h8.2, ?_⟩
    rcases C51_exact (Ctr.collects cap []) native ⟨freshCtr cap 1 [], e, form⟩ [] cs ht trivial
      (Ctr.got_fresh cap) with ⟨hl, us, r', e1, -⟩ | ⟨as, c, bs, r', -, -, -, -, e1, -⟩
    · exfalso
      obtain ⟨hu, x, hx, hxl⟩ := h8
      exact hl hu x hx hxl
    · rw [written, M.bind_apply]
      have : writeText native cs ⟨freshCtr cap 1 [], e, form⟩
        = (.throw .invalidCodePoint, { (⟨freshCtr cap 1 [], e, form⟩ : OutStream (Res Ctr)) with res := r' }) := e1
      rw [this]
  · exact .inl (C50_partial native e form cap cap' cs ht h13 hcap
      (fun hu c hc hl => h8 ⟨hu, c, hc, hl⟩))

end Cmp
