import Verif.Proofs.UnicodeSteps

/-
Helper lemmas: whole-string loops (forward and reverse traversal, insertion, conversion,
validation, prefix and suffix tests) on the encoding of a text.
-/

namespace Cmp

/-! ### Traversal -/

theorem forEachFrom_enc (e : Enc) {σ : Type} (f : σ → Char32 → Outcome σ) (cs : List Nat) :
    ∀ (pre : Str e) (fuel : Nat) (acc : σ), (∀ c ∈ cs, FwdOk e c) → cs.length < fuel →
      forEachFrom e (pre ++ encs e cs) f fuel pre.length acc
        = cs.foldlM (fun a c => f a (BitVec.ofNat 32 c)) acc := by
  induction cs with
  | nil =>
    intro pre fuel acc _ hf
    obtain ⟨n, rfl⟩ : ∃ n, fuel = n + 1 := ⟨fuel - 1, by omega⟩
    simp [forEachFrom]
  | cons c cs ih =>
    intro pre fuel acc hok hf
    obtain ⟨n, rfl⟩ : ∃ n, fuel = n + 1 := ⟨fuel - 1, by omega⟩
    have hc : FwdOk e c := hok c (by simp)
    have hpos := encU_length_pos e c
    rw [forEachFrom, if_neg (by rw [encs_cons, List.length_append, List.length_append]; omega),
      encs_cons, deref_enc e c hc.bwd, Outcome.ok_bind,
      List.foldlM_cons]
    congr 1
    funext acc'
    rw [advance_enc e c hc, Outcome.ok_bind]
    have := ih (pre ++ encU e c) n acc' (fun x hx => hok x (by simp [hx]))
      (by simp at hf; omega)
    simpa using this

theorem forEach_enc (e : Enc) {σ : Type} (f : σ → Char32 → Outcome σ) (cs : List Nat) (acc : σ)
    (hok : ∀ c ∈ cs, FwdOk e c) :
    forEach e (encs e cs) f acc = cs.foldlM (fun a c => f a (BitVec.ofNat 32 c)) acc := by
  have h := forEachFrom_enc e f cs [] ((encs e cs).length + 1) acc hok
    (by have := encs_length_ge e cs; omega)
  simpa [forEach] using h

theorem rderef_enc (e : Enc) (c : Nat) (h : BwdOk e c) (pre post : Str e) :
    rderef e (pre ++ (encU e c ++ post)) (pre.length + (encU e c).length)
      = .ok (BitVec.ofNat 32 c) := by
  rw [rderef, retreat_enc e c h, Outcome.ok_bind, deref_enc e c h]

theorem rforEachFrom_enc (e : Enc) {σ : Type} (f : σ → Char32 → Outcome σ) (rs : List Nat) :
    ∀ (post : Str e) (fuel : Nat) (acc : σ), (∀ c ∈ rs, BwdOk e c) → rs.length < fuel →
      rforEachFrom e (encs e rs.reverse ++ post) f fuel (encs e rs.reverse).length acc
        = rs.foldlM (fun a c => f a (BitVec.ofNat 32 c)) acc := by
  induction rs with
  | nil =>
    intro post fuel acc _ hf
    obtain ⟨n, rfl⟩ : ∃ n, fuel = n + 1 := ⟨fuel - 1, by omega⟩
    simp [rforEachFrom]
  | cons c rs ih =>
    intro post fuel acc hok hf
    obtain ⟨n, rfl⟩ : ∃ n, fuel = n + 1 := ⟨fuel - 1, by omega⟩
    have hc : BwdOk e c := hok c (by simp)
    have hpos := encU_length_pos e c
    simp only [List.reverse_cons, encs_append, encs_cons, encs_nil, List.append_nil,
      List.append_assoc, List.length_append]
    rw [rforEachFrom, if_neg (by omega), rderef_enc e c hc, Outcome.ok_bind, List.foldlM_cons]
    congr 1
    funext acc'
    rw [retreat_enc e c hc, Outcome.ok_bind]
    exact ih (encU e c ++ post) n acc' (fun x hx => hok x (by simp [hx]))
      (by simp at hf; omega)

theorem rforEach_enc (e : Enc) {σ : Type} (f : σ → Char32 → Outcome σ) (cs : List Nat) (acc : σ)
    (hok : ∀ c ∈ cs, BwdOk e c) :
    rforEach e (encs e cs) f acc
      = cs.reverse.foldlM (fun a c => f a (BitVec.ofNat 32 c)) acc := by
  have h := rforEachFrom_enc e f cs.reverse [] ((encs e cs).length + 1) acc
    (by simpa using hok) (by have := encs_length_ge e cs; simp; omega)
  simpa [rforEach] using h

theorem foldlM_collect (cs : List Nat) (acc : List Char32) :
    cs.foldlM (fun (a : List Char32) c => Outcome.ok (a ++ [BitVec.ofNat 32 c])) acc
      = .ok (acc ++ cs.map (BitVec.ofNat 32)) := by
  induction cs generalizing acc with
  | nil => simp
  | cons c cs ih => rw [List.foldlM_cons, Outcome.ok_bind, ih]; simp

theorem codePoints_enc (e : Enc) (cs : List Nat) (hok : ∀ c ∈ cs, FwdOk e c) :
    codePoints e (encs e cs) = .ok (cs.map (BitVec.ofNat 32)) := by
  rw [codePoints, forEach_enc e _ cs _ hok, foldlM_collect]; rfl

theorem rcodePoints_enc (e : Enc) (cs : List Nat) (hok : ∀ c ∈ cs, BwdOk e c) :
    rcodePoints e (encs e cs) = .ok (cs.reverse.map (BitVec.ofNat 32)) := by
  rw [rcodePoints, rforEach_enc e _ cs _ hok, foldlM_collect]; rfl

/-! ### Insertion -/

/-- Insert several units one after the other, at consecutive indices. -/
def insertUnits {α : Type} : Nat → List α → M (List α) Unit
  | _, [] => pure ()
  | i, u :: us => do strInsert i u; insertUnits (i + 1) us

theorem strInsert_ok {α : Type} (i : Nat) (u : α) (s : List α) (h : i ≤ s.length) :
    strInsert i u s = (.ok (), s.take i ++ u :: s.drop i) := by simp [strInsert, h]

theorem strInsert_fail {α : Type} (i : Nat) (u : α) (s : List α) (h : s.length < i) :
    strInsert i u s = (.throw .outOfRange, s) := by
  rw [strInsert, if_neg (by omega)]

theorem insertUnits_ok {α : Type} (us : List α) :
    ∀ (i : Nat) (s : List α), i ≤ s.length →
      insertUnits i us s = (.ok (), s.take i ++ us ++ s.drop i) := by
  induction us with
  | nil => intro i s h; simp [insertUnits]
  | cons u us ih =>
    intro i s h
    rw [insertUnits, M.bind_ok (strInsert_ok i u s h), ih _ _ (by simp; omega)]
    have e1 : (s.take i ++ u :: s.drop i).take (i + 1) = s.take i ++ [u] := by
      rw [List.take_append, List.take_of_length_le (by simp; omega)]
      simp [List.length_take, Nat.min_eq_left h]
    have e2 : (s.take i ++ u :: s.drop i).drop (i + 1) = s.drop i := by
      rw [List.drop_append, List.drop_of_length_le (by simp; omega)]
      simp [List.length_take, Nat.min_eq_left h]
    rw [e1, e2]; simp

theorem insertUnits_fail {α : Type} (u : α) (us : List α) (i : Nat) (s : List α)
    (h : s.length < i) : insertUnits i (u :: us) s = (.throw .outOfRange, s) := by
  rw [insertUnits, M.bind_throw (strInsert_fail i u s h)]

/-- The units inserted for any `char32_t` that is not rejected. -/
def insU : (e : Enc) → Char32 → Str e
  | .narrow, c => [c.setWidth 8]
  | .char8, c => (Spec.utf8 c.toNat).map (BitVec.ofNat 8)
  | .char16, c => ins16 c
  | .wide2, c => ins16 c
  | .char32, c => [c]
  | .wide4, c => [c]
where
  ins16 (c : Char32) : List Char16 :=
    if !isSurrogate (c.setWidth 16) && c ≤ maximumBmpCodePoint then [c.setWidth 16]
    else [((((0b11111111110000000000#32 &&& (c - 0x10000#32)) >>> 10) + 0xD800#32).setWidth 16),
      (((0b00000000001111111111#32 &&& (c - 0x10000#32)) + 0xDC00#32).setWidth 16)]

/-- Whether `insert_code_point` rejects the code point. -/
def rejected : Enc → Char32 → Bool
  | .char8, c => !isCodePointValid c
  | _, _ => false

theorem strInsert_eq {α : Type} (i : Nat) (u : α) : strInsert i u = insertUnits i [u] := by
  funext s
  rcases Nat.lt_or_ge s.length i with h | h
  · rw [strInsert_fail i u s h, insertUnits_fail u [] i s h]
  · rw [strInsert_ok i u s h, insertUnits_ok [u] i s h]; simp

theorem insertUnits_two {α : Type} (i : Nat) (a b : α) :
    (do strInsert i a; strInsert (i + 1) b) = insertUnits i [a, b] := by
  rw [insertUnits, ← strInsert_eq]

theorem insertUnits_three {α : Type} (i : Nat) (a b c : α) :
    (do strInsert i a; strInsert (i + 1) b; strInsert (i + 2) c) = insertUnits i [a, b, c] := by
  rw [insertUnits, ← insertUnits_two]

theorem insertUnits_four {α : Type} (i : Nat) (a b c d : α) :
    (do strInsert i a; strInsert (i + 1) b; strInsert (i + 2) c; strInsert (i + 3) d)
      = insertUnits i [a, b, c, d] := by
  rw [insertUnits, ← insertUnits_three]

theorem insert16_eq (c : Char32) (i : Nat) :
    insertCodePoint.insert16 c i = insertUnits i (insU.ins16 c) := by
  unfold insertCodePoint.insert16 insU.ins16
  split
  · exact strInsert_eq _ _
  · exact insertUnits_two _ _ _

theorem byte_lead2 (c : Char32) (h : c.toNat < 2048) :
    ((c >>> 6) ||| 0b11000000#32).setWidth 8 = BitVec.ofNat 8 (0xC0 + c.toNat / 64) := by
  apply BitVec.eq_of_toNat_eq
  rw [BitVec.toNat_setWidth, BitVec.toNat_or, BitVec.toNat_ushiftRight, BitVec.toNat_ofNat,
    Nat.shiftRight_eq_div_pow, BitVec.toNat_ofNat]
  rw [show 192 % 2 ^ 32 = 192 from rfl, or_C0 _ (by omega)]

theorem byte_lead3 (c : Char32) (h : c.toNat < 65536) :
    ((c >>> 12) ||| 0b11100000#32).setWidth 8 = BitVec.ofNat 8 (0xE0 + c.toNat / 4096) := by
  apply BitVec.eq_of_toNat_eq
  rw [BitVec.toNat_setWidth, BitVec.toNat_or, BitVec.toNat_ushiftRight, BitVec.toNat_ofNat,
    Nat.shiftRight_eq_div_pow, BitVec.toNat_ofNat]
  rw [show 224 % 2 ^ 32 = 224 from rfl, or_E0 _ (by omega)]

theorem byte_lead4 (c : Char32) (h : c.toNat < 2097152) :
    ((c >>> 18) ||| 0b11110000#32).setWidth 8 = BitVec.ofNat 8 (0xF0 + c.toNat / 262144) := by
  apply BitVec.eq_of_toNat_eq
  rw [BitVec.toNat_setWidth, BitVec.toNat_or, BitVec.toNat_ushiftRight, BitVec.toNat_ofNat,
    Nat.shiftRight_eq_div_pow, BitVec.toNat_ofNat]
  rw [show 240 % 2 ^ 32 = 240 from rfl, or_F0 _ (by omega)]

theorem byte_trail (c : Char32) :
    ((c &&& 0b00111111#32) ||| 0b10000000#32).setWidth 8
      = BitVec.ofNat 8 (0x80 + c.toNat % 64) := by
  apply BitVec.eq_of_toNat_eq
  rw [BitVec.toNat_setWidth, BitVec.toNat_or, BitVec.toNat_and, BitVec.toNat_ofNat,
    BitVec.toNat_ofNat, BitVec.toNat_ofNat]
  rw [show 128 % 2 ^ 32 = 128 from rfl, show 63 % 2 ^ 32 = 63 from rfl, and_63,
    or_80 _ (by omega)]

theorem byte_trail6 (c : Char32) :
    (((c >>> 6) &&& 0b00111111#32) ||| 0b10000000#32).setWidth 8
      = BitVec.ofNat 8 (0x80 + c.toNat / 64 % 64) := by
  rw [byte_trail, BitVec.toNat_ushiftRight, Nat.shiftRight_eq_div_pow]

theorem byte_trail12 (c : Char32) :
    (((c >>> 12) &&& 0b00111111#32) ||| 0b10000000#32).setWidth 8
      = BitVec.ofNat 8 (0x80 + c.toNat / 4096 % 64) := by
  rw [byte_trail, BitVec.toNat_ushiftRight, Nat.shiftRight_eq_div_pow]

theorem byte_one (c : Char32) : c.setWidth 8 = BitVec.ofNat 8 c.toNat := by
  apply BitVec.eq_of_toNat_eq; simp

theorem insert8_eq (c : Char32) (i : Nat) (h : isCodePointValid c = true) :
    insertCodePoint .char8 c i = insertUnits i (insU .char8 c) := by
  have hv := h
  rw [isCodePointValid_eq, decide_eq_true_iff] at hv
  simp only [insertCodePoint, h, Bool.not_true, Bool.false_eq_true, if_false, insU, Spec.utf8]
  by_cases h1 : c.toNat < 0x80
  · rw [if_pos (by simp [fitsIn7Bits, BitVec.le_def]; omega), if_pos h1, byte_one]
    exact strInsert_eq _ _
  rw [if_neg (by simp [fitsIn7Bits, BitVec.le_def]; omega), if_neg h1]
  by_cases h2 : c.toNat < 0x800
  · rw [if_pos (by simp [BitVec.le_def]; omega), if_pos h2, byte_lead2 c h2, byte_trail]
    exact insertUnits_two _ _ _
  rw [if_neg (by simp [BitVec.le_def]; omega), if_neg h2]
  by_cases h3 : c.toNat < 0x10000
  · rw [if_pos (by simp [BitVec.le_def]; omega), if_pos h3, byte_lead3 c h3, byte_trail c,
      byte_trail6 c]
    exact insertUnits_three _ _ _ _
  rw [if_neg (by simp [BitVec.le_def]; omega), if_neg h3, byte_lead4 c (by omega), byte_trail c,
      byte_trail6 c, byte_trail12 c]
  exact insertUnits_four _ _ _ _ _

theorem insertCodePoint_eq (e : Enc) (c : Char32) (i : Nat) (h : rejected e c = false) :
    insertCodePoint e c i = insertUnits i (insU e c) := by
  cases e with
  | narrow => exact strInsert_eq _ _
  | char8 => exact insert8_eq c i (by simpa [rejected] using h)
  | char16 => exact insert16_eq c i
  | wide2 => exact insert16_eq c i
  | char32 => exact strInsert_eq _ _
  | wide4 => exact strInsert_eq _ _

theorem insertCodePoint_rejected (e : Enc) (c : Char32) (i : Nat) (s : Str e)
    (h : rejected e c = true) :
    insertCodePoint e c i s = (.throw .invalidCodePoint, s) := by
  cases e <;> simp_all [rejected, insertCodePoint]

theorem insU_ne_nil (e : Enc) (c : Char32) : insU e c ≠ [] := by
  cases e <;> simp [insU, insU.ins16, Spec.utf8] <;> (repeat' split) <;> simp

/-- Code points that the encoders encode correctly. -/
def InsOk : Enc → Nat → Prop
  | .narrow, c => c < 128
  | .char8, c => Spec.IsScalar c ∧ ¬ (0xD800 ≤ c % 65536 ∧ c % 65536 ≤ 0xDFFF)
  | .char16, c => Spec.IsScalar c
  | .wide2, c => Spec.IsScalar c
  | .char32, c => c < 2 ^ 32
  | .wide4, c => c < 2 ^ 32

theorem hi_pair (c : Nat) (h1 : 65536 ≤ c) (h2 : c ≤ 0x10FFFF) :
    (((0b11111111110000000000#32 &&& (BitVec.ofNat 32 c - 0x10000#32)) >>> 10)
        + 0xD800#32).setWidth 16 = BitVec.ofNat 16 (0xD800 + (c - 0x10000) / 1024) := by
  have e : BitVec.ofNat 32 c - 0x10000#32 = BitVec.ofNat 32 (c - 65536) := by
    apply BitVec.eq_of_toNat_eq
    rw [BitVec.toNat_sub]
    simp only [BitVec.toNat_ofNat]
    omega
  rw [e]
  have h3 : c - 65536 < 2 ^ 20 := by omega
  generalize c - 65536 = d at h3
  apply BitVec.eq_of_toNat_eq
  rw [BitVec.toNat_setWidth, BitVec.toNat_add, BitVec.toNat_ushiftRight, BitVec.toNat_and]
  have e2 : (1047552 &&& d) >>> 10 = d / 1024 := by
    rw [Nat.shiftRight_and_distrib, Nat.shiftRight_eq_div_pow, Nat.shiftRight_eq_div_pow,
      Nat.and_comm, show 1047552 / 2 ^ 10 = 1023 from rfl, and_1023]
    omega
  simp only [BitVec.toNat_ofNat]
  rw [Nat.mod_eq_of_lt (show d < 2 ^ 32 by omega), show 1047552 % 2 ^ 32 = 1047552 from rfl, e2]
  omega

theorem lo_pair (c : Nat) (h1 : 65536 ≤ c) (h2 : c ≤ 0x10FFFF) :
    ((0b00000000001111111111#32 &&& (BitVec.ofNat 32 c - 0x10000#32))
        + 0xDC00#32).setWidth 16 = BitVec.ofNat 16 (0xDC00 + (c - 0x10000) % 1024) := by
  have e : BitVec.ofNat 32 c - 0x10000#32 = BitVec.ofNat 32 (c - 65536) := by
    apply BitVec.eq_of_toNat_eq
    rw [BitVec.toNat_sub]
    simp only [BitVec.toNat_ofNat]
    omega
  rw [e]
  have h3 : c - 65536 < 2 ^ 20 := by omega
  generalize c - 65536 = d at h3
  apply BitVec.eq_of_toNat_eq
  rw [BitVec.toNat_setWidth, BitVec.toNat_add, BitVec.toNat_and]
  simp only [BitVec.toNat_ofNat]
  rw [Nat.mod_eq_of_lt (show d < 2 ^ 32 by omega), show 1023 % 2 ^ 32 = 1023 from rfl,
    Nat.and_comm, and_1023]
  omega

theorem ins16_enc (c : Nat) (h : Spec.IsScalar c) :
    insU.ins16 (BitVec.ofNat 32 c) = (Spec.utf16 c).map (BitVec.ofNat 16) := by
  unfold insU.ins16
  rcases utf16_cases c h with ⟨h1, h2, e⟩ | ⟨h1, h2, e⟩ <;> rw [e]
  · have e1 : (BitVec.ofNat 32 c).setWidth 16 = BitVec.ofNat 16 c := by
      apply BitVec.eq_of_toNat_eq
      simp only [BitVec.toNat_setWidth, BitVec.toNat_ofNat]
      omega
    rw [e1, isSurrogate_eq, if_pos]
    · rfl
    · simp only [BitVec.toNat_ofNat, maximumBmpCodePoint, BitVec.le_def, Bool.and_eq_true,
        Bool.not_eq_true', decide_eq_false_iff_not, decide_eq_true_eq]
      omega
  · rw [if_neg, hi_pair c h1 h2, lo_pair c h1 h2]
    · rfl
    · simp only [BitVec.toNat_ofNat, maximumBmpCodePoint, BitVec.le_def, Bool.and_eq_true,
        decide_eq_true_eq]
      omega

theorem insU_enc (e : Enc) (c : Nat) (h : InsOk e c) :
    insU e (BitVec.ofNat 32 c) = encU e c := by
  cases e with
  | narrow =>
    show [(BitVec.ofNat 32 c).setWidth 8] = [BitVec.ofNat 8 c]
    rw [byte_one]
    have : c < 128 := h
    rw [BitVec.toNat_ofNat, Nat.mod_eq_of_lt (by omega)]
  | char8 =>
    show (Spec.utf8 (BitVec.ofNat 32 c).toNat).map _ = (Spec.utf8 c).map _
    have : c ≤ 0x10FFFF := h.1.1
    rw [BitVec.toNat_ofNat, Nat.mod_eq_of_lt (by omega)]
  | char16 => exact ins16_enc c h
  | wide2 => exact ins16_enc c h
  | char32 => rfl
  | wide4 => rfl

theorem rejected_enc (e : Enc) (c : Nat) (h : InsOk e c) :
    rejected e (BitVec.ofNat 32 c) = false := by
  cases e <;> try rfl
  have h1 : c ≤ 0x10FFFF := h.1.1
  have h2 := h.2
  rw [rejected, isCodePointValid_eq, BitVec.toNat_ofNat, Nat.mod_eq_of_lt (by omega)]
  simp only [Bool.not_eq_false', decide_eq_true_eq]
  exact ⟨h1, h2⟩

theorem insertCodePoint_enc (e : Enc) (c : Nat) (h : InsOk e c) (i : Nat) (s : Str e)
    (hi : i ≤ s.length) :
    insertCodePoint e (BitVec.ofNat 32 c) i s
      = (.ok (), s.take i ++ encU e c ++ s.drop i) := by
  rw [insertCodePoint_eq _ _ _ (rejected_enc e c h), insertUnits_ok _ _ _ hi, insU_enc e c h]

theorem appendCP_enc (e : Enc) (c : Nat) (h : InsOk e c) (s : Str e) :
    appendCP e s (BitVec.ofNat 32 c) = .ok (s ++ encU e c) := by
  rw [appendCP, appendCodePoint, insertCodePoint_enc e c h _ _ (Nat.le_refl _)]
  simp

theorem foldlM_appendCP (e : Enc) (cs : List Nat) (s : Str e) (h : ∀ c ∈ cs, InsOk e c) :
    cs.foldlM (fun a c => appendCP e a (BitVec.ofNat 32 c)) s = .ok (s ++ encs e cs) := by
  induction cs generalizing s with
  | nil => simp
  | cons c cs ih =>
    rw [List.foldlM_cons, appendCP_enc e c (h c (by simp)), Outcome.ok_bind,
      ih _ (fun x hx => h x (by simp [hx]))]
    simp

/-! ### Conversion, validation, prefix and suffix tests -/

theorem convertString_enc (src dst : Enc) (cs : List Nat) (hs : ∀ c ∈ cs, FwdOk src c)
    (hd : ∀ c ∈ cs, InsOk dst c) :
    convertString src dst (encs src cs) = .ok (encs dst cs) := by
  rw [convertString, forEach_enc src _ cs _ hs, foldlM_appendCP dst cs [] hd]; rfl

theorem validateFrom_enc (e : Enc) (post : Str e) (cs : List Nat) :
    ∀ (pre : Str e) (fuel : Nat), (∀ c ∈ cs, FwdOk e c ∧ c ≤ 0x10FFFF) →
      validateFrom e (pre ++ (encs e cs ++ post)) (cs.length + fuel) pre.length
        = validateFrom e ((pre ++ encs e cs) ++ post) fuel (pre ++ encs e cs).length := by
  induction cs with
  | nil => intro pre fuel _; simp
  | cons c cs ih =>
    intro pre fuel hok
    have hc := hok c (by simp)
    have hpos := encU_length_pos e c
    have hlt : ¬ maximumCodePoint < BitVec.ofNat 32 c := by
      have := hc.2
      rw [maximumCodePoint, BitVec.lt_def, BitVec.toNat_ofNat, BitVec.toNat_ofNat]
      omega
    rw [List.length_cons, show cs.length + 1 + fuel = (cs.length + fuel) + 1 by omega,
      validateFrom, if_neg (by
        rw [encs_cons, List.length_append, List.length_append, List.length_append]; omega),
      encs_cons, List.append_assoc, deref_enc e c hc.1.bwd]
    simp only [if_neg hlt]
    rw [advance_enc e c hc.1]
    have := ih (pre ++ encU e c) fuel (fun x hx => hok x (by simp [hx]))
    simpa using this

theorem validateString_enc (e : Enc) (cs : List Nat)
    (hok : ∀ c ∈ cs, FwdOk e c ∧ c ≤ 0x10FFFF) :
    validateString e (encs e cs) = .ok (encs e cs).length := by
  have hl := encs_length_ge e cs
  have h := validateFrom_enc e [] cs [] ((encs e cs).length + 1 - cs.length) hok
  rw [validateString]
  simp only [List.nil_append, List.append_nil, List.length_nil] at h
  rw [show cs.length + ((encs e cs).length + 1 - cs.length) = (encs e cs).length + 1 by omega] at h
  rw [h]
  obtain ⟨n, hn⟩ : ∃ n, (encs e cs).length + 1 - cs.length = n + 1 :=
    ⟨(encs e cs).length - cs.length, by omega⟩
  rw [hn, validateFrom, if_pos rfl]

theorem ofNat32_inj {a b : Nat} (ha : a < 2 ^ 32) (hb : b < 2 ^ 32) :
    BitVec.ofNat 32 a = BitVec.ofNat 32 b ↔ a = b := by
  rw [← BitVec.toNat_inj, BitVec.toNat_ofNat, BitVec.toNat_ofNat, Nat.mod_eq_of_lt ha,
    Nat.mod_eq_of_lt hb]

theorem BwdOk.lt {e : Enc} {c : Nat} (h : BwdOk e c) : c < 2 ^ 32 := by
  cases e <;> simp only [BwdOk, Spec.IsScalar] at h <;> omega

theorem startsWithFrom_enc (ec es : Enc) (a : List Nat) :
    ∀ (b : List Nat) (p : Str ec) (q : Str es) (fuel : Nat), (∀ c ∈ a, FwdOk ec c) →
      (∀ c ∈ b, FwdOk es c) → a.length < fuel →
      startsWithFrom ec es (p ++ encs ec a) (q ++ encs es b) fuel p.length q.length
        = .ok (decide (b <+: a)) := by
  induction a with
  | nil =>
    intro b p q fuel _ _ hf
    obtain ⟨n, rfl⟩ : ∃ n, fuel = n + 1 := ⟨fuel - 1, by omega⟩
    cases b with
    | nil => simp [startsWithFrom]
    | cons y b =>
      have hpos := encU_length_pos es y
      rw [startsWithFrom, if_neg (by
        rw [encs_cons, List.length_append, List.length_append]; omega), if_pos (by simp)]
      simp
  | cons x a ih =>
    intro b p q fuel ha hb hf
    obtain ⟨n, rfl⟩ : ∃ n, fuel = n + 1 := ⟨fuel - 1, by omega⟩
    cases b with
    | nil => simp [startsWithFrom]
    | cons y b =>
      have hpx := encU_length_pos ec x
      have hpy := encU_length_pos es y
      have hx := ha x (by simp)
      have hy := hb y (by simp)
      rw [startsWithFrom, if_neg (by
        rw [encs_cons, List.length_append, List.length_append]; omega), if_neg (by
        rw [encs_cons, List.length_append, List.length_append]; omega)]
      rw [encs_cons, encs_cons, advance_enc ec x hx, Outcome.ok_bind, deref_enc ec x hx.bwd,
        Outcome.ok_bind, advance_enc es y hy, Outcome.ok_bind, deref_enc es y hy.bwd,
        Outcome.ok_bind]
      simp only [ofNat32_inj hx.bwd.lt hy.bwd.lt]
      by_cases hxy : x = y
      · rw [if_pos hxy]
        have := ih b (p ++ encU ec x) (q ++ encU es y) n (fun c hc => ha c (by simp [hc]))
          (fun c hc => hb c (by simp [hc])) (by simp at hf; omega)
        simp only [List.append_assoc, List.length_append] at this
        rw [this]
        simp [List.cons_prefix_cons, hxy]
      · rw [if_neg hxy]
        have : ¬ y = x := fun h => hxy h.symm
        simp [List.cons_prefix_cons, this]

theorem startsWith_enc (ec es : Enc) (a b : List Nat) (ha : ∀ c ∈ a, FwdOk ec c)
    (hb : ∀ c ∈ b, FwdOk es c) :
    startsWith ec es (encs ec a) (encs es b) = .ok (decide (b <+: a)) := by
  have := startsWithFrom_enc ec es a b [] [] ((encs ec a).length + 1) ha hb
    (by have := encs_length_ge ec a; omega)
  rw [startsWith]
  simp only [List.nil_append, List.length_nil] at this
  rw [this]; rfl

theorem endsWithFrom_enc (ec es : Enc) (a : List Nat) :
    ∀ (b : List Nat) (p : Str ec) (q : Str es) (fuel : Nat), (∀ c ∈ a, BwdOk ec c) →
      (∀ c ∈ b, BwdOk es c) → a.length < fuel →
      endsWithFrom ec es (encs ec a.reverse ++ p) (encs es b.reverse ++ q) fuel
          (encs ec a.reverse).length (encs es b.reverse).length
        = .ok (decide (b <+: a)) := by
  induction a with
  | nil =>
    intro b p q fuel _ _ hf
    obtain ⟨n, rfl⟩ : ∃ n, fuel = n + 1 := ⟨fuel - 1, by omega⟩
    cases b with
    | nil => simp [endsWithFrom]
    | cons y b =>
      have hpos := encU_length_pos es y
      simp only [List.reverse_cons, List.reverse_nil, encs_append, encs_cons, encs_nil,
        List.append_nil, List.length_append, List.length_nil, List.nil_append]
      rw [endsWithFrom, if_neg (by omega), if_pos rfl]
      simp
  | cons x a ih =>
    intro b p q fuel ha hb hf
    obtain ⟨n, rfl⟩ : ∃ n, fuel = n + 1 := ⟨fuel - 1, by omega⟩
    cases b with
    | nil => simp [endsWithFrom]
    | cons y b =>
      have hpx := encU_length_pos ec x
      have hpy := encU_length_pos es y
      have hx := ha x (by simp)
      have hy := hb y (by simp)
      simp only [List.reverse_cons, encs_append, encs_cons, encs_nil, List.append_nil,
        List.append_assoc, List.length_append]
      rw [endsWithFrom, if_neg (by omega), if_neg (by omega), retreat_enc ec x hx,
        Outcome.ok_bind, rderef_enc ec x hx, Outcome.ok_bind, retreat_enc es y hy,
        Outcome.ok_bind, rderef_enc es y hy, Outcome.ok_bind]
      simp only [ofNat32_inj hx.lt hy.lt]
      by_cases hxy : x = y
      · rw [if_pos hxy, ih b (encU ec x ++ p) (encU es y ++ q) n
          (fun c hc => ha c (by simp [hc])) (fun c hc => hb c (by simp [hc]))
          (by simp at hf; omega)]
        simp [List.cons_prefix_cons, hxy]
      · rw [if_neg hxy]
        have : ¬ y = x := fun h => hxy h.symm
        simp [List.cons_prefix_cons, this]

theorem endsWith_enc (ec es : Enc) (a b : List Nat) (ha : ∀ c ∈ a, BwdOk ec c)
    (hb : ∀ c ∈ b, BwdOk es c) :
    endsWith ec es (encs ec a) (encs es b) = .ok (decide (b <:+ a)) := by
  have := endsWithFrom_enc ec es a.reverse b.reverse [] [] ((encs ec a).length + 1)
    (by simpa using ha) (by simpa using hb)
    (by have := encs_length_ge ec a; simp; omega)
  rw [endsWith]
  simp only [List.reverse_reverse, List.append_nil] at this
  rw [this]
  simp [List.reverse_prefix]

end Cmp
