import Verif.Proofs.UnicodeMalformed

/-
Helper lemmas connecting strings of the model with the specification's encoded texts.
-/

namespace Cmp

/-- The numeric code units of a string. -/
def units {w : Nat} (s : List (BitVec w)) : List Nat := s.map BitVec.toNat

/-- The Unicode encoding form of each character type.  `char` strings are treated by the
library as one code point per character; theorems restrict them to ASCII, a subset of UTF-8. -/
def Enc.form : Enc → Spec.Form
  | .narrow => .utf8
  | .char8 => .utf8
  | .char16 => .utf16
  | .char32 => .utf32
  | .wide2 => .utf16
  | .wide4 => .utf32

/-- The string `s` is well-formed and its text is `cs`; `char` strings must be ASCII. -/
def TextOf (e : Enc) (s : Str e) (cs : List Nat) : Prop :=
  Spec.Denotes e.form (units s) cs ∧ (e = .narrow → ∀ c ∈ cs, c < 128)

theorem units_ofNat {w : Nat} (s : List (BitVec w)) : (units s).map (BitVec.ofNat w) = s := by
  induction s with
  | nil => rfl
  | cons u s ih =>
    simp only [units, List.map_cons] at ih ⊢
    rw [ih, BitVec.ofNat_toNat, BitVec.setWidth_eq]

theorem encU_eq (e : Enc) (c : Nat) (h : e = .narrow → c < 128) :
    encU e c = (e.form.encode1 c).map (BitVec.ofNat e.width) := by
  cases e with
  | narrow => simp [encU, Enc.form, Spec.Form.encode1, Spec.utf8, h rfl]
  | char8 => rfl
  | char16 => rfl
  | char32 => rfl
  | wide2 => rfl
  | wide4 => rfl

theorem encs_eq (e : Enc) (cs : List Nat) (h : e = .narrow → ∀ c ∈ cs, c < 128) :
    encs e cs = (e.form.encode cs).map (BitVec.ofNat e.width) := by
  induction cs with
  | nil => rfl
  | cons c cs ih =>
    rw [encs_cons, ih (fun he x hx => h he x (by simp [hx])),
      encU_eq e c (fun he => h he c (by simp))]
    simp [Spec.Form.encode]

theorem TextOf.eq {e : Enc} {s : Str e} {cs : List Nat} (h : TextOf e s cs) : s = encs e cs := by
  rw [encs_eq e cs h.2, ← h.1.2, units_ofNat]

theorem TextOf.bwd {e : Enc} {s : Str e} {cs : List Nat} (h : TextOf e s cs) :
    ∀ c ∈ cs, BwdOk e c := by
  intro c hc
  have h1 := h.1.1 c hc
  have h2 := h.2
  cases e with
  | narrow => exact h2 rfl c hc
  | char8 => exact h1
  | char16 => exact h1
  | wide2 => exact h1
  | char32 => have := h1.1; show c < 2 ^ 32; omega
  | wide4 => have := h1.1; show c < 2 ^ 32; omega

theorem TextOf.fwd {e : Enc} {s : Str e} {cs : List Nat} (h : TextOf e s cs)
    (hb : e.form = .utf16 → ∀ c ∈ cs, Spec.IsBmp c) : ∀ c ∈ cs, FwdOk e c := by
  intro c hc
  have h1 := h.bwd c hc
  cases e with
  | narrow => exact h1
  | char8 => exact h1
  | char16 => exact ⟨h1, hb rfl c hc⟩
  | wide2 => exact ⟨h1, hb rfl c hc⟩
  | char32 => exact h1
  | wide4 => exact h1

theorem utf8_bound (c : Nat) (h : Spec.IsScalar c) : ∀ b ∈ Spec.utf8 c, b < 256 := by
  have := h.1
  unfold Spec.utf8
  (repeat' split) <;> intro b hb <;> simp at hb <;> omega

theorem utf16_bound (c : Nat) (h : Spec.IsScalar c) : ∀ b ∈ Spec.utf16 c, b < 65536 := by
  have := h.1
  unfold Spec.utf16
  (repeat' split) <;> intro b hb <;> simp at hb <;> omega

theorem encode1_bound (e : Enc) (c : Nat) (h : Spec.IsScalar c) :
    ∀ b ∈ e.form.encode1 c, b < 2 ^ e.width := by
  have h1 := utf8_bound c h
  have h2 := utf16_bound c h
  have h3 := h.1
  cases e with
  | narrow => exact h1
  | char8 => exact h1
  | char16 => exact h2
  | wide2 => exact h2
  | char32 =>
    intro b hb
    simp [Enc.form, Spec.Form.encode1, Spec.utf32] at hb
    show b < 2 ^ 32
    omega
  | wide4 =>
    intro b hb
    simp [Enc.form, Spec.Form.encode1, Spec.utf32] at hb
    show b < 2 ^ 32
    omega

theorem units_map_ofNat {w : Nat} (l : List Nat) (h : ∀ b ∈ l, b < 2 ^ w) :
    units (l.map (BitVec.ofNat w)) = l := by
  induction l with
  | nil => rfl
  | cons b l ih =>
    have h1 := h b (by simp)
    have h2 := ih (fun x hx => h x (by simp [hx]))
    simp only [units, List.map_cons, BitVec.toNat_ofNat] at h2 ⊢
    rw [h2, Nat.mod_eq_of_lt h1]

theorem units_encU (e : Enc) (c : Nat) (h : Spec.IsScalar c) (hn : e = .narrow → c < 128) :
    units (encU e c) = e.form.encode1 c := by
  rw [encU_eq e c hn, units_map_ofNat _ (encode1_bound e c h)]

theorem units_append {w : Nat} (a b : List (BitVec w)) : units (a ++ b) = units a ++ units b := by
  simp [units]

theorem encode_cons (f : Spec.Form) (c : Nat) (cs : List Nat) :
    f.encode (c :: cs) = f.encode1 c ++ f.encode cs := by simp [Spec.Form.encode]

theorem encode_append (f : Spec.Form) (a b : List Nat) :
    f.encode (a ++ b) = f.encode a ++ f.encode b := by simp [Spec.Form.encode]

theorem textOf_encs (e : Enc) (cs : List Nat) (h : Spec.IsText cs)
    (hn : e = .narrow → ∀ c ∈ cs, c < 128) : TextOf e (encs e cs) cs := by
  refine ⟨⟨h, ?_⟩, hn⟩
  induction cs with
  | nil => rfl
  | cons c cs ih =>
    rw [encs_cons, units_append, units_encU e c (h c (by simp)) (fun he => hn he c (by simp)),
      ih (fun x hx => h x (by simp [hx])) (fun he x hx => hn he x (by simp [hx])), encode_cons]

/-! ### Scanning well-formed text -/

theorem scan8_utf8 (c : Nat) (h : Spec.IsScalar c) (l : List Nat) :
    Spec.scan8 (Spec.utf8 c ++ l) = .complete c (Spec.utf8 c).length := by
  have h0 := h.1
  unfold Spec.utf8
  split
  · simp [Spec.scan8]; omega
  all_goals split
  · simp only [List.cons_append, List.nil_append, Spec.scan8, Spec.scanTail, List.length_cons,
      List.length_nil]
    rw [if_neg (by omega), if_pos (by omega), if_pos (by omega)]
    simp; omega
  all_goals split
  · simp only [List.cons_append, List.nil_append, Spec.scan8, Spec.scanTail, List.length_cons,
      List.length_nil]
    rw [if_neg (by omega), if_neg (by omega), if_pos (by omega), if_pos (by omega),
      if_pos (by omega)]
    simp; omega
  · simp only [List.cons_append, List.nil_append, Spec.scan8, Spec.scanTail, List.length_cons,
      List.length_nil]
    rw [if_neg (by omega), if_neg (by omega), if_neg (by omega), if_pos (by omega),
      if_pos (by omega), if_pos (by omega), if_pos (by omega)]
    simp; omega

theorem scan16_utf16 (c : Nat) (h : Spec.IsScalar c) (l : List Nat) :
    Spec.scan16 (Spec.utf16 c ++ l) = .complete c (Spec.utf16 c).length := by
  have h0 := h.1
  have h1 := h.2
  unfold Spec.utf16
  split
  · simp only [List.cons_append, List.nil_append, Spec.scan16]
    rw [if_neg (by omega), if_neg (by omega)]; simp
  · simp only [List.cons_append, List.nil_append, Spec.scan16, Spec.scanPair]
    rw [if_pos (by omega), if_pos (by omega)]
    simp; omega

/-- What a code unit sequence of a given form begins with. -/
def scanForm : Spec.Form → List Nat → Spec.Scan
  | .utf8, l => Spec.scan8 l
  | .utf16, l => Spec.scan16 l
  | .utf32, [] => .truncated
  | .utf32, u :: _ => .complete u 1

theorem scanForm_encode1 (f : Spec.Form) (c : Nat) (h : Spec.IsScalar c) (l : List Nat) :
    scanForm f (f.encode1 c ++ l) = .complete c (f.encode1 c).length := by
  cases f with
  | utf8 => exact scan8_utf8 c h l
  | utf16 => exact scan16_utf16 c h l
  | utf32 => rfl

/-- If `rest` does not begin with a complete sequence of value at most 0x10FFFF, every
well-formed prefix of `encode cs ++ rest` is a prefix of `encode cs`. -/
theorem longest_prefix (f : Spec.Form) (rest : List Nat)
    (hr : ∀ v n, scanForm f rest = .complete v n → 0x10FFFF < v) (cs : List Nat) :
    ∀ cs', Spec.IsText cs → Spec.IsText cs' → f.encode cs' <+: f.encode cs ++ rest →
      f.encode cs' <+: f.encode cs := by
  induction cs with
  | nil =>
    intro cs' _ h' hp
    cases cs' with
    | nil => exact List.prefix_refl _
    | cons c' t' =>
      obtain ⟨l, hl⟩ := hp
      have hc := h' c' (by simp)
      rw [encode_cons, List.append_assoc] at hl
      have h1 := scanForm_encode1 f c' hc (f.encode t' ++ l)
      rw [hl] at h1
      have := hr _ _ h1
      have := hc.1
      omega
  | cons c t ih =>
    intro cs' h h' hp
    cases cs' with
    | nil => exact List.nil_prefix
    | cons c' t' =>
      have hp' := hp
      obtain ⟨l, hl⟩ := hp
      have hc := h' c' (by simp)
      rw [encode_cons, List.append_assoc, encode_cons, List.append_assoc] at hl
      have h1 := scanForm_encode1 f c' hc (f.encode t' ++ l)
      have h2 := scanForm_encode1 f c (h c (by simp)) (f.encode t ++ rest)
      rw [hl, h2] at h1
      have hcc : c = c' := (Spec.Scan.complete.inj h1).1
      subst hcc
      rw [encode_cons, encode_cons, List.append_assoc, List.prefix_append_right_inj] at hp'
      rw [encode_cons, encode_cons, List.prefix_append_right_inj]
      exact ih t' (fun x hx => h x (by simp [hx])) (fun x hx => h' x (by simp [hx])) hp'

/-! ### Repeated steps -/

theorem stepN_rawAdvance {α : Type} (s : List α) (n : Nat) :
    ∀ i, i ≤ s.length →
      stepN (rawAdvance s) n i = if i + n ≤ s.length then .ok (i + n) else .ub := by
  induction n with
  | zero => intro i h; simp [stepN, h]
  | succ n ih =>
    intro i h
    rw [stepN, rawAdvance]
    by_cases h1 : i < s.length
    · rw [if_pos h1, Outcome.ok_bind, ih _ (by omega)]
      simp only [Nat.add_assoc, Nat.add_comm 1 n]
    · rw [if_neg h1, if_neg (by omega)]; rfl

theorem stepN_rawRetreat (n : Nat) :
    ∀ i, stepN rawRetreat n i = if n ≤ i then .ok (i - n) else .ub := by
  induction n with
  | zero => intro i; simp [stepN]
  | succ n ih =>
    intro i
    cases i with
    | zero => simp [stepN, rawRetreat]
    | succ i => rw [stepN, rawRetreat, Outcome.ok_bind, ih]; simp

/-- An outcome that is not an exception. -/
def NoThrow {α : Type} (o : Outcome α) : Prop := ∀ x, o ≠ .throw x

theorem NoThrow.noexcept {α : Type} {o : Outcome α} (h : NoThrow o) : o.noexcept = o := by
  cases o <;> first | rfl | exact absurd rfl (h _)

theorem retreatLoop_noThrow (s : List Char8) (i : Nat) : NoThrow (Utf8.retreatLoop s i) := by
  induction i with
  | zero =>
    intro x
    rw [Utf8.retreatLoop]
    cases h : s[0]? <;> simp [unitAt, h]
    split <;> simp
  | succ i ih =>
    intro x
    rw [Utf8.retreatLoop]
    cases h : s[i + 1]? <;> simp [unitAt, h]
    split
    · exact ih x
    · simp

theorem utf8_retreat_noThrow (s : List Char8) (i : Nat) : NoThrow (Utf8.retreat s i) := by
  cases i with
  | zero => intro x; simp [Utf8.retreat]
  | succ i =>
    intro x
    rw [Utf8.retreat]
    cases h : s[i]? <;> simp [unitAt, h]
    split
    · simp
    · exact retreatLoop_noThrow s i x

theorem stepN_noThrow {step : Nat → Outcome Nat} (h : ∀ i, NoThrow (step i)) (n : Nat) :
    ∀ i, NoThrow (stepN step n i) := by
  induction n with
  | zero => intro i x; simp [stepN]
  | succ n ih =>
    intro i x
    rw [stepN]
    have := h i
    cases hs : step i with
    | ok j => exact ih j x
    | throw y => exact absurd hs (this y)
    | terminate => simp
    | ub => simp
    | hang => simp

end Cmp

namespace Cmp

theorem scanTail_value (len n a : Nat) (l : List Nat) (v k : Nat)
    (h : Spec.scanTail len n a l = .complete v k) : v < (a + 1) * 64 ^ n := by
  induction n generalizing a l with
  | zero => simp [Spec.scanTail] at h; omega
  | succ n ih =>
    cases l with
    | nil => simp [Spec.scanTail] at h
    | cons b l =>
      rw [Spec.scanTail] at h
      split at h
      · refine Nat.lt_of_lt_of_le (ih _ _ h) ?_
        rw [Nat.pow_succ, Nat.mul_comm (64 ^ n), ← Nat.mul_assoc]
        exact Nat.mul_le_mul_right _ (by omega)
      · simp at h

theorem scan8_value (l : List Nat) (v k : Nat) (h : Spec.scan8 l = .complete v k) :
    v < 2 ^ 32 := by
  cases l with
  | nil => simp [Spec.scan8] at h
  | cons b l =>
    rw [Spec.scan8] at h
    split at h
    · simp at h; omega
    all_goals split at h
    · have := scanTail_value _ _ _ _ _ _ h; omega
    all_goals split at h
    · have := scanTail_value _ _ _ _ _ _ h; omega
    all_goals split at h
    · have := scanTail_value _ _ _ _ _ _ h; omega
    · simp at h

theorem scan16_value (l : List Nat) (hl : ∀ u ∈ l, u < 65536) (v k : Nat)
    (h : Spec.scan16 l = .complete v k) : v < 2 ^ 32 := by
  cases l with
  | nil => simp [Spec.scan16] at h
  | cons b l =>
    have hb := hl b (by simp)
    rw [Spec.scan16] at h
    split at h
    · cases l with
      | nil => simp [Spec.scanPair] at h
      | cons c l =>
        have hc := hl c (by simp)
        rw [Spec.scanPair] at h
        split at h
        · simp at h; omega
        · simp at h
    · split at h
      · simp at h
      · simp at h; omega

end Cmp
