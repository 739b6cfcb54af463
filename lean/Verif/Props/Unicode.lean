import Verif.Proofs.UnicodeText
import Verif.Spec.Numeral

/-
Property theorems C01 - C18 (Unicode).  `units s` is the list of numeric code units of `s`,
`Spec.Denotes`, `Spec.utf8`, `Spec.utf16` come from the Unicode Standard (`Spec/Unicode`).
-/

namespace Cmp

/-- The low 16 bits of `c` form a surrogate value. -/
def LowSurrogate (c : Nat) : Prop := 0xD800 ≤ c % 0x10000 ∧ c % 0x10000 ≤ 0xDFFF

instance (c : Nat) : Decidable (LowSurrogate c) := by unfold LowSurrogate; infer_instance

/-- Appending a list of code points one by one to an empty `std::u8string`. -/
def appendAll8 (cs : List Nat) : Outcome (Str .char8) :=
  cs.foldlM (fun s c => appendCP .char8 s (BitVec.ofNat 32 c)) []

/-! ### C01 -/

/-- C01 fails: U+1D800 (a scalar value, Sutton SignWriting) cannot be appended. -/
theorem C01_violated :
    ¬ ∀ cs, Spec.IsText cs →
      ∃ s, appendAll8 cs = .ok s ∧ codePoints .char8 s = .ok (cs.map (BitVec.ofNat 32)) := by
  intro h
  obtain ⟨s, h1, _⟩ := h [0x1D800] (by intro c hc; simp at hc; subst hc; decide)
  have : appendAll8 [0x1D800] = .throw .invalidCodePoint := by decide
  rw [this] at h1
  simp at h1

/-- C01 for texts without the scalar values `is_code_point_valid` wrongly rejects.  Missing for
the full claim: supplementary code points whose low 16 bits are a surrogate value. -/
theorem C01_partial (cs : List Nat) (ht : Spec.IsText cs) (hl : ∀ c ∈ cs, ¬ LowSurrogate c) :
    ∃ s, appendAll8 cs = .ok s ∧ Spec.Denotes .utf8 (units s) cs
      ∧ codePoints .char8 s = .ok (cs.map (BitVec.ofNat 32)) := by
  refine ⟨encs .char8 cs, ?_, (textOf_encs .char8 cs ht (by simp)).1, ?_⟩
  · exact foldlM_appendCP .char8 cs [] (fun c hc => ⟨ht c hc, hl c hc⟩)
  · exact codePoints_enc .char8 cs (fun c hc => ht c hc)

example : Spec.IsText [0x41, 0xE9, 0x20AC, 0x1F600, 0x10FFFF]
    ∧ ∀ c ∈ [0x41, 0xE9, 0x20AC, 0x1F600, 0x10FFFF], ¬ LowSurrogate c := by
  constructor
  · unfold Spec.IsText; decide
  · decide

/-! ### C02 -/

theorem C02_violated : ¬ ∀ c : Char32, isCodePointValid c = true ↔ Spec.IsScalar c.toNat := by
  intro h
  have h1 := (h 0x1D800#32).mpr (by decide)
  exact absurd h1 (by decide)

/-- Everything accepted is a scalar value, and the test is exact except on supplementary code
points whose low 16 bits are a surrogate value (all of which it rejects). -/
theorem C02_partial (c : Char32) :
    (isCodePointValid c = true → Spec.IsScalar c.toNat)
      ∧ (c.toNat < 0x10000 ∨ 0x10FFFF < c.toNat ∨ ¬ LowSurrogate c.toNat →
          (isCodePointValid c = true ↔ Spec.IsScalar c.toNat)) := by
  rw [isCodePointValid_eq, decide_eq_true_iff]
  unfold Spec.IsScalar LowSurrogate
  constructor
  · intro h; omega
  · intro h; omega

example : (0x1F600#32).toNat < 0x10000 ∨ 0x10FFFF < (0x1F600#32).toNat
    ∨ ¬ LowSurrogate (0x1F600#32).toNat := by decide

/-! ### C03 -/

/-- Every `char32_t` is either rejected with the string unchanged, or it is a scalar value and
the bytes appended are its UTF-8 encoding; non-scalars are always rejected. -/
theorem C03_utf8_encoder (c : Char32) (s : Str .char8) :
    ((appendCodePoint .char8 c s = (.throw .invalidCodePoint, s))
      ∨ (Spec.IsScalar c.toNat ∧ ∃ s', appendCodePoint .char8 c s = (.ok (), s')
          ∧ units s' = units s ++ Spec.utf8 c.toNat))
    ∧ (¬ Spec.IsScalar c.toNat → appendCodePoint .char8 c s = (.throw .invalidCodePoint, s))
    ∧ (Spec.IsScalar c.toNat → ¬ LowSurrogate c.toNat →
        ∃ s', appendCodePoint .char8 c s = (.ok (), s')) := by
  have hrej : isCodePointValid c = false →
      appendCodePoint .char8 c s = (.throw .invalidCodePoint, s) := fun h =>
    insertCodePoint_rejected .char8 c _ s (by simp [rejected, h])
  have hacc : isCodePointValid c = true →
      appendCodePoint .char8 c s = (.ok (), s ++ insU .char8 c) := by
    intro h
    rw [appendCodePoint, insertCodePoint_eq _ _ _ (by simp [rejected, h]),
      insertUnits_ok _ _ _ (Nat.le_refl _)]
    simp
  have hsc := (C02_partial c).1
  refine ⟨?_, ?_, ?_⟩
  · cases h : isCodePointValid c with
    | false => exact .inl (hrej h)
    | true =>
      refine .inr ⟨hsc h, _, hacc h, ?_⟩
      rw [units_append]
      congr 1
      exact units_map_ofNat (w := 8) _ (utf8_bound _ (hsc h))
  · intro h
    cases hv : isCodePointValid c with
    | false => exact hrej hv
    | true => exact absurd (hsc hv) h
  · intro h hl
    exact ⟨_, hacc (((C02_partial c).2 (.inr (.inr hl))).mpr h)⟩

example : Spec.IsScalar (0x20AC#32).toNat ∧ ¬ LowSurrogate (0x20AC#32).toNat
    ∧ ¬ Spec.IsScalar (0xD800#32).toNat := by decide

/-! ### C04 -/

theorem C04_utf16_encoder (c : Nat) (h : Spec.IsScalar c) (s : Str .char16) :
    ∃ s', appendCodePoint .char16 (BitVec.ofNat 32 c) s = (.ok (), s')
      ∧ units s' = units s ++ Spec.utf16 c := by
  refine ⟨s ++ encU .char16 c, ?_, ?_⟩
  · rw [appendCodePoint, insertCodePoint_enc .char16 c h _ _ (Nat.le_refl _)]; simp
  · rw [units_append]
    congr 1
    exact units_encU .char16 c h (by simp)

example : Spec.IsScalar 0x1D800 ∧ Spec.IsScalar 0xFFFF := by decide

/-! ### C05 -/

theorem C05_violated :
    ¬ ∀ (s : Str .char16) (cs : List Nat), Spec.Denotes .utf16 (units s) cs →
      codePoints .char16 s = .ok (cs.map (BitVec.ofNat 32)) := by
  intro h
  have h1 := h [0xD83D#16, 0xDE00#16] [0x1F600]
    ⟨by intro c hc; simp at hc; subst hc; decide, by decide⟩
  have h2 : codePoints .char16 [0xD83D#16, 0xDE00#16] = .throw .invalidUnicodeEncoding := by
    decide
  rw [h2] at h1
  simp at h1

/-- C05 for text of the Basic Multilingual Plane.  Missing: supplementary code points, on which
incrementing moves by one unit only. -/
theorem C05_partial (s : Str .char16) (cs : List Nat) (h : Spec.Denotes .utf16 (units s) cs)
    (hb : ∀ c ∈ cs, Spec.IsBmp c) :
    codePoints .char16 s = .ok (cs.map (BitVec.ofNat 32)) := by
  have ht : TextOf .char16 s cs := ⟨h, by simp⟩
  rw [ht.eq]
  exact codePoints_enc .char16 cs (ht.fwd (fun _ => hb))

example : Spec.Denotes .utf16 (units [0x48#16, 0x20AC#16]) [0x48, 0x20AC]
    ∧ ∀ c ∈ [0x48, 0x20AC], Spec.IsBmp c := by
  refine ⟨⟨?_, by decide⟩, ?_⟩
  · unfold Spec.IsText; decide
  · unfold Spec.IsBmp; decide

/-! ### C06 -/

theorem C06_utf8_forward (s : Str .char8) (cs : List Nat) (h : Spec.Denotes .utf8 (units s) cs) :
    codePoints .char8 s = .ok (cs.map (BitVec.ofNat 32)) := by
  have ht : TextOf .char8 s cs := ⟨h, by simp⟩
  rw [ht.eq]
  exact codePoints_enc .char8 cs (ht.fwd (by simp [Enc.form]))

example : Spec.Denotes .utf8 (units [0x41#8, 0xF0#8, 0x9F#8, 0x98#8, 0x80#8]) [0x41, 0x1F600] :=
  ⟨by unfold Spec.IsText; decide, by decide⟩

/-! ### C07 -/

/-- Stepping forward from the start of any code point of well-formed UTF-8 text and stepping
back returns to it; the reverse iterators visit the forward sequence reversed. -/
theorem C07_utf8_backward (s : Str .char8) (as : List Nat) (c : Nat) (bs : List Nat)
    (h : Spec.Denotes .utf8 (units s) (as ++ c :: bs)) :
    (∃ j, advance .char8 s (Spec.Form.utf8.encode as).length = .ok j
        ∧ retreat .char8 s j = .ok (Spec.Form.utf8.encode as).length
        ∧ deref .char8 s (Spec.Form.utf8.encode as).length = .ok (BitVec.ofNat 32 c)
        ∧ j = (Spec.Form.utf8.encode (as ++ [c])).length)
    ∧ rcodePoints .char8 s = .ok ((as ++ c :: bs).reverse.map (BitVec.ofNat 32))
    ∧ codePoints .char8 s = .ok ((as ++ c :: bs).map (BitVec.ofNat 32)) := by
  have ht : TextOf .char8 s (as ++ c :: bs) := ⟨h, by simp⟩
  have hall := ht.fwd (by simp [Enc.form])
  have hc : FwdOk .char8 c := hall c (by simp)
  have hlen : (Spec.Form.utf8.encode as).length = (encs .char8 as).length := by
    rw [encs_eq .char8 as (by simp), List.length_map]; rfl
  have hlen2 : (Spec.Form.utf8.encode (as ++ [c])).length
      = (encs .char8 as).length + (encU .char8 c).length := by
    rw [encode_append, List.length_append, hlen]
    congr 1
    simp [encU, Spec.Form.encode, Spec.Form.encode1]
  refine ⟨⟨_, ?_, ?_, ?_, hlen2.symm⟩, ?_, ?_⟩
  · rw [ht.eq, hlen, encs_append, encs_cons]; exact advance_enc .char8 c hc _ _
  · rw [ht.eq, hlen, encs_append, encs_cons]; exact retreat_enc .char8 c hc.bwd _ _
  · rw [ht.eq, hlen, encs_append, encs_cons]; exact deref_enc .char8 c hc.bwd _ _
  · rw [ht.eq]; exact rcodePoints_enc .char8 _ ht.bwd
  · rw [ht.eq]; exact codePoints_enc .char8 _ hall

example : Spec.Denotes .utf8 (units [0x41#8, 0xC3#8, 0xA9#8, 0x7A#8]) ([0x41] ++ 0xE9 :: [0x7A]) :=
  ⟨by unfold Spec.IsText; decide, by decide⟩

/-! ### C08 -/

theorem C08_utf16_backward (s : Str .char16) (cs : List Nat)
    (h : Spec.Denotes .utf16 (units s) cs) :
    rcodePoints .char16 s = .ok (cs.reverse.map (BitVec.ofNat 32)) := by
  have ht : TextOf .char16 s cs := ⟨h, by simp⟩
  rw [ht.eq]
  exact rcodePoints_enc .char16 _ ht.bwd

example : Spec.Denotes .utf16 (units [0x41#16, 0xD83D#16, 0xDE00#16]) [0x41, 0x1F600] :=
  ⟨by unfold Spec.IsText; decide, by decide⟩

/-! ### C09 -/

/-- `it -= 1` on a UTF-16 iterator moves forward. -/
theorem C09_violated :
    ¬ ∀ (e : Enc) (s : Str e) (n i : Nat), i ≤ s.length →
      advanceBy e s n i = stepN (advance e s) n i
        ∧ retreatBy e s n i = stepN (retreat e s) n i := by
  intro h
  have h1 := (h .char16 [0x41#16, 0x42#16, 0x43#16] 1 1 (by decide)).2
  exact absurd h1 (by decide)

/-- Moving forward is right for every character type; moving back for all but `char16_t` and
2-byte `wchar_t`, where `-=` and `-` move forward. -/
theorem C09_partial (e : Enc) (s : Str e) (n i : Nat) (hi : i ≤ s.length) :
    advanceBy e s n i = stepN (advance e s) n i
      ∧ plusOp e s n i = (stepN (advance e s) n i).noexcept
      ∧ (e ≠ .char16 → e ≠ .wide2 →
          retreatBy e s n i = stepN (retreat e s) n i
            ∧ minusOp e s n i = stepN (retreat e s) n i) := by
  have hadv : advanceBy e s n i = stepN (advance e s) n i := by
    cases e with
    | narrow => exact (stepN_rawAdvance s n i hi).symm
    | char8 => rfl
    | char16 => rfl
    | char32 => exact (stepN_rawAdvance s n i hi).symm
    | wide2 => rfl
    | wide4 => exact (stepN_rawAdvance s n i hi).symm
  have hno : ∀ t : Outcome Nat, t = (if n ≤ i then .ok (i - n) else .ub) → t.noexcept = t := by
    intro t ht; rw [ht]; split <;> rfl
  refine ⟨hadv, by rw [plusOp, hadv], ?_⟩
  intro h1 h2
  cases e with
  | char16 => exact absurd rfl h1
  | wide2 => exact absurd rfl h2
  | char8 =>
    have h3 := (stepN_noThrow (utf8_retreat_noThrow s) n i).noexcept
    have h4 : retreatBy .char8 s n i = stepN (retreat .char8 s) n i := h3
    exact ⟨h4, by rw [minusOp, h4]; exact h3⟩
  | narrow =>
    have h4 : retreatBy .narrow s n i = stepN (retreat .narrow s) n i :=
      (stepN_rawRetreat n i).symm
    exact ⟨h4, by rw [minusOp, ← h4]; exact hno _ rfl⟩
  | char32 =>
    have h4 : retreatBy .char32 s n i = stepN (retreat .char32 s) n i :=
      (stepN_rawRetreat n i).symm
    exact ⟨h4, by rw [minusOp, ← h4]; exact hno _ rfl⟩
  | wide4 =>
    have h4 : retreatBy .wide4 s n i = stepN (retreat .wide4 s) n i :=
      (stepN_rawRetreat n i).symm
    exact ⟨h4, by rw [minusOp, ← h4]; exact hno _ rfl⟩

example : stepN (retreat .char8 [0x41#8, 0xC3#8, 0xA9#8]) 2 3 = .ok 0
    ∧ stepN (advance .char8 [0x41#8, 0xC3#8, 0xA9#8]) 2 0 = .ok 3 := by decide

/-! ### C10 -/

/-- Incrementing on a truncated sequence (without dereferencing first) reads past the end. -/
theorem C10_violated :
    ¬ ∀ (s : Str .char8) (i : Nat), i < s.length →
      (deref .char8 s i).Defined ∧ (advance .char8 s i).Defined := by
  intro h
  have h1 := (h [0xE2#8, 0x82#8] 0 (by decide)).2.1
  exact absurd (by decide) h1

/-- For every string of every character type: dereferencing never leaves the view; an increment
leaves it only where dereferencing reports `iterated_past_end`; and a range-for traversal is
free of undefined behaviour and terminates.  Missing: increments without a dereference on
truncated input. -/
theorem C10_partial (e : Enc) (s : Str e) :
    (∀ i, i < s.length → (deref e s i).Defined
      ∧ (deref e s i ≠ .throw .iteratedPastEnd → (advance e s i).Defined)
      ∧ (∀ x, deref e s i = .throw x → x = .invalidUnicodeEncoding ∨ x = .iteratedPastEnd))
    ∧ (codePoints e s).Defined := by
  refine ⟨?_, codePoints_defined e s⟩
  intro i hi
  rcases deref_cases e s i hi with ⟨c, h1, j, h2, _⟩ | ⟨h1, h2⟩ | ⟨h1, h2⟩
  · simp [h1, h2, Outcome.Defined]
  · simp [h1, h2, Outcome.Defined]
  · simp [h1, Outcome.Defined]

example : deref .char8 [0xE2#8, 0x28#8, 0xA1#8] 0 ≠ .throw .iteratedPastEnd := by decide

/-! ### C11 -/

theorem C11_violated :
    ¬ ∀ (src dst : Enc) (s : Str src) (cs : List Nat), src ≠ .narrow → dst ≠ .narrow →
      Spec.Denotes src.form (units s) cs →
      ∃ t, convertString src dst s = .ok t ∧ Spec.Denotes dst.form (units t) cs := by
  intro h
  obtain ⟨t, h1, _⟩ := h .char16 .char8 [0xD83D#16, 0xDE00#16] [0x1F600] (by decide) (by decide)
    ⟨by unfold Spec.IsText; decide, by decide⟩
  have h2 : convertString .char16 .char8 [0xD83D#16, 0xDE00#16]
      = .throw .invalidUnicodeEncoding := by decide
  rw [h2] at h1
  simp at h1

/-- All pairs of encodings.  The conversion is right on every text except that a UTF-16 source
must be in the Basic Multilingual Plane and a UTF-8 target excludes the code points
`is_code_point_valid` wrongly rejects.  So UTF-8 and UTF-32 to UTF-16 and UTF-32 are complete. -/
theorem C11_partial (src dst : Enc) (s : Str src) (cs : List Nat) (h : TextOf src s cs)
    (hn : dst = .narrow → ∀ c ∈ cs, c < 128)
    (hs : src.form = .utf16 → ∀ c ∈ cs, Spec.IsBmp c)
    (hd : dst = .char8 → ∀ c ∈ cs, ¬ LowSurrogate c) :
    ∃ t, convertString src dst s = .ok t ∧ TextOf dst t cs := by
  refine ⟨encs dst cs, ?_, textOf_encs dst cs h.1.1 hn⟩
  rw [h.eq]
  refine convertString_enc src dst cs (h.fwd hs) ?_
  intro c hc
  have h1 := h.1.1 c hc
  cases dst with
  | narrow => exact hn rfl c hc
  | char8 => exact ⟨h1, hd rfl c hc⟩
  | char16 => exact h1
  | wide2 => exact h1
  | char32 => have := h1.1; show c < 2 ^ 32; omega
  | wide4 => have := h1.1; show c < 2 ^ 32; omega

example : TextOf .char32 [0x41#32, 0x1F600#32] [0x41, 0x1F600]
    ∧ (∀ c ∈ [0x41, 0x1F600], ¬ LowSurrogate c) :=
  ⟨⟨⟨by unfold Spec.IsText; decide, by decide⟩, by simp⟩, by decide⟩

/-! ### C12 -/

theorem C12_violated :
    ¬ ∀ (e : Enc) (s : Str e), e ≠ .narrow → Spec.WellFormed e.form (units s) →
      validateString e s = .ok s.length := by
  intro h
  have h1 := h .char16 [0xD83D#16, 0xDE00#16] (by decide)
    ⟨[0x1F600], by unfold Spec.IsText; decide, by decide⟩
  exact absurd h1 (by decide)

/-- `validate_string` terminates normally on every string of every type, and accepts every
well-formed UTF-8 and UTF-32 string and every UTF-16 string of BMP code points.  Missing:
UTF-16 with supplementary code points. -/
theorem C12_partial (e : Enc) (s : Str e) :
    (∃ i, validateString e s = .ok i ∧ i ≤ s.length)
    ∧ ∀ cs, TextOf e s cs → (e.form = .utf16 → ∀ c ∈ cs, Spec.IsBmp c) →
        validateString e s = .ok s.length := by
  constructor
  · obtain ⟨j, h1, _, h2⟩ := validateFrom_total e s (s.length + 1) 0 (by omega) (by omega)
    exact ⟨j, h1, h2⟩
  · intro cs h hb
    rw [h.eq]
    exact validateString_enc e cs (fun c hc => ⟨h.fwd hb c hc, (h.1.1 c hc).1⟩)

example : TextOf .char8 [0xE2#8, 0x82#8, 0xAC#8] [0x20AC] :=
  ⟨⟨by unfold Spec.IsText; decide, by decide⟩, by simp⟩

/-! ### C13 -/

/-- The overlong form C0 80 is not well-formed UTF-8. -/
theorem overlong_illformed : ¬ Spec.WellFormed .utf8 [0xC0, 0x80] := by
  rintro ⟨cs, h, he⟩
  cases cs with
  | nil => simp [Spec.Form.encode] at he
  | cons c cs =>
    have h1 := scanForm_encode1 .utf8 c (h c (by simp)) (Spec.Form.utf8.encode cs)
    rw [← encode_cons, ← he] at h1
    have h2 : scanForm .utf8 [0xC0, 0x80] = .complete 0 2 := by decide
    rw [h2] at h1
    have h3 := (Spec.Scan.complete.inj h1).1
    subst h3
    have h4 := (Spec.Scan.complete.inj h1).2
    exact absurd h4 (by decide)

/-- `validate_string` accepts the overlong form C0 80. -/
theorem C13_violated :
    ¬ ∀ (s : Str .char8), ¬ Spec.WellFormed .utf8 (units s) →
      ∃ i, validateString .char8 s = .ok i ∧ i < s.length := by
  intro h
  obtain ⟨i, h1, h2⟩ := h [0xC0#8, 0x80#8] overlong_illformed
  have h3 : validateString .char8 [0xC0#8, 0x80#8] = .ok 2 := by decide
  rw [h3] at h1
  simp at h1 h2
  omega

/-- If the string is a well-formed text `cs` followed by units that do not begin with a
structurally complete sequence of value at most 0x10FFFF (a stray continuation byte, an invalid
lead byte, a bad or missing continuation byte, a lone surrogate, a value out of range), the
validation stops exactly at the end of `cs`, which is the longest well-formed prefix.
Missing: overlong forms and encoded surrogates, and UTF-16 prefixes with supplementary code
points. -/
theorem C13_partial (e : Enc) (he : e ≠ .narrow) (s rest : Str e) (cs : List Nat)
    (hcs : Spec.IsText cs) (hs : units s = e.form.encode cs ++ units rest) (hr : rest ≠ [])
    (hb : e.form = .utf16 → ∀ c ∈ cs, Spec.IsBmp c)
    (hbad : ∀ v n, scanForm e.form (units rest) = .complete v n → 0x10FFFF < v) :
    validateString e s = .ok (e.form.encode cs).length
      ∧ (e.form.encode cs).length < s.length
      ∧ ∀ p, Spec.WellFormed e.form p → p <+: units s → p <+: e.form.encode cs := by
  have ht := textOf_encs e cs hcs (fun h => absurd h he)
  have hlen : (e.form.encode cs).length = (encs e cs).length := by
    rw [← ht.1.2]; simp [units]
  have hs' : s = encs e cs ++ rest := by
    have h1 : units s = units (encs e cs ++ rest) := by rw [hs, units_append, ← ht.1.2]
    rw [← units_ofNat s, h1, units_ofNat]
  have hr' : 0 < rest.length := List.length_pos_iff.mpr hr
  have hi : (encs e cs).length < s.length := by rw [hs', List.length_append]; omega
  refine ⟨?_, by omega, ?_⟩
  · rw [hlen]
    have key : ∀ c, deref e (encs e cs ++ rest) (encs e cs).length = .ok c →
        maximumCodePoint < c := by
      intro c hc
      rw [← hs'] at hc
      have hrest : restN s (encs e cs).length = units rest := by
        rw [hs', restN, List.drop_left]; rfl
      have fin : ∀ sc : Spec.Scan, scanForm e.form (units rest) = sc → scanDeref sc = .ok c →
          (∀ v n, sc = .complete v n → v < 2 ^ 32) → maximumCodePoint < c := by
        intro sc h1 h2 h3
        cases sc with
        | complete v n =>
          simp only [scanDeref, Outcome.ok.injEq] at h2
          have h4 := hbad v n h1
          have h5 := h3 v n rfl
          rw [← h2, maximumCodePoint, BitVec.lt_def, BitVec.toNat_ofNat, BitVec.toNat_ofNat]
          omega
        | malformed => simp [scanDeref] at h2
        | truncated => simp [scanDeref] at h2
      cases e with
      | narrow => exact absurd rfl he
      | char8 =>
        have h1 : deref .char8 s _ = _ := utf8_deref_scan s _ hi
        rw [h1, hrest] at hc
        exact fin _ rfl hc (by
          intro v n hvn
          exact scan8_value _ v n hvn)
      | char16 =>
        have h1 : deref .char16 s _ = _ := utf16_deref_scan s _ hi
        rw [h1, hrest] at hc
        exact fin _ rfl hc (by
          intro v n hvn
          exact scan16_value _ (by
            intro u hu
            obtain ⟨x, _, rfl⟩ := List.mem_map.mp hu
            exact bv16_lt x) v n hvn)
      | wide2 =>
        have h1 : deref .wide2 s _ = _ := utf16_deref_scan s _ hi
        rw [h1, hrest] at hc
        exact fin _ rfl hc (by
          intro v n hvn
          exact scan16_value _ (by
            intro u hu
            obtain ⟨x, _, rfl⟩ := List.mem_map.mp hu
            exact bv16_lt x) v n hvn)
      | char32 =>
        obtain ⟨x, xs, rfl⟩ := List.exists_cons_of_ne_nil hr
        have h1 : deref .char32 s (encs .char32 cs).length = .ok x := by
          rw [hs']; exact rawDeref_enc x _ xs
        rw [h1] at hc
        have h2 := hbad x.toNat 1 rfl
        simp only [Outcome.ok.injEq] at hc
        rw [← hc, maximumCodePoint, BitVec.lt_def]
        exact h2
      | wide4 =>
        obtain ⟨x, xs, rfl⟩ := List.exists_cons_of_ne_nil hr
        have h1 : deref .wide4 s (encs .wide4 cs).length = .ok x := by
          rw [hs']; exact rawDeref_enc x _ xs
        rw [h1] at hc
        have h2 := hbad x.toNat 1 rfl
        simp only [Outcome.ok.injEq] at hc
        rw [← hc, maximumCodePoint, BitVec.lt_def]
        exact h2
    rw [hs']
    exact validateString_stop e cs rest hr
      (fun c hc => ⟨ht.fwd hb c hc, (hcs c hc).1⟩) key
  · rintro p ⟨cs', h1, rfl⟩ hp
    rw [hs] at hp
    exact longest_prefix e.form (units rest) hbad cs cs' hcs h1 hp

example : units [0x41#8, 0xE2#8, 0x28#8] = Spec.Form.utf8.encode [0x41] ++ units [0xE2#8, 0x28#8]
    ∧ ∀ v n, scanForm .utf8 (units [0xE2#8, 0x28#8]) = .complete v n → 0x10FFFF < v := by
  refine ⟨by decide, ?_⟩
  have : scanForm .utf8 (units [0xE2#8, 0x28#8]) = .malformed := by decide
  rw [this]; simp

/-! ### C14 -/

theorem C14_violated :
    ¬ ∀ (ec es : Enc) (content : Str ec) (sub : Str es) (a b : List Nat),
      TextOf ec content a → TextOf es sub b →
      startsWith ec es content sub = .ok (decide (b <+: a)) := by
  intro h
  have h1 := h .char16 .char16 [0xD83D#16, 0xDE00#16, 0x41#16] [0xD83D#16, 0xDE00#16, 0x41#16]
    [0x1F600, 0x41] [0x1F600, 0x41]
    ⟨⟨by unfold Spec.IsText; decide, by decide⟩, by simp⟩
    ⟨⟨by unfold Spec.IsText; decide, by decide⟩, by simp⟩
  exact absurd h1 (by decide)

/-- Prefix test for all pairs of encodings, UTF-16 operands being in the Basic Multilingual
Plane.  Missing: UTF-16 operands with supplementary code points (the program is terminated). -/
theorem C14_partial (ec es : Enc) (content : Str ec) (sub : Str es) (a b : List Nat)
    (ha : TextOf ec content a) (hb : TextOf es sub b)
    (hab : ec.form = .utf16 → ∀ c ∈ a, Spec.IsBmp c)
    (hbb : es.form = .utf16 → ∀ c ∈ b, Spec.IsBmp c) :
    startsWith ec es content sub = .ok (decide (b <+: a)) := by
  rw [ha.eq, hb.eq]
  exact startsWith_enc ec es a b (ha.fwd hab) (hb.fwd hbb)

example : TextOf .char8 [0xC3#8, 0xA9#8, 0x41#8] [0xE9, 0x41] ∧ TextOf .char32 [0xE9#32] [0xE9]
    ∧ startsWith .char8 .char32 [0xC3#8, 0xA9#8, 0x41#8] [0xE9#32] = .ok true :=
  ⟨⟨⟨by unfold Spec.IsText; decide, by decide⟩, by simp⟩,
    ⟨⟨by unfold Spec.IsText; decide, by decide⟩, by simp⟩, by decide⟩

/-! ### C15 -/

theorem C15_ends_with (ec es : Enc) (content : Str ec) (sub : Str es) (a b : List Nat)
    (ha : TextOf ec content a) (hb : TextOf es sub b) :
    endsWith ec es content sub = .ok (decide (b <:+ a)) := by
  rw [ha.eq, hb.eq]
  exact endsWith_enc ec es a b ha.bwd hb.bwd

example : TextOf .char16 [0x41#16, 0xD83D#16, 0xDE00#16] [0x41, 0x1F600]
    ∧ TextOf .char8 [0xF0#8, 0x9F#8, 0x98#8, 0x80#8] [0x1F600] :=
  ⟨⟨⟨by unfold Spec.IsText; decide, by decide⟩, by simp⟩,
    ⟨⟨by unfold Spec.IsText; decide, by decide⟩, by simp⟩⟩

/-! ### C16 -/

/-- For every character type and code point, either insertion always throws
`invalid_code_point` and changes nothing (only UTF-8, only code points that are no scalar values
or have a surrogate as low 16 bits), or there is a non-empty block of units, for scalar values
their encoding, that is inserted at any index up to the length; a larger index throws
`std::out_of_range` and changes nothing.  Appending and prepending insert at the two ends. -/
theorem C16_insert_exact (e : Enc) (c : Char32) :
    (e = .char8 ∧ (¬ Spec.IsScalar c.toNat ∨ LowSurrogate c.toNat)
      ∧ ∀ i s, insertCodePoint e c i s = (.throw .invalidCodePoint, s))
    ∨ ∃ us : Str e, us ≠ []
      ∧ (e ≠ .narrow → Spec.IsScalar c.toNat → units us = e.form.encode1 c.toNat)
      ∧ (e = .narrow → units us = [c.toNat % 256])
      ∧ (∀ i s, i ≤ s.length → insertCodePoint e c i s = (.ok (), s.take i ++ us ++ s.drop i))
      ∧ (∀ i s, s.length < i → insertCodePoint e c i s = (.throw .outOfRange, s))
      ∧ (∀ s, appendCodePoint e c s = (.ok (), s ++ us))
      ∧ (∀ s, prependCodePoint e c s = (.ok (), us ++ s)) := by
  cases hr : rejected e c with
  | true =>
    left
    have he : e = .char8 := by cases e <;> simp [rejected] at hr ⊢
    subst he
    refine ⟨rfl, ?_, fun i s => insertCodePoint_rejected _ c i s hr⟩
    simp only [rejected, Bool.not_eq_true', isCodePointValid_eq, decide_eq_false_iff_not] at hr
    unfold Spec.IsScalar LowSurrogate
    omega
  | false =>
    right
    have hins := fun i => insertCodePoint_eq e c i hr
    refine ⟨insU e c, insU_ne_nil e c, ?_, ?_, ?_, ?_, ?_, ?_⟩
    · intro hne hsc
      have hok : InsOk e c.toNat := by
        cases e with
        | narrow => exact absurd rfl hne
        | char8 =>
          simp only [rejected, Bool.not_eq_false', isCodePointValid_eq, decide_eq_true_eq] at hr
          exact ⟨hsc, hr.2⟩
        | char16 => exact hsc
        | wide2 => exact hsc
        | char32 => exact c.isLt
        | wide4 => exact c.isLt
      have h1 := insU_enc e c.toNat hok
      have h2 : BitVec.ofNat 32 c.toNat = c := by simp
      rw [h2] at h1
      rw [h1]
      exact units_encU e _ hsc (fun h => absurd h hne)
    · intro hn; subst hn; simp [insU, units]; rfl
    · intro i s hi; rw [hins, insertUnits_ok _ _ _ hi]
    · intro i s hi
      rw [hins]
      obtain ⟨u, us, h⟩ := List.exists_cons_of_ne_nil (insU_ne_nil e c)
      rw [h, insertUnits_fail u us i s hi]
    · intro s; rw [appendCodePoint, hins, insertUnits_ok _ _ _ (Nat.le_refl _)]; simp
    · intro s; rw [prependCodePoint, hins, insertUnits_ok _ _ _ (Nat.zero_le _)]; simp

example : Spec.IsScalar (0xE9#32).toNat
    ∧ insertCodePoint .char8 0xE9#32 1 [0x41#8, 0x42#8]
        = (.ok (), [0x41#8, 0xC3#8, 0xA9#8, 0x42#8]) := by decide

/-! ### C17 -/

theorem C17_whitespace (c : Char32) : isWhitespace c = true ↔ Spec.IsWhiteSpace c.toNat := by
  have key : ∀ n : Nat, n < 2 ^ 32 → ((c == BitVec.ofNat 32 n) = true ↔ c.toNat = n) := by
    intro n hn
    rw [beq_iff_eq, ← BitVec.toNat_inj, BitVec.toNat_ofNat, Nat.mod_eq_of_lt hn]
  unfold isWhitespace Spec.IsWhiteSpace Spec.whiteSpaceRanges
  simp only [Bool.or_eq_true, key _ (show (9 : Nat) < 2 ^ 32 by omega),
    key _ (show (10 : Nat) < 2 ^ 32 by omega), key _ (show (11 : Nat) < 2 ^ 32 by omega),
    key _ (show (12 : Nat) < 2 ^ 32 by omega), key _ (show (13 : Nat) < 2 ^ 32 by omega),
    key _ (show (32 : Nat) < 2 ^ 32 by omega), key _ (show (133 : Nat) < 2 ^ 32 by omega),
    key _ (show (160 : Nat) < 2 ^ 32 by omega), key _ (show (5760 : Nat) < 2 ^ 32 by omega),
    key _ (show (8192 : Nat) < 2 ^ 32 by omega), key _ (show (8193 : Nat) < 2 ^ 32 by omega),
    key _ (show (8194 : Nat) < 2 ^ 32 by omega), key _ (show (8195 : Nat) < 2 ^ 32 by omega),
    key _ (show (8196 : Nat) < 2 ^ 32 by omega), key _ (show (8197 : Nat) < 2 ^ 32 by omega),
    key _ (show (8198 : Nat) < 2 ^ 32 by omega), key _ (show (8199 : Nat) < 2 ^ 32 by omega),
    key _ (show (8200 : Nat) < 2 ^ 32 by omega), key _ (show (8201 : Nat) < 2 ^ 32 by omega),
    key _ (show (8202 : Nat) < 2 ^ 32 by omega), key _ (show (8232 : Nat) < 2 ^ 32 by omega),
    key _ (show (8233 : Nat) < 2 ^ 32 by omega), key _ (show (8239 : Nat) < 2 ^ 32 by omega),
    key _ (show (8287 : Nat) < 2 ^ 32 by omega), key _ (show (12288 : Nat) < 2 ^ 32 by omega)]
  simp only [List.mem_cons, List.not_mem_nil, or_false, exists_eq_or_imp, exists_eq_left]
  omega

/-! ### C18 -/

/-- Outside `unsigned char`, `std::tolower` is undefined. -/
theorem C18_violated :
    ¬ ∀ (c : Char32) (r : Nat), 2 ≤ r → r ≤ 36 →
      ∃ b, isRadixDigit c r = .ok b ∧ (b = true ↔ Spec.IsDigit r c.toNat) := by
  intro h
  obtain ⟨b, h1, _⟩ := h 0x20AC#32 16 (by decide) (by decide)
  have h2 : isRadixDigit 0x20AC#32 16 = .ub := by decide
  rw [h2] at h1
  simp at h1

/-- For radix below ten every character is classified correctly, from ten on every character
below 256 (and -1).  Missing: radix at least ten and other characters, where the library calls
`std::tolower` outside its domain. -/
theorem C18_partial (c : Char32) (r : Nat) (h2 : 2 ≤ r) (h36 : r ≤ 36)
    (hc : r < 10 ∨ c.toNat ≤ 255 ∨ c = 0xFFFFFFFF#32) :
    ∃ b, isRadixDigit c r = .ok b ∧ (b = true ↔ Spec.IsDigit r c.toNat) := by
  have hdig : Spec.IsDigit r c.toNat ↔ (48 ≤ c.toNat ∧ c.toNat ≤ 57 ∧ c.toNat < 48 + r)
      ∨ (65 ≤ c.toNat ∧ c.toNat ≤ 90 ∧ c.toNat < 55 + r)
      ∨ (97 ≤ c.toNat ∧ c.toNat ≤ 122 ∧ c.toNat < 87 + r) := by
    unfold Spec.IsDigit Spec.digitValue
    split
    · simp; omega
    · split
      · simp; omega
      · split
        · simp; omega
        · simp; omega
  rw [hdig]
  unfold isRadixDigit
  by_cases hr : r < 10
  · rw [if_pos hr]
    refine ⟨_, rfl, ?_⟩
    simp only [Bool.and_eq_true, decide_eq_true_eq]
    omega
  · rw [if_neg hr]
    have hdom : c.toNat ≤ 255 ∨ c = 0xFFFFFFFF#32 := by
      rcases hc with h | h | h
      · omega
      · exact .inl h
      · exact .inr h
    rw [tolower, if_pos hdom, Outcome.ok_bind]
    refine ⟨_, rfl, ?_⟩
    have hm : (97 + r - 10) % 2 ^ 32 = 87 + r := by omega
    rw [hm]
    simp only [Bool.or_eq_true, Bool.and_eq_true, decide_eq_true_eq]
    have hlt := c.isLt
    split
    · rename_i hup
      rw [BitVec.toNat_add]
      simp only [BitVec.toNat_ofNat]
      omega
    · rename_i hup
      rcases hdom with h | h
      · omega
      · have : c.toNat = 4294967295 := by rw [h]; rfl
        omega

example : (0x66#32).toNat ≤ 255 ∧ isRadixDigit 0x66#32 16 = .ok true
    ∧ isRadixDigit 0x67#32 16 = .ok false := by decide

end Cmp
