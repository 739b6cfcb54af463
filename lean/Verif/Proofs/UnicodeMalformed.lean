import Verif.Proofs.UnicodeLoops

/-
Helper lemmas: decoding arbitrary, possibly ill-formed, code units.
-/

namespace Cmp

/-- The code units of a string from index `i`, as numbers. -/
def restN {w : Nat} (s : List (BitVec w)) (i : Nat) : List Nat := (s.drop i).map BitVec.toNat

theorem unitAt_eq {α : Type} (s : List α) (i : Nat) (h : i < s.length) :
    unitAt s i = .ok s[i] := by
  simp [unitAt, h]

theorem restN_cons {w : Nat} (s : List (BitVec w)) (i : Nat) (h : i < s.length) :
    restN s i = s[i].toNat :: restN s (i + 1) := by
  rw [restN, restN, List.drop_eq_getElem_cons h, List.map_cons]

theorem restN_end {w : Nat} (s : List (BitVec w)) (i : Nat) (h : s.length ≤ i) :
    restN s i = [] := by
  rw [restN, List.drop_eq_nil_of_le h, List.map_nil]

theorem ofNat_scan_step (a : Nat) (u : Char8) (ha : a < 2 ^ 26) :
    ((BitVec.ofNat 32 a) <<< 6) ||| (u &&& 0b00111111#8).setWidth 32
      = BitVec.ofNat 32 (a * 64 + u.toNat % 64) := by
  apply BitVec.eq_of_toNat_eq
  have e : (BitVec.ofNat 32 a).toNat = a := by
    rw [BitVec.toNat_ofNat, Nat.mod_eq_of_lt (by omega)]
  have hu := bv8_lt u
  rw [shl6_or _ _ (by rw [e]; exact ha), e, BitVec.toNat_ofNat,
    Nat.mod_eq_of_lt (a := a * 64 + u.toNat % 64) (by omega)]

/-- How decoding reports what it finds at an index. -/
def scanDeref : Spec.Scan → Outcome Char32
  | .complete v _ => .ok (BitVec.ofNat 32 v)
  | .malformed => .throw .invalidUnicodeEncoding
  | .truncated => .throw .iteratedPastEnd

/-- How `char8_t` increments report what they find at index `i`. -/
def scanAdvance (i : Nat) : Spec.Scan → Outcome Nat
  | .complete _ n => .ok (i + n)
  | .malformed => .throw .invalidUnicodeEncoding
  | .truncated => .ub

theorem refFinish_scan (s : List Char8) (len : Nat) (n : Nat) :
    ∀ (a i : Nat), i < s.length → (a + 1) * 64 ^ n ≤ 2 ^ 26 →
      Utf8.refFinish s n (BitVec.ofNat 32 a) i
        = scanDeref (Spec.scanTail len n a (restN s (i + 1))) := by
  induction n with
  | zero => intro a i _ _; rfl
  | succ n ih =>
    intro a i hi ha
    have hle : (a + 1) * 64 ≤ (a + 1) * 64 ^ (n + 1) := by
      rw [Nat.pow_succ, ← Nat.mul_assoc, Nat.mul_right_comm]
      exact Nat.le_mul_of_pos_right _ (Nat.pow_pos (by omega))
    rw [Utf8.refFinish]
    by_cases he : i + 1 = s.length
    · rw [if_pos he, restN_end _ _ (by omega), Spec.scanTail]; rfl
    · have hlt : i + 1 < s.length := by omega
      have hu := bv8_lt s[i + 1]
      rw [if_neg he, unitAt_eq s _ hlt, Outcome.ok_bind, restN_cons s _ hlt, Spec.scanTail,
        isTrailingByte_eq]
      by_cases ht : s[i + 1].toNat / 64 = 2
      · rw [if_neg (by simp [ht]), if_pos (by omega), ofNat_scan_step _ _ (by omega)]
        refine ih _ _ hlt (Nat.le_trans ?_ ha)
        rw [Nat.pow_succ, Nat.mul_comm (64 ^ n), ← Nat.mul_assoc]
        exact Nat.mul_le_mul_right _ (by omega)
      · rw [if_pos (by simp [ht]), if_neg (by omega)]; rfl

theorem advFinish_scan (s : List Char8) (len : Nat) (n : Nat) :
    ∀ (a i k : Nat), i < s.length → i + n + 1 = k + len →
      (Utf8.advFinish s n i >>= fun j => .ok (j + 1))
        = scanAdvance k (Spec.scanTail len n a (restN s (i + 1))) := by
  induction n with
  | zero => intro a i k _ hk; rw [Utf8.advFinish, Spec.scanTail, Outcome.ok_bind, scanAdvance,
      ← hk, Nat.add_zero]
  | succ n ih =>
    intro a i k hi hk
    rw [Utf8.advFinish, if_neg (by omega)]
    by_cases he : i + 1 = s.length
    · rw [restN_end _ _ (by omega), Spec.scanTail]
      simp [unitAt, he, scanAdvance]
    · have hlt : i + 1 < s.length := by omega
      have hu := bv8_lt s[i + 1]
      rw [unitAt_eq s _ hlt, Outcome.ok_bind, restN_cons s _ hlt, Spec.scanTail,
        isTrailingByte_eq]
      by_cases ht : s[i + 1].toNat / 64 = 2
      · rw [if_neg (by simp [ht]), if_pos (by omega)]
        exact ih _ _ _ hlt (by omega)
      · rw [if_pos (by simp [ht]), if_neg (by omega)]; rfl

theorem utf8_deref_scan (s : List Char8) (i : Nat) (hi : i < s.length) :
    Utf8.deref s i = scanDeref (Spec.scan8 (restN s i)) := by
  have hu := bv8_lt s[i]
  rw [Utf8.deref, if_neg (by omega), unitAt_eq s _ hi, Outcome.ok_bind, restN_cons s _ hi,
    Spec.scan8, initializeUtf8Sequence_eq]
  by_cases h1 : s[i].toNat < 128
  · rw [if_pos h1, if_pos h1]; rfl
  rw [if_neg h1, if_neg h1]
  by_cases h2 : s[i].toNat / 32 = 6
  · rw [if_pos h2, if_pos (by omega)]
    exact refFinish_scan s 2 1 _ _ hi (by omega)
  rw [if_neg h2, if_neg (show ¬ (0xC0 ≤ s[i].toNat ∧ s[i].toNat < 0xE0) by omega)]
  by_cases h3 : s[i].toNat / 16 = 14
  · rw [if_pos h3, if_pos (by omega)]
    exact refFinish_scan s 3 2 _ _ hi (by omega)
  rw [if_neg h3, if_neg (show ¬ (0xE0 ≤ s[i].toNat ∧ s[i].toNat < 0xF0) by omega)]
  by_cases h4 : s[i].toNat / 8 = 30
  · rw [if_pos h4, if_pos (by omega)]
    exact refFinish_scan s 4 3 _ _ hi (by omega)
  rw [if_neg h4, if_neg (show ¬ (0xF0 ≤ s[i].toNat ∧ s[i].toNat < 0xF8) by omega)]; rfl

theorem utf8_advance_scan (s : List Char8) (i : Nat) (hi : i < s.length) :
    Utf8.advance s i = scanAdvance i (Spec.scan8 (restN s i)) := by
  have hu := bv8_lt s[i]
  rw [Utf8.advance, unitAt_eq s _ hi, Outcome.ok_bind, restN_cons s _ hi,
    Spec.scan8, initializeUtf8Sequence_eq]
  by_cases h1 : s[i].toNat < 128
  · rw [if_pos h1, if_pos h1]; rfl
  rw [if_neg h1, if_neg h1]
  by_cases h2 : s[i].toNat / 32 = 6
  · rw [if_pos h2, if_pos (by omega)]
    exact advFinish_scan s 2 1 _ _ _ hi (by omega)
  rw [if_neg h2, if_neg (show ¬ (0xC0 ≤ s[i].toNat ∧ s[i].toNat < 0xE0) by omega)]
  by_cases h3 : s[i].toNat / 16 = 14
  · rw [if_pos h3, if_pos (by omega)]
    exact advFinish_scan s 3 2 _ _ _ hi (by omega)
  rw [if_neg h3, if_neg (show ¬ (0xE0 ≤ s[i].toNat ∧ s[i].toNat < 0xF0) by omega)]
  by_cases h4 : s[i].toNat / 8 = 30
  · rw [if_pos h4, if_pos (by omega)]
    exact advFinish_scan s 4 3 _ _ _ hi (by omega)
  rw [if_neg h4, if_neg (show ¬ (0xF0 ≤ s[i].toNat ∧ s[i].toNat < 0xF8) by omega)]; rfl

theorem pair_value (u v : Char16) (_h : 0xD800 ≤ u.toNat ∧ u.toNat ≤ 0xDBFF)
    (h' : 0xDC00 ≤ v.toNat ∧ v.toNat ≤ 0xDFFF) :
    BitVec.ofNat 32 ((u.toNat - 0xD800) * 1024) + (v.setWidth 32 - 0xDC00#32) + 0x10000#32
      = BitVec.ofNat 32 (0x10000 + (u.toNat - 0xD800) * 1024 + (v.toNat - 0xDC00)) := by
  apply BitVec.eq_of_toNat_eq
  rw [BitVec.toNat_add, BitVec.toNat_add, BitVec.toNat_sub]
  simp only [BitVec.toNat_setWidth, BitVec.toNat_ofNat]
  omega

theorem utf16_deref_scan (s : List Char16) (i : Nat) (hi : i < s.length) :
    Utf16.deref s i = scanDeref (Spec.scan16 (restN s i)) := by
  rw [restN_cons s _ hi, Spec.scan16]
  by_cases h1 : 0xD800 ≤ s[i].toNat ∧ s[i].toNat ≤ 0xDBFF
  · rw [if_pos h1]
    by_cases he : i + 1 = s.length
    · rw [restN_end _ _ (by omega), Spec.scanPair, Utf16.deref, if_neg (by omega), unitAt_eq s _ hi,
        Outcome.ok_bind, initializeUtf16Sequence_eq, if_pos h1, Outcome.ok_bind]
      dsimp only
      rw [if_pos rfl, if_pos he]; rfl
    · have hlt : i + 1 < s.length := by omega
      rw [restN_cons s _ hlt, Spec.scanPair]
      by_cases h2 : 0xDC00 ≤ s[i + 1].toNat ∧ s[i + 1].toNat ≤ 0xDFFF
      · rw [if_pos h2, utf16_deref_two s i _ _ (by omega) he (unitAt_eq s _ hi)
          (unitAt_eq s _ hlt) h1 h2, pair_value _ _ h1 h2]; rfl
      · rw [if_neg h2, Utf16.deref, if_neg (by omega), unitAt_eq s _ hi,
          Outcome.ok_bind, initializeUtf16Sequence_eq, if_pos h1, Outcome.ok_bind]
        dsimp only
        rw [if_pos rfl, if_neg he, unitAt_eq s _ hlt, Outcome.ok_bind, isTrailingSurrogate_eq,
          decide_eq_false h2]; rfl
  · rw [if_neg h1]
    by_cases h2 : 0xDC00 ≤ s[i].toNat ∧ s[i].toNat ≤ 0xDFFF
    · rw [if_pos h2, Utf16.deref, if_neg (by omega), unitAt_eq s _ hi,
        Outcome.ok_bind, initializeUtf16Sequence_eq, if_neg h1, if_pos h2]; rfl
    · rw [if_neg h2, utf16_deref_one s i _ (by omega) (unitAt_eq s _ hi) (by omega)]; rfl

/-- How `char16_t` increments report what they find at index `i`: a pair moves by one unit. -/
def scanAdvance16 (i : Nat) : Spec.Scan → Outcome Nat
  | .complete _ _ => .ok (i + 1)
  | .malformed => .throw .invalidUnicodeEncoding
  | .truncated => .ub

theorem utf16_advance_scan (s : List Char16) (i : Nat) (hi : i < s.length) :
    Utf16.advance s i = scanAdvance16 i (Spec.scan16 (restN s i)) := by
  rw [restN_cons s _ hi, Spec.scan16, Utf16.advance, unitAt_eq s _ hi, Outcome.ok_bind,
    initializeUtf16Sequence_eq]
  by_cases h1 : 0xD800 ≤ s[i].toNat ∧ s[i].toNat ≤ 0xDBFF
  · rw [if_pos h1, if_pos h1, Outcome.ok_bind]
    dsimp only
    rw [if_pos rfl, if_neg (by omega)]
    by_cases he : i + 1 = s.length
    · rw [restN_end _ _ (by omega), Spec.scanPair]
      simp [unitAt, he, scanAdvance16]
    · have hlt : i + 1 < s.length := by omega
      rw [restN_cons s _ hlt, unitAt_eq s _ hlt, Outcome.ok_bind, isTrailingSurrogate_eq,
        Spec.scanPair]
      by_cases h2 : 0xDC00 ≤ s[i + 1].toNat ∧ s[i + 1].toNat ≤ 0xDFFF
      · rw [decide_eq_true h2, if_pos h2]; rfl
      · rw [decide_eq_false h2, if_neg h2]; rfl
  · rw [if_neg h1, if_neg h1]
    by_cases h2 : 0xDC00 ≤ s[i].toNat ∧ s[i].toNat ≤ 0xDFFF
    · rw [if_pos h2, if_pos h2]; rfl
    · rw [if_neg h2, if_neg h2]; rfl

theorem scanTail_length (len n a : Nat) (l : List Nat) (v k : Nat)
    (h : Spec.scanTail len n a l = .complete v k) : k = len ∧ n ≤ l.length := by
  induction n generalizing a l with
  | zero => simp [Spec.scanTail] at h; simp [h.2]
  | succ n ih =>
    cases l with
    | nil => simp [Spec.scanTail] at h
    | cons b l =>
      rw [Spec.scanTail] at h
      split at h
      · have := ih _ _ h; simp; omega
      · simp at h

theorem scan8_length (l : List Nat) (v k : Nat) (h : Spec.scan8 l = .complete v k) :
    0 < k ∧ k ≤ l.length := by
  cases l with
  | nil => simp [Spec.scan8] at h
  | cons b l =>
    rw [Spec.scan8] at h
    simp only [List.length_cons]
    split at h
    · simp at h; omega
    all_goals split at h
    · have := scanTail_length _ _ _ _ _ _ h; omega
    all_goals split at h
    · have := scanTail_length _ _ _ _ _ _ h; omega
    all_goals split at h
    · have := scanTail_length _ _ _ _ _ _ h; omega
    · simp at h

theorem scan16_length (l : List Nat) (v k : Nat) (h : Spec.scan16 l = .complete v k) :
    0 < k ∧ k ≤ l.length := by
  cases l with
  | nil => simp [Spec.scan16] at h
  | cons b l =>
    rw [Spec.scan16] at h
    simp only [List.length_cons]
    split at h
    · cases l with
      | nil => simp [Spec.scanPair] at h
      | cons c l =>
        rw [Spec.scanPair] at h
        split at h
        · simp at h; simp; omega
        · simp at h
    · split at h
      · simp at h
      · simp at h; omega

theorem restN_length {w : Nat} (s : List (BitVec w)) (i : Nat) :
    (restN s i).length = s.length - i := by simp [restN]

/-- The three ways a dereference can end. -/
theorem deref_cases (e : Enc) (s : Str e) (i : Nat) (hi : i < s.length) :
    (∃ c, deref e s i = .ok c ∧ ∃ j, advance e s i = .ok j ∧ i < j ∧ j ≤ s.length) ∨
    (deref e s i = .throw .invalidUnicodeEncoding
      ∧ advance e s i = .throw .invalidUnicodeEncoding) ∨
    (deref e s i = .throw .iteratedPastEnd ∧ advance e s i = .ub) := by
  have raw : ∀ (w : Nat) (t : List (BitVec w)), i < t.length →
      rawAdvance t i = .ok (i + 1) := by
    intro w t h; simp [rawAdvance, h]
  cases e with
  | narrow =>
    left
    refine ⟨(s[i] : BitVec 8).signExtend 32, ?_, i + 1, raw _ s hi, by omega, hi⟩
    show narrowDeref s i = _
    rw [narrowDeref, if_neg (by omega), unitAt_eq s i hi]; rfl
  | char32 =>
    left
    refine ⟨s[i], ?_, i + 1, raw _ s hi, by omega, hi⟩
    show rawDeref s i = _
    rw [rawDeref, if_neg (by omega), unitAt_eq s i hi]
  | wide4 =>
    left
    refine ⟨s[i], ?_, i + 1, raw _ s hi, by omega, hi⟩
    show rawDeref s i = _
    rw [rawDeref, if_neg (by omega), unitAt_eq s i hi]
  | char8 =>
    have h1 : deref .char8 s i = _ := utf8_deref_scan s i hi
    have h2 : advance .char8 s i = _ := utf8_advance_scan s i hi
    rw [h1, h2]
    cases h : Spec.scan8 (restN s i) with
    | complete v k =>
      have := scan8_length _ _ _ h
      rw [restN_length] at this
      exact .inl ⟨_, rfl, _, rfl, by omega, by omega⟩
    | malformed => exact .inr (.inl ⟨rfl, rfl⟩)
    | truncated => exact .inr (.inr ⟨rfl, rfl⟩)
  | char16 =>
    have h1 : deref .char16 s i = _ := utf16_deref_scan s i hi
    have h2 : advance .char16 s i = _ := utf16_advance_scan s i hi
    rw [h1, h2]
    cases h : Spec.scan16 (restN s i) with
    | complete v k => exact .inl ⟨_, rfl, _, rfl, by omega, by omega⟩
    | malformed => exact .inr (.inl ⟨rfl, rfl⟩)
    | truncated => exact .inr (.inr ⟨rfl, rfl⟩)
  | wide2 =>
    have h1 : deref .wide2 s i = _ := utf16_deref_scan s i hi
    have h2 : advance .wide2 s i = _ := utf16_advance_scan s i hi
    rw [h1, h2]
    cases h : Spec.scan16 (restN s i) with
    | complete v k => exact .inl ⟨_, rfl, _, rfl, by omega, by omega⟩
    | malformed => exact .inr (.inl ⟨rfl, rfl⟩)
    | truncated => exact .inr (.inr ⟨rfl, rfl⟩)

/-- A range-for loop is free of undefined behaviour on every string when its body is. -/
theorem forEachFrom_defined (e : Enc) (s : Str e) {σ : Type} (f : σ → Char32 → Outcome σ)
    (hf : ∀ a c, (f a c).Defined) :
    ∀ (fuel i : Nat) (acc : σ), i ≤ s.length → s.length - i < fuel →
      (forEachFrom e s f fuel i acc).Defined := by
  intro fuel
  induction fuel with
  | zero => intro i acc _ h; omega
  | succ n ih =>
    intro i acc hi hfu
    rw [forEachFrom]
    by_cases he : i = s.length
    · rw [if_pos he]; simp [Outcome.Defined]
    · rw [if_neg he]
      rcases deref_cases e s i (by omega) with ⟨c, h1, j, h2, h3, h4⟩ | ⟨h1, _⟩ | ⟨h1, _⟩
      · rw [h1, Outcome.ok_bind]
        have hd := hf acc c
        cases hfc : f acc c with
        | ok a' =>
          rw [Outcome.ok_bind, h2, Outcome.ok_bind]
          exact ih j a' h4 (by omega)
        | throw x => simp [Outcome.Defined]
        | terminate => simp [Outcome.Defined]
        | ub => rw [hfc] at hd; simp [Outcome.Defined] at hd
        | hang => rw [hfc] at hd; simp [Outcome.Defined] at hd
      · rw [h1]; simp [Outcome.Defined]
      · rw [h1]; simp [Outcome.Defined]

theorem codePoints_defined (e : Enc) (s : Str e) : (codePoints e s).Defined :=
  forEachFrom_defined e s _ (by intro a c; simp [Outcome.Defined]) _ 0 [] (by omega) (by omega)

/-- After a successful dereference an increment succeeds. -/
theorem validate_advance_ok (e : Enc) (s : Str e) (i : Nat) (hi : i < s.length) (c : Char32)
    (h : deref e s i = .ok c) : ∃ j, advance e s i = .ok j ∧ i < j ∧ j ≤ s.length := by
  rcases deref_cases e s i hi with ⟨c', h1, hj⟩ | ⟨h1, _⟩ | ⟨h1, _⟩
  · exact hj
  · rw [h1] at h; simp at h
  · rw [h1] at h; simp at h

theorem validateFrom_total (e : Enc) (s : Str e) :
    ∀ (fuel i : Nat), i ≤ s.length → s.length - i < fuel →
      ∃ j, validateFrom e s fuel i = .ok j ∧ i ≤ j ∧ j ≤ s.length := by
  intro fuel
  induction fuel with
  | zero => intro i _ h; omega
  | succ n ih =>
    intro i hi hfu
    rw [validateFrom]
    by_cases he : i = s.length
    · exact ⟨i, by rw [if_pos he], by omega, by omega⟩
    · rw [if_neg he]
      rcases deref_cases e s i (by omega) with ⟨c, h1, j, h2, h3, h4⟩ | ⟨h1, _⟩ | ⟨h1, _⟩
      · rw [h1]
        dsimp only
        split
        · exact ⟨i, rfl, by omega, by omega⟩
        · rw [h2]
          dsimp only
          obtain ⟨k, hk, h5, h6⟩ := ih j h4 (by omega)
          exact ⟨k, hk, by omega, h6⟩
      · rw [h1]; exact ⟨i, rfl, by omega, by omega⟩
      · rw [h1]; exact ⟨i, rfl, by omega, by omega⟩

/-- A validation loop stops where decoding fails or the value is out of range. -/
theorem validateFrom_stop (e : Enc) (s : Str e) (i n : Nat) (hi : i < s.length)
    (h : ∀ c, deref e s i = .ok c → maximumCodePoint < c) :
    validateFrom e s (n + 1) i = .ok i := by
  rw [validateFrom, if_neg (by omega)]
  rcases deref_cases e s i hi with ⟨c, h1, _⟩ | ⟨h1, _⟩ | ⟨h1, _⟩
  · rw [h1]; dsimp only; rw [if_pos (h c h1)]
  · rw [h1]
  · rw [h1]

theorem validateString_stop (e : Enc) (cs : List Nat) (rest : Str e) (hr : rest ≠ [])
    (hok : ∀ c ∈ cs, FwdOk e c ∧ c ≤ 0x10FFFF)
    (h : ∀ c, deref e (encs e cs ++ rest) (encs e cs).length = .ok c → maximumCodePoint < c) :
    validateString e (encs e cs ++ rest) = .ok (encs e cs).length := by
  have hl := encs_length_ge e cs
  have hv := validateFrom_enc e rest cs [] ((encs e cs ++ rest).length + 1 - cs.length) hok
  have hr' : 0 < rest.length := List.length_pos_iff.mpr hr
  rw [validateString]
  simp only [List.nil_append, List.length_nil] at hv
  rw [show cs.length + ((encs e cs ++ rest).length + 1 - cs.length)
    = (encs e cs ++ rest).length + 1 by rw [List.length_append]; omega] at hv
  rw [hv]
  obtain ⟨n, hn⟩ : ∃ n, (encs e cs ++ rest).length + 1 - cs.length = n + 1 :=
    ⟨(encs e cs ++ rest).length - cs.length, by rw [List.length_append]; omega⟩
  rw [hn]
  exact validateFrom_stop e _ _ n (by rw [List.length_append]; omega) h

end Cmp
