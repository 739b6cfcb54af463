import Verif.Model.Locale

/-
Property C121: what a digit is, and what a numeral means, does not depend on the locale.
-/

namespace Cmp

namespace Spec

/-- In this locale the letters A to Z become a to z, those stay what they are, and no other character
but perhaps a digit becomes one of them. -/
def PlainLetters (low : Locale) : Prop :=
  (∀ b : BitVec 8, 65 ≤ b.toNat → b.toNat ≤ 90 → (low b).toNat = b.toNat + 32)
  ∧ (∀ b : BitVec 8, 97 ≤ b.toNat → b.toNat ≤ 122 → low b = b)
  ∧ ∀ b : BitVec 8, ¬ (48 ≤ b.toNat ∧ b.toNat ≤ 57) → ¬ (65 ≤ b.toNat ∧ b.toNat ≤ 90) →
      ¬ (97 ≤ b.toNat ∧ b.toNat ≤ 122) → ¬ (97 ≤ (low b).toNat ∧ (low b).toNat ≤ 122)

/-- ISO 8859-9 in Turkish: dotless ı and dotted İ are letters of their own. -/
def turkish : Locale := fun b =>
  if b.toNat = 0x49 then 0xFD else if b.toNat = 0xDD then 0x69
  else if (65 ≤ b.toNat ∧ b.toNat ≤ 90) ∨ (0xC0 ≤ b.toNat ∧ b.toNat ≤ 0xDE ∧ b.toNat ≠ 0xD7) then b + 32
  else b

end Spec

/-- In the locale "C" these are the functions of the other models. -/
theorem tolowerIn_c (c : Char32) : tolowerIn Locale.c c = tolower c := by
  unfold tolowerIn tolower
  by_cases h : c.toNat ≤ 255
  · have hs : (c.setWidth 8).toNat = c.toNat := by
      rw [BitVec.toNat_setWidth]; omega
    rw [if_pos h, if_pos (show c.toNat ≤ 255 ∨ c = 0xFFFFFFFF#32 from .inl h)]
    unfold Locale.c
    rw [hs]
    congr 1
    apply BitVec.eq_of_toNat_eq
    split
    · simp only [BitVec.toNat_setWidth, BitVec.toNat_add]
      rw [show (32 : BitVec 8).toNat = 32 from rfl, show (32#32).toNat = 32 from rfl]
      omega
    · simp only [BitVec.toNat_setWidth]
      omega
  · rw [if_neg h]
    by_cases he : c = 0xFFFFFFFF#32
    · subst he; decide
    · rw [if_neg he, if_neg (by tauto)]

theorem isRadixDigitIn_c (c : Char32) (radix : Nat) : isRadixDigitIn Locale.c c radix = isRadixDigit c radix := by
  unfold isRadixDigitIn isRadixDigit
  rw [tolowerIn_c]

section same

variable {low : Locale} {radix : Nat} (h : ∀ c, isRadixDigitIn low c radix = isRadixDigit c radix)

include h

theorem digitCharacterToIntegerIn_same (c : Char32) :
    digitCharacterToIntegerIn low c radix = digitCharacterToInteger c radix := by
  unfold digitCharacterToIntegerIn digitCharacterToInteger
  rw [h]

theorem getNextDigitIn_same (c : Char32) : getNextDigitIn low c radix = getNextDigit c radix := by
  unfold getNextDigitIn getNextDigit
  rw [digitCharacterToIntegerIn_same h]

theorem parseIntegerIn_same (e : Enc) (T : IntTy) (s : Str e) (f : IntegerFormat) (hf : f.radix = radix) :
    parseIntegerIn low e T s f = parseInteger e T s f := by
  subst hf
  have hs : parseStepIn low T f = parseStep T f := by
    funext st c
    unfold parseStepIn parseStep
    simp only [h, getNextDigitIn_same h]
  unfold parseIntegerIn parseInteger
  simp only [hs, getNextDigitIn_same h]

theorem parseFloatIn_same (e : Enc) (rnd : ℚ → ℚ) (s : Str e) (f : FloatFormat) (hf : f.radix = radix) :
    parseFloatIn low e rnd s f = parseFloat e rnd s f := by
  subst hf
  have hs : parseFractionStepIn low rnd f.radix = parseFractionStep rnd f.radix := by
    funext st c
    unfold parseFractionStepIn parseFractionStep
    rw [digitCharacterToIntegerIn_same h]
  unfold parseFloatIn parseFloat
  rw [hs]
  have hi := fun e T s => parseIntegerIn_same h e T s ⟨f.radix, f.sign, f.separator⟩ rfl
  unfold IntegerFormat.make
  split
  · rfl
  · simp only [Outcome.ok_bind, hi]
    rfl

end same

theorem isRadixDigitIn_byte (low : Locale) (c : Char32) (radix : Nat) (hr : 10 ≤ radix) (hr2 : radix ≤ 36)
    (hc : c.toNat ≤ 255) :
    isRadixDigitIn low c radix = .ok (decide ((48 ≤ c.toNat ∧ c.toNat ≤ 57) ∨
      (97 ≤ (low (c.setWidth 8)).toNat ∧ (low (c.setWidth 8)).toNat < 87 + radix))) := by
  unfold isRadixDigitIn tolowerIn
  rw [if_neg (by omega), if_pos hc, Outcome.ok_bind]
  have h1 : ((low (c.setWidth 8)).setWidth 32).toNat = (low (c.setWidth 8)).toNat := by
    rw [BitVec.toNat_setWidth]
    have := (low (c.setWidth 8)).isLt
    omega
  have h2 : (97 + radix - 10) % 2 ^ 32 = 87 + radix := by omega
  rw [h1, h2]
  simp

/-- In a locale with plain letters the digits are those of the locale "C". -/
theorem plain_same {low : Locale} (hp : Spec.PlainLetters low) {radix : Nat} (hr : radix ≤ 36) (c : Char32) :
    isRadixDigitIn low c radix = isRadixDigit c radix := by
  rw [← isRadixDigitIn_c]
  by_cases h10 : radix < 10
  · unfold isRadixDigitIn; rw [if_pos h10, if_pos h10]
  by_cases hc : c.toNat ≤ 255
  · rw [isRadixDigitIn_byte _ _ _ (by omega) hr hc, isRadixDigitIn_byte _ _ _ (by omega) hr hc]
    have hs : (c.setWidth 8).toNat = c.toNat := by rw [BitVec.toNat_setWidth]; omega
    have hl : (Locale.c (c.setWidth 8)).toNat = if 65 ≤ c.toNat ∧ c.toNat ≤ 90 then c.toNat + 32 else c.toNat := by
      unfold Locale.c
      rw [hs]
      split
      · rw [BitVec.toNat_add, hs, show (32 : BitVec 8).toNat = 32 from rfl]; omega
      · exact hs
    obtain ⟨h1, h2, h3⟩ := hp
    congr 1
    rw [decide_eq_decide, hl]
    by_cases d : 48 ≤ c.toNat ∧ c.toNat ≤ 57
    · simp [d]
    by_cases u : 65 ≤ c.toNat ∧ c.toNat ≤ 90
    · rw [if_pos u, h1 _ (by omega) (by omega), hs]
    rw [if_neg u]
    by_cases l : 97 ≤ c.toNat ∧ c.toNat ≤ 122
    · rw [h2 _ (by omega) (by omega), hs]
    have := h3 (c.setWidth 8) (by omega) (by omega) (by omega)
    omega
  · unfold isRadixDigitIn tolowerIn
    rw [if_neg h10, if_neg h10, if_neg hc, if_neg hc]

theorem plain_of_same {low : Locale}
    (h : ∀ c radix, 2 ≤ radix → radix ≤ 36 → isRadixDigitIn low c radix = isRadixDigit c radix) :
    Spec.PlainLetters low := by
  have key : ∀ (b : BitVec 8) (radix : Nat), 10 ≤ radix → radix ≤ 36 →
      ((48 ≤ b.toNat ∧ b.toNat ≤ 57) ∨ (97 ≤ (low b).toNat ∧ (low b).toNat < 87 + radix) ↔
        (48 ≤ b.toNat ∧ b.toNat ≤ 57) ∨
          (97 ≤ (Locale.c b).toNat ∧ (Locale.c b).toNat < 87 + radix)) := by
    intro b radix hr hr2
    have hb := b.isLt
    have h1 := h (b.setWidth 32) radix (by omega) hr2
    have e1 : (b.setWidth 32).toNat = b.toNat := by rw [BitVec.toNat_setWidth]; omega
    have e2 : (b.setWidth 32).setWidth 8 = b := by
      apply BitVec.eq_of_toNat_eq
      rw [BitVec.toNat_setWidth, e1]; omega
    rw [← isRadixDigitIn_c, isRadixDigitIn_byte _ _ _ hr hr2 (by omega),
      isRadixDigitIn_byte _ _ _ hr hr2 (by omega), e1, e2] at h1
    rw [Outcome.ok.injEq, decide_eq_decide] at h1
    exact h1
  have lc : ∀ b : BitVec 8, (Locale.c b).toNat = if 65 ≤ b.toNat ∧ b.toNat ≤ 90 then b.toNat + 32 else b.toNat := by
    intro b
    unfold Locale.c
    split
    · rw [BitVec.toNat_add, show (32 : BitVec 8).toNat = 32 from rfl]; omega
    · rfl
  refine ⟨fun b h1 h2 => ?_, fun b h1 h2 => ?_, fun b h1 h2 h3 h4 => ?_⟩
  · have a := key b (b.toNat - 54) (by omega) (by omega)
    have a2 := key b (b.toNat - 55) (by omega) (by omega)
    rw [lc, if_pos ⟨h1, h2⟩] at a a2
    omega
  · apply BitVec.eq_of_toNat_eq
    have a := key b (b.toNat - 86) (by omega) (by omega)
    have a2 := key b (b.toNat - 87) (by omega) (by omega)
    rw [lc, if_neg (by omega)] at a a2
    omega
  · have a := key b 36 (by omega) (by omega)
    rw [lc, if_neg h2] at a
    omega

theorem parseIntegerIn_single (low : Locale) (T : IntTy) (c : Char32) (f : IntegerFormat) :
    parseIntegerIn low .char32 T [c] f = (do let d ← getNextDigitIn low c f.radix; .ok (T.wrap d)) := rfl

theorem getNextDigitIn_throws (low : Locale) (c : Char32) (radix : Nat) :
    getNextDigitIn low c radix = .throw (.parseFailed .digitCharacterExpected) ↔
      isRadixDigitIn low c radix = .ok false := by
  unfold getNextDigitIn digitCharacterToIntegerIn reportNonDigit
  constructor
  · intro h
    rcases hd : isRadixDigitIn low c radix with b | _ | _ | _ | _ <;> rw [hd] at h
    · cases b
      · rfl
      · exfalso
        simp only [Outcome.ok_bind, Bool.not_true, Bool.false_eq_true, if_false] at h
        split at h
        · next h2 =>
          simp only [Bool.and_eq_true, decide_eq_true_eq, BitVec.le_def] at h2
          have := h2.1
          rw [show (48#32).toNat = 48 from rfl] at this
          rw [Outcome.ok_bind, if_neg (by omega)] at h; cases h
        · split at h
          · next h2 =>
            simp only [Bool.and_eq_true, decide_eq_true_eq, BitVec.le_def] at h2
            have := h2.1
            rw [show (97#32).toNat = 97 from rfl] at this
            rw [Outcome.ok_bind, if_neg (by omega)] at h; cases h
          · split at h
            · next h2 =>
              simp only [Bool.and_eq_true, decide_eq_true_eq, BitVec.le_def] at h2
              have := h2.1
              rw [show (65#32).toNat = 65 from rfl] at this
              rw [Outcome.ok_bind, if_neg (by omega)] at h; cases h
            · cases h
    · rename_i x
      exfalso
      unfold isRadixDigitIn tolowerIn at hd
      split at hd
      · cases hd
      · split at hd
        · cases hd
        · split at hd <;> cases hd
    all_goals cases h
  · intro h
    rw [h]; rfl

/-! ### C121 -/

/-- In Turkish the letter I is not a digit, and parsing the character with the number of the dotted
capital letter in ISO 8859-9 is undefined; in the locale "C" the letter is the digit eighteen and the
character is refused. -/
theorem C121_violated :
    ¬ ∀ (low : Locale) (e : Enc) (T : IntTy) (s : Str e) (f : IntegerFormat),
      2 ≤ f.radix → f.radix ≤ 36 → parseIntegerIn low e T s f = parseInteger e T s f := by
  intro h
  have h1 := h Spec.turkish .char32 .int [0x49] ⟨36, .onlyWhenNegative, .none⟩ (by decide) (by decide)
  exact absurd h1 (by decide +kernel)

/-- As before, about undefined behaviour. -/
theorem C121_violated_undefined :
    ¬ ∀ (low : Locale) (e : Enc) (T : IntTy) (s : Str e) (f : IntegerFormat),
      2 ≤ f.radix → f.radix ≤ 36 → parseInteger e T s f ≠ .ub → parseIntegerIn low e T s f ≠ .ub := by
  intro h
  have h1 := h Spec.turkish .char32 .int [0xDD] ⟨36, .onlyWhenNegative, .none⟩ (by decide) (by decide)
  exact h1 (by decide +kernel) (by decide +kernel)

/-- In locales whose letters are plain, and for the radices 2 to 36, all is as in the locale "C". -/
theorem C121_partial (low : Locale) (hp : Spec.PlainLetters low) :
    (∀ c radix, radix ≤ 36 → isRadixDigitIn low c radix = isRadixDigit c radix)
    ∧ (∀ (e : Enc) (T : IntTy) (s : Str e) (f : IntegerFormat), f.radix ≤ 36 →
        parseIntegerIn low e T s f = parseInteger e T s f)
    ∧ (∀ (e : Enc) (rnd : ℚ → ℚ) (s : Str e) (f : FloatFormat), f.radix ≤ 36 →
        parseFloatIn low e rnd s f = parseFloat e rnd s f) :=
  ⟨fun c _ hr => plain_same hp hr c,
    fun e T s f hf => parseIntegerIn_same (plain_same hp hf) e T s f rfl,
    fun e rnd s f hf => parseFloatIn_same (plain_same hp hf) e rnd s f rfl⟩

/-- It is so in no other locales. -/
theorem C121_exact (low : Locale) :
    (Spec.PlainLetters low ↔ ∀ c radix, 2 ≤ radix → radix ≤ 36 →
      isRadixDigitIn low c radix = isRadixDigit c radix)
    ∧ (Spec.PlainLetters low ↔ ∀ (e : Enc) (T : IntTy) (s : Str e) (f : IntegerFormat),
      2 ≤ f.radix → f.radix ≤ 36 → parseIntegerIn low e T s f = parseInteger e T s f) := by
  refine ⟨⟨fun hp c radix _ hr => plain_same hp hr c, plain_of_same⟩,
    ⟨fun hp e T s f _ hf => (C121_partial low hp).2.1 e T s f hf, fun h => plain_of_same ?_⟩⟩
  intro c radix hr hr2
  have h1 := h .char32 .int [c] ⟨radix, .onlyWhenNegative, .none⟩ hr hr2
  rw [← parseIntegerIn_same (fun c => isRadixDigitIn_c c radix) .char32 .int [c]
    ⟨radix, .onlyWhenNegative, .none⟩ rfl, parseIntegerIn_single, parseIntegerIn_single] at h1
  rw [← isRadixDigitIn_c]
  have t : ∀ l : Locale, (getNextDigitIn l c radix >>= fun d => Outcome.ok (IntTy.int.wrap d)) =
      .throw (.parseFailed .digitCharacterExpected) ↔ isRadixDigitIn l c radix = .ok false := by
    intro l
    rw [← getNextDigitIn_throws]
    rcases getNextDigitIn l c radix with _ | _ | _ | _ | _ <;> simp
  have h2 := t low
  have h3 := t Locale.c
  dsimp only at h1
  rw [h1, h3] at h2
  by_cases h10 : radix < 10
  · unfold isRadixDigitIn; rw [if_pos h10, if_pos h10]
  by_cases hc : c.toNat ≤ 255
  · rw [isRadixDigitIn_byte _ _ _ (by omega) hr2 hc, isRadixDigitIn_byte _ _ _ (by omega) hr2 hc] at *
    simp only [Outcome.ok.injEq, decide_eq_false_iff_not] at h2
    congr 1
    rw [decide_eq_decide]
    exact not_iff_not.1 h2.symm
  · unfold isRadixDigitIn tolowerIn
    rw [if_neg h10, if_neg h10, if_neg hc, if_neg hc]

/-- The locale "C" has plain letters; so has ISO 8859-1 in German. -/
example : Spec.PlainLetters Locale.c ∧ Spec.PlainLetters (fun b =>
    if (65 ≤ b.toNat ∧ b.toNat ≤ 90) ∨ (0xC0 ≤ b.toNat ∧ b.toNat ≤ 0xDE ∧ b.toNat ≠ 0xD7) then b + 32 else b)
    ∧ ¬ Spec.PlainLetters Spec.turkish := by
  refine ⟨?_, ?_, ?_⟩
  · unfold Spec.PlainLetters; decide +kernel
  · unfold Spec.PlainLetters; decide +kernel
  · unfold Spec.PlainLetters; decide +kernel

end Cmp
