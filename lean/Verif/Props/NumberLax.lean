import Verif.Proofs.NumberLax
import Mathlib.Tactic.ByContra

/-
Property theorems: exactly which characters `is_radix_digit` may be asked about (C18), exactly
which texts `parse_integer` accepts (C23) and what it does with every other text (C24).
-/

namespace Cmp

open IntTy
open _root_.Spec (LaxRead)

/-! ### C18 -/

/-- For every character and radix: classified correctly, unless the radix is at least ten and the
character outside the domain of `std::tolower`, where the behaviour is undefined. -/
theorem C18_exact (c : Char32) (r : Nat) (h2 : 2 ≤ r) (h36 : r ≤ 36) :
    isRadixDigit c r =
      if r < 10 ∨ c.toNat ≤ 255 ∨ c = 0xFFFFFFFF#32 then .ok (decide (Spec.IsDigit r c.toNat))
      else .ub := by
  by_cases h : r < 10 ∨ c.toNat ≤ 255 ∨ c = 0xFFFFFFFF#32
  · obtain ⟨b, hb, hiff⟩ := C18_partial c r h2 h36 h
    rw [if_pos h, hb]
    congr 1
    rw [Bool.eq_iff_iff, hiff, decide_eq_true_eq]
  · rw [if_neg h, isRadixDigit, if_neg (fun hh => h (.inl hh)), tolower,
      if_neg (fun hh => h (.inr hh))]
    rfl

example : isRadixDigit 0x37#32 8 = .ok true ∧ isRadixDigit 0x20AC#32 8 = .ok false
    ∧ isRadixDigit 0x20AC#32 10 = .ub := by decide

/-! ### C23 -/

/-- What `parse_integer` makes of a text it can read to the left end. -/
theorem lax_parse (e : Enc) (T : IntTy) (f : IntegerFormat) (s : Str e) (cs : List Nat)
    (hT : T.Std) (hf : f.Valid) (ht : TextOf e s cs) {ds : List Nat} {sign : Option Bool}
    {due : Bool}
    (h : LaxRead f.radix f.separator.char (f.sign = .alwaysShow) cs ds sign due) :
    (T.signed = false → sign = some true →
      parseInteger e T s f = .throw (.parseFailed .negativeUnsigned))
    ∧ (T.signed = true ∨ sign ≠ some true → Sums T f.radix (sign == some true) ds →
      parseInteger e T s f = .ok (T.wrap (Spec.denote f.radix (sign == some true) ds)))
    ∧ (¬ Sums T f.radix (sign == some true) ds → parseInteger e T s f = .ub) := by
  obtain ⟨d, es, n, hdr, -, hst⟩ := lax_state T hf.2 h
  have hrun : parseInteger e T s f
      = (accum T f.radix es (T.wrap d) 1 >>= finish T (sign == some true)) := by
    rw [ht.eq, parseInteger_encs e T f _ ht.bwd]
    have := hst []
    rw [List.append_nil] at this
    rw [this, ← accumBoth_fst, outcome_assoc]
    congr 1
  obtain ⟨x1, x2, x3⟩ := accum_outcome hT hf.1 hf.2 hdr (lax_digits h).2.1 (sign == some true)
  rw [hrun]
  refine ⟨fun hu hs => x1 hu (by simp [hs]), fun hs => x2 ?_, x3⟩
  rcases hs with hs | hs
  · exact .inl hs
  · exact .inr (by simpa using hs)

/-- What `parse_integer` makes of a text it cannot read to the left end. -/
theorem stuck_parse (e : Enc) (T : IntTy) (f : IntegerFormat) (s : Str e)
    (hT : T.Std) (hf : f.Valid) {pre body ds : List Nat} {x : Nat}
    (ht : TextOf e s (pre ++ x :: body)) {sign : Option Bool} {due : Bool}
    (h : LaxRead f.radix f.separator.char (f.sign = .alwaysShow) body ds sign due) :
    (¬ Sums T f.radix false ds → parseInteger e T s f = .ub)
    ∧ (Sums T f.radix false ds →
      (sign.isSome = true → x = 45 ∨ x = 43 →
        parseInteger e T s f = .throw (.parseFailed .multipleSigns))
      ∧ (due = true → f.separator.char ≠ some x →
          ¬ (x = 45 ∨ x = 43) ∨ (¬ SignOk f.sign x ∧ sign = none) →
        parseInteger e T s f = .throw (.parseFailed .thousandsSeparatorMissing))
      ∧ (due = false → ¬ Spec.IsDigit f.radix x →
          ¬ (x = 45 ∨ x = 43) ∨ (¬ SignOk f.sign x ∧ sign = none) →
        parseInteger e T s f =
          if f.radix < 10 ∨ x ≤ 255 then .throw (.parseFailed .digitCharacterExpected)
          else .ub)) := by
  obtain ⟨d, es, n, hdr, hn, hst⟩ := lax_state T hf.2 h
  have hx : x ≤ 0x10FFFF := (ht.1.1 x (by simp)).1
  have hrun : parseInteger e T s f = (accumBoth T f.radix es (T.wrap d) 1 >>= fun op =>
      parseFold T f ⟨op.1, op.2, n, sign.isSome, sign == some true⟩ (x :: pre.reverse)
        >>= parseFinish T) := by
    rw [ht.eq, parseInteger_encs e T f _ ht.bwd, ← hst]
    simp
  obtain ⟨a1, a2⟩ := accumBoth_ok hT hf.1 hf.2 hdr (lax_digits h).2.1
  rw [hrun]
  refine ⟨fun hs => by rw [a2 hs]; rfl, fun hs => ?_⟩
  obtain ⟨op, hop⟩ := a1 hs
  rw [hop, Outcome.ok_bind, parseFold_cons]
  have hsg : ∀ o p, (¬ (x = 45 ∨ x = 43) ∨ (¬ SignOk f.sign x ∧ sign = none)) →
      (¬ (x = 45 ∨ x = 43)
        ∨ (¬ SignOk f.sign x
          ∧ (⟨o, p, n, sign.isSome, sign == some true⟩ : ParseState).signFound = false)) := by
    intro o p hh
    rcases hh with hh | ⟨hh, rfl⟩
    · exact .inl hh
    · exact .inr ⟨hh, rfl⟩
  refine ⟨fun h1 h2 => ?_, fun h1 h2 h3 => ?_, fun h1 h2 h3 => ?_⟩
  · rw [parseStep_second T _ h2 h1]
    rfl
  · subst h1
    obtain ⟨hsome, -⟩ := lax_due h rfl
    have hne : f.separator ≠ .none := by
      intro e; rw [e] at hsome; simp [Separator.char] at hsome
    have h3n : n = 3 := hn hne
    cases hsc : f.separator.char with
    | none => rw [hsc] at hsome; simp at hsome
    | some c =>
      rw [hsc] at h2
      rw [parseStep_nosep T h3n hsc (by omega) (by intro h; exact h2 (by rw [h])) (hsg _ _ h3)]
      rfl
  · subst h1
    have hna : ¬ AtSep f ⟨op.1, op.2, n, sign.isSome, sign == some true⟩ := by
      rintro ⟨g1, g2⟩
      have := hn g2
      rw [if_neg (by simp)] at this
      simp only at g1
      omega
    by_cases hok : f.radix < 10 ∨ x ≤ 255
    · rw [if_pos hok, parseStep_nondigit T hf.2 hna (by omega) hok h2 (hsg _ _ h3)]
      rfl
    · rw [if_neg hok, parseStep_wide T hna (by omega) (by omega) (by omega)]
      rfl

theorem last_parse (e : Enc) (T : IntTy) (f : IntegerFormat) (s : Str e) (hf : f.Valid)
    {pre : List Nat} {x : Nat} (ht : TextOf e s (pre ++ [x])) (hx : ¬ Spec.IsDigit f.radix x) :
    parseInteger e T s f =
      if f.radix < 10 ∨ x ≤ 255 then .throw (.parseFailed .digitCharacterExpected) else .ub := by
  have hx' : x ≤ 0x10FFFF := (ht.1.1 x (by simp)).1
  rw [ht.eq, parseInteger_encs e T f _ ht.bwd, List.reverse_append]
  simp only [List.reverse_cons, List.reverse_nil, List.nil_append, List.cons_append]
  rw [parseRev]
  by_cases hok : f.radix < 10 ∨ x ≤ 255
  · rw [if_pos hok, getNextDigit_nondigit hf.2 (by omega) hok hx]
    rfl
  · rw [if_neg hok, getNextDigit, digitCharacterToInteger,
      isRadixDigit_ub (by omega) (by omega) (by omega)]
    rfl

theorem stuck_not_ok (e : Enc) (T : IntTy) (f : IntegerFormat) (s : Str e)
    (hT : T.Std) (hf : f.Valid) {pre body ds : List Nat} {x : Nat}
    (ht : TextOf e s (pre ++ x :: body)) {sign : Option Bool} {due : Bool}
    (h : LaxRead f.radix f.separator.char (f.sign = .alwaysShow) body ds sign due)
    (hstuck : Stuck f x sign due) (v : Int) : parseInteger e T s f ≠ .ok v := by
  obtain ⟨x1, x2⟩ := stuck_parse e T f s hT hf ht h
  by_cases hs : Sums T f.radix false ds
  · obtain ⟨y1, y2, y3⟩ := x2 hs
    unfold Stuck at hstuck
    by_cases h1 : sign.isSome ∧ (x = 45 ∨ x = 43)
    · rw [y1 h1.1 h1.2]; simp
    rw [if_neg h1] at hstuck
    by_cases h2 : SignOk f.sign x
    · rw [if_pos h2] at hstuck; exact hstuck.elim
    rw [if_neg h2] at hstuck
    have h3 : ¬ (x = 45 ∨ x = 43) ∨ (¬ SignOk f.sign x ∧ sign = none) := by
      by_cases h4 : x = 45 ∨ x = 43
      · refine .inr ⟨h2, ?_⟩
        cases sign with
        | none => rfl
        | some b => exact absurd ⟨rfl, h4⟩ h1
      · exact .inl h4
    cases due with
    | true => rw [y2 rfl hstuck h3]; simp
    | false =>
      rw [y3 rfl hstuck h3]
      split <;> simp
  · rw [x1 hs]; simp

/-- Exactly which texts `parse_integer` accepts, and as what: the texts that `LaxRead`.  Without a
sign after the first character and without a leading separator these are the numerals. -/
theorem C23_exact (e : Enc) (T : IntTy) (f : IntegerFormat) (s : Str e) (cs : List Nat)
    (hT : T.Std) (hf : f.Valid) (ht : TextOf e s cs) :
    (∀ v, parseInteger e T s f = .ok v ↔
      ∃ ds sign due, LaxRead f.radix f.separator.char (f.sign = .alwaysShow) cs ds sign due
        ∧ (T.signed = true ∨ sign ≠ some true) ∧ Sums T f.radix (sign == some true) ds
        ∧ v = T.wrap (Spec.denote f.radix (sign == some true) ds))
    ∧ (NoStray f cs →
        ((∃ ds sign due, LaxRead f.radix f.separator.char (f.sign = .alwaysShow) cs ds sign due)
          ↔ ∃ neg ds, Spec.Numeral f.radix f.separator.char (f.sign = .alwaysShow) cs neg ds)) := by
  have accepted : ∀ (T : IntTy), T.Std → ∀ v, parseInteger e T s f = .ok v →
      ∃ ds sign due, LaxRead f.radix f.separator.char (f.sign = .alwaysShow) cs ds sign due := by
    intro T hT v hv
    have hne : cs ≠ [] := by
      rintro rfl
      rw [ht.eq, parseInteger_encs e T f _ ht.bwd] at hv
      cases hv
    rcases lax_or_stuck f cs hne with h | ⟨pre, x, rfl, h⟩ | ⟨pre, x, body, ds, sign, due, rfl, h, hst⟩
    · exact h
    · rw [last_parse e T f s hf ht h] at hv
      split at hv <;> cases hv
    · exact absurd hv (stuck_not_ok e T f s hT hf ht h hst v)
  refine ⟨fun v => ⟨fun hv => ?_, ?_⟩, fun hns => ⟨?_, ?_⟩⟩
  · obtain ⟨ds, sign, due, h⟩ := accepted T hT v hv
    obtain ⟨x1, x2, x3⟩ := lax_parse e T f s cs hT hf ht h
    have hs : Sums T f.radix (sign == some true) ds := by
      by_contra hh
      rw [x3 hh] at hv
      cases hv
    have hsg : T.signed = true ∨ sign ≠ some true := by
      by_contra hh
      have h1 : T.signed = false := by
        cases h : T.signed
        · rfl
        · exact absurd (.inl h) hh
      have h2 : sign = some true := by
        by_contra h2
        exact hh (.inr h2)
      rw [x1 h1 h2] at hv
      cases hv
    refine ⟨ds, sign, due, h, hsg, hs, ?_⟩
    rw [x2 hsg hs] at hv
    cases hv
    rfl
  · rintro ⟨ds, sign, due, h, hsg, hs, rfl⟩
    exact (lax_parse e T f s cs hT hf ht h).2.1 hsg hs
  · rintro ⟨ds, sign, due, h⟩
    by_contra hnum
    have h8 : IntTy.int8.Std := by decide
    have := (lax_parse e .int8 f s cs h8 hf ht h).2.1 (.inl rfl)
      (fun _ hb => absurd hb (by decide))
    exact (C23_partial e .int8 f s cs h8 hf ht hns hnum).1 _ this
  · rintro ⟨neg, ds, hn⟩
    have h8 : IntTy.int8.Std := by decide
    exact accepted .int8 h8 _ ((C25_exact e .int8 f s cs neg ds h8 hf ht hn).2.2.1 rfl (by decide))

/-- `"1-,234"` and `"1-234"` are both read as -1234 with commas as separators. -/
example : LaxRead 10 (some 44) false [49, 45, 44, 50, 51, 52] [1, 2, 3, 4] (some true) false
    ∧ LaxRead 10 (some 44) false [49, 45, 50, 51, 52] [1, 2, 3, 4] (some true) false := by
  have h : LaxRead 10 (some 44) false [50, 51, 52] [2, 3, 4] none true :=
    .digit (.digit (.last (c := 52) (d := 4) rfl (by decide)) (c := 51) (d := 3) rfl (by decide))
      (c := 50) (d := 2) rfl (by decide)
  exact ⟨.digit (.minus (.separator h rfl)) rfl (by decide), .digit (.minus h) rfl (by decide)⟩

example : parseInteger .char8 .int [0x31#8, 0x2D#8, 0x2C#8, 0x32#8, 0x33#8, 0x34#8]
      ⟨10, .onlyWhenNegative, .comma⟩ = .ok (-1234)
    ∧ parseInteger .char8 .int [0x31#8, 0x2D#8, 0x32#8, 0x33#8, 0x34#8]
      ⟨10, .onlyWhenNegative, .comma⟩ = .ok (-1234) := by decide

/-! ### C24 -/

/-- What `parse_integer` does with every text: the text is empty, or read to its left end, or its
last character is no digit, or there is a character `x` at which the reading from the right gets
stuck.  In the last case the behaviour is undefined if the digits to the right of `x` do not add
up; else a second sign, a missing separator or a missing digit is reported, in this order, except
that a character above 255 in the place of a digit is undefined behaviour from radix ten on. -/
theorem C24_exact (e : Enc) (T : IntTy) (f : IntegerFormat) (s : Str e) (cs : List Nat)
    (hT : T.Std) (hf : f.Valid) (ht : TextOf e s cs) :
    (cs = [] ∧ parseInteger e T s f = .throw (.parseFailed .emptyInput))
    ∨ (∃ ds sign due, LaxRead f.radix f.separator.char (f.sign = .alwaysShow) cs ds sign due
        ∧ (¬ Sums T f.radix (sign == some true) ds → parseInteger e T s f = .ub)
        ∧ (Sums T f.radix (sign == some true) ds → parseInteger e T s f =
            if T.signed = false ∧ sign = some true then .throw (.parseFailed .negativeUnsigned)
            else .ok (T.wrap (Spec.denote f.radix (sign == some true) ds))))
    ∨ (∃ pre x, cs = pre ++ [x] ∧ ¬ Spec.IsDigit f.radix x
        ∧ parseInteger e T s f =
          if f.radix < 10 ∨ x ≤ 255 then .throw (.parseFailed .digitCharacterExpected) else .ub)
    ∨ (∃ pre x body ds sign due, cs = pre ++ x :: body
        ∧ LaxRead f.radix f.separator.char (f.sign = .alwaysShow) body ds sign due
        ∧ (¬ Sums T f.radix false ds → parseInteger e T s f = .ub)
        ∧ (Sums T f.radix false ds →
            (sign.isSome = true ∧ (x = 45 ∨ x = 43)
              ∧ parseInteger e T s f = .throw (.parseFailed .multipleSigns))
            ∨ (due = true ∧ f.separator.char ≠ some x
              ∧ parseInteger e T s f = .throw (.parseFailed .thousandsSeparatorMissing))
            ∨ (due = false ∧ ¬ Spec.IsDigit f.radix x ∧ parseInteger e T s f =
              if f.radix < 10 ∨ x ≤ 255 then .throw (.parseFailed .digitCharacterExpected)
              else .ub))) := by
  by_cases hne : cs = []
  · refine .inl ⟨hne, ?_⟩
    subst hne
    rw [ht.eq, parseInteger_encs e T f _ ht.bwd]
    rfl
  refine .inr ?_
  rcases lax_or_stuck f cs hne with ⟨ds, sign, due, h⟩ | ⟨pre, x, rfl, h⟩
    | ⟨pre, x, body, ds, sign, due, rfl, h, hstuck⟩
  · obtain ⟨x1, x2, x3⟩ := lax_parse e T f s cs hT hf ht h
    refine .inl ⟨ds, sign, due, h, x3, fun hs => ?_⟩
    by_cases hu : T.signed = false ∧ sign = some true
    · rw [if_pos hu, x1 hu.1 hu.2]
    · rw [if_neg hu]
      refine x2 ?_ hs
      by_contra hh
      refine hu ⟨?_, ?_⟩
      · cases h : T.signed
        · rfl
        · exact absurd (.inl h) hh
      · by_contra h2
        exact hh (.inr h2)
  · exact .inr (.inl ⟨pre, x, rfl, h, last_parse e T f s hf ht h⟩)
  · obtain ⟨x1, x2⟩ := stuck_parse e T f s hT hf ht h
    refine .inr (.inr ⟨pre, x, body, ds, sign, due, rfl, h, x1, fun hs => ?_⟩)
    obtain ⟨y1, y2, y3⟩ := x2 hs
    unfold Stuck at hstuck
    by_cases h1 : sign.isSome ∧ (x = 45 ∨ x = 43)
    · exact .inl ⟨h1.1, h1.2, y1 h1.1 h1.2⟩
    rw [if_neg h1] at hstuck
    by_cases h2 : SignOk f.sign x
    · rw [if_pos h2] at hstuck; exact hstuck.elim
    rw [if_neg h2] at hstuck
    have h3 : ¬ (x = 45 ∨ x = 43) ∨ (¬ SignOk f.sign x ∧ sign = none) := by
      by_cases h4 : x = 45 ∨ x = 43
      · refine .inr ⟨h2, ?_⟩
        cases sign with
        | none => rfl
        | some b => exact absurd ⟨rfl, h4⟩ h1
      · exact .inl h4
    cases due with
    | true => exact .inr (.inl ⟨rfl, hstuck, y2 rfl hstuck h3⟩)
    | false => exact .inr (.inr ⟨rfl, hstuck, y3 rfl hstuck h3⟩)

example : parseInteger .char8 .int [0x31#8, 0x32#8, 0x33#8, 0x34#8]
      ⟨10, .onlyWhenNegative, .comma⟩ = .throw (.parseFailed .thousandsSeparatorMissing)
    ∧ parseInteger .char8 .int [0x2B#8, 0x31#8, 0x2D#8, 0x32#8]
      ⟨10, .onlyWhenNegative, .comma⟩ = .throw (.parseFailed .multipleSigns)
    ∧ parseInteger .char8 .int [0x2B#8, 0x32#8]
      ⟨10, .onlyWhenNegative, .comma⟩ = .throw (.parseFailed .digitCharacterExpected) := by decide

end Cmp
