import Verif.Proofs.NumberShort
import Verif.Props.Unicode

/-
Property theorems C19 - C26, C29, C30 (number formatting and parsing).  The specification of
numerals is `Spec/Numeral`; `TextOf e s cs` says that the string `s` is well-formed in its
encoding and its text is `cs`.  "Integer type" ranges over the eight standard widths and
signednesses (`IntTy.Std`); `T.Has v` says that `v` is a value of the type.
-/

namespace Cmp

open IntTy

/-- A format the constructors accept. -/
def IntegerFormat.Valid (f : IntegerFormat) : Prop := 2 ≤ f.radix ∧ f.radix ≤ 36

instance (f : IntegerFormat) : Decidable f.Valid := by unfold IntegerFormat.Valid; infer_instance

theorem textOf_ascii (e : Enc) (cs : List Nat) (h : ∀ c ∈ cs, c < 128) :
    TextOf e (encs e cs) cs :=
  textOf_encs e cs (fun c hc => by have := h c hc; unfold Spec.IsScalar; omega) (fun _ => h)

theorem mem_group {sep : Option Nat} {l : List Nat} {c : Nat} (h : c ∈ Spec.group sep l) :
    c ∈ l ∨ some c = sep := by
  have hg : ∀ (l : List Nat) k, c ∈ groupFrom sep k l → c ∈ l ∨ some c = sep := by
    intro l
    induction l with
    | nil => intro k hm; simp [groupFrom] at hm
    | cons x l ih =>
      intro k hm
      cases sep with
      | none => rw [groupFrom_none] at hm; exact .inl hm
      | some s =>
        rw [groupFrom] at hm
        split at hm
        · rcases List.mem_cons.mp hm with rfl | hm
          · exact .inr rfl
          · rcases List.mem_cons.mp hm with rfl | hm
            · exact .inl (by simp)
            · rcases ih _ hm with h | h
              · exact .inl (by simp [h])
              · exact .inr h
        · rcases List.mem_cons.mp hm with rfl | hm
          · exact .inl (by simp)
          · rcases ih _ hm with h | h
            · exact .inl (by simp [h])
            · exact .inr h
  rw [group_eq, List.mem_reverse] at h
  rcases hg _ _ h with h | h
  · exact .inl (by simpa using h)
  · exact .inr h

theorem formatted_ascii (f : IntegerFormat) (h36 : f.radix ≤ 36) (v : Int) (ds : List Nat)
    (hd : ∀ d ∈ ds, d < f.radix) :
    ∀ c ∈ signText f.sign v ++ Spec.group f.separator.char (ds.map Spec.upperDigit), c < 128 := by
  intro c hc
  rcases List.mem_append.mp hc with hc | hc
  · unfold signText at hc
    split at hc
    · simp at hc; omega
    · split at hc
      · simp at hc; omega
      · simp at hc
  · rcases mem_group hc with hc | hc
    · obtain ⟨d, hd', rfl⟩ := List.mem_map.mp hc
      exact upperDigit_lt (by have := hd d hd'; omega)
    · cases hs : f.separator <;> simp [hs, Separator.char] at hc <;> omega

/-! ### C19 -/

/-- What C19 demands of the text `cs` produced for `v`. -/
def DenotesInteger (f : IntegerFormat) (v : Int) (cs : List Nat) : Prop :=
  ∃ sign ds, cs = sign ++ Spec.group f.separator.char (ds.map Spec.upperDigit)
    ∧ ds ≠ [] ∧ (∀ d ∈ ds, d < f.radix) ∧ (ds.head? = some 0 → ds = [0])
    ∧ Spec.positional f.radix ds = v.natAbs
    ∧ ((sign = [45] ∧ v < 0) ∨ (sign = [43] ∧ 0 < v ∧ f.sign = .alwaysShow)
      ∨ (sign = [] ∧ (v = 0 ∨ (0 < v ∧ f.sign = .onlyWhenNegative))))

/-- The full claim fails: taking the absolute value of the least `int` is undefined. -/
theorem C19_violated :
    ¬ ∀ (e : Enc) (T : IntTy) (f : IntegerFormat) (v : Int), T.Std → f.Valid → T.Has v →
      ∃ s cs, formatInteger e T v f = .ok s ∧ TextOf e s cs ∧ DenotesInteger f v cs := by
  intro h
  obtain ⟨s, cs, h1, _⟩ := h .char8 .int .default (-2147483648) (by decide) (by decide)
    (by decide)
  have h2 : formatInteger .char8 .int (-2147483648) .default = .ub := by decide
  rw [h2] at h1
  simp at h1

/-- The loop of `format_integer` maps the `signed char` -114 to itself, so it never ends,
however long it is run. -/
theorem formatLoop_stuck (fuel counted : Nat) (out s : Str .char8) :
    formatLoop .char8 .int8 10 .none fuel (-114) counted out ≠ .ok s := by
  have hd : (int8.common .uint).rem ((int8.common .uint).wrap (-114))
      ((int8.common .uint).wrap (10 : Nat)) = .ok 2 := by decide
  have hq : (int8.common .uint).div ((int8.common .uint).wrap (-114))
      ((int8.common .uint).wrap (10 : Nat)) = .ok 429496718 := by decide
  have hw : int8.wrap 429496718 = -114 := by decide
  induction fuel generalizing counted out with
  | zero => simp [formatLoop]
  | succ fuel ih =>
    intro h
    simp only [formatLoop, hd, hq, hw, Outcome.ok_bind] at h
    rw [if_neg (by decide), Outcome.bind_eq_ok] at h
    obtain ⟨out', _, h⟩ := h
    split at h
    · exact ih _ _ (by simpa using h)
    · exact ih _ _ h

/-- It also fails, without undefined behaviour, for the least `signed char`: no amount of running
the loop yields an output. -/
theorem C19_violated_narrow (fuel : Nat) (s : Str .char8) :
    formatLoop .char8 .int8 10 .none fuel (-128) 0 [] ≠ .ok s := by
  rcases fuel with _ | _ | fuel
  · simp [formatLoop]
  · rw [show formatLoop .char8 .int8 10 .none 1 (-128) 0 [] = .hang by decide]
    simp
  · rw [show formatLoop .char8 .int8 10 .none (fuel + 2) (-128) 0 []
        = formatLoop .char8 .int8 10 .none fuel (-114) 2 [0x30#8, 0x38#8] from rfl]
    exact formatLoop_stuck _ _ _ _

/-- C19 for every value but the least one of a signed type.  Missing: those least values. -/
theorem C19_partial (e : Enc) (T : IntTy) (f : IntegerFormat) (v : Int) (hT : T.Std)
    (hf : f.Valid) (hv : T.Has v) (hmin : T.signed = true → v ≠ T.min) :
    ∃ s cs, formatInteger e T v f = .ok s ∧ TextOf e s cs ∧ DenotesInteger f v cs := by
  obtain ⟨ds, e1, hp, hd, hne, hz⟩ := formatInteger_eq e hT hf.1 hf.2 hv hmin
  refine ⟨_, _, e1, textOf_ascii e _ (formatted_ascii f hf.2 v ds hd), _, ds, rfl, hne, hd, hz,
    hp, ?_⟩
  unfold signText
  by_cases h0 : v < 0
  · rw [if_pos h0]; exact .inl ⟨rfl, h0⟩
  · rw [if_neg h0]
    right
    by_cases h1 : 0 < v ∧ f.sign = .alwaysShow
    · rw [if_pos h1]; exact .inl ⟨rfl, h1⟩
    · rw [if_neg h1]
      refine .inr ⟨rfl, ?_⟩
      by_cases hv0 : v = 0
      · exact .inl hv0
      · refine .inr ⟨by omega, ?_⟩
        cases hs : f.sign with
        | alwaysShow => exact absurd ⟨by omega, hs⟩ h1
        | onlyWhenNegative => rfl

example : int.Std ∧ (⟨36, .alwaysShow, .comma⟩ : IntegerFormat).Valid ∧ int.Has (-2147483647)
    ∧ (int.signed = true → (-2147483647 : Int) ≠ int.min) := by decide

/-! ### C20 -/

/-- What C20 demands: read from the right, every fourth character of the digit part is the
separator, all others are digits, and the leftmost is not a separator. -/
def GroupedInThrees (f : IntegerFormat) (cs : List Nat) : Prop :=
  ∃ sign body, cs = sign ++ body ∧ (sign = [] ∨ sign = [45] ∨ sign = [43]) ∧ body ≠ []
    ∧ match f.separator.char with
      | none => ∀ c ∈ body, Spec.IsDigit f.radix c
      | some s => body.length % 4 ≠ 0 ∧ ∀ i, i < body.length →
        (i % 4 = 3 → body.reverse[i]? = some s)
        ∧ (i % 4 ≠ 3 → ∃ c, body.reverse[i]? = some c ∧ Spec.IsDigit f.radix c)

/-- The full claim fails for the same reason as C19. -/
theorem C20_violated :
    ¬ ∀ (e : Enc) (T : IntTy) (f : IntegerFormat) (v : Int), T.Std → f.Valid → T.Has v →
      ∃ s cs, formatInteger e T v f = .ok s ∧ TextOf e s cs ∧ GroupedInThrees f cs := by
  intro h
  obtain ⟨s, cs, h1, _⟩ := h .char8 .llong ⟨10, .onlyWhenNegative, .comma⟩
    (-9223372036854775808) (by decide) (by decide) (by decide)
  have h2 : formatInteger .char8 .llong (-9223372036854775808)
      ⟨10, .onlyWhenNegative, .comma⟩ = .ub := by decide
  rw [h2] at h1
  simp at h1

theorem grouped_text {f : IntegerFormat} (hf : f.Valid) (v : Int) {ds : List Nat}
    (hd : ∀ d ∈ ds, d < f.radix) (hne : ds ≠ []) :
    GroupedInThrees f
      (signText f.sign v ++ Spec.group f.separator.char (ds.map Spec.upperDigit)) := by
  have hdig : ∀ c ∈ ds.map Spec.upperDigit, Spec.IsDigit f.radix c := by
    intro c hc
    obtain ⟨d, hd', rfl⟩ := List.mem_map.mp hc
    have := hd d hd'
    have := hf.2
    exact ⟨d, upperDigit_value (by omega), by assumption⟩
  have hne' : ds.map Spec.upperDigit ≠ [] := by simpa using hne
  have hsign : signText f.sign v = [] ∨ signText f.sign v = [45] ∨ signText f.sign v = [43] := by
    unfold signText
    split
    · exact .inr (.inl rfl)
    · split
      · exact .inr (.inr rfl)
      · exact .inl rfl
  refine ⟨_, _, rfl, hsign, ?_, ?_⟩
  · intro h0
    have h1 := group_reverse f.separator.char (ds.map Spec.upperDigit)
    rw [h0] at h1
    cases hr : (ds.map Spec.upperDigit).reverse with
    | nil => simp at hr; exact hne hr
    | cons x l =>
      rw [hr, groupFrom_ne _ (by omega)] at h1
      simp at h1
  · cases hs : f.separator.char with
    | none => exact hdig
    | some s =>
      simp only
      have hrev : (Spec.group (some s) (ds.map Spec.upperDigit)).reverse
          = Spec.groupRev s (ds.map Spec.upperDigit).reverse := by
        rw [group_reverse, groupFrom_groupRev]
      have hlen : (Spec.group (some s) (ds.map Spec.upperDigit)).length
          = (Spec.groupRev s (ds.map Spec.upperDigit).reverse).length := by
        rw [← hrev, List.length_reverse]
      rw [hlen]
      refine ⟨(groupRev_index _ 0).2.2 (by simpa using hne), fun i hi => ?_⟩
      rw [hrev]
      obtain ⟨g1, g2, _⟩ := groupRev_index (s := s) (ds.map Spec.upperDigit).reverse i
      refine ⟨fun h3 => g1 h3 hi, fun h3 => ?_⟩
      have h4 := g2 h3
      rw [List.getElem?_eq_getElem hi] at h4 ⊢
      refine ⟨_, rfl, ?_⟩
      have hm := List.mem_of_getElem? h4.symm
      exact hdig _ (by simpa using hm)

/-- C20 for every value but the least one of a signed type. -/
theorem C20_partial (e : Enc) (T : IntTy) (f : IntegerFormat) (v : Int) (hT : T.Std)
    (hf : f.Valid) (hv : T.Has v) (hmin : T.signed = true → v ≠ T.min) :
    ∃ s cs, formatInteger e T v f = .ok s ∧ TextOf e s cs ∧ GroupedInThrees f cs := by
  obtain ⟨ds, e1, _, hd, hne, _⟩ := formatInteger_eq e hT hf.1 hf.2 hv hmin
  exact ⟨_, _, e1, textOf_ascii e _ (formatted_ascii f hf.2 v ds hd), grouped_text hf v hd hne⟩

example : ullong.Std ∧ (⟨10, .onlyWhenNegative, .period⟩ : IntegerFormat).Valid
    ∧ ullong.Has 18446744073709551615 := by decide

/-! ### C21 -/

theorem C21_violated :
    ¬ ∀ (e : Enc) (T : IntTy) (f : IntegerFormat) (v : Int), T.Std → f.Valid → T.Has v →
      ∃ s, formatInteger e T v f = .ok s ∧ parseInteger e T s f = .ok v := by
  intro h
  obtain ⟨s, h1, _⟩ := h .char8 .int .default (-2147483648) (by decide) (by decide) (by decide)
  have h2 : formatInteger .char8 .int (-2147483648) .default = .ub := by decide
  rw [h2] at h1
  simp at h1

theorem place_le {r : Nat} (ds : List Nat) (hne : ds ≠ []) (hz : ds.head? ≠ some 0) :
    r ^ (ds.length - 1) ≤ Spec.positional r ds := by
  cases ds with
  | nil => exact absurd rfl hne
  | cons d ds =>
    have hd : 0 < d := by
      rcases Nat.eq_zero_or_pos d with rfl | h
      · simp at hz
      · exact h
    rw [positional_eq, List.reverse_cons, revVal_append, List.length_reverse]
    simp only [revVal, Nat.mul_zero, Nat.add_zero, List.length_cons, Nat.add_sub_cancel]
    have : r ^ ds.length ≤ r ^ ds.length * d := Nat.le_mul_of_pos_right _ hd
    omega

/-- C21 for every value but the least one of a signed type, in every encoding. -/
theorem C21_partial (e : Enc) (T : IntTy) (f : IntegerFormat) (v : Int) (hT : T.Std)
    (hf : f.Valid) (hv : T.Has v) (hmin : T.signed = true → v ≠ T.min) :
    ∃ s, formatInteger e T v f = .ok s ∧ parseInteger e T s f = .ok v := by
  obtain ⟨ds, e1, hp, hd, hne, hz⟩ := formatInteger_eq e hT hf.1 hf.2 hv hmin
  obtain ⟨_, hle⟩ := absAssign_eq hT hv hmin
  refine ⟨_, e1, ?_⟩
  have hpos := hf.1
  have h36 := hf.2
  have hasc := formatted_ascii f hf.2 v ds hd
  rw [parseInteger_encs e T f _ (fun c hc => (textOf_ascii e _ hasc).bwd c hc)]
  have hsp : Spec.Spells f.radix f.separator.char
      (Spec.group f.separator.char (ds.map Spec.upperDigit)) ds := by
    refine ⟨hne, hd, _, ?_, rfl⟩
    rw [List.map_map]
    apply List.map_congr_left
    intro d hd'
    exact upperDigit_value (by have := hd d hd'; omega)
  have hplace : (f.radix ^ (ds.length - 1) : Nat) ≤ T.max := by
    by_cases h0 : ds.head? = some 0
    · rw [hz h0]
      have := max_ge hT
      simp
      omega
    · have := place_le (r := f.radix) ds hne h0
      rw [hp] at this
      omega
  obtain ⟨st, hB⟩ := body_exact hT hf.1 hf.2 hsp (by rw [hp]; exact hle) (fun _ => hplace)
  have hfin := numeral_parse hT (sign := signText f.sign v) (neg := decide (v < 0)) hB
    (by omega) (by rw [hp]; exact hle) (by
      unfold signText
      by_cases h0 : v < 0
      · rw [if_pos h0]; exact .inr (.inl ⟨rfl, by simpa using h0⟩)
      · rw [if_neg h0]
        by_cases h1 : 0 < v ∧ f.sign = .alwaysShow
        · rw [if_pos h1]; exact .inr (.inr ⟨rfl, by simpa using h0, h1.2⟩)
        · rw [if_neg h1]; exact .inl ⟨rfl, by simpa using h0⟩)
  rw [hfin, hp]
  by_cases h0 : v < 0
  · have hs : T.signed = true := by
      cases hs : T.signed with
      | true => rfl
      | false =>
        have : T.min = 0 := by simp [IntTy.min, hs]
        have := hv.1
        omega
    rw [if_pos (by simpa using h0), if_pos hs]
    congr 1
    omega
  · rw [if_neg (by simpa using h0)]
    congr 1
    omega

example : llong.Std ∧ (⟨16, .alwaysShow, .comma⟩ : IntegerFormat).Valid
    ∧ llong.Has (-9223372036854775807)
    ∧ (llong.signed = true → (-9223372036854775807 : Int) ≠ llong.min) := by decide

/-! ### C22 -/

/-- The full claim fails: on leading zeros the place value of a 64-bit signed type overflows. -/
theorem C22_violated :
    ¬ ∀ (e : Enc) (T : IntTy) (f : IntegerFormat) (s : Str e) (cs : List Nat) (neg : Bool)
      (ds : List Nat), T.Std → f.Valid → TextOf e s cs →
      Spec.Numeral f.radix f.separator.char (f.sign = .alwaysShow) cs neg ds →
      T.Has (Spec.denote f.radix neg ds) →
      parseInteger e T s f = .ok (Spec.denote f.radix neg ds) := by
  intro h
  have h1 := h .char8 .llong .default (List.replicate 20 0x30#8 ++ [0x31#8])
    (List.replicate 20 48 ++ [49]) false (List.replicate 20 0 ++ [1]) (by decide) (by decide)
    ⟨⟨by unfold Spec.IsText; decide, by decide⟩, by simp⟩
    ⟨[], _, rfl, ⟨by simp, by decide, List.replicate 20 48 ++ [49], by decide, rfl⟩, by simp⟩
    (by decide)
  have h2 : parseInteger .char8 .llong (List.replicate 20 0x30#8 ++ [0x31#8]) .default = .ub := by
    decide
  rw [h2] at h1
  simp at h1

/-- C22 for every numeral whose absolute value fits; for 64-bit signed types the place value of
the leading digit must fit too.  Missing: the least value of a signed type (whose absolute value
does not fit), and long runs of leading zeros for 64-bit signed types. -/
theorem C22_partial (e : Enc) (T : IntTy) (f : IntegerFormat) (s : Str e) (cs : List Nat)
    (neg : Bool) (ds : List Nat) (hT : T.Std) (hf : f.Valid) (ht : TextOf e s cs)
    (hn : Spec.Numeral f.radix f.separator.char (f.sign = .alwaysShow) cs neg ds)
    (hsigned : neg = true → T.signed = true)
    (hfit : (Spec.positional f.radix ds : Int) ≤ T.max)
    (hplace : T.signed = true ∧ T.bits = 64 → (f.radix ^ (ds.length - 1) : Nat) ≤ T.max) :
    parseInteger e T s f = .ok (Spec.denote f.radix neg ds) := by
  obtain ⟨sign, body, rfl, hsp, hsign⟩ := hn
  rw [ht.eq, parseInteger_encs e T f _ ht.bwd]
  obtain ⟨st, hB⟩ := body_exact hT hf.1 hf.2 hsp hfit hplace
  rw [numeral_parse hT hB (by omega) hfit (by simpa using hsign), Spec.denote]
  cases neg with
  | false => simp
  | true => simp [hsigned rfl]

example : Spec.Numeral 16 (some 44) false [45, 102, 44, 70, 48, 97] true [15, 15, 0, 10]
    ∧ (Spec.positional 16 [15, 15, 0, 10] : Int) ≤ int.max
    ∧ TextOf .char8 [0x2D#8, 0x66#8, 0x2C#8, 0x46#8, 0x30#8, 0x61#8]
        [45, 102, 44, 70, 48, 97] := by
  refine ⟨⟨[45], [102, 44, 70, 48, 97], rfl, ⟨by simp, by decide, [102, 70, 48, 97], by decide,
    by decide⟩, by simp⟩, by decide, ⟨by unfold Spec.IsText; decide, by decide⟩, by simp⟩

/-! ### C23 -/

/-- `"1-2"` is not a numeral but is accepted (as -12). -/
theorem C23_violated :
    ¬ ∀ (e : Enc) (T : IntTy) (f : IntegerFormat) (s : Str e) (cs : List Nat), T.Std → f.Valid →
      TextOf e s cs →
      (¬ ∃ neg ds, Spec.Numeral f.radix f.separator.char (f.sign = .alwaysShow) cs neg ds) →
      ∃ k, parseInteger e T s f = .throw (.parseFailed k) := by
  intro h
  obtain ⟨k, hk⟩ := h .char8 .int .default [0x31#8, 0x2D#8, 0x32#8] [49, 45, 50] (by decide)
    (by decide) ⟨⟨by unfold Spec.IsText; decide, by decide⟩, by simp⟩ (by
      rintro ⟨neg, ds, sign, body, hcs, ⟨_, _, chars, hm, hb⟩, hsign⟩
      have hdash : ∀ c ∈ body, Spec.digitValue c ≠ none := by
        intro c hc hnone
        rw [hb] at hc
        have hc : c ∈ chars := hc
        have : Spec.digitValue c ∈ chars.map Spec.digitValue := List.mem_map.mpr ⟨c, hc, rfl⟩
        rw [hm, hnone] at this
        simp at this
      rcases hsign with ⟨rfl, _⟩ | ⟨rfl, _⟩ | ⟨rfl, _⟩
      · simp only [List.nil_append] at hcs
        exact hdash 45 (by simp [← hcs]) (by decide)
      · simp at hcs
      · simp at hcs)
  have h2 : parseInteger .char8 .int [0x31#8, 0x2D#8, 0x32#8] .default = .ok (-12) := by decide
  rw [h2] at hk
  simp at hk

/-- A leading separator is accepted as well: `",123"` is 123. -/
theorem C23_violated_separator :
    parseInteger .char8 .int [0x2C#8, 0x31#8, 0x32#8, 0x33#8] ⟨10, .onlyWhenNegative, .comma⟩
      = .ok 123 := by decide

/-- `cs` has no sign but possibly at its first place, and no separator in front of the first
digit. -/
def NoStray (f : IntegerFormat) (cs : List Nat) : Prop :=
  (∀ c ∈ cs.tail, c ≠ 45 ∧ c ≠ 43)
    ∧ ∀ s, f.separator.char = some s →
      cs.head? ≠ some s ∧ (cs.head? = some 45 ∨ cs.head? = some 43 → cs.tail.head? ≠ some s)

/-- C23 for texts without a sign after the first character and without a leading separator: what
is accepted is a numeral, and (for characters below 256, and for unsigned types or texts so short
that no number of their length overflows) everything else is reported as a parse failure.  Missing:
signs in the middle and leading separators, which are accepted; undefined behaviour on overflow of
signed types and in `std::tolower`. -/
theorem C23_partial (e : Enc) (T : IntTy) (f : IntegerFormat) (s : Str e) (cs : List Nat)
    (hT : T.Std) (hf : f.Valid) (ht : TextOf e s cs) (hst : NoStray f cs)
    (hnum : ¬ ∃ neg ds, Spec.Numeral f.radix f.separator.char (f.sign = .alwaysShow) cs neg ds) :
    (∀ v, parseInteger e T s f ≠ .ok v)
    ∧ (T.signed = false ∨ (f.radix : Int) ^ cs.length ≤ T.max →
        (∀ c ∈ cs, f.radix < 10 ∨ c ≤ 255) →
        ∃ k, parseInteger e T s f = .throw (.parseFailed k)) := by
  have hsc : ∀ c ∈ cs, c ≤ 0x10FFFF := fun c hc => (ht.1.1 c hc).1
  rw [ht.eq, parseInteger_encs e T f _ ht.bwd]
  have key : ∀ v, parseRev T f cs.reverse ≠ .ok v := by
    intro v hv
    apply hnum
    -- split off the sign, if there is one
    obtain ⟨sign, body, hcs, hbody, hsign, hlead⟩ :
        ∃ sign body, cs = sign ++ body ∧ (∀ c ∈ body, ¬ (c = 45 ∨ c = 43))
          ∧ (sign = [] ∨ sign = [45] ∨ sign = [43])
          ∧ ∀ s, f.separator.char = some s → body.head? ≠ some s := by
      cases cs with
      | nil => exact ⟨[], [], rfl, by simp, .inl rfl, by simp⟩
      | cons c cs =>
        have htl : ∀ x ∈ cs, ¬ (x = 45 ∨ x = 43) := by
          intro x hx
          have := hst.1 x hx
          omega
        by_cases hc : c = 45 ∨ c = 43
        · refine ⟨[c], cs, rfl, htl, ?_, ?_⟩
          · rcases hc with rfl | rfl
            · exact .inr (.inl rfl)
            · exact .inr (.inr rfl)
          · intro s hs
            refine (hst.2 s hs).2 ?_
            rcases hc with rfl | rfl
            · exact .inl rfl
            · exact .inr rfl
        · refine ⟨[], c :: cs, rfl, ?_, .inl rfl, fun s hs => (hst.2 s hs).1⟩
          intro x hx
          rcases List.mem_cons.mp hx with rfl | hx
          · exact hc
          · exact htl x hx
    subst hcs
    rw [List.reverse_append] at hv
    cases hb : body.reverse with
    | nil =>
      rw [hb, List.nil_append] at hv
      have h45 : ∀ c, c = 45 ∨ c = 43 → parseRev T f [c] ≠ .ok v := by
        intro c hc hh
        rw [parseRev, getNextDigit_nondigit hf.2 (by omega) (by omega) (not_isDigit_sign hc)] at hh
        simp at hh
      rcases hsign with rfl | rfl | rfl
      · simp [parseRev] at hv
      · exact absurd hv (h45 45 (.inl rfl))
      · exact absurd hv (h45 43 (.inr rfl))
    | cons c rs =>
      have hbr : body = (c :: rs).reverse := by rw [← hb, List.reverse_reverse]
      have hmem : ∀ x ∈ c :: rs, x ≤ 0x10FFFF ∧ ¬ (x = 45 ∨ x = 43) := by
        intro x hx
        have hx' : x ∈ body := by rw [hbr, List.mem_reverse]; exact hx
        exact ⟨hsc x (by simp [hx']), hbody x hx'⟩
      rw [hb, List.cons_append, parseRev, Outcome.bind_eq_ok] at hv
      obtain ⟨d, hd, hv⟩ := hv
      rw [Outcome.bind_eq_ok] at hv
      obtain ⟨st', hfold, hfin⟩ := hv
      have hdig := getNextDigit_ok_isDigit hf.2 (hmem c (by simp)).1 hd
      have hfold' : parseFold T f ⟨T.wrap d, 1, 1, false, false⟩ (rs ++ sign.reverse) = .ok st' :=
        hfold
      rw [parseFold_append, Outcome.bind_eq_ok] at hfold'
      obtain ⟨st1, hf1, hf2⟩ := hfold'
      obtain ⟨hsf, ds, hsp⟩ := body_of_ok hf.2 hdig (fun x hx => hmem x (by simp [hx])) hf1 (by
        intro s hs hl
        refine hlead s hs ?_
        rw [hbr, List.head?_reverse]
        exact hl)
      rw [← hbr] at hsp
      rcases hsign with rfl | rfl | rfl
      · exact ⟨false, ds, [], body, rfl, hsp, .inl ⟨rfl, rfl⟩⟩
      · exact ⟨true, ds, [45], body, rfl, hsp, .inr (.inl ⟨rfl, rfl⟩)⟩
      · refine ⟨false, ds, [43], body, rfl, hsp, .inr (.inr ⟨rfl, rfl, ?_⟩)⟩
        cases hs : f.sign with
        | alwaysShow => rfl
        | onlyWhenNegative =>
          exfalso
          rw [List.reverse_singleton, parseFold_cons, Outcome.bind_eq_ok] at hf2
          obtain ⟨st2, hstep, _⟩ := hf2
          obtain ⟨_, hcase⟩ := parseStep_ok hf.2 (by omega)
            (.inr ⟨by simp [SignOk, hs], hsf⟩) hstep
          rcases hcase with ⟨_, hsep, _⟩ | ⟨_, hd43, _⟩
          · have := Separator.char_eq_some hsep
            omega
          · exact not_isDigit_sign (.inr rfl) hd43
  refine ⟨key, fun hu hall => ?_⟩
  have hall' : ∀ c ∈ cs.reverse, c ≤ 0x10FFFF ∧ (f.radix < 10 ∨ c ≤ 255) := by
    intro c hc
    have hc' : c ∈ cs := by simpa using hc
    exact ⟨hsc c hc', hall c hc'⟩
  have hdef : OkOrFailed (parseRev T f cs.reverse) := by
    rcases hu with hu | hu
    · exact parseRev_unsigned hT hu hf.2 cs.reverse hall'
    · exact parseRev_short hT hf.1 hf.2 cs.reverse (by rwa [List.length_reverse]) hall'
  rcases hdef with ⟨v, hv⟩ | ⟨k, hk⟩
  · exact absurd hv (key v)
  · exact ⟨k, hk⟩

example : NoStray ⟨10, .onlyWhenNegative, .comma⟩ [45, 49, 50, 51, 52]
    ∧ ¬ ∃ neg ds, Spec.Numeral 10 (some 44) false [45, 49, 50, 51, 52] neg ds := by
  constructor
  · refine ⟨by decide, ?_⟩
    intro s hs
    simp [Separator.char] at hs
    subst hs
    decide
  · rintro ⟨neg, ds, sign, body, hcs, ⟨_, _, chars, hm, hb⟩, hsign⟩
    have h4 : ∀ b : List Nat, b = [49, 50, 51, 52] ∨ b = [45, 49, 50, 51, 52] → body ≠ b := by
      rintro b hbb rfl
      have hr := group_reverse (some 44) chars
      rw [← hb, groupFrom_groupRev] at hr
      have hix := groupRev_index (s := 44) chars.reverse 3
      rw [← hr] at hix
      have := hix.1 (by omega) (by rcases hbb with rfl | rfl <;> simp)
      rcases hbb with rfl | rfl <;> simp at this
    rcases hsign with ⟨rfl, _⟩ | ⟨rfl, _⟩ | ⟨rfl, _⟩
    · exact h4 _ (.inr rfl) (by simpa using hcs.symm)
    · exact h4 _ (.inl rfl) (by simpa using hcs.symm)
    · simp at hcs

/-! ### C24 -/

/-- The digit part is processed without undefined behaviour. -/
def Fits (T : IntTy) (r : Nat) (ds : List Nat) : Prop :=
  T.signed = false ∨ ((Spec.positional r ds : Int) ≤ T.max
    ∧ (T.bits = 64 → (r ^ (ds.length - 1) : Nat) ≤ T.max))

instance (T : IntTy) (r : Nat) (ds : List Nat) : Decidable (Fits T r ds) := by
  unfold Fits; infer_instance

theorem body_fits {T : IntTy} (hT : T.Std) {f : IntegerFormat} (hf : f.Valid)
    {body ds : List Nat} (hb : Spec.Spells f.radix f.separator.char body ds)
    (h : Fits T f.radix ds) : ∃ v st, BodyDone T f body ds v st := by
  rcases h with hu | ⟨h1, h2⟩
  · exact ⟨_, body_modular hT hu hf.2 hb⟩
  · exact ⟨_, body_exact hT hf.1 hf.2 hb h1 (fun h => h2 h.2)⟩

/-- The full claim fails: a non-digit outside the range of `unsigned char` makes
`is_radix_digit` undefined. -/
theorem C24_violated :
    ¬ ∀ (e : Enc) (T : IntTy) (f : IntegerFormat) (s : Str e) (pre : List Nat) (x : Nat),
      T.Std → f.Valid → TextOf e s (pre ++ [x]) → ¬ Spec.IsDigit f.radix x →
      parseInteger e T s f = .throw (.parseFailed .digitCharacterExpected) := by
  intro h
  have h1 := h .char16 .uint .default [0x20AC#16] [] 0x20AC (by decide) (by decide)
    ⟨⟨by unfold Spec.IsText; decide, by decide⟩, by simp⟩ (by decide)
  have h2 : parseInteger .char16 .uint [0x20AC#16] .default = .ub := by decide
  rw [h2] at h1
  simp at h1

/-- C24 in the order in which the parser meets the characters, from right to left.  `x` is the
first offending character; everything to its right (`body`, or a sign and `body`) conforms.
Missing: characters above 255 when the radix is at least ten, and digit parts that overflow a
signed type, where the behaviour is undefined. -/
theorem C24_partial (e : Enc) (T : IntTy) (f : IntegerFormat) (s : Str e) (hT : T.Std)
    (hf : f.Valid) :
    (s = [] → parseInteger e T s f = .throw (.parseFailed .emptyInput))
    ∧ (∀ pre x, TextOf e s (pre ++ [x]) → ¬ Spec.IsDigit f.radix x →
        (f.radix < 10 ∨ x ≤ 255) →
        parseInteger e T s f = .throw (.parseFailed .digitCharacterExpected))
    ∧ (∀ pre x body ds, TextOf e s (pre ++ x :: body) →
        Spec.Spells f.radix f.separator.char body ds → Fits T f.radix ds →
        ¬ SignOk f.sign x →
        ((f.separator = .none ∨ ds.length % 3 ≠ 0) → ¬ Spec.IsDigit f.radix x →
          (f.radix < 10 ∨ x ≤ 255) →
          parseInteger e T s f = .throw (.parseFailed .digitCharacterExpected))
        ∧ (f.separator ≠ .none → ds.length % 3 = 0 → f.separator.char ≠ some x →
          parseInteger e T s f = .throw (.parseFailed .thousandsSeparatorMissing)))
    ∧ (∀ pre x y body ds, TextOf e s (pre ++ x :: y :: body) →
        Spec.Spells f.radix f.separator.char body ds → Fits T f.radix ds →
        SignOk f.sign y → (x = 45 ∨ x = 43) →
        parseInteger e T s f = .throw (.parseFailed .multipleSigns))
    ∧ (∀ body ds, TextOf e s (45 :: body) →
        Spec.Spells f.radix f.separator.char body ds → T.signed = false →
        parseInteger e T s f = .throw (.parseFailed .negativeUnsigned)) := by
  have hlt : ∀ {x : Nat} {cs : List Nat}, TextOf e s cs → x ∈ cs → x < 2 ^ 32 := by
    intro x cs ht hx
    have := (ht.1.1 x hx).1
    omega
  refine ⟨?_, ?_, ?_, ?_, ?_⟩
  · rintro rfl
    rfl
  · intro pre x ht hx hok
    have hx32 := hlt ht (show x ∈ pre ++ [x] by simp)
    rw [ht.eq, parseInteger_encs e T f _ ht.bwd, List.reverse_append]
    simp only [List.reverse_cons, List.reverse_nil, List.nil_append, List.cons_append]
    rw [parseRev, getNextDigit_nondigit hf.2 hx32 hok hx]
    rfl
  · intro pre x body ds ht hsp hfit hsg
    have hx32 := hlt ht (show x ∈ pre ++ x :: body by simp)
    obtain ⟨v, st, hB⟩ := body_fits hT hf hsp hfit
    have hrun : parseInteger e T s f
        = (parseFold T f st (x :: pre.reverse) >>= parseFinish T) := by
      rw [ht.eq, parseInteger_encs e T f _ ht.bwd, ← hB.run]
      simp
    rw [hrun, parseFold_cons]
    have hlen : 0 < ds.length := List.length_pos_iff.mpr hsp.1
    refine ⟨fun hat hd hok => ?_, fun hs h3 hne => ?_⟩
    · have hna : ¬ AtSep f st := by
        rintro ⟨hc, hs⟩
        have := hB.counted hs
        rcases hat with h | h
        · exact hs h
        · omega
      rw [parseStep_nondigit T hf.2 hna hx32 hok hd (.inr ⟨hsg, hB.signFound⟩)]
      rfl
    · have hc : st.counted = 3 := by rw [hB.counted hs]; omega
      have hsome := sep_isSome hs
      cases hsc : f.separator.char with
      | none => rw [hsc] at hsome; simp at hsome
      | some c =>
        rw [hsc] at hne
        rw [parseStep_nosep T hc hsc hx32 (by intro h; exact hne (by rw [h]))
          (.inr ⟨hsg, hB.signFound⟩)]
        rfl
  · intro pre x y body ds ht hsp hfit hy hx
    obtain ⟨v, st, hB⟩ := body_fits hT hf hsp hfit
    have hrun : parseInteger e T s f
        = (parseFold T f st (y :: x :: pre.reverse) >>= parseFinish T) := by
      rw [ht.eq, parseInteger_encs e T f _ ht.bwd, ← hB.run]
      simp
    rw [hrun, parseFold_cons, parseStep_sign T st hy hB.signFound, Outcome.ok_bind,
      parseFold_cons, parseStep_second T _ hx rfl]
    rfl
  · intro body ds ht hsp hu
    obtain ⟨st, hB⟩ := body_modular hT hu hf.2 hsp
    have hrun : parseInteger e T s f = (parseFold T f st [45] >>= parseFinish T) := by
      rw [ht.eq, parseInteger_encs e T f _ ht.bwd, ← hB.run]
      simp
    rw [hrun, parseFold_cons, parseStep_sign T st (.inl rfl) hB.signFound, Outcome.ok_bind,
      parseFold_nil, Outcome.ok_bind, parseFinish_unsigned hu]
    simp

example : Spec.Spells 10 (some 44) [49, 50, 51] [1, 2, 3] ∧ Fits int 10 [1, 2, 3]
    ∧ ¬ SignOk .onlyWhenNegative 43 ∧ ¬ Spec.IsDigit 10 43 ∧ [1, 2, 3].length % 3 = 0
    ∧ SignOk .onlyWhenNegative 45 ∧ (some 44 : Option Nat) ≠ some 43 :=
  ⟨⟨by simp, by decide, [49, 50, 51], by decide, by decide⟩, by decide, by decide, by decide,
    by decide, by decide, by decide⟩

/-! ### C25 -/

/-- `"256"` is read into an `unsigned char` as 0. -/
theorem C25_violated :
    ¬ ∀ (e : Enc) (T : IntTy) (f : IntegerFormat) (s : Str e) (cs : List Nat) (neg : Bool)
      (ds : List Nat), T.Std → f.Valid → TextOf e s cs →
      Spec.Numeral f.radix f.separator.char (f.sign = .alwaysShow) cs neg ds →
      parseInteger e T s f = .ok (Spec.denote f.radix neg ds)
        ∨ ∃ x, parseInteger e T s f = .throw x := by
  intro h
  have h1 := h .char8 .uint8 .default [0x32#8, 0x35#8, 0x36#8] [50, 53, 54] false [2, 5, 6]
    (by decide) (by decide) ⟨⟨by unfold Spec.IsText; decide, by decide⟩, by simp⟩
    ⟨[], _, rfl, ⟨by simp, by decide, [50, 53, 54], by decide, rfl⟩, by simp⟩
  have h2 : parseInteger .char8 .uint8 [0x32#8, 0x35#8, 0x36#8] .default = .ok 0 := by decide
  rw [h2] at h1
  rcases h1 with h1 | ⟨x, h1⟩
  · revert h1; decide
  · simp at h1

/-- Signed types overflow with undefined behaviour, even on the least value of the type. -/
theorem C25_violated_signed :
    parseInteger .char8 .int
      [0x2D#8, 0x32#8, 0x31#8, 0x34#8, 0x37#8, 0x34#8, 0x38#8, 0x33#8, 0x36#8, 0x34#8, 0x38#8]
      .default = .ub := by decide

/-- Unsigned types: however long the numeral, nothing undefined happens, a minus sign is
reported, and the value returned is the value of the numeral modulo `2^bits` (so the exact value
if it fits).  Missing: numerals that do not fit, which are not reported; signed types beyond
`C22_partial`. -/
theorem C25_partial (e : Enc) (T : IntTy) (f : IntegerFormat) (s : Str e) (cs : List Nat)
    (neg : Bool) (ds : List Nat) (hT : T.Std) (hu : T.signed = false) (hf : f.Valid)
    (ht : TextOf e s cs)
    (hn : Spec.Numeral f.radix f.separator.char (f.sign = .alwaysShow) cs neg ds) :
    parseInteger e T s f =
      if neg then .throw (.parseFailed .negativeUnsigned)
      else .ok (Spec.positional f.radix ds % (2 ^ T.bits : Nat) : Int) := by
  obtain ⟨sign, body, rfl, hsp, hsign⟩ := hn
  rw [ht.eq, parseInteger_encs e T f _ ht.bwd]
  obtain ⟨st, hB⟩ := body_modular hT hu hf.2 hsp
  have hw := has_wrap hT (Spec.positional f.radix ds)
  rw [wrap_unsigned hu] at hw
  have h0 : (0 : Int) ≤ Spec.positional f.radix ds % (2 ^ T.bits : Nat) := by
    have := hw.1
    have hmn : T.min = 0 := by simp [IntTy.min, hu]
    rw [hmn] at this
    exact this
  rw [numeral_parse hT hB h0 hw.2 (by simpa using hsign)]
  simp [hu]

example : Spec.Numeral 10 none true [43, 48, 48, 52, 50] false [0, 0, 4, 2]
    ∧ uint8.Std ∧ uint8.signed = false :=
  ⟨⟨[43], [48, 48, 52, 50], rfl, ⟨by simp, by decide, [48, 48, 52, 50], by decide, rfl⟩,
    by simp⟩, by decide, by decide⟩

/-! ### C26 -/

/-- The full claim fails for format strings containing U+1D800. -/
theorem C26_violated :
    ¬ ∀ (f : BoolFormat), f.trueString ≠ f.falseString → f.trueString ≠ [] → f.falseString ≠ [] →
      Spec.WellFormed .utf8 (units f.trueString) → Spec.WellFormed .utf8 (units f.falseString) →
      ∀ b, ∃ s, formatBool .char8 b f = .ok s ∧ parseBool .char8 s f = .ok b := by
  intro h
  obtain ⟨s, h1, _⟩ := h ⟨[0xF0#8, 0x9D#8, 0xA0#8, 0x80#8], [0x30#8]⟩ (by decide) (by decide)
    (by decide) ⟨[0x1D800], by unfold Spec.IsText; decide, by decide⟩
    ⟨[0x30], by unfold Spec.IsText; decide, by decide⟩ true
  have h2 : formatBool .char8 true ⟨[0xF0#8, 0x9D#8, 0xA0#8, 0x80#8], [0x30#8]⟩
      = .throw .invalidCodePoint := by decide
  rw [h2] at h1
  simp at h1

/-- Texts that the conversions between `std::u8string` and `e` handle in both directions. -/
def Convertible (e : Enc) (cs : List Nat) : Prop :=
  ∀ c ∈ cs, ¬ LowSurrogate c ∧ (e.form = .utf16 → Spec.IsBmp c) ∧ (e = .narrow → c < 128)

instance (e : Enc) (cs : List Nat) : Decidable (Convertible e cs) := by
  unfold Convertible Spec.IsBmp; infer_instance

theorem insOk_of {e : Enc} {c : Nat} (hs : Spec.IsScalar c) (hl : ¬ LowSurrogate c)
    (hn : e = .narrow → c < 128) : InsOk e c := by
  cases e with
  | narrow => exact hn rfl
  | char8 => exact ⟨hs, hl⟩
  | char16 => exact hs
  | wide2 => exact hs
  | char32 => have := hs.1; show c < 2 ^ 32; omega
  | wide4 => have := hs.1; show c < 2 ^ 32; omega

theorem parseBool_text {e : Enc} {s : Str e} {cs : List Nat} (f : BoolFormat)
    (ht : TextOf e s cs) (hc : Convertible e cs) (hne : cs ≠ []) :
    parseBool e s f = parseBool.compare f (encs .char8 cs) := by
  have hlen : s.length ≠ 0 := by
    rw [ht.eq]
    have := encs_length_ge e cs
    have := List.length_pos_iff.mpr hne
    omega
  have hconv : convertString e .char8 s = .ok (encs .char8 cs) := by
    rw [ht.eq]
    exact convertString_enc e .char8 cs (ht.fwd (fun h c hx => (hc c hx).2.1 h))
      (fun c hx => ⟨ht.1.1 c hx, (hc c hx).1⟩)
  have hpos : ∀ α (a b : α), (if s.length = 0 then a else b) = b := fun _ a b => if_neg hlen
  cases e with
  | char8 => rw [parseBool.eq_def, hpos]; rw [ht.eq]
  | narrow => rw [parseBool.eq_def, hpos]; simp only [hconv, Outcome.ok_bind]
  | char16 => rw [parseBool.eq_def, hpos]; simp only [hconv, Outcome.ok_bind]
  | char32 => rw [parseBool.eq_def, hpos]; simp only [hconv, Outcome.ok_bind]
  | wide2 => rw [parseBool.eq_def, hpos]; simp only [hconv, Outcome.ok_bind]
  | wide4 => rw [parseBool.eq_def, hpos]; simp only [hconv, Outcome.ok_bind]

/-- C26 for every output encoding, for format strings it can represent and that the library's
conversions handle; rejection of other strings for every UTF-8 input whatever, and for every
convertible text in the other encodings.  Missing: format strings with code points whose low 16
bits are a surrogate value, and supplementary code points in UTF-16. -/
theorem C26_partial (e : Enc) (f : BoolFormat) (ts fs : List Nat)
    (ht : Spec.Denotes .utf8 (units f.trueString) ts)
    (hf : Spec.Denotes .utf8 (units f.falseString) fs)
    (hne : f.trueString ≠ f.falseString) (ht0 : f.trueString ≠ []) (hf0 : f.falseString ≠ [])
    (hct : Convertible e ts) (hcf : Convertible e fs) :
    (∀ b, ∃ s, formatBool e b f = .ok s ∧ parseBool e s f = .ok b)
    ∧ parseBool e [] f = .throw (.parseFailed .emptyInput)
    ∧ (∀ s, s ≠ [] → s ≠ f.trueString → s ≠ f.falseString →
        parseBool .char8 s f = .throw (.parseFailed .neitherBoolean))
    ∧ (∀ s cs, TextOf e s cs → Convertible e cs → cs ≠ [] → cs ≠ ts → cs ≠ fs →
        parseBool e s f = .throw (.parseFailed .neitherBoolean)) := by
  have ht8 : TextOf .char8 f.trueString ts := ⟨ht, by simp⟩
  have hf8 : TextOf .char8 f.falseString fs := ⟨hf, by simp⟩
  have hts : ts ≠ [] := by
    rintro rfl
    exact ht0 ht8.eq
  have hfs : fs ≠ [] := by
    rintro rfl
    exact hf0 hf8.eq
  have hconv : ∀ cs (s : Str .char8), TextOf .char8 s cs → Convertible e cs →
      convertString .char8 e s = .ok (encs e cs) := by
    intro cs s h hc
    rw [h.eq]
    exact convertString_enc .char8 e cs (h.fwd (by simp [Enc.form]))
      (fun c hx => insOk_of (h.1.1 c hx) (hc c hx).1 (hc c hx).2.2)
  have htext : ∀ cs (s : Str .char8), TextOf .char8 s cs → Convertible e cs →
      TextOf e (encs e cs) cs := fun cs s h hc =>
    textOf_encs e cs h.1.1 (fun hn c hx => (hc c hx).2.2 hn)
  refine ⟨fun b => ?_, rfl, fun s h0 h1 h2 => ?_, fun s cs h hc h0 h1 h2 => ?_⟩
  · cases b with
    | true =>
      refine ⟨encs e ts, hconv ts _ ht8 hct, ?_⟩
      rw [parseBool_text f (htext ts _ ht8 hct) hct hts, ← ht8.eq, parseBool.compare, if_pos rfl]
    | false =>
      refine ⟨encs e fs, hconv fs _ hf8 hcf, ?_⟩
      rw [parseBool_text f (htext fs _ hf8 hcf) hcf hfs, ← hf8.eq, parseBool.compare,
        if_neg (fun h => hne h.symm), if_pos rfl]
  · rw [parseBool, if_neg (by simpa using h0)]
    rw [parseBool.compare, if_neg h1, if_neg h2]
  · have hinj : ∀ xs (s' : Str .char8), TextOf .char8 s' xs → cs ≠ xs → encs .char8 cs ≠ s' := by
      intro xs s' hx hcx heq
      have h8 : TextOf .char8 (encs .char8 cs) cs := textOf_encs .char8 cs h.1.1 (by simp)
      have e1 := C06_utf8_forward _ cs h8.1
      have e2 := C06_utf8_forward _ xs hx.1
      rw [heq, e2] at e1
      have e3 : xs.map (BitVec.ofNat 32) = cs.map (BitVec.ofNat 32) := by
        injection e1
      refine hcx ?_
      have hback : ∀ l : List Nat, Spec.IsText l →
          (l.map (BitVec.ofNat 32)).map BitVec.toNat = l := by
        intro l hl
        rw [List.map_map]
        conv => rhs; rw [← List.map_id l]
        apply List.map_congr_left
        intro c hc'
        have := (hl c hc').1
        simp only [Function.comp_apply, BitVec.toNat_ofNat, id]
        omega
      rw [← hback cs h.1.1, ← hback xs hx.1.1, e3]
    rw [parseBool_text f h hc h0, parseBool.compare, if_neg (hinj ts _ ht8 h1),
      if_neg (hinj fs _ hf8 h2)]

example : Spec.Denotes .utf8 (units [0x79#8, 0xC3#8, 0xA9#8]) [0x79, 0xE9]
    ∧ Convertible .char16 [0x79, 0xE9] ∧ Convertible .char8 [0x79, 0xE9, 0x1F600] :=
  ⟨⟨by unfold Spec.IsText; decide, by decide⟩, by decide, by decide⟩

/-! ### C29 -/

/-- A call on an `integer_format` object. -/
inductive IntegerFormatCall
  | setRadix (r : Nat)
  | setSign (s : SignStatus)
  | setSeparator (s : Separator)

/-- The effect of a call. -/
def IntegerFormatCall.run (f : IntegerFormat) : IntegerFormatCall → Outcome IntegerFormat
  | .setRadix r => f.setRadix r
  | .setSign s => f.setSign s
  | .setSeparator s => f.setSeparator s

/-- A call on a `floating_point_format` object. -/
inductive FloatFormatCall
  | setRadix (r : Nat)
  | setSign (s : SignStatus)
  | setSeparator (s : Separator)
  | setRadixCharacter (c : RadixCharacter)
  | setPlaceLimit (l : PlaceLimit)
  | setPlaceCount (n : Nat)

/-- The effect of a call. -/
def FloatFormatCall.run (f : FloatFormat) : FloatFormatCall → Outcome FloatFormat
  | .setRadix r => f.setRadix r
  | .setSign s => f.setSign s
  | .setSeparator s => f.setSeparator s
  | .setRadixCharacter c => f.setRadixCharacter c
  | .setPlaceLimit l => f.setPlaceLimit l
  | .setPlaceCount n => f.setPlaceCount n

/-- `set_radix` does not validate. -/
theorem C29_violated :
    ¬ ∀ (calls : List IntegerFormatCall) (f : IntegerFormat),
      calls.foldlM IntegerFormatCall.run .default = .ok f → 2 ≤ f.radix ∧ f.radix ≤ 36 := by
  intro h
  have := h [.setRadix 0] _ rfl
  revert this
  decide

/-- Every radix from 2 to 36 is accepted, by the constructors and by `set_radix`. -/
theorem C29_partial_accepted (r : Nat) (h2 : 2 ≤ r) (h36 : r ≤ 36) :
    (∀ s p, ∃ f, IntegerFormat.make r s p = .ok f ∧ f.radix = r)
    ∧ (∀ s p c l n, ∃ f, FloatFormat.make r s p c l n = .ok f ∧ f.radix = r)
    ∧ (∀ f : IntegerFormat, ∃ g, f.setRadix r = .ok g ∧ g.radix = r)
    ∧ (∀ f : FloatFormat, ∃ g, f.setRadix r = .ok g ∧ g.radix = r) := by
  have h : ¬ ((decide (r < 2) || decide (r > 36)) = true) := by
    simp only [Bool.or_eq_true, decide_eq_true_eq]
    omega
  refine ⟨fun s p => ?_, fun s p c l n => ?_, fun f => ?_, fun f => ?_⟩
  · exact ⟨_, by rw [IntegerFormat.make, if_neg h], rfl⟩
  · exact ⟨_, by rw [FloatFormat.make, if_neg h], rfl⟩
  · exact ⟨_, rfl, rfl⟩
  · exact ⟨_, rfl, rfl⟩

/-- The constructors validate, and a valid radix stays valid under any history of calls whose
`set_radix` arguments are valid.  Missing: `set_radix` with an invalid argument. -/
theorem C29_partial :
    (∀ r s p f, IntegerFormat.make r s p = .ok f → 2 ≤ f.radix ∧ f.radix ≤ 36)
    ∧ (∀ r s p, (r < 2 ∨ 36 < r) → IntegerFormat.make r s p = .throw .invalidRadix)
    ∧ (∀ r s p c l n f, FloatFormat.make r s p c l n = .ok f → 2 ≤ f.radix ∧ f.radix ≤ 36)
    ∧ (∀ r s p c l n, (r < 2 ∨ 36 < r) → FloatFormat.make r s p c l n = .throw .invalidRadix)
    ∧ (2 ≤ IntegerFormat.default.radix ∧ IntegerFormat.default.radix ≤ 36)
    ∧ (2 ≤ FloatFormat.default.radix ∧ FloatFormat.default.radix ≤ 36)
    ∧ (∀ (f g : IntegerFormat) (calls : List IntegerFormatCall),
        2 ≤ f.radix ∧ f.radix ≤ 36 → (∀ r, .setRadix r ∈ calls → 2 ≤ r ∧ r ≤ 36) →
        calls.foldlM IntegerFormatCall.run f = .ok g → 2 ≤ g.radix ∧ g.radix ≤ 36)
    ∧ (∀ (f g : FloatFormat) (calls : List FloatFormatCall),
        2 ≤ f.radix ∧ f.radix ≤ 36 → (∀ r, .setRadix r ∈ calls → 2 ≤ r ∧ r ≤ 36) →
        calls.foldlM FloatFormatCall.run f = .ok g → 2 ≤ g.radix ∧ g.radix ≤ 36) := by
  refine ⟨?_, ?_, ?_, ?_, by decide, by decide, ?_, ?_⟩
  · intro r s p f h
    unfold IntegerFormat.make at h
    split at h
    · simp at h
    · rename_i hr
      cases h
      simp at hr
      simp only
      omega
  · intro r s p h
    unfold IntegerFormat.make
    rw [if_pos (by simp; omega)]
  · intro r s p c l n f h
    unfold FloatFormat.make at h
    split at h
    · simp at h
    · rename_i hr
      cases h
      simp at hr
      simp only
      omega
  · intro r s p c l n h
    unfold FloatFormat.make
    rw [if_pos (by simp; omega)]
  · intro f g calls
    induction calls generalizing f with
    | nil => intro hf _ h; cases h; exact hf
    | cons c calls ih =>
      intro hf hc h
      rw [List.foldlM_cons, Outcome.bind_eq_ok] at h
      obtain ⟨f', h1, h2⟩ := h
      refine ih f' ?_ (fun r hr => hc r (by simp [hr])) h2
      cases c with
      | setRadix r => cases h1; exact hc r (by simp)
      | setSign s => cases h1; exact hf
      | setSeparator s => cases h1; exact hf
  · intro f g calls
    induction calls generalizing f with
    | nil => intro hf _ h; cases h; exact hf
    | cons c calls ih =>
      intro hf hc h
      rw [List.foldlM_cons, Outcome.bind_eq_ok] at h
      obtain ⟨f', h1, h2⟩ := h
      refine ih f' ?_ (fun r hr => hc r (by simp [hr])) h2
      cases c with
      | setRadix r => cases h1; exact hc r (by simp)
      | setSign s => cases h1; exact hf
      | setSeparator s => cases h1; exact hf
      | setRadixCharacter s => cases h1; exact hf
      | setPlaceLimit s => cases h1; exact hf
      | setPlaceCount s => cases h1; exact hf

example : (∀ r, IntegerFormatCall.setRadix r ∈ [.setRadix 16, .setSign .alwaysShow] →
    2 ≤ r ∧ r ≤ 36) := by simp

/-! ### C30 -/

theorem countDigitsLoop_eq {T : IntTy} (hT : T.Std) {r : Nat} (hr : 2 ≤ r) :
    ∀ (n fuel count : Nat), n < fuel → (n : Int) ≤ T.max →
      ∃ k, countDigitsLoop T r fuel n count = .ok (count + k) ∧ 1 ≤ k ∧ n < r ^ k
        ∧ (k = 1 ∨ r ^ (k - 1) ≤ n) := by
  intro n
  induction n using Nat.strongRecOn with
  | _ n ih =>
    intro fuel count hf hn
    obtain ⟨fuel, rfl⟩ : ∃ m, fuel = m + 1 := ⟨fuel - 1, by omega⟩
    have hP := hT.promote
    have hPm := promote_max hT
    have hle : n / r ≤ n := Nat.div_le_self _ _
    have hnn : (0 : Int) ≤ ((n / r : Nat) : Int) := Int.natCast_nonneg _
    have hmx : ((n / r : Nat) : Int) ≤ T.max := by omega
    have ed : (n : Int).tdiv r = ((n / r : Nat) : Int) := by
      rw [Int.tdiv_eq_ediv_of_nonneg (by omega)]; rfl
    have hdiv : T.promote.div n r = .ok ((n / r : Nat) : Int) := by
      rw [IntTy.div, if_neg (by omega), ed,
        arith_of_has hP (has_of_nonneg hP hnn (Int.le_trans hmx hPm))]
    rw [countDigitsLoop, hdiv, Outcome.ok_bind, (has_of_nonneg hT hnn hmx).wrap_eq hT]
    by_cases hz : n / r = 0
    · rw [if_neg (by simp only [hz]; simp)]
      refine ⟨1, rfl, by omega, ?_, .inl rfl⟩
      rw [Nat.pow_one]
      rcases Nat.lt_or_ge n r with h | h
      · exact h
      · have := (Nat.div_pos_iff.mpr ⟨by omega, h⟩ : 0 < n / r)
        omega
    · rw [if_pos (by omega)]
      have hlt : n / r < n := Nat.div_lt_self (by
        rcases Nat.eq_zero_or_pos n with h | h
        · subst h; simp at hz
        · exact h) (by omega)
      obtain ⟨k, e, hk, h1, h2⟩ := ih (n / r) hlt fuel (count + 1) (by omega) hmx
      refine ⟨k + 1, ?_, by omega, ?_, .inr ?_⟩
      · rw [e]; congr 1; omega
      · rw [Nat.pow_succ]
        exact (Nat.div_lt_iff_lt_mul (by omega)).mp h1
      · simp only [Nat.add_sub_cancel]
        have hge : r ≤ n := by
          rcases Nat.lt_or_ge n r with h | h
          · exact absurd (Nat.div_eq_of_lt h) hz
          · exact h
        rcases h2 with rfl | h2
        · rw [Nat.pow_one]; exact hge
        · have hk1 : k = (k - 1) + 1 := by omega
          rw [hk1, Nat.pow_succ]
          exact (Nat.le_div_iff_mul_le (by omega)).mp h2

/-- `count_digits` returns the `k` with `r^(k-1) ≤ n < r^k` (1 for zero), which is the number of
digits of `n` in base `r`. -/
theorem C30_count_digits (T : IntTy) (hT : T.Std) (n r : Nat) (hn : (n : Int) ≤ T.max)
    (hr : 2 ≤ r) :
    ∃ k, countDigits T n r = .ok k ∧ 1 ≤ k ∧ n < r ^ k ∧ (k = 1 ∨ r ^ (k - 1) ≤ n) := by
  have := max_lt_pow hT
  obtain ⟨k, e, h⟩ := countDigitsLoop_eq hT hr n (2 ^ T.bits + 1) 0 (by omega) hn
  exact ⟨k, by rw [countDigits, e, Nat.zero_add], h⟩

example : int.Std ∧ ((1000 : Nat) : Int) ≤ int.max ∧ 2 ≤ 10 := by decide

end Cmp
