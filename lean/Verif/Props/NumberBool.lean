import Verif.Proofs.NumberBool
import Verif.Props.NumberLax

/-
Properties of `format_integer` and `parse_integer` for `bool`.
-/

namespace Cmp

open IntTy
open _root_.Spec (LaxRead)

/-- The text that is wanted for a truth value: 0 or 1, the latter with a plus sign if signs are always shown. -/
def truthText (f : IntegerFormat) : Bool → List Nat
  | false => [48]
  | true => if f.sign = .alwaysShow then [43, 49] else [49]

theorem truthText_ascii (f : IntegerFormat) (b : Bool) : ∀ c ∈ truthText f b, c < 128 := by
  unfold truthText
  cases b
  · simp
  · simp only
    split <;> simp

theorem formatTruth_eq (e : Enc) (b : Bool) {f : IntegerFormat} (hf : f.Valid) :
    formatTruth e b f = .ok (encs e (truthText f b)) := by
  have h1 := prependCP_enc e 49 (insOk_ascii e (by decide)) []
  cases b with
  | false =>
    have h0 := appendCP_enc e 48 (insOk_ascii e (by decide)) []
    have e0 : encs e [48] = [] ++ encU e 48 := by rw [encs_cons]; simp [encs]
    rw [truthText, e0]
    exact h0
  | true =>
    have hr : uint.wrap f.radix = f.radix := Has.wrap_eq (T := uint) (by decide) (by
      have := hf.2
      constructor
      · simp [IntTy.min, uint]
      · simp [IntTy.max, uint]
        omega)
    have hl : formatLoopTruth e f.radix f.separator 3 1 0 [] = .ok (encs e [49]) := by
      have e1 : uint.rem 1 f.radix = .ok 1 := by
        have h2 := hf.1
        have hd : (1 : Int).tdiv f.radix = 0 := Int.tdiv_eq_zero_of_lt (by decide) (by omega)
        rw [IntTy.rem, if_neg (by omega), hd, if_pos (by simp [IntTy.Has, IntTy.min, IntTy.max, uint]),
          Int.tmod_eq_of_lt (by decide) (by omega)]
      have e2 : uint.div 1 f.radix = .ok 0 := by
        have h2 := hf.1
        have hd : (1 : Int).tdiv f.radix = 0 := Int.tdiv_eq_zero_of_lt (by decide) (by omega)
        rw [IntTy.div, if_neg (by omega), hd]
        decide
      have e3 : formatDigit 1 = BitVec.ofNat 32 49 := by decide
      have e4 : uint.wrap 1 = 1 := by decide
      rw [formatLoopTruth, if_neg (by decide)]
      simp only [hr, e4, e1, e2, e3, Outcome.ok_bind]
      rw [show ([] : Str e) = encs e [] from rfl, h1]
      simp only [Outcome.ok_bind]
      rw [if_neg (by decide)]
      rfl
    have ht : (true : Bool).toInt = 1 := rfl
    rw [formatTruth, ht, if_neg (by decide), hl, Outcome.ok_bind]
    by_cases hs : f.sign = .alwaysShow
    · rw [truthText, if_pos hs]
      simp only [if_pos hs]
      exact prependCP_enc e 43 (insOk_ascii e (by decide)) [49]
    · rw [truthText, if_neg hs]
      simp only [if_neg hs]
      rfl

/-- `parse_integer<bool>` on a text that is read to its end, with its sign. -/
theorem parseTruth_lax (e : Enc) {f : IntegerFormat} {s : Str e} {cs ds : List Nat} {sign : Option Bool}
    {due : Bool} (hf : f.Valid) (ht : TextOf e s cs)
    (h : LaxRead f.radix f.separator.char (f.sign = .alwaysShow) cs ds sign due) :
    parseTruth e s f = if sign = some true then .throw (.parseFailed .negativeUnsigned)
      else .ok (ds.any (· != 0)) := by
  obtain ⟨n, -, hr⟩ := lax_truth hf h
  have := hr []
  rw [List.append_nil] at this
  rw [ht.eq, parseTruth_encs e f _ ht.bwd, this]
  show parseFinishTruth _ = _
  unfold parseFinishTruth
  by_cases hs : sign = some true
  · subst hs; rfl
  · rw [if_neg (by simpa using hs), if_neg hs]
    cases ds.any (· != 0) <;> rfl

/-- `parse_integer<bool>` of every text: it accepts what is read from right to left without a minus sign,
whatever the number, and gives `true` exactly if there is a digit other than zero; it refuses the same texts
as for `unsigned char`, with the same reasons, and is undefined for the same texts. -/
theorem C142_exact (e : Enc) (f : IntegerFormat) (s : Str e) (cs : List Nat) (hf : f.Valid)
    (ht : TextOf e s cs) :
    (∀ b, parseTruth e s f = .ok b ↔
      ∃ ds sign due, LaxRead f.radix f.separator.char (f.sign = .alwaysShow) cs ds sign due
        ∧ sign ≠ some true ∧ (b = true ↔ ∃ d ∈ ds, d ≠ 0))
    ∧ (∀ x, parseTruth e s f = .throw x ↔ parseInteger e uint8 s f = .throw x)
    ∧ (parseTruth e s f = .ub ↔ parseInteger e uint8 s f = .ub) := by
  have hA : Alike (fun _ _ => True) (parseTruth e s f) (parseInteger e uint8 s f) := by
    rw [ht.eq, parseTruth_encs e f _ ht.bwd, parseInteger_encs e uint8 f _ ht.bwd]
    refine rev_alike hf _ fun c hc => ?_
    have := ht.1.1 c (by simpa using hc)
    unfold Spec.IsScalar at this
    omega
  have hany : ∀ (b : Bool) (ds : List Nat), (b = ds.any (· != 0)) ↔ (b = true ↔ ∃ d ∈ ds, d ≠ 0) := by
    intro b ds
    rw [Bool.eq_iff_iff]
    simp [List.any_eq_true]
  refine ⟨fun b => ⟨fun h => ?_, ?_⟩, fun x => ?_, ?_⟩
  · rw [h] at hA
    cases hu : parseInteger e uint8 s f with
    | ok v =>
      obtain ⟨ds, sign, due, hl, hs, -, -⟩ := ((C23_exact e uint8 f s cs (by decide) hf ht).1 v).mp hu
      have hs' : sign ≠ some true := hs.resolve_left (by decide)
      have := parseTruth_lax e hf ht hl
      rw [if_neg hs', h] at this
      exact ⟨ds, sign, due, hl, hs', (hany b ds).mp (by cases this; rfl)⟩
    | _ => rw [hu] at hA; exact hA.elim
  · rintro ⟨ds, sign, due, hl, hs, hb⟩
    rw [parseTruth_lax e hf ht hl, if_neg hs, ← (hany b ds).mpr hb]
  · cases h1 : parseTruth e s f <;> cases h2 : parseInteger e uint8 s f <;> rw [h1, h2] at hA <;>
      simp_all [Alike]
  · cases h1 : parseTruth e s f <;> cases h2 : parseInteger e uint8 s f <;> rw [h1, h2] at hA <;>
      simp_all [Alike]

/-! ### Numerals -/

/-- Correctly grouped digits are read. -/
theorem groupFrom_lax {r : Nat} {sep : Option Nat} {plus : Bool} : ∀ (l es cs ds : List Nat) (k : Nat) (due : Bool),
    l.map Spec.digitValue = es.map some → (∀ d ∈ es, d < r) → LaxRead r sep plus cs ds none due →
    (sep.isSome = true → k = (ds.length - 1) % 3 + 1 ∧ (due = true ↔ k = 3)) → (sep = none → due = false) →
    ∃ due', LaxRead r sep plus ((groupFrom sep k l).reverse ++ cs) (es.reverse ++ ds) none due' := by
  intro l
  induction l with
  | nil =>
    intro es cs ds k due hm _ h _ _
    cases es with
    | nil => exact ⟨due, by simpa [groupFrom] using h⟩
    | cons => simp at hm
  | cons c l ih =>
    intro es cs ds k due hm hr h hk hn
    cases es with
    | nil => simp at hm
    | cons d es =>
      simp only [List.map_cons, List.cons.injEq] at hm
      have hne := (lax_digits h).1
      have hpos := List.length_pos_iff.mpr hne
      have hd := hr d (by simp)
      cases sep with
      | none =>
        have hdue := hn rfl
        subst hdue
        obtain ⟨due', h'⟩ := ih es (c :: cs) (d :: ds) (k + 1) _ hm.2 (fun x hx => hr x (by simp [hx]))
          (.digit h hm.1 hd) (fun h => nomatch h) (fun _ => by simp)
        exact ⟨due', by simpa [groupFrom] using h'⟩
      | some s =>
        obtain ⟨hk1, hk2⟩ := hk rfl
        by_cases h3 : k = 3
        · obtain rfl := hk2.mpr h3
          obtain ⟨due', h'⟩ := ih es (c :: s :: cs) (d :: ds) 1 _ hm.2 (fun x hx => hr x (by simp [hx]))
            (.digit (.separator h rfl) hm.1 hd) (fun _ => by simp; omega) (fun h => nomatch h)
          exact ⟨due', by simpa [groupFrom, h3] using h'⟩
        · have hdue : due = false := by
            cases due
            · rfl
            · exact absurd (hk2.mp rfl) h3
          subst hdue
          obtain ⟨due', h'⟩ := ih es (c :: cs) (d :: ds) (k + 1) _ hm.2 (fun x hx => hr x (by simp [hx]))
            (.digit h hm.1 hd) (fun _ => by simp; omega) (fun h => nomatch h)
          exact ⟨due', by simpa [groupFrom, h3] using h'⟩

theorem numeral_lax {r : Nat} {sep : Option Nat} {plus : Bool} {cs ds : List Nat} {neg : Bool}
    (h : Spec.Numeral r sep plus cs neg ds) :
    ∃ sign due, LaxRead r sep plus cs ds sign due ∧ (sign = some true ↔ neg = true) := by
  obtain ⟨sign, body, rfl, hb, hs⟩ := h
  obtain ⟨c, l, d, es, h1, h2, h3, h4, h5, h6⟩ := spells_reverse hb
  obtain ⟨due, h⟩ := groupFrom_lax (sep := sep) (plus := plus) l es [c] [d] 1 false h4 h6 (.last h3 h5)
    (fun _ => by simp) (fun _ => rfl)
  have e1 : body = (groupFrom sep 1 l).reverse ++ [c] := by
    rw [← List.reverse_reverse body, h1, List.reverse_cons]
  have e2 : ds = es.reverse ++ [d] := by rw [← List.reverse_reverse ds, h2, List.reverse_cons]
  rw [← e1, ← e2] at h
  rcases hs with ⟨rfl, rfl⟩ | ⟨rfl, rfl⟩ | ⟨rfl, rfl, hp⟩
  · exact ⟨none, due, h, by simp⟩
  · exact ⟨some true, false, .minus h, by simp⟩
  · exact ⟨some false, false, .plus h hp, by simp⟩

theorem positional_zero {r : Nat} (h2 : 2 ≤ r) (ds : List Nat) :
    Spec.positional r ds ≠ 0 ↔ ∃ d ∈ ds, d ≠ 0 := by
  rw [positional_eq]
  have : ∀ l : List Nat, revVal r l ≠ 0 ↔ ∃ d ∈ l, d ≠ 0 := by
    intro l
    induction l with
    | nil => simp [revVal]
    | cons d l ih =>
      simp only [revVal, List.mem_cons, exists_eq_or_imp, ← ih]
      constructor
      · intro h
        by_cases hd : d = 0
        · right
          intro h0
          rw [hd, h0] at h
          simp at h
        · exact .inl hd
      · rintro (h | h) h0
        · omega
        · have : r * revVal r l ≠ 0 := Nat.mul_ne_zero (by omega) h
          omega
  rw [this]
  simp

/-- **C142** does not hold: 2 is no truth value and is read as `true`, and minus zero is refused. -/
theorem C142_violated :
    parseTruth .char8 [0x32#8] .default = .ok true ∧
    parseTruth .char8 [0x2D#8, 0x30#8] .default = .throw (.parseFailed .negativeUnsigned) := by decide +kernel

/-- **C142**, in part: truth values are written as 0 and 1 in every format and every encoding, and are got back;
every numeral for 0 or 1 without a minus sign is read as what it denotes.  Missing: numerals for other numbers
are not refused, and minus zero is (`C142_exact`). -/
theorem C142_partial (e : Enc) (f : IntegerFormat) (hf : f.Valid) :
    (∀ b, ∃ s, formatTruth e b f = .ok s ∧ TextOf e s (truthText f b) ∧ parseTruth e s f = .ok b)
    ∧ (∀ s cs ds, TextOf e s cs →
        Spec.Numeral f.radix f.separator.char (f.sign = .alwaysShow) cs false ds →
        ∀ b : Bool, Spec.denote f.radix false ds = (if b then 1 else 0) → parseTruth e s f = .ok b) := by
  constructor
  · intro b
    have ht := textOf_ascii e _ (truthText_ascii f b)
    refine ⟨_, formatTruth_eq e b hf, ht, ?_⟩
    have h2 := hf.1
    have one : LaxRead f.radix f.separator.char (f.sign = .alwaysShow) [49] [1] none false :=
      .last (by decide) (by omega)
    cases b with
    | false =>
      have h : LaxRead f.radix f.separator.char (f.sign = .alwaysShow) [48] [0] none false :=
        .last (by decide) (by omega)
      exact parseTruth_lax e hf ht h
    | true =>
      unfold truthText at ht ⊢
      by_cases hs : f.sign = .alwaysShow
      · rw [if_pos hs] at ht ⊢
        exact parseTruth_lax e hf ht (.plus one (by simpa using hs))
      · rw [if_neg hs] at ht ⊢
        exact parseTruth_lax e hf ht one
  · intro s cs ds ht hn b hb
    obtain ⟨sign, due, hl, hs⟩ := numeral_lax hn
    rw [parseTruth_lax e hf ht hl, if_neg (by rw [hs]; decide)]
    have := positional_zero hf.1 ds
    simp only [Spec.denote, Bool.false_eq_true, if_false] at hb
    congr 1
    rw [Bool.eq_iff_iff, List.any_eq_true]
    simp only [bne_iff_ne]
    rw [← this]
    cases b <;> simp at hb ⊢ <;> omega

/- With commas, `true` is `+1` where signs are shown, and 001 is read as `true`. -/
example : formatTruth .char16 true ⟨16, .alwaysShow, .comma⟩ = .ok [0x2B#16, 0x31#16]
    ∧ Spec.Numeral 10 (some 44) false [48, 48, 49] false [0, 0, 1]
    ∧ parseTruth .char8 [0x30#8, 0x30#8, 0x31#8] ⟨10, .onlyWhenNegative, .comma⟩ = .ok true :=
  ⟨by decide +kernel, ⟨[], _, rfl, ⟨by simp, by simp, [48, 48, 49], rfl, rfl⟩, .inl ⟨rfl, rfl⟩⟩, by decide +kernel⟩

end Cmp
