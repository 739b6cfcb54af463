import Verif.Props.FloatReject
import Verif.Props.NumberLax
import Verif.Props.UnicodeExact
import Verif.Spec.Point

/-
Property theorems: exactly which texts `parse_floating_point` accepts (C108), and what it does with
every text (C110).
-/

namespace Cmp

open IntTy
open _root_.Spec (LaxRead addPlaces)

/-! ### The digits that `long long` can add up -/

theorem weighted_powers {r : Nat} : ∀ (es : List Nat) (k : Nat),
    (∀ j, j < es.length → llong.Has ((r ^ (k + j) : Nat) : Int)) →
    Spec.weighted (fun j => llong.wrap ((r ^ (k + j) : Nat) : Int)) es
      = ((r ^ k * revVal r es : Nat) : Int) := by
  intro es
  induction es with
  | nil => intro k _; simp [Spec.weighted, revVal]
  | cons d es ih =>
    intro k h
    have e3 : (fun j => llong.wrap ((r ^ (k + (j + 1)) : Nat) : Int))
        = fun j => llong.wrap ((r ^ (k + 1 + j) : Nat) : Int) := by
      funext j; rw [show k + (j + 1) = k + 1 + j by omega]
    have h0 := h 0 (by simp)
    rw [Spec.weighted, e3, ih (k + 1) (fun j hj => by
      rw [show k + 1 + j = k + (j + 1) by omega]; exact h (j + 1) (by simp; omega)),
      Has.wrap_eq (by decide) h0, revVal]
    push_cast
    rw [Int.pow_succ]
    ring

/-- The digits are added up if and only if the place value of the first of them and the sum fit. -/
theorem sums_llong {r : Nat} {ds : List Nat} (neg : Bool) (h2 : 2 ≤ r) (h36 : r ≤ 36) (hne : ds ≠ [])
    (hds : ∀ d ∈ ds, d < r) :
    Sums llong r neg ds ↔ ((r ^ (ds.length - 1) : Nat) : Int) ≤ llong.max
      ∧ (Spec.positional r ds : Int) ≤ llong.max := by
  have hlen := List.length_pos_iff.mpr hne
  constructor
  · intro h
    have h := h (by decide) (by decide)
    have h1 := h.1 (ds.length - 1) (by simp; omega) rfl
    have h3 := (h.2.1 (ds.length - 1) (by simp; omega)).2
    rw [show ds.length - 1 + 1 = ds.reverse.length by simp; omega, List.take_length] at h3
    have h4 := weighted_powers ds.reverse 0 (fun j hj => by
      have := h.1 j hj rfl
      simpa using this)
    simp only [Nat.zero_add, Nat.pow_zero, Nat.one_mul, ← positional_eq] at h4
    rw [h4] at h3
    exact ⟨h1.2, h3.2⟩
  · rintro ⟨h1, h3⟩
    by_contra hc
    have hsp : Spec.Spells r (Separator.none).char (ds.map Spec.upperDigit) ds := by
      refine ⟨hne, hds, ds.map Spec.upperDigit, ?_, rfl⟩
      rw [List.map_map]
      apply List.map_congr_left
      intro x hx
      exact digitValue_upper (by have := hds x hx; omega)
    let f : IntegerFormat := ⟨r, .alwaysShow, .none⟩
    have hf : f.Valid := ⟨h2, h36⟩
    let sg : List Nat := if neg then [45] else []
    have hnum : Spec.Numeral r (Separator.none).char true (sg ++ ds.map Spec.upperDigit) neg ds := by
      refine ⟨sg, _, rfl, hsp, ?_⟩
      cases neg
      · exact .inl ⟨rfl, rfl⟩
      · exact .inr (.inl ⟨rfl, rfl⟩)
    have hsmall : ∀ c ∈ sg ++ ds.map Spec.upperDigit, c < 128 := by
      intro c hc
      rw [List.mem_append] at hc
      rcases hc with hc | hc
      · cases neg
        · simp [sg] at hc
        · have : c = 45 := by simpa [sg] using hc
          omega
      · rw [List.mem_map] at hc
        obtain ⟨x, hx, rfl⟩ := hc
        have := hds x hx
        unfold Spec.upperDigit
        split <;> omega
    have ht := textOf_ascii .char32 (sg ++ ds.map Spec.upperDigit) hsmall
    obtain ⟨-, -, -, -, x5⟩ := C25_exact .char32 llong f _ _ neg ds (by decide) hf ht hnum
    have hmm : llong.min = -llong.max - 1 := by decide
    have hp := C22_exact .char32 llong f _ _ neg ds (by decide) hf ht hnum (by
      show llong.Has (Spec.denote r neg ds)
      unfold Spec.denote
      constructor <;> split <;> omega)
    rw [x5 (by decide) (by decide) (fun h => hc (fun _ _ => h))] at hp
    rw [if_neg (by simp [llong]), if_neg] at hp
    · cases hp
    · rintro (⟨-, -, h⟩ | ⟨-, -, h⟩)
      · have : f.radix = r := rfl
        rw [this] at h
        omega
      · have : f.radix = r := rfl
        rw [this] at h
        unfold Spec.denote at h
        split at h <;> omega

/-! ### The fraction part -/

theorem parseFraction_places {rnd : ℚ → ℚ} {r : Nat} (h36 : r ≤ 36) (h2 : 2 ≤ r)
    (hr : ∀ q, 1 ≤ q → 1 ≤ rnd q) : ∀ (tail fs : List Nat) (st : ℚ × ℚ), 1 ≤ st.1 →
      tail.map Spec.digitValue = fs.map some → (∀ d ∈ fs, d < r) →
      ((tail.map (BitVec.ofNat 32)).foldlM (parseFractionStep rnd r) st >>= fun x => .ok x.2)
        = Outcome.ok (addPlaces rnd r st.1 st.2 fs) := by
  intro tail
  induction tail with
  | nil =>
    intro fs st _ hm _
    obtain rfl : fs = [] := by simpa using hm.symm
    rfl
  | cons c tail ih =>
    intro fs st hst hm hlt
    cases fs with
    | nil => simp at hm
    | cons d fs =>
      rw [List.map_cons, List.map_cons, List.cons.injEq] at hm
      have hdr := hlt d (by simp)
      have hrq : (1 : ℚ) ≤ r := by exact_mod_cast (by omega : 1 ≤ r)
      have h1 : 1 ≤ rnd (st.1 * r) := hr _ (one_le_mul_of_one_le_of_one_le hst hrq)
      have hstep : parseFractionStep rnd r st (BitVec.ofNat 32 c)
          = .ok (rnd (st.1 * r), rnd (st.2 + rnd ((d : ℚ) / rnd (st.1 * r)))) := by
        rw [parseFractionStep, digitCharacterToInteger_digit h36 hm.1 hdr, Outcome.ok_bind,
          if_neg (by omega), appendDigit]
        rw [if_neg (by intro h0; rw [h0] at h1; norm_num at h1), Int.cast_natCast]
      rw [List.map_cons, List.foldlM_cons, hstep, Outcome.ok_bind,
        ih fs _ h1 hm.2 (fun x hx => hlt x (by simp [hx]))]
      rfl

theorem parseFraction_first {rnd : ℚ → ℚ} {r : Nat} (h36 : r ≤ 36) (h2 : 2 ≤ r)
    (hr : ∀ q, 1 ≤ q → 1 ≤ rnd q) (as : List Nat) (x : Nat) (bs : List Nat) :
    ∀ st : ℚ × ℚ, 1 ≤ st.1 → (∀ c ∈ as, Spec.IsDigit r c) → ¬ Spec.IsDigit r x → x ≤ 0x10FFFF →
      ((as ++ x :: bs).map (BitVec.ofNat 32)).foldlM (parseFractionStep rnd r) st
        = if r < 10 ∨ x ≤ 255 then .throw (.parseFailed .wrongPlaceLimit) else .ub := by
  induction as with
  | nil =>
    intro st _ _ hx hxs
    rw [List.nil_append, List.map_cons, List.foldlM_cons]
    by_cases hok : r < 10 ∨ x ≤ 255
    · rw [if_pos hok, parseFractionStep_nondigit st h36 hxs hok hx]
      rfl
    · rw [if_neg hok, parseFractionStep, digitCharacterToInteger,
        isRadixDigit_ub (by omega) (by omega) (by omega)]
      rfl
  | cons a as ih =>
    intro st hst has hx hxs
    obtain ⟨st1, e1, h1⟩ := parseFractionStep_digit h36 h2 hr hst (has a (by simp))
    rw [List.cons_append, List.map_cons, List.foldlM_cons, e1, Outcome.ok_bind,
      ih st1 h1 (fun y hy => has y (by simp [hy])) hx hxs]

theorem first_nondigit (r : Nat) : ∀ tail : List Nat, (∀ c ∈ tail, Spec.IsDigit r c)
    ∨ ∃ as x bs, tail = as ++ x :: bs ∧ (∀ c ∈ as, Spec.IsDigit r c) ∧ ¬ Spec.IsDigit r x := by
  intro tail
  induction tail with
  | nil => exact .inl (by simp)
  | cons c tail ih =>
    by_cases hc : Spec.IsDigit r c
    · rcases ih with h | ⟨as, x, bs, rfl, h1, h2⟩
      · left
        intro y hy
        rcases List.mem_cons.mp hy with rfl | hy
        · exact hc
        · exact h y hy
      · refine .inr ⟨c :: as, x, bs, rfl, ?_, h2⟩
        intro y hy
        rcases List.mem_cons.mp hy with rfl | hy
        · exact hc
        · exact h1 y hy
    · exact .inr ⟨[], c, tail, rfl, by simp, hc⟩

/-! ### C110 -/

/-- What `parse_floating_point` does with every text.  A supplementary code point in a UTF-16 string
is invalid Unicode to it.  Otherwise what precedes the first radix character goes to
`parse_integer` for `long long`, and if that does not return, neither does this, with the same
outcome.  If it returns `v`:
* a text without a radix character gives `v`;
* a radix character at the end gives `v`, unless there is a place limit other than zero, when it is
  reported as a wrong place limit;
* digits after the radix character are added to `v`, whatever the sign and the place limit;
* the first other character is reported as a wrong place limit, except that above 255 it is
  undefined behaviour from radix ten on. -/
theorem C110_exact (e : Enc) (rnd : ℚ → ℚ) (f : FloatFormat) (s : Str e) (cs : List Nat)
    (hf : f.Valid) (ht : TextOf e s cs) (hr : ∀ q, 1 ≤ q → 1 ≤ rnd q) :
    (e.form = .utf16 ∧ (∃ c ∈ cs, ¬ Spec.IsBmp c)
      ∧ parseFloat e rnd s f = .throw .invalidUnicodeEncoding)
    ∨ ((e.form = .utf16 → ∀ c ∈ cs, Spec.IsBmp c)
      ∧ ∃ head, f.radixCharacter.char ∉ head
        ∧ (cs = head ∨ ∃ tail, cs = head ++ f.radixCharacter.char :: tail)
        ∧ ∀ (e' : Enc) (s' : Str e'), TextOf e' s' head →
          ((∃ x, parseInteger e' .llong s' ⟨f.radix, f.sign, f.separator⟩ = .throw (.parseFailed x)
              ∧ parseFloat e rnd s f = .throw (.parseFailed x))
            ∨ (parseInteger e' .llong s' ⟨f.radix, f.sign, f.separator⟩ = .ub
              ∧ parseFloat e rnd s f = .ub)
            ∨ (∃ v, parseInteger e' .llong s' ⟨f.radix, f.sign, f.separator⟩ = .ok v
              ∧ ((cs = head ∧ parseFloat e rnd s f = .ok (rnd v))
                ∨ (cs = head ++ [f.radixCharacter.char] ∧ parseFloat e rnd s f =
                    if f.placeLimit = .none ∨ f.placeCount = 0 then .ok (rnd v)
                    else .throw (.parseFailed .wrongPlaceLimit))
                ∨ (∃ tail fs, tail ≠ [] ∧ cs = head ++ f.radixCharacter.char :: tail
                  ∧ tail.map Spec.digitValue = fs.map some ∧ (∀ d ∈ fs, d < f.radix)
                  ∧ parseFloat e rnd s f = .ok (addPlaces rnd f.radix 1 (rnd v) fs))
                ∨ (∃ as x bs, cs = head ++ f.radixCharacter.char :: (as ++ x :: bs)
                  ∧ (∀ c ∈ as, Spec.IsDigit f.radix c) ∧ ¬ Spec.IsDigit f.radix x
                  ∧ parseFloat e rnd s f =
                    if f.radix < 10 ∨ x ≤ 255 then .throw (.parseFailed .wrongPlaceLimit)
                    else .ub))))) := by
  rcases C11_exact e .char32 s cs ht (by simp) with ⟨-, hb, -⟩ | ⟨e1, h16, hx⟩ | ⟨-, h8, -⟩
  · right
    refine ⟨hb, integralPart f cs, ?_⟩
    obtain ⟨hrc, hsplit⟩ := split_text f cs
    generalize hhd : integralPart f cs = head at *
    have hint : ∀ c ∈ head, c ∈ cs := by
      rcases hsplit with ⟨h, _⟩ | ⟨tail, h⟩
      · intro c hc; rw [h]; exact hc
      · intro c hc; rw [h]; exact List.mem_append_left _ hc
    have hthead : TextOf .char32 (encs .char32 head) head :=
      textOf_encs .char32 head (fun c hc => ht.1.1 c (hint c hc)) (by simp)
    refine ⟨hrc, hsplit.imp And.left id, fun e' s' h => ?_⟩
    have hsame : parseInteger e' .llong s' ⟨f.radix, f.sign, f.separator⟩
        = parseInteger .char32 .llong (encs .char32 head) ⟨f.radix, f.sign, f.separator⟩ := by
      rw [h.eq, parseInteger_encs e' _ _ _ h.bwd, parseInteger_encs .char32 _ _ _ hthead.bwd]
    have hkinds : (∃ x, parseInteger e' .llong s' ⟨f.radix, f.sign, f.separator⟩
          = .throw (.parseFailed x))
        ∨ parseInteger e' .llong s' ⟨f.radix, f.sign, f.separator⟩ = .ub
        ∨ ∃ v, parseInteger e' .llong s' ⟨f.radix, f.sign, f.separator⟩ = .ok v := by
      rcases C24_exact e' .llong ⟨f.radix, f.sign, f.separator⟩ s' head (by decide) hf h with
        ⟨-, h⟩ | ⟨ds, sign, due, -, h1, h2⟩ | ⟨pre, x, -, -, h⟩ | ⟨pre, x, body, ds, sign, due, -, -, h1, h2⟩
      · exact .inl ⟨_, h⟩
      · by_cases hs : Sums .llong f.radix (sign == some true) ds
        · rw [h2 hs, if_neg (by simp [llong])]
          exact .inr (.inr ⟨_, rfl⟩)
        · exact .inr (.inl (h1 hs))
      · rw [h]
        split
        · exact .inl ⟨_, rfl⟩
        · exact .inr (.inl rfl)
      · by_cases hs : Sums .llong f.radix false ds
        · rcases h2 hs with ⟨-, -, h⟩ | ⟨-, -, h⟩ | ⟨-, -, h⟩
          · exact .inl ⟨_, h⟩
          · exact .inl ⟨_, h⟩
          · rw [h]
            split
            · exact .inl ⟨_, rfl⟩
            · exact .inr (.inl rfl)
        · exact .inr (.inl (h1 hs))
    rcases hsplit with ⟨rfl, -⟩ | ⟨tail, rfl⟩
    · rw [parseFloat_whole rnd hf ht hb hrc, ← hsame]
      rcases hkinds with ⟨x, hx⟩ | hx | ⟨v, hx⟩
      · exact .inl ⟨x, hx, by rw [hx]; rfl⟩
      · exact .inr (.inl ⟨hx, by rw [hx]; rfl⟩)
      · exact .inr (.inr ⟨v, hx, .inl ⟨rfl, by rw [hx]; rfl⟩⟩)
    · rw [parseFloat_parts rnd hf ht hb hrc, ← hsame]
      rcases hkinds with ⟨x, hx⟩ | hx | ⟨v, hx⟩
      · exact .inl ⟨x, hx, by rw [hx]; rfl⟩
      · exact .inr (.inl ⟨hx, by rw [hx]; rfl⟩)
      · refine .inr (.inr ⟨v, hx, .inr ?_⟩)
        rw [hx, Outcome.ok_bind]
        by_cases hne : tail = []
        · subst hne
          refine .inl ⟨rfl, ?_⟩
          by_cases h1 : f.placeLimit = .none
          · rw [if_pos ⟨rfl, h1⟩, if_pos (.inl h1)]
          · rw [if_neg (fun h => h1 h.2)]
            by_cases h2 : f.placeCount = 0
            · rw [if_neg (by omega), if_pos (.inr h2)]
              rfl
            · rw [if_pos ⟨rfl, by omega⟩, if_neg (by rintro (h | h) <;> contradiction)]
        · rw [if_neg (fun h => hne h.1), if_neg (fun h => hne h.1)]
          rcases first_nondigit f.radix tail with hall | ⟨as, x, bs, rfl, has, hx'⟩
          · obtain ⟨fs, hm, hlt⟩ := isDigit_values tail hall
            refine .inr (.inl ⟨tail, fs, hne, rfl, hm, hlt, ?_⟩)
            exact parseFraction_places hf.2 hf.1 hr tail fs (1, rnd v) le_rfl hm hlt
          · refine .inr (.inr ⟨as, x, bs, rfl, has, hx', ?_⟩)
            rw [parseFraction_first hf.2 hf.1 hr as x bs (1, rnd v) le_rfl has hx'
              (ht.1.1 x (by simp)).1]
            split <;> rfl
  · exact .inl ⟨h16, hx, by rw [parseFloat, e1]; rfl⟩
  · cases h8

/-! ### C108 -/

/-- Exactly which texts `parse_floating_point` accepts, and as what: a part that `LaxRead`, whose
digits and first place value fit `long long`; then possibly a radix character; then any digits, and
none only if there is no place limit or it is zero.  A UTF-16 string has no supplementary code
points. -/
theorem C108_exact (e : Enc) (rnd : ℚ → ℚ) (f : FloatFormat) (s : Str e) (cs : List Nat)
    (hf : f.Valid) (ht : TextOf e s cs) (hr : ∀ q, 1 ≤ q → 1 ≤ rnd q) (q : ℚ) :
    parseFloat e rnd s f = .ok q ↔
      (e.form = .utf16 → ∀ c ∈ cs, Spec.IsBmp c)
      ∧ ∃ head ds sign due fs, f.radixCharacter.char ∉ head
        ∧ LaxRead f.radix f.separator.char (f.sign = .alwaysShow) head ds sign due
        ∧ ((f.radix ^ (ds.length - 1) : Nat) : Int) ≤ 2 ^ 63 - 1
        ∧ (Spec.positional f.radix ds : Int) ≤ 2 ^ 63 - 1
        ∧ (∀ d ∈ fs, d < f.radix)
        ∧ ((cs = head ∧ fs = []) ∨ ∃ tail, cs = head ++ f.radixCharacter.char :: tail
          ∧ tail.map Spec.digitValue = fs.map some
          ∧ (fs = [] → f.placeLimit = .none ∨ f.placeCount = 0))
        ∧ q = addPlaces rnd f.radix 1 (rnd (Spec.denote f.radix (sign == some true) ds)) fs := by
  have hmax : llong.max = 2 ^ 63 - 1 := by decide
  have hmin : llong.min = -2 ^ 63 := by decide
  have hfits : ∀ (b : Bool) ds, (Spec.positional f.radix ds : Int) ≤ 2 ^ 63 - 1 →
      llong.wrap (Spec.denote f.radix b ds) = Spec.denote f.radix b ds := by
    intro b ds h
    refine Has.wrap_eq (by decide) ?_
    unfold Spec.denote
    constructor <;> split <;> omega
  have huniq : ∀ {a b x y : List Nat}, f.radixCharacter.char ∉ a → f.radixCharacter.char ∉ b →
      a ++ f.radixCharacter.char :: x = b ++ f.radixCharacter.char :: y → a = b ∧ x = y := by
    intro a
    induction a with
    | nil =>
      intro b x y _ hb h
      cases b with
      | nil => exact ⟨rfl, by simpa using h⟩
      | cons z b =>
        simp only [List.nil_append, List.cons_append, List.cons.injEq] at h
        exact absurd (by rw [h.1]; simp) hb
    | cons w a ih =>
      intro b x y ha hb h
      cases b with
      | nil =>
        simp only [List.nil_append, List.cons_append, List.cons.injEq] at h
        exact absurd (by rw [← h.1]; simp) ha
      | cons z b =>
        simp only [List.cons_append, List.cons.injEq] at h
        obtain ⟨h1, h2⟩ := ih (fun h => ha (by simp [h])) (fun h => hb (by simp [h])) h.2
        exact ⟨by rw [h.1, h1], h2⟩
  constructor
  · intro hq
    rcases C110_exact e rnd f s cs hf ht hr with ⟨-, -, h⟩ | ⟨hb, head, hrc, hsplit, hall⟩
    · rw [h] at hq; cases hq
    refine ⟨hb, head, ?_⟩
    have hth : TextOf .char32 (encs .char32 head) head :=
      textOf_encs .char32 head (fun c hc => ht.1.1 c (by
        rcases hsplit with rfl | ⟨tail, rfl⟩
        · exact hc
        · simp [hc])) (by simp)
    rcases hall .char32 _ hth with ⟨x, -, h⟩ | ⟨-, h⟩ | ⟨v, hv, hcase⟩
    · rw [h] at hq; cases hq
    · rw [h] at hq; cases hq
    obtain ⟨ds, sign, due, hl, -, hs, rfl⟩ :=
      ((C23_exact .char32 .llong ⟨f.radix, f.sign, f.separator⟩ _ head (by decide) hf hth).1 v).mp hv
    have hdig := lax_digits hl
    have hs := (sums_llong _ hf.1 hf.2 hdig.1 hdig.2.1).mp hs
    rw [hmax] at hs
    rw [show (⟨f.radix, f.sign, f.separator⟩ : IntegerFormat).radix = f.radix from rfl,
      hfits _ _ hs.2] at hcase
    rcases hcase with ⟨h1, h2⟩ | ⟨h1, h2⟩ | ⟨tail, fs, hne, h1, hm, hlt, h2⟩ | ⟨as, x, bs, -, -, -, h2⟩
    · rw [h2] at hq
      cases hq
      exact ⟨ds, sign, due, [], hrc, hl, hs.1, hs.2, by simp, .inl ⟨h1, rfl⟩, rfl⟩
    · rw [h2] at hq
      split at hq
      · cases hq
        exact ⟨ds, sign, due, [], hrc, hl, hs.1, hs.2, by simp, .inr ⟨[], h1, rfl, fun _ => by assumption⟩,
          rfl⟩
      · cases hq
    · rw [h2] at hq
      cases hq
      refine ⟨ds, sign, due, fs, hrc, hl, hs.1, hs.2, hlt, .inr ⟨tail, h1, hm, ?_⟩, rfl⟩
      rintro rfl
      exact absurd (by simpa using hm) hne
    · rw [h2] at hq
      split at hq <;> cases hq
  · rintro ⟨hb, head, ds, sign, due, fs, hrc, hl, hp, hs, hlt, hcs, rfl⟩
    rcases C110_exact e rnd f s cs hf ht hr with ⟨h16, ⟨c, hc, hx⟩, -⟩ | ⟨-, head', hrc', hsplit, hall⟩
    · exact absurd (hb h16 c hc) hx
    have hhead : head' = head := by
      rcases hcs with ⟨rfl, -⟩ | ⟨tail, h1, -⟩
      · rcases hsplit with h | ⟨tail, rfl⟩
        · exact h.symm
        · simp at hrc
      · rcases hsplit with rfl | ⟨tail', h2⟩
        · rw [h1] at hrc'; simp at hrc'
        · exact (huniq hrc' hrc (h2.symm.trans h1)).1
    subst hhead
    have hth : TextOf .char32 (encs .char32 head') head' :=
      textOf_encs .char32 head' (fun c hc => ht.1.1 c (by
        rcases hsplit with rfl | ⟨tail, rfl⟩
        · exact hc
        · simp [hc])) (by simp)
    have hdig := lax_digits hl
    have hv := ((C23_exact .char32 .llong ⟨f.radix, f.sign, f.separator⟩ _ head' (by decide) hf hth).1
      (Spec.denote f.radix (sign == some true) ds)).mpr ⟨ds, sign, due, hl, .inl (by decide),
        (sums_llong _ hf.1 hf.2 hdig.1 hdig.2.1).mpr (by rw [hmax]; exact ⟨hp, hs⟩),
        (hfits _ _ hs).symm⟩
    rcases hall .char32 _ hth with ⟨x, h, -⟩ | ⟨h, -⟩ | ⟨v, h, hcase⟩
    · rw [hv] at h; cases h
    · rw [hv] at h; cases h
    rw [hv] at h
    cases h
    rcases hcs with ⟨rfl, rfl⟩ | ⟨tail, rfl, hm, hlim⟩
    · rcases hcase with ⟨-, h2⟩ | ⟨h1, h2⟩ | ⟨tail, fs, hne, h1, -⟩ | ⟨as, x, bs, h1, -⟩
      · exact h2
      all_goals
        have := congrArg List.length h1
        simp at this
    · rcases hcase with ⟨h1, -⟩ | ⟨h1, h2⟩ | ⟨tail', fs', hne, h1, hm', hlt', h2⟩
          | ⟨as, x, bs, h1, has, hx, -⟩
      · have := congrArg List.length h1
        simp at this
      · obtain rfl : tail = [] := by simpa using h1
        obtain rfl : fs = [] := by simpa using hm.symm
        rw [h2, if_pos (hlim rfl)]
        rfl
      · obtain rfl : tail = tail' := by simpa using h1
        rw [hm] at hm'
        obtain rfl : fs = fs' := List.map_injective_iff.mpr (Option.some_injective _) hm'
        exact h2
      · obtain rfl : tail = as ++ x :: bs := by simpa using h1
        exfalso
        apply hx
        obtain ⟨d, hd⟩ := mem_digits hm (c := x) (by simp)
        have : some d ∈ fs.map some := by rw [← hm, ← hd]; simp
        exact ⟨d, hd, hlt d (by simpa using this)⟩

/-- `1-2.5` is read as -11.5; of `1.x` the `x` is called a wrong place limit. -/
example : parseFloat .char8 id [0x31#8, 0x2D#8, 0x32#8, 0x2E#8, 0x35#8] .default = .ok (-23 / 2)
    ∧ parseFloat .char8 id [0x31#8, 0x2E#8, 0x78#8] .default = .throw (.parseFailed .wrongPlaceLimit)
    ∧ TextOf .char8 [0x31#8, 0x2D#8, 0x32#8, 0x2E#8, 0x35#8] [49, 45, 50, 46, 53]
    ∧ FloatFormat.default.Valid ∧ ∀ q : ℚ, 1 ≤ q → 1 ≤ id q :=
  ⟨by decide +kernel, by decide +kernel, ⟨⟨by unfold Spec.IsText; decide, by decide⟩, by simp⟩,
    by unfold FloatFormat.Valid; decide, fun _ h => h⟩

end Cmp
