import Verif.Proofs.UnicodeLoose
import Verif.Props.Unicode
import Mathlib.Tactic.ByContra

/-
Property theorems: where `-=` leads in UTF-16, exactly which increments leave the string, and exactly how far `validate_string`
gets on strings of every kind.
-/

namespace Cmp

open _root_.Spec (Group Loose Overlong CutOff announced)

/-- Neither half of a surrogate pair. -/
def nonSurrogate (u : Nat) : Bool := decide (u < 0xD800 ∨ 0xDFFF < u)

/-- One if a surrogate pair comes first. -/
def halfOfPair : List Nat → Nat
  | u :: v :: _ => if (0xD800 ≤ u ∧ u ≤ 0xDBFF) ∧ 0xDC00 ≤ v ∧ v ≤ 0xDFFF then 1 else 0
  | _ => 0

/-! ### C09 -/

instance (us : List Nat) : Decidable (CutOff .utf16 us) :=
  match us with
  | [] => .isFalse (by rintro ⟨u, h, -⟩; cases h)
  | [u] => decidable_of_iff (0xD800 ≤ u ∧ u ≤ 0xDBFF)
      ⟨fun h => ⟨u, rfl, h⟩, by rintro ⟨v, h, h'⟩; cases h; exact h'⟩
  | _ :: _ :: _ => .isFalse (by rintro ⟨u, h, -⟩; cases h)

theorem stepN_ok_succ (step : Nat → Outcome Nat) (n i j : Nat) (h : step i = .ok j) :
    stepN step (n + 1) i = stepN step n j := by
  rw [stepN, h]; rfl

theorem utf16_stepN (s : List Char16) (n : Nat) :
    ∀ i, i ≤ s.length →
      let k := ((restN s i).takeWhile nonSurrogate).length
      let rest := (restN s i).dropWhile nonSurrogate
      (n ≤ k + halfOfPair rest → stepN (Utf16.advance s) n i = .ok (i + n))
      ∧ (k + halfOfPair rest < n → stepN (Utf16.advance s) n i
          = if rest = [] ∨ CutOff .utf16 rest then .ub else .throw .invalidUnicodeEncoding) := by
  induction n with
  | zero => intro i hi; exact ⟨fun _ => rfl, fun h => absurd h (Nat.not_lt_zero _)⟩
  | succ n ih =>
    intro i hi
    by_cases hend : i = s.length
    · have hr : restN s i = [] := restN_end s i (by omega)
      rw [hr]
      refine ⟨fun h => absurd h (by simp [halfOfPair]), fun _ => ?_⟩
      rw [if_pos (by simp), stepN, Utf16.advance, unitAt, hend]
      simp
    have hlt : i < s.length := by omega
    have hadv := utf16_advance_scan s i hlt
    have hcons := restN_cons s i hlt
    have hbnd : s[i].toNat < 2 ^ 16 := bv16_lt s[i]
    generalize s[i].toNat = u at hcons hbnd
    by_cases hu : nonSurrogate u = true
    · have hu' := hu
      simp only [nonSurrogate, decide_eq_true_eq] at hu'
      have hsc : Spec.scan16 (restN s i) = .complete u 1 := by
        rw [hcons, Spec.scan16, if_neg (by omega), if_neg (by omega)]
      rw [hsc] at hadv
      have := ih (i + 1) (by omega)
      rw [stepN_ok_succ _ _ _ _ (show Utf16.advance s i = .ok (i + 1) from hadv), hcons,
        List.takeWhile_cons, List.dropWhile_cons, if_pos hu, if_pos hu]
      simp only [List.length_cons] at this ⊢
      refine ⟨fun h => ?_, fun h => this.2 (by omega)⟩
      rw [this.1 (by omega)]
      congr 1
      omega
    · have hu' := hu
      simp only [nonSurrogate, decide_eq_true_eq] at hu'
      have hk : ((restN s i).takeWhile nonSurrogate) = [] := by
        rw [hcons, List.takeWhile_cons, if_neg hu]
      have hd : ((restN s i).dropWhile nonSurrogate) = restN s i := by
        rw [hcons, List.dropWhile_cons, if_neg hu]
      rw [hk, hd]
      dsimp only
      have hne : restN s i ≠ [] := by rw [hcons]; simp
      by_cases hlead : 0xD800 ≤ u ∧ u ≤ 0xDBFF
      · by_cases hlast : i + 1 = s.length
        · rw [restN_end s (i + 1) (by omega)] at hcons
          have hsc : Spec.scan16 (restN s i) = .truncated := by
            rw [hcons, Spec.scan16, if_pos hlead]; rfl
          refine ⟨fun h => ?_, fun h => ?_⟩
          · rw [hcons] at h; simp [halfOfPair] at h
          · rw [if_pos (.inr ((scan16_truncated _ hne).mp hsc)), stepN, hadv, hsc]; rfl
        · have hlt' : i + 1 < s.length := by omega
          have hcons' := restN_cons s (i + 1) hlt'
          have hadv' := utf16_advance_scan s (i + 1) hlt'
          generalize s[i + 1].toNat = v at hcons'
          have hcons2 := hcons
          rw [hcons'] at hcons2
          by_cases hv : 0xDC00 ≤ v ∧ v ≤ 0xDFFF
          · have hsc : Spec.scan16 (restN s i)
                = .complete (0x10000 + (u - 0xD800) * 1024 + (v - 0xDC00)) 2 := by
              rw [hcons2, Spec.scan16, if_pos hlead, Spec.scanPair, if_pos hv]
            have hsc' : Spec.scan16 (restN s (i + 1)) = .malformed := by
              rw [hcons', Spec.scan16, if_neg (by omega), if_pos hv]
            have hhalf : halfOfPair (restN s i) = 1 := by
              rw [hcons2, halfOfPair, if_pos ⟨hlead, hv⟩]
            rw [hsc] at hadv
            rw [hsc'] at hadv'
            have hnot : ¬ (restN s i = [] ∨ CutOff .utf16 (restN s i)) := by
              rintro (h | h)
              · exact hne h
              · rw [← scan16_truncated _ hne, hsc] at h; cases h
            rw [hhalf, if_neg hnot,
              stepN_ok_succ _ _ _ _ (show Utf16.advance s i = .ok (i + 1) from hadv)]
            refine ⟨fun h => ?_, fun h => ?_⟩
            · have : n = 0 := by simp at h; exact h
              subst this
              rfl
            · obtain ⟨m, rfl⟩ : ∃ m, n = m + 1 := ⟨n - 1, by simp at h; omega⟩
              rw [stepN, hadv']
              rfl
          · have hsc : Spec.scan16 (restN s i) = .malformed := by
              rw [hcons2, Spec.scan16, if_pos hlead, Spec.scanPair, if_neg hv]
            have hhalf : halfOfPair (restN s i) = 0 := by
              rw [hcons2, halfOfPair, if_neg (fun h => hv h.2)]
            have hnot : ¬ (restN s i = [] ∨ CutOff .utf16 (restN s i)) := by
              rintro (h | h)
              · exact hne h
              · rw [← scan16_truncated _ hne, hsc] at h; cases h
            rw [hhalf, if_neg hnot]
            refine ⟨fun h => absurd h (by simp), fun _ => ?_⟩
            rw [stepN, hadv, hsc]; rfl
      · have hsc : Spec.scan16 (restN s i) = .malformed := by
          rw [hcons, Spec.scan16, if_neg hlead, if_pos (by omega)]
        have hhalf : halfOfPair (restN s i) = 0 := by
          rw [hcons]
          cases restN s (i + 1) with
          | nil => rfl
          | cons v vs => rw [halfOfPair, if_neg (fun h => hlead h.1)]
        have hnot : ¬ (restN s i = [] ∨ CutOff .utf16 (restN s i)) := by
          rintro (h | h)
          · exact hne h
          · rw [← scan16_truncated _ hne, hsc] at h; cases h
        rw [hhalf, if_neg hnot]
        refine ⟨fun h => absurd h (by simp), fun _ => ?_⟩
        rw [stepN, hadv, hsc]; rfl

theorem utf16_back_le (s : List Char16) (n : Nat) :
    ∀ i j, stepN (Utf16.retreat s) n i = .ok j → j + n ≤ i := by
  induction n with
  | zero =>
    intro i j h
    rw [stepN] at h
    simp only [Outcome.ok.injEq] at h
    omega
  | succ n ih =>
    intro i j h
    cases i with
    | zero => cases h
    | succ i =>
      by_cases hi : i < s.length
      · rw [stepN, Utf16.retreat.eq_def] at h
        dsimp only at h
        rw [unitAt_eq s i hi, Outcome.ok_bind] at h
        by_cases ht : isTrailingSurrogate s[i] = true
        · rw [if_pos ht] at h
          cases i with
          | zero => cases h
          | succ i =>
            have := ih i j h
            omega
        · rw [if_neg ht] at h
          have := ih i j h
          omega
      · rw [stepN, Utf16.retreat.eq_def] at h
        dsimp only at h
        rw [unitAt, List.getElem?_eq_none (by omega)] at h
        cases h

/-- Where `it -= n` and `it - n` lead in UTF-16, for every string and position: forward, by `n`
units, as long as these are no surrogates (one half of a pair may be the last); beyond that the
program is terminated by an exception, or memory behind the string is read.  So they do what `n`
decrements do for `n = 0` only. -/
theorem C09_exact (e : Enc) (he : e.form = .utf16) (s : Str e) (n i : Nat) (hi : i ≤ s.length) :
    let k := ((units (s.drop i)).takeWhile nonSurrogate).length
    let rest := (units (s.drop i)).dropWhile nonSurrogate
    (retreatBy e s n i =
      if n ≤ k + halfOfPair rest then .ok (i + n)
      else if rest = [] ∨ CutOff .utf16 rest then .ub
      else .terminate)
    ∧ minusOp e s n i = retreatBy e s n i
    ∧ (∀ j, stepN (retreat e s) n i = .ok j →
        ((retreatBy e s n i = .ok j ↔ n = 0) ∧ (minusOp e s n i = .ok j ↔ n = 0))) := by
  have key : ∀ t : List Char16, i ≤ t.length → ∀ x : Outcome Nat,
      x = (stepN (Utf16.advance t) n i).noexcept →
      (x = if n ≤ ((units (t.drop i)).takeWhile nonSurrogate).length
            + halfOfPair ((units (t.drop i)).dropWhile nonSurrogate) then .ok (i + n)
          else if (units (t.drop i)).dropWhile nonSurrogate = []
            ∨ CutOff .utf16 ((units (t.drop i)).dropWhile nonSurrogate) then .ub
          else .terminate)
      ∧ x.noexcept = x
      ∧ ∀ j, stepN (Utf16.retreat t) n i = .ok j →
          ((x = .ok j ↔ n = 0) ∧ (x.noexcept = .ok j ↔ n = 0)) := by
    intro t ht x hx
    obtain ⟨h1, h2⟩ := utf16_stepN t n i ht
    change n ≤ ((units (t.drop i)).takeWhile nonSurrogate).length
            + halfOfPair ((units (t.drop i)).dropWhile nonSurrogate) → _ at h1
    change ((units (t.drop i)).takeWhile nonSurrogate).length
            + halfOfPair ((units (t.drop i)).dropWhile nonSurrogate) < n →
      _ = if (units (t.drop i)).dropWhile nonSurrogate = []
            ∨ CutOff .utf16 ((units (t.drop i)).dropWhile nonSurrogate) then _ else _ at h2
    have first : x = if n ≤ ((units (t.drop i)).takeWhile nonSurrogate).length
            + halfOfPair ((units (t.drop i)).dropWhile nonSurrogate) then .ok (i + n)
          else if (units (t.drop i)).dropWhile nonSurrogate = []
            ∨ CutOff .utf16 ((units (t.drop i)).dropWhile nonSurrogate) then .ub
          else .terminate := by
      split
      · rename_i h; rw [hx, h1 h]; rfl
      · rename_i h
        split
        · rename_i h'; rw [hx, h2 (by omega), if_pos h']; rfl
        · rename_i h'; rw [hx, h2 (by omega), if_neg h']; rfl
    have hno : x.noexcept = x := by
      rw [first]
      split
      · rfl
      · split <;> rfl
    refine ⟨first, hno, fun j hj => ?_⟩
    have hle := utf16_back_le t n i j hj
    have hiff : x = .ok j ↔ n = 0 := by
      constructor
      · intro h
        rw [first] at h
        split at h
        · simp only [Outcome.ok.injEq] at h; omega
        · split at h <;> cases h
      · rintro rfl
        rw [stepN] at hj
        rw [first, if_pos (by omega), Nat.add_zero, hj]
    exact ⟨hiff, by rw [hno]; exact hiff⟩
  cases e with
  | narrow => cases he
  | char8 => cases he
  | char32 => cases he
  | wide4 => cases he
  | char16 => exact key s hi _ rfl
  | wide2 => exact key s hi _ rfl

example : retreatBy .char16 [0x41#16, 0x42#16, 0x43#16] 1 1 = .ok 2
    ∧ retreat .char16 [0x41#16, 0x42#16, 0x43#16] 1 = .ok 0
    ∧ retreatBy .char16 [0x41#16, 0xDC00#16] 2 0 = .terminate
    ∧ retreatBy .char16 [0x41#16] 1 1 = .ub := by decide +kernel

/-! ### C10 -/

/-- For every string of every character type and every position before the end: a dereference
reports `iterated_past_end`, and an increment reads behind the end, exactly when what is left is the
beginning of a sequence that the end of the string cuts off.  In all other cases both succeed or both
report the encoding as invalid.  In `char` strings and UTF-32 there is nothing to cut off. -/
theorem C10_exact (e : Enc) (s : Str e) (i : Nat) (hi : i < s.length) :
    (advance e s i = .ub ↔ e ≠ .narrow ∧ CutOff e.form (units (s.drop i)))
    ∧ (deref e s i = .throw .iteratedPastEnd ↔ e ≠ .narrow ∧ CutOff e.form (units (s.drop i)))
    ∧ ((∃ c, deref e s i = .ok c) ↔ ∃ j, advance e s i = .ok j ∧ i < j ∧ j ≤ s.length)
    ∧ (deref e s i = .throw .invalidUnicodeEncoding ↔
        advance e s i = .throw .invalidUnicodeEncoding) := by
  have hne : units (s.drop i) ≠ [] := by
    intro h
    have := congrArg List.length h
    simp [units] at this
    omega
  have key : advance e s i = .ub ↔ e ≠ .narrow ∧ CutOff e.form (units (s.drop i)) := by
    have raw : ∀ (w : Nat) (t : List (BitVec w)), i < t.length → rawAdvance t i ≠ .ub := by
      intro w t h; simp [rawAdvance, h]
    have sub : ∀ (sc : Spec.Scan), scanAdvance i sc = .ub ↔ sc = .truncated := by
      intro sc; cases sc <;> simp [scanAdvance]
    have sub16 : ∀ (sc : Spec.Scan), scanAdvance16 i sc = .ub ↔ sc = .truncated := by
      intro sc; cases sc <;> simp [scanAdvance16]
    cases e with
    | narrow => exact ⟨fun h => absurd h (raw _ s hi), fun h => absurd rfl h.1⟩
    | char32 => exact ⟨fun h => absurd h (raw _ s hi), fun h => absurd h.2 id⟩
    | wide4 => exact ⟨fun h => absurd h (raw _ s hi), fun h => absurd h.2 id⟩
    | char8 =>
      have h : advance .char8 s i = _ := utf8_advance_scan s i hi
      rw [h, sub]
      exact (scan8_truncated _ hne).trans ⟨fun h => ⟨by decide, h⟩, fun h => h.2⟩
    | char16 =>
      have h : advance .char16 s i = _ := utf16_advance_scan s i hi
      rw [h, sub16]
      exact (scan16_truncated _ hne).trans ⟨fun h => ⟨by decide, h⟩, fun h => h.2⟩
    | wide2 =>
      have h : advance .wide2 s i = _ := utf16_advance_scan s i hi
      rw [h, sub16]
      exact (scan16_truncated _ hne).trans ⟨fun h => ⟨by decide, h⟩, fun h => h.2⟩
  refine ⟨key, ?_, ?_, ?_⟩
  · rw [← key]
    rcases deref_cases e s i hi with ⟨c, h1, j, h2, _⟩ | ⟨h1, h2⟩ | ⟨h1, h2⟩ <;> simp [h1, h2]
  · rcases deref_cases e s i hi with ⟨c, h1, j, h2, h3, h4⟩ | ⟨h1, h2⟩ | ⟨h1, h2⟩
    · exact ⟨fun _ => ⟨j, h2, h3, h4⟩, fun _ => ⟨c, h1⟩⟩
    · simp [h1, h2]
    · simp [h1, h2]
  · rcases deref_cases e s i hi with ⟨c, h1, j, h2, _⟩ | ⟨h1, h2⟩ | ⟨h1, h2⟩ <;> simp [h1, h2]

/-- The three bytes of the euro sign without the last, behind a letter. -/
example : advance .char8 [0x41#8, 0xE2#8, 0x82#8] 1 = .ub :=
  (C10_exact .char8 [0x41#8, 0xE2#8, 0x82#8] 1 (by decide)).1.mpr
    ⟨by decide, 0xE2, [0x82], by decide, by decide, by decide⟩

/-! ### C13 -/

theorem validateString_utf16 (e : Enc) (s : Str e)
    (hd : ∀ i, i < s.length → deref e s i = scanDeref (Spec.scan16 (restN s i)))
    (ha : ∀ i, i < s.length → advance e s i = scanAdvance16 i (Spec.scan16 (restN s i)))
    (hb : ∀ u ∈ units s, u < 2 ^ 16) :
    validateString e s = .ok (((units s).takeWhile nonSurrogate).length
      + halfOfPair ((units s).dropWhile nonSurrogate)) := by
  have hbr : ∀ i, ∀ u ∈ restN s i, u < 2 ^ 16 := by
    intro i u hu
    refine hb u ?_
    rw [restN, List.map_drop] at hu
    exact List.mem_of_mem_drop hu
  have h := validateFrom_run e s nonSurrogate halfOfPair ?_ ?_ (s.length + 1) 0 (by omega) (by omega)
  · rw [validateString, h]
    simp [restN, units]
  · intro i u us hi hr hg
    simp only [nonSurrogate, decide_eq_true_eq] at hg
    have hsc : Spec.scan16 (restN s i) = .complete u 1 := by
      rw [hr, Spec.scan16, if_neg (by omega), if_neg (by omega)]
    have hu := hbr i u (by rw [hr]; simp)
    refine ⟨BitVec.ofNat 32 u, by rw [hd i hi, hsc]; rfl, ?_, by rw [ha i hi, hsc]; rfl⟩
    rw [max_lt_ofNat (by omega)]
    omega
  · intro i fuel hi hf hg
    obtain ⟨n, rfl⟩ : ∃ n, fuel = n + 1 := ⟨fuel - 1, by omega⟩
    by_cases hend : i = s.length
    · rw [validateFrom, if_pos hend, restN_end s i (by omega)]; rfl
    have hlt : i < s.length := by omega
    have hcons := restN_cons s i hlt
    generalize s[i].toNat = u at hcons
    have hu := hg u _ hcons
    simp only [nonSurrogate, decide_eq_false_iff_not] at hu
    by_cases hlead : 0xD800 ≤ u ∧ u ≤ 0xDBFF
    · by_cases hlast : i + 1 = s.length
      · rw [restN_end s (i + 1) (by omega)] at hcons
        have hsc : Spec.scan16 (restN s i) = .truncated := by
          rw [hcons, Spec.scan16, if_pos hlead]; rfl
        rw [validateFrom, if_neg hend, hd i hlt, hsc, hcons]; rfl
      · have hlt' : i + 1 < s.length := by omega
        have hcons' := restN_cons s (i + 1) hlt'
        generalize s[i + 1].toNat = v at hcons'
        rw [hcons'] at hcons
        have hv' := hbr (i + 1) v (by rw [hcons']; simp)
        by_cases hv : 0xDC00 ≤ v ∧ v ≤ 0xDFFF
        · have hsc : Spec.scan16 (restN s i)
              = .complete (0x10000 + (u - 0xD800) * 1024 + (v - 0xDC00)) 2 := by
            rw [hcons, Spec.scan16, if_pos hlead, Spec.scanPair, if_pos hv]
          have hsc' : Spec.scan16 (restN s (i + 1)) = .malformed := by
            rw [hcons', Spec.scan16, if_neg (by omega), if_pos hv]
          obtain ⟨m, rfl⟩ : ∃ m, n = m + 1 := ⟨n - 1, by omega⟩
          rw [validateFrom, if_neg hend, hd i hlt, hsc]
          simp only [scanDeref]
          rw [if_neg (by rw [max_lt_ofNat (by omega)]; omega), ha i hlt, hsc]
          simp only [scanAdvance16]
          rw [validateFrom, if_neg hlast, hd (i + 1) hlt', hsc', hcons, halfOfPair,
            if_pos ⟨hlead, hv⟩]
          rfl
        · have hsc : Spec.scan16 (restN s i) = .malformed := by
            rw [hcons, Spec.scan16, if_pos hlead, Spec.scanPair, if_neg hv]
          rw [validateFrom, if_neg hend, hd i hlt, hsc, hcons, halfOfPair, if_neg (fun h => hv h.2)]
          rfl
    · have hsc : Spec.scan16 (restN s i) = .malformed := by
        rw [hcons, Spec.scan16, if_neg hlead, if_pos (by omega)]
      have hz : halfOfPair (restN s i) = 0 := by
        rw [hcons]
        cases restN s (i + 1) with
        | nil => rfl
        | cons v vs => rw [halfOfPair, if_neg (fun h => hlead h.1)]
      rw [validateFrom, if_neg hend, hd i hlt, hsc, hz]
      rfl

theorem validateString_utf32 (e : Enc) (s : Str e) (good : Nat → Bool)
    (value : Nat → Char32)
    (hd : ∀ i u us, i < s.length → restN s i = u :: us → deref e s i = .ok (value u)
      ∧ advance e s i = .ok (i + 1))
    (hv : ∀ u ∈ units s, good u = true ↔ ¬ maximumCodePoint < value u) :
    validateString e s = .ok ((units s).takeWhile good).length := by
  have hbr : ∀ i u us, restN s i = u :: us → u ∈ units s := by
    intro i u us h
    have hu : u ∈ restN s i := by rw [h]; simp
    rw [restN, List.map_drop] at hu
    exact List.mem_of_mem_drop hu
  have h := validateFrom_run e s good (fun _ => 0) ?_ ?_ (s.length + 1) 0 (by omega) (by omega)
  · rw [validateString, h]
    simp [restN, units]
  · intro i u us hi hr hg
    obtain ⟨h1, h2⟩ := hd i u us hi hr
    exact ⟨_, h1, (hv u (hbr i u us hr)).mp hg, h2⟩
  · intro i fuel hi hf hg
    obtain ⟨n, rfl⟩ : ∃ n, fuel = n + 1 := ⟨fuel - 1, by omega⟩
    by_cases hend : i = s.length
    · rw [validateFrom, if_pos hend]; rfl
    have hlt : i < s.length := by omega
    have hcons := restN_cons s i hlt
    obtain ⟨h1, h2⟩ := hd i _ _ hlt hcons
    have hb := hg _ _ hcons
    have : maximumCodePoint < value s[i].toNat := by
      by_contra hc
      rw [(hv _ (hbr i _ _ hcons)).mpr hc] at hb
      cases hb
    rw [validateFrom, if_neg hend, h1]
    simp only
    rw [if_pos this]
    rfl

/-- How far `validate_string` gets, for all strings.

UTF-8: over the longest beginning that is a row of lead bytes each with the continuation bytes it
announces and a value up to 10FFFF.

UTF-16: up to the first surrogate, and into the first pair, between its two halves, if what comes
there is a pair.

UTF-32: up to the first unit above 10FFFF; surrogates are not noticed.

`char`: up to the first character that is not ASCII. -/
theorem C13_exact :
    (∀ s : Str .char8, ∃ i, validateString .char8 s = .ok i ∧ i ≤ s.length
      ∧ Loose (units (s.take i)) ∧ ∀ j ≤ s.length, Loose (units (s.take j)) → j ≤ i)
    ∧ (∀ (e : Enc) (s : Str e), e.form = .utf16 →
        validateString e s = .ok (((units s).takeWhile nonSurrogate).length
          + halfOfPair ((units s).dropWhile nonSurrogate)))
    ∧ (∀ (e : Enc) (s : Str e), e.form = .utf32 →
        validateString e s = .ok ((units s).takeWhile (· ≤ 0x10FFFF)).length)
    ∧ ∀ s : Str .narrow, validateString .narrow s = .ok ((units s).takeWhile (· < 0x80)).length := by
  have b16 : ∀ t : List Char16, ∀ u ∈ units t, u < 2 ^ 16 := by
    intro t u hu
    obtain ⟨x, -, rfl⟩ := List.mem_map.mp hu
    exact bv16_lt x
  have raw : ∀ (w : Nat) (t : List (BitVec w)) (i : Nat), i < t.length →
      rawAdvance t i = .ok (i + 1) := by
    intro w t i h; simp [rawAdvance, h]
  have k32 : ∀ (t : List Char32) (i u : Nat) (us : List Nat), i < t.length → restN t i = u :: us →
      rawDeref t i = .ok (BitVec.ofNat 32 u) := by
    intro t i u us hi hr
    rw [restN_cons t i hi] at hr
    rw [rawDeref, if_neg (by omega), unitAt_eq t i hi, ← (List.cons.inj hr).1, BitVec.ofNat_toNat,
      BitVec.setWidth_eq]
  have v32 : ∀ (t : List Char32), ∀ u ∈ units t,
      decide (u ≤ 0x10FFFF) = true ↔ ¬ maximumCodePoint < BitVec.ofNat 32 u := by
    intro t u hu
    obtain ⟨x, -, rfl⟩ := List.mem_map.mp hu
    rw [max_lt_ofNat x.isLt, decide_eq_true_eq]
    omega
  refine ⟨?_, ?_, ?_, ?_⟩
  · intro s
    obtain ⟨j, e, -, h2, h3, h4⟩ := validateFrom_loose s (s.length + 1) 0 (by omega) (by omega)
    have hu : ∀ k, units (s.take k) = (restN s 0).take k := by
      intro k; simp [units, restN, List.map_take]
    refine ⟨j, by rw [validateString, e], h2, by rw [hu]; exact h3, fun k hk hl => ?_⟩
    rw [hu] at hl
    have := h4 _ hl (List.take_prefix _ _)
    rw [List.length_take, restN_length] at this
    omega
  · intro e s he
    cases e with
    | narrow => cases he
    | char8 => cases he
    | char32 => cases he
    | wide4 => cases he
    | char16 =>
      exact validateString_utf16 .char16 s (fun i hi => utf16_deref_scan s i hi)
        (fun i hi => utf16_advance_scan s i hi) (b16 s)
    | wide2 =>
      exact validateString_utf16 .wide2 s (fun i hi => utf16_deref_scan s i hi)
        (fun i hi => utf16_advance_scan s i hi) (b16 s)
  · intro e s he
    cases e with
    | narrow => cases he
    | char8 => cases he
    | char16 => cases he
    | wide2 => cases he
    | char32 =>
      exact validateString_utf32 .char32 s _ (BitVec.ofNat 32)
        (fun i u us hi hr => ⟨k32 s i u us hi hr, raw _ s i hi⟩) (v32 s)
    | wide4 =>
      exact validateString_utf32 .wide4 s _ (BitVec.ofNat 32)
        (fun i u us hi hr => ⟨k32 s i u us hi hr, raw _ s i hi⟩) (v32 s)
  · intro s
    have key : ∀ x : BitVec 8, x.toNat < 0x80 ↔ ¬ maximumCodePoint < x.signExtend 32 := by
      decide +kernel
    refine validateString_utf32 .narrow s _ (fun u => (BitVec.ofNat 8 u).signExtend 32) ?_ ?_
    · intro i u us hi hr
      refine ⟨?_, raw _ s i hi⟩
      show narrowDeref s i = _
      rw [restN_cons s i hi] at hr
      rw [narrowDeref, if_neg (by omega), unitAt_eq s i hi, ← (List.cons.inj hr).1,
        BitVec.ofNat_toNat, BitVec.setWidth_eq]
      rfl
    · intro u hu
      obtain ⟨x, -, rfl⟩ := List.mem_map.mp hu
      rw [BitVec.ofNat_toNat, BitVec.setWidth_eq, decide_eq_true_eq]
      clear hu
      exact key x

example : validateString .char8 [0x41#8, 0xC0#8, 0x80#8, 0xED#8, 0xA0#8, 0x80#8, 0xF8#8] = .ok 6
    ∧ validateString .char16 [0x41#16, 0xD83D#16, 0xDE00#16] = .ok 2
    ∧ validateString .char32 [0x41#32, 0xD800#32, 0x110000#32] = .ok 2
    ∧ validateString .narrow [0x41#8, 0xE9#8] = .ok 1 := by decide +kernel

/-- Which of the UTF-8 strings accepted are not well-formed: those in which a group is overlong or
spells a surrogate. -/
theorem C13_exact_accepted (gs : List (List Nat × Nat))
    (h : ∀ g ∈ gs, Group g.1 g.2 ∧ g.2 ≤ 0x10FFFF) :
    Spec.WellFormed .utf8 (gs.map (·.1)).flatten ↔
      ∀ g ∈ gs, ¬ Overlong g.1 g.2 ∧ ¬ (0xD800 ≤ g.2 ∧ g.2 ≤ 0xDFFF) := by
  have one : ∀ g : List Nat × Nat, Group g.1 g.2 → ¬ Overlong g.1 g.2 → g.2 ≤ 0x10FFFF →
      g.1 = Spec.utf8 g.2 := by
    rintro ⟨g, v⟩ hg ho hv
    simp only at *
    rcases hg with ⟨a, h1, rfl, rfl⟩ | ⟨a, b, h1, h2, rfl, rfl⟩ | ⟨a, b, c, h1, h2, h3, rfl, rfl⟩
      | ⟨a, b, c, d, h1, h2, h3, h4, rfl, rfl⟩
    · rw [Spec.utf8, if_pos h1]
    · have ho' : ¬ _ < 0x80 := fun h => ho (.inl ⟨rfl, h⟩)
      rw [Spec.utf8, if_neg (by omega), if_pos (by omega)]
      simp only [List.cons.injEq, and_true]
      omega
    · have ho' : ¬ _ < 0x800 := fun h => ho (.inr (.inl ⟨rfl, h⟩))
      rw [Spec.utf8, if_neg (by omega), if_neg (by omega), if_pos (by omega)]
      simp only [List.cons.injEq, and_true]
      omega
    · have ho' : ¬ _ < 0x10000 := fun h => ho (.inr (.inr ⟨rfl, h⟩))
      rw [Spec.utf8, if_neg (by omega), if_neg (by omega), if_neg (by omega)]
      simp only [List.cons.injEq, and_true]
      omega
  have short : ∀ c, Spec.IsScalar c → ¬ Overlong (Spec.utf8 c) c := by
    intro c hc ho
    have := hc.1
    rw [Overlong, Spec.utf8] at ho
    split at ho
    · simp at ho
    split at ho
    · simp at ho; omega
    split at ho
    · simp at ho; omega
    · simp at ho; omega
  constructor
  · rintro ⟨cs, ht, he⟩
    induction gs generalizing cs with
    | nil => simp
    | cons g gs ih =>
      obtain ⟨hg, hv⟩ := h g (by simp)
      rw [List.map_cons, List.flatten_cons] at he
      have hs := scan8_group hg (gs.map (·.1)).flatten
      cases cs with
      | nil =>
        have := group_length_pos hg
        have hl := congrArg List.length he
        simp only [List.length_append, Spec.Form.encode, List.flatMap_nil, List.length_nil] at hl
        omega
      | cons c cs =>
        have hc := ht c (by simp)
        have h1 := scanForm_encode1 .utf8 c hc (Spec.Form.utf8.encode cs)
        rw [← encode_cons, ← he] at h1
        change Spec.scan8 _ = _ at h1
        rw [hs] at h1
        obtain ⟨hval, hlen⟩ := Spec.Scan.complete.inj h1
        rw [encode_cons] at he
        obtain ⟨e1, e2⟩ := List.append_inj he hlen
        intro x hx
        rcases List.mem_cons.mp hx with rfl | hx
        · rw [e1, hval]
          refine ⟨short c hc, ?_⟩
          have := hc.2
          omega
        · exact ih (fun y hy => h y (by simp [hy])) cs (fun y hy => ht y (by simp [hy])) e2 x hx
  · intro hall
    refine ⟨gs.map (·.2), ?_, ?_⟩
    · intro c hc
      obtain ⟨g, hg, rfl⟩ := List.mem_map.mp hc
      have h1 := h g hg
      have h2 := hall g hg
      exact ⟨h1.2, by omega⟩
    · rw [Spec.Form.encode, List.flatMap_map, List.flatMap_def]
      congr 1
      apply List.map_congr_left
      intro g hg
      exact one g (h g hg).1 (hall g hg).1 (h g hg).2

example : Loose [0x41, 0xC0, 0x80] ∧ ¬ Spec.WellFormed .utf8 [0x41, 0xC0, 0x80] := by
  have hg : ∀ g ∈ [([0x41], 0x41), ([0xC0, 0x80], 0)], Group g.1 g.2 ∧ g.2 ≤ 0x10FFFF := by
    intro g hg
    simp only [List.mem_cons, List.not_mem_nil, or_false] at hg
    rcases hg with rfl | rfl
    · exact ⟨.inl ⟨0x41, by decide, rfl, rfl⟩, by decide⟩
    · exact ⟨.inr (.inl ⟨0, 0, by decide, by decide, rfl, rfl⟩), by decide⟩
  refine ⟨⟨_, rfl, hg⟩, fun h => ?_⟩
  have := (C13_exact_accepted _ hg).mp h ([0xC0, 0x80], 0) (by simp)
  exact this.1 (.inl ⟨rfl, by decide⟩)

end Cmp
