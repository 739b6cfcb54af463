import Verif.Props.FloatEnds
import Verif.Proofs.Overflow

/-
Properties C127 and C128: parsing and formatting floating-point numbers with overflow, infinities and
what is not a number.
-/

namespace Cmp

open IntTy FloatValue
open _root_.Spec (BinFmt binary64)
open _root_.Cmp.Spec (Rounds overflowsAt IsValue)

/-! ### The parts of a text -/

theorem prependDigit_range {T : IntTy} (hT : T.Std) {radix : Nat} {d : Int} {st st' : ParseState}
    (h : prependDigit T radix d st = .ok st') : T.Has st'.output := by
  unfold prependDigit at h
  simp only [Outcome.bind_eq_ok] at h
  obtain ⟨p, -, m, -, s, -, h⟩ := h
  injection h with h
  rw [← h]
  exact has_wrap hT _

theorem checkForSign_output {c : Char32} {st st' : ParseState} {s : SignStatus} {b : Bool}
    (h : checkForSign c st s = .ok (b, st')) : st'.output = st.output := by
  unfold checkForSign at h
  split at h
  · split at h
    · cases h
    · split at h <;> (injection h with h; injection h with _ h; rw [← h])
  · injection h with h; injection h with _ h; rw [← h]

theorem parseStep_range {T : IntTy} (hT : T.Std) {f : IntegerFormat} {c : Char32} {st st' : ParseState}
    (hs : T.Has st.output) (h : parseStep T f st c = .ok st') : T.Has st'.output := by
  unfold parseStep at h
  split at h
  · rw [Outcome.bind_eq_ok] at h
    obtain ⟨⟨b, st1⟩, h1, h⟩ := h
    have h2 := checkForSign_output h1
    simp only at h
    have h3 : st' = st1 := by
      split at h
      · injection h with h; exact h.symm
      · rw [Outcome.bind_eq_ok] at h
        obtain ⟨_, -, h⟩ := h
        injection h with h; exact h.symm
    rw [h3, h2]
    exact hs
  · rw [Outcome.bind_eq_ok] at h
    obtain ⟨⟨b, st1⟩, h1, h⟩ := h
    have h2 := checkForSign_output h1
    simp only at h
    split at h
    · injection h with h
      rw [← h, h2]
      exact hs
    · rw [Outcome.bind_eq_ok] at h
      obtain ⟨b, -, h⟩ := h
      split at h
      · cases h
      · rw [Outcome.bind_eq_ok] at h
        obtain ⟨d, -, h⟩ := h
        exact prependDigit_range hT h

theorem rforEachFrom_range {T : IntTy} (hT : T.Std) {e : Enc} {s : Str e} {f : IntegerFormat} :
    ∀ (fuel i : Nat) (st st' : ParseState), T.Has st.output →
      rforEachFrom e s (parseStep T f) fuel i st = .ok st' → T.Has st'.output
  | 0, _, _, _, _, h => by cases h
  | fuel + 1, i, st, st', hs, h => by
    unfold rforEachFrom at h
    split at h
    · injection h with h
      rw [← h]
      exact hs
    · simp only [Outcome.bind_eq_ok] at h
      obtain ⟨c, -, st1, h1, j, -, h⟩ := h
      exact rforEachFrom_range hT fuel j st1 st' (parseStep_range hT hs h1) h

/-- What `parse_integer` returns is a value of the type. -/
theorem parseInteger_range {T : IntTy} (hT : T.Std) {e : Enc} {s : Str e} {f : IntegerFormat} {v : Int}
    (h : parseInteger e T s f = .ok v) : T.Has v := by
  unfold parseInteger at h
  split at h
  · cases h
  · simp only [Outcome.bind_eq_ok] at h
    obtain ⟨c, -, d, -, i, -, h⟩ := h
    split at h
    · injection h with h
      rw [← h]
      exact has_wrap hT _
    · rw [Outcome.bind_eq_ok] at h
      obtain ⟨st, h1, h⟩ := h
      have h2 := rforEachFrom_range hT _ _ _ _ (has_wrap hT _) h1
      unfold parseFinish at h
      split at h
      · split at h
        · rw [Outcome.bind_eq_ok] at h
          obtain ⟨n, -, h⟩ := h
          injection h with h
          rw [← h]
          exact has_wrap hT _
        · cases h
      · injection h with h
        rw [← h]
        exact h2

theorem digit_range {c : Char32} {r : Nat} (h36 : r ≤ 36) {d : Int}
    (h : digitCharacterToInteger c r = .ok d) (hd : d ≠ -1) : ∃ n : Nat, d = n ∧ n < r := by
  by_cases hok : r < 10 ∨ c.toNat ≤ 255
  · have hc : c = BitVec.ofNat 32 c.toNat := by simp
    rw [hc] at h
    by_cases hdig : Spec.IsDigit r c.toNat
    · obtain ⟨n, hn, hlt⟩ := id hdig
      rw [digitCharacterToInteger_digit h36 hn hlt] at h
      injection h with h
      exact ⟨n, h.symm, hlt⟩
    · rw [digitCharacterToInteger, isRadixDigit_eq h36 c.isLt hok, decide_eq_false hdig] at h
      injection h with h
      exact absurd h.symm hd
  · rw [digitCharacterToInteger, Outcome.bind_eq_ok] at h
    obtain ⟨b, h1, h⟩ := h
    unfold isRadixDigit tolower at h1
    rw [if_neg (by omega)] at h1
    by_cases h2 : c = 0xFFFFFFFF#32
    · subst h2
      rw [if_pos (.inr rfl), Outcome.ok_bind] at h1
      injection h1 with h1
      have hm : (97 + r - 10) % 2 ^ 32 = 87 + r := by omega
      rw [hm] at h1
      have hb : b = false := by
        rw [← h1]
        simp
        omega
      rw [hb] at h
      injection h with h
      exact absurd h.symm hd
    · rw [if_neg (by rintro (h | h); exacts [by omega, h2 h])] at h1
      cases h1

/-- Every text that is parsed consists of an integer and of digits. -/
theorem parseFloatValue_parts {e : Enc} {rnd : ℚ → FloatValue} {s : Str e} {f : FloatFormat}
    (hf : f.Valid) {v : FloatValue} (h : parseFloatValue e rnd s f = .ok v) :
    ∃ (i : Int) (ds : List Nat), llong.Has i ∧ (∀ d ∈ ds, d < f.radix)
      ∧ v = (placesValue rnd f.radix (fin 1, rnd i) ds).2 := by
  have hll : llong.Std := by decide
  unfold parseFloatValue at h
  simp only [Outcome.bind_eq_ok] at h
  obtain ⟨u, -, g, -, h⟩ := h
  split at h
  · rw [Outcome.bind_eq_ok] at h
    obtain ⟨i, h1, h⟩ := h
    injection h with h
    exact ⟨i, [], parseInteger_range hll h1, by simp, h.symm⟩
  · rw [Outcome.bind_eq_ok] at h
    obtain ⟨i, h1, h⟩ := h
    have hi := parseInteger_range hll h1
    split at h
    · injection h with h
      exact ⟨i, [], hi, by simp, h.symm⟩
    · split at h
      · cases h
      · rw [Outcome.bind_eq_ok] at h
        obtain ⟨st, h2, h⟩ := h
        injection h with h
        have key : ∀ (cs : List Char32) (st st' : FloatValue × FloatValue),
            cs.foldlM (parseFractionValue rnd f.radix) st = Outcome.ok st' →
            ∃ ds : List Nat, (∀ d ∈ ds, d < f.radix) ∧ st' = placesValue rnd f.radix st ds := by
          intro cs
          induction cs with
          | nil =>
            intro st st' h
            rw [List.foldlM_nil] at h
            injection h with h
            exact ⟨[], by simp, h.symm⟩
          | cons c cs ih =>
            intro st st' h
            rw [List.foldlM_cons, Outcome.bind_eq_ok] at h
            obtain ⟨st1, h1, h⟩ := h
            rw [parseFractionValue, Outcome.bind_eq_ok] at h1
            obtain ⟨d, h3, h1⟩ := h1
            split at h1
            · cases h1
            · rename_i hd
              injection h1 with h1
              obtain ⟨n, rfl, hn⟩ := digit_range hf.2 h3 hd
              obtain ⟨ds, h4, h5⟩ := ih _ _ h
              refine ⟨n :: ds, ?_, ?_⟩
              · intro x hx
                rcases List.mem_cons.mp hx with rfl | hx
                · exact hn
                · exact h4 x hx
              · rw [h5, ← h1, placesValue_cons]
        obtain ⟨ds, h3, h4⟩ := key _ _ _ h2
        exact ⟨i, ds, hi, h3, by rw [← h, h4]⟩

theorem parseFractionValue_fold {rnd : ℚ → FloatValue} {r : Nat} (h36 : r ≤ 36) :
    ∀ (cs fs : List Nat) (st : FloatValue × FloatValue), cs.map Spec.digitValue = fs.map some →
      (∀ d ∈ fs, d < r) →
      (cs.map (BitVec.ofNat 32)).foldlM (parseFractionValue rnd r) st
        = Outcome.ok (placesValue rnd r st fs) := by
  intro cs
  induction cs with
  | nil =>
    intro fs st h _
    cases fs with
    | nil => rfl
    | cons d fs => simp at h
  | cons c cs ih =>
    intro fs st h hd
    cases fs with
    | nil => simp at h
    | cons d fs =>
      simp only [List.map_cons, List.cons.injEq] at h
      have e1 : parseFractionValue rnd r st (BitVec.ofNat 32 c)
          = .ok (appendDigitValue rnd r st d) := by
        rw [parseFractionValue, digitCharacterToInteger_digit h36 h.1 (hd d (by simp)),
          Outcome.ok_bind, if_neg (by omega)]
      rw [List.map_cons, List.foldlM_cons, e1, Outcome.ok_bind,
        ih fs _ h.2 (fun x hx => hd x (by simp [hx])), placesValue_cons]

/-- The parser reduced to its loop over the digits after the radix character. -/
theorem parseFloatValue_text (e : Enc) (rnd : ℚ → FloatValue) (f : FloatFormat) (s : Str e)
    (cs : List Nat) (neg : Bool) (ds fs : List Nat) (hf : f.Valid) (ht : TextOf e s cs)
    (hn : Spec.RealNumeral f.radix f.separator.char (f.sign = .alwaysShow)
      f.radixCharacter.char none cs neg ds fs)
    (hsep : f.separator.char ≠ some f.radixCharacter.char)
    (hlim : fs = [] → f.placeLimit = .none ∨ f.placeCount = 0 ∨ f.radixCharacter.char ∉ cs)
    (hfit : (Spec.positional f.radix ds : Int) ≤ llong.max)
    (hplace : (f.radix ^ (ds.length - 1) : Nat) ≤ llong.max) :
    parseFloatValue e rnd s f
      = .ok (placesValue rnd f.radix (fin 1, rnd (Spec.denote f.radix neg ds)) fs).2 := by
  obtain ⟨head, hnum, hfs, hcs⟩ := hn
  have hhead := numeral_chars hnum
  have hrc := f.radixCharacter.char_cases
  have hnot : f.radixCharacter.char ∉ head := by
    intro h
    rcases (hhead _ h).2 with h1 | h1
    · omega
    · exact hsep h1
  have hasc : ∀ c ∈ cs, c < 128 := by
    rcases hcs with ⟨rfl, _⟩ | ⟨tail, rfl, htail⟩
    · exact fun c hc => (hhead c hc).1
    · intro c hc
      rcases List.mem_append.mp hc with hc | hc
      · exact (hhead c hc).1
      · rcases List.mem_cons.mp hc with rfl | hc
        · omega
        · obtain ⟨d, hd⟩ := mem_digits htail hc
          exact (digit_char hd).1
  have hconv : convertString e .char32 s = .ok (encs .char32 cs) := by
    rw [ht.eq]
    exact convertString_enc e .char32 cs
      (ht.fwd (fun _ c hc => by have := hasc c hc; unfold Spec.IsBmp; omega))
      (fun c hc => by have := hasc c hc; show c < 2 ^ 32; omega)
  have hmake : IntegerFormat.make f.radix f.sign f.separator
      = .ok ⟨f.radix, f.sign, f.separator⟩ := by
    rw [IntegerFormat.make, if_neg (by have := hf.1; have := hf.2; simp; omega)]
  have hint : parseInteger .char32 .llong (encs .char32 head) ⟨f.radix, f.sign, f.separator⟩
      = .ok (Spec.denote f.radix neg ds) :=
    C22_partial .char32 .llong ⟨f.radix, f.sign, f.separator⟩ _ head neg ds (by decide) hf
      (textOf_ascii .char32 head (fun c hc => (hhead c hc).1)) hnum (fun _ => rfl) hfit
      (fun _ => hplace)
  have hne32 : ∀ c, c < 128 → (BitVec.ofNat 32 c = BitVec.ofNat 32 f.radixCharacter.char ↔
      c = f.radixCharacter.char) := by
    intro c hc
    refine ⟨fun h => ?_, fun h => by rw [h]⟩
    have := congrArg BitVec.toNat h
    simp only [BitVec.toNat_ofNat] at this
    omega
  have hnot32 : BitVec.ofNat 32 f.radixCharacter.char ∉ encs .char32 head := by
    rw [encs32]
    intro h
    obtain ⟨c, hc, h⟩ := List.mem_map.mp h
    rw [hne32 c (hhead c hc).1] at h
    exact hnot (h ▸ hc)
  rw [parseFloatValue, hconv, Outcome.ok_bind, hmake, Outcome.ok_bind]
  rcases hcs with ⟨rfl, rfl⟩ | ⟨tail, rfl, htail⟩
  · rw [List.findIdx?_eq_none_iff.mpr (by
      intro y hy
      simp
      rintro rfl
      exact hnot32 hy)]
    simp only [hint, Outcome.ok_bind]
    rfl
  · have hu : encs .char32 (head ++ f.radixCharacter.char :: tail)
        = encs .char32 head ++ BitVec.ofNat 32 f.radixCharacter.char :: encs .char32 tail := by
      rw [encs_append, encs_cons]
      rfl
    have htake : (encs .char32 head ++ BitVec.ofNat 32 f.radixCharacter.char
        :: encs .char32 tail).take (encs .char32 head).length = encs .char32 head :=
      List.take_left
    have hdrop : (encs .char32 head ++ BitVec.ofNat 32 f.radixCharacter.char
        :: encs .char32 tail).drop ((encs .char32 head).length + 1) = encs .char32 tail := by
      rw [List.drop_append]
      simp
    have hu' : List.findIdx? (· == BitVec.ofNat 32 f.radixCharacter.char)
        (encs .char32 (head ++ f.radixCharacter.char :: tail))
        = some (encs .char32 head).length := by
      rw [hu]
      exact findIdx_head hnot32
    rw [hu']
    simp only
    rw [hu, htake, hint, Outcome.ok_bind, hdrop]
    have hlen : (encs .char32 tail).length = 0 ↔ fs = [] := by
      have htail : tail.map Spec.digitValue = fs.map some := htail
      have := congrArg List.length htail
      rw [List.length_map, List.length_map] at this
      rw [encs32, List.length_map, this]
      exact List.length_eq_zero_iff
    by_cases hfs0 : fs = []
    · have hl := hlim hfs0
      have hmem : f.radixCharacter.char ∈ head ++ f.radixCharacter.char :: tail := by simp
      have h0 := hlen.mpr hfs0
      have htail0 : encs .char32 tail = [] := List.length_eq_zero_iff.mp h0
      subst hfs0
      by_cases hl1 : f.placeLimit = .none
      · rw [if_pos ⟨h0, hl1⟩]
        rfl
      · rw [if_neg (fun h => hl1 h.2), if_neg (fun h => by
          rcases hl with h' | h' | h'
          · exact hl1 h'
          · have := h.2; omega
          · exact h' hmem), htail0]
        rfl
    · rw [if_neg (fun h => hfs0 (hlen.mp h.1)), if_neg (fun h => hfs0 (hlen.mp h.1)), encs32,
        parseFractionValue_fold hf.2 tail fs _ htail hfs]
      rfl

/-- An integer and digits behind it, added one after the other. -/
theorem placesValue_start {F : BinFmt} {rnd : ℚ → FloatValue} (hF : F.Std) (hr : Rounds F rnd) {r : Nat}
    (hr2 : 2 ≤ r) (h36 : r ≤ 36) {i : Int} (hi : |i| ≤ 2 ^ 63) {fs : List Nat} (hfs : ∀ d ∈ fs, d < r) :
    ∃ R' v, placesValue rnd r (fin 1, rnd i) fs = (R', fin v) ∧ F.Has v
      ∧ |v - (i + Spec.fraction r fs)|
        ≤ (8 * (min fs.length F.emax + 1 : Nat)) / 2 ^ F.prec * (|(i : ℚ)| + Spec.fraction r fs)
          + 2 ^ 9 / 2 ^ F.emax
      ∧ (2 ^ (F.emax + 1) ≤ r ^ fs.length → R' = inf false) := by
  have hroom := overflow_room hF
  have h66 : (2 : ℚ) ^ 66 = 8 * 2 ^ 63 := by norm_num
  have h64 : (2 : ℚ) ^ 64 = 2 * 2 ^ 63 := by norm_num
  have hiq : |(i : ℚ)| ≤ 2 ^ 63 := by exact_mod_cast hi
  have hu0 := unit_pos F
  have hg0 := grain_pos F
  obtain ⟨c0, c1⟩ := fraction_bounds (by omega : 0 < r) fs hfs
  obtain ⟨out, e1, e2, e3, -⟩ := Rounds.finite hF hr (q := (i : ℚ)) (by linarith)
  have hs : NearSum F 0 i |(i : ℚ)| out := by
    unfold NearSum
    have : 0 ≤ unit F * |(i : ℚ)| := by positivity
    push_cast
    linarith
  obtain ⟨R', v, n, f1, f2, f3, f4, f5, f6, f7⟩ := placesValue_near hF hr hr2 h36 fs 0 1 out i |(i : ℚ)| hfs
    (by omega) (by simp [NearPower]) (by linarith) e2 hs le_rfl (by
      rw [pow_zero, div_one]; linarith)
  rw [← e1] at f1
  rw [pow_zero, div_one] at f5
  refine ⟨R', v, f1, f2, f5.trans ?_, fun hbig => ?_⟩
  · have hnm : (n : ℚ) ≤ (min fs.length F.emax : Nat) := by
      exact_mod_cast (by omega : n ≤ min fs.length F.emax)
    have hne : (n : ℚ) ≤ F.emax := by exact_mod_cast f3
    have hW : 0 ≤ |(i : ℚ)| + Spec.fraction r fs := by positivity
    have hrel : (4 * (n : ℚ) + 4) * unit F ≤ 8 * (min fs.length F.emax + 1 : Nat) / 2 ^ F.prec := by
      unfold unit
      rw [← mul_div_assoc]
      refine div_le_div_of_nonneg_right ?_ (by positivity)
      push_cast at hnm ⊢
      linarith
    have hab : 4 * ((n : ℚ) + 1) * grain F ≤ 2 ^ 8 / 2 ^ F.emax := by
      have h1 : 4 * ((F.emax : ℚ) + 1) * grain F ≤ 2 ^ 8 / 2 ^ F.emax := by
        rcases hF with rfl | rfl
        · norm_num [grain, _root_.Spec.binary32]
        · have h2 : grain binary64 = 1 / 2 ^ 50 / 2 ^ binary64.emax := by
            show (2 : ℚ) ^ (-1074 : Int) = _
            rw [show (-1074 : Int) = -((50 + 1024 : Nat) : Int) by decide, zpow_neg, zpow_natCast,
              pow_add]
            show _ = 1 / 2 ^ 50 / (2 : ℚ) ^ 1024
            rw [div_div, one_div]
          rw [h2, ← mul_div_assoc]
          refine div_le_div_of_nonneg_right ?_ (by positivity)
          show 4 * (((1024 : Nat) : ℚ) + 1) * (1 / 2 ^ 50) ≤ 2 ^ 8
          norm_num
      refine le_trans ?_ h1
      refine mul_le_mul_of_nonneg_right ?_ hg0.le
      linarith
    have := mul_le_mul_of_nonneg_right hrel hW
    have h9 : (2 : ℚ) ^ 9 / 2 ^ F.emax = 2 ^ 8 / 2 ^ F.emax + 2 ^ 8 / 2 ^ F.emax := by ring
    linarith
  · match R', f6, f7 with
    | fin q, f6, _ =>
      obtain ⟨g1, g2, g3⟩ := f6 q rfl
      rw [Nat.zero_add] at g1 g2
      have g4 := (g1.bounds hF g2).1
      have g5 : (2 : ℚ) ^ (F.emax + 1) ≤ (r : ℚ) ^ fs.length := by exact_mod_cast hbig
      rw [pow_succ] at g5
      have := overflowsAt_lt F
      linarith
    | inf false, _, _ => rfl
    | inf true, _, f7 => exact absurd rfl f7.2
    | nan, _, f7 => exact absurd rfl f7.1

theorem llong_abs {i : Int} (h : llong.Has i) : |i| ≤ 2 ^ 63 := by
  have h1 : llong.min = -2 ^ 63 := by decide
  have h2 : llong.max = 2 ^ 63 - 1 := by decide
  obtain ⟨h3, h4⟩ := h
  rw [abs_le]
  omega

theorem denote_abs {r : Nat} {neg : Bool} {ds : List Nat}
    (hfit : (Spec.positional r ds : Int) ≤ llong.max) : |Spec.denote r neg ds| ≤ 2 ^ 63 := by
  have h2 : llong.max = 2 ^ 63 - 1 := by decide
  unfold Spec.denote
  rw [abs_le]
  split <;> omega

/-! ### C127 -/

/-- C127: a numeral that is not negative and whose integral part fits `long long` is read as a finite
number near the one it denotes, however many digits it has behind the radix character.  The relative
error grows with the number of digits up to the greatest exponent of the type; the absolute term is
far below everything a program sees (2^-1015 for `double`). -/
theorem C127 (e : Enc) (F : BinFmt) (rnd : ℚ → FloatValue) (f : FloatFormat) (s : Str e)
    (cs : List Nat) (ds fs : List Nat) (hF : F.Std) (hr : Rounds F rnd) (hf : f.Valid) (ht : TextOf e s cs)
    (hn : Spec.RealNumeral f.radix f.separator.char (f.sign = .alwaysShow)
      f.radixCharacter.char none cs false ds fs)
    (hsep : f.separator.char ≠ some f.radixCharacter.char)
    (hlim : fs = [] → f.placeLimit = .none ∨ f.placeCount = 0 ∨ f.radixCharacter.char ∉ cs)
    (hfit : (Spec.positional f.radix ds : Int) ≤ llong.max)
    (hplace : (f.radix ^ (ds.length - 1) : Nat) ≤ llong.max) :
    ∃ v, parseFloatValue e rnd s f = .ok (.fin v) ∧ F.Has v
      ∧ |v - Spec.denoteReal f.radix false ds fs|
        ≤ (8 * (min fs.length F.emax + 1 : Nat)) / 2 ^ F.prec * Spec.denoteReal f.radix false ds fs
          + 2 ^ 9 / 2 ^ F.emax := by
  have hfs : ∀ d ∈ fs, d < f.radix := by
    obtain ⟨_, _, h, _⟩ := hn
    exact h
  rw [parseFloatValue_text e rnd f s cs false ds fs hf ht hn hsep hlim hfit hplace]
  obtain ⟨R', v, h1, h2, h3, -⟩ := placesValue_start hF hr hf.1 hf.2
    (denote_abs (r := f.radix) (neg := false) hfit) hfs
  have hd : ((Spec.denote f.radix false ds : Int) : ℚ) = (Spec.positional f.radix ds : ℚ) := by
    simp [Spec.denote]
  have hpos : |((Spec.denote f.radix false ds : Int) : ℚ)| = (Spec.positional f.radix ds : ℚ) := by
    rw [hd]
    exact abs_of_nonneg (by positivity)
  rw [hpos, hd] at h3
  refine ⟨v, by rw [h1], h2, ?_⟩
  rw [Spec.denoteReal, if_neg (by simp)]
  exact h3

/-- Negative numerals are also read as finite numbers, but the fraction is added to the negative
integral part (see C28). -/
theorem C127_negative (e : Enc) (F : BinFmt) (rnd : ℚ → FloatValue) (f : FloatFormat) (s : Str e)
    (cs : List Nat) (ds fs : List Nat) (hF : F.Std) (hr : Rounds F rnd) (hf : f.Valid) (ht : TextOf e s cs)
    (hn : Spec.RealNumeral f.radix f.separator.char (f.sign = .alwaysShow)
      f.radixCharacter.char none cs true ds fs)
    (hsep : f.separator.char ≠ some f.radixCharacter.char)
    (hlim : fs = [] → f.placeLimit = .none ∨ f.placeCount = 0 ∨ f.radixCharacter.char ∉ cs)
    (hfit : (Spec.positional f.radix ds : Int) ≤ llong.max)
    (hplace : (f.radix ^ (ds.length - 1) : Nat) ≤ llong.max) :
    ∃ v, parseFloatValue e rnd s f = .ok (.fin v) ∧ F.Has v
      ∧ |v - (Spec.denoteReal f.radix true ds [] + Spec.fraction f.radix fs)|
        ≤ (8 * (min fs.length F.emax + 1 : Nat)) / 2 ^ F.prec * |Spec.denoteReal f.radix true ds fs|
          + 2 ^ 9 / 2 ^ F.emax := by
  have hfs : ∀ d ∈ fs, d < f.radix := by
    obtain ⟨_, _, h, _⟩ := hn
    exact h
  rw [parseFloatValue_text e rnd f s cs true ds fs hf ht hn hsep hlim hfit hplace]
  obtain ⟨R', v, h1, h2, h3, -⟩ := placesValue_start hF hr hf.1 hf.2
    (denote_abs (r := f.radix) (neg := true) hfit) hfs
  have hd : ((Spec.denote f.radix true ds : Int) : ℚ) = -(Spec.positional f.radix ds : ℚ) := by
    simp [Spec.denote]
  obtain ⟨c0, -⟩ := fraction_bounds (by have := hf.1; omega : 0 < f.radix) fs hfs
  have hp : (0 : ℚ) ≤ (Spec.positional f.radix ds : ℚ) := by positivity
  rw [hd, abs_neg, abs_of_nonneg hp] at h3
  refine ⟨v, by rw [h1], h2, ?_⟩
  rw [Spec.denoteReal, Spec.denoteReal, if_pos rfl, if_pos rfl, abs_neg, Spec.fraction_nil, add_zero,
    abs_of_nonneg (add_nonneg hp c0)]
  exact h3

/-- No text at all is read as an infinity or as something that is not a number. -/
theorem C127_finite (e : Enc) (F : BinFmt) (rnd : ℚ → FloatValue) (f : FloatFormat) (s : Str e)
    (v : FloatValue) (hF : F.Std) (hr : Rounds F rnd) (hf : f.Valid)
    (h : parseFloatValue e rnd s f = .ok v) : ∃ q, v = .fin q ∧ F.Has q := by
  obtain ⟨i, ds, hi, hds, rfl⟩ := parseFloatValue_parts hf h
  obtain ⟨R', q, h1, h2, -, -⟩ := placesValue_start hF hr hf.1 hf.2 (llong_abs hi) hds
  exact ⟨q, by rw [h1], h2⟩

/-- Digits behind the `n`-th place, where `radix ^ n` is beyond the range of the type, do not matter. -/
theorem C127_places (e : Enc) (F : BinFmt) (rnd : ℚ → FloatValue) (f : FloatFormat) (s t : Str e)
    (cs ct : List Nat) (neg : Bool) (ds fs gs : List Nat) (n : Nat) (hF : F.Std) (hr : Rounds F rnd)
    (hf : f.Valid) (hs : TextOf e s cs) (ht : TextOf e t ct)
    (hns : Spec.RealNumeral f.radix f.separator.char (f.sign = .alwaysShow)
      f.radixCharacter.char none cs neg ds fs)
    (hnt : Spec.RealNumeral f.radix f.separator.char (f.sign = .alwaysShow)
      f.radixCharacter.char none ct neg ds gs)
    (hsep : f.separator.char ≠ some f.radixCharacter.char)
    (hfit : (Spec.positional f.radix ds : Int) ≤ llong.max)
    (hplace : (f.radix ^ (ds.length - 1) : Nat) ≤ llong.max)
    (hn : 2 ^ (F.emax + 1) ≤ f.radix ^ n) (hfn : n ≤ fs.length) (hgn : n ≤ gs.length)
    (hsame : fs.take n = gs.take n) :
    parseFloatValue e rnd s f = parseFloatValue e rnd t f := by
  have hn0 : 0 < n := by
    rcases Nat.eq_zero_or_pos n with h | h
    · subst h
      have := Nat.one_lt_two_pow (n := F.emax + 1) (by omega)
      simp at hn
    · exact h
  have key : ∀ (u : Str e) (cu hs : List Nat), TextOf e u cu →
      Spec.RealNumeral f.radix f.separator.char (f.sign = .alwaysShow)
        f.radixCharacter.char none cu neg ds hs → n ≤ hs.length → 
      parseFloatValue e rnd u f
        = .ok (placesValue rnd f.radix (fin 1, rnd (Spec.denote f.radix neg ds)) (hs.take n)).2 := by
    intro u cu hs hu hnu hlen
    have hds : ∀ d ∈ hs, d < f.radix := by
      obtain ⟨_, _, h, _⟩ := hnu
      exact h
    rw [parseFloatValue_text e rnd f u cu neg ds hs hf hu hnu hsep (by
      rintro rfl; simp at hlen; omega) hfit hplace]
    obtain ⟨R', v, h1, h2, -, h4⟩ := placesValue_start hF hr hf.1 hf.2
      (denote_abs (r := f.radix) (neg := neg) hfit) (fs := hs.take n)
      (fun d hd => hds d (List.mem_of_mem_take hd))
    rw [List.length_take, Nat.min_eq_left hlen] at h4
    rw [h4 hn] at h1
    conv_lhs => rw [← List.take_append_drop n hs, placesValue_append, h1]
    rw [placesValue_inf hF hr hf.1 h2, h1]
  rw [key s cs fs hs hns hfn, key t ct gs ht hnt hgn, hsame]

/-- Machines that round to nearest and overflow to infinities exist. -/
theorem exists_rounds {F : BinFmt} (hF : F.Std) : ∃ rnd, Rounds F rnd := by
  choose r hr using exists_closest hF
  refine ⟨fun q => if |q| < overflowsAt F then fin (r q) else inf (decide (q < 0)), ?_, ?_⟩
  · intro q hq
    exact ⟨r q, if_pos hq, hr q⟩
  · intro q hq
    exact if_neg (not_lt.mpr hq)

/-- The text `0.` followed by `n` digits 3. -/
def thirds (n : Nat) : List Nat := 48 :: 46 :: List.replicate n 51

theorem thirds_numeral (n : Nat) : Spec.RealNumeral FloatFormat.default.radix
    FloatFormat.default.separator.char (FloatFormat.default.sign = .alwaysShow)
    FloatFormat.default.radixCharacter.char none (thirds n) false [0] (List.replicate n 3) := by
  refine ⟨[48], ⟨[], [48], rfl, ⟨by simp, by decide, [48], by decide, by decide⟩, by simp⟩, ?_,
    .inr ⟨List.replicate n 51, rfl, ?_⟩⟩
  · intro d hd
    rw [List.eq_of_mem_replicate hd]
    decide
  · rw [show Spec.ungroup none (List.replicate n 51) = List.replicate n 51 by rfl,
      List.map_replicate, List.map_replicate]
    rfl

theorem thirds_text (n : Nat) : TextOf .char8 (encs .char8 (thirds n)) (thirds n) := by
  apply textOf_ascii
  intro c hc
  simp only [thirds, List.mem_cons, List.mem_replicate] at hc
  omega

/-- A million digits are read as a number near one third. -/
example (rnd : ℚ → FloatValue) (hr : Rounds binary64 rnd) :
    ∃ v, parseFloatValue .char8 rnd (encs .char8 (thirds 1000000)) .default = .ok (.fin v)
      ∧ binary64.Has v := by
  obtain ⟨v, h1, h2, -⟩ := C127 .char8 binary64 rnd .default _ _ [0] (List.replicate 1000000 3) (.inr rfl) hr
    (by unfold FloatFormat.Valid; decide) (thirds_text 1000000) (thirds_numeral 1000000) (by decide)
    (fun _ => .inl rfl) (by decide) (by decide)
  exact ⟨v, h1, h2⟩

/-- From the 309th place on, decimal digits do not matter: 400 digits and 1000 digits give the same. -/
example (rnd : ℚ → FloatValue) (hr : Rounds binary64 rnd) :
    parseFloatValue .char8 rnd (encs .char8 (thirds 400)) .default
      = parseFloatValue .char8 rnd (encs .char8 (thirds 1000)) .default :=
  C127_places .char8 binary64 rnd .default _ _ _ _ false [0] _ _ 309 (.inr rfl) hr
    (by unfold FloatFormat.Valid; decide) (thirds_text 400) (thirds_text 1000) (thirds_numeral 400)
    (thirds_numeral 1000) (by decide) (by decide) (by decide) (by decide +kernel)
    (by rw [List.length_replicate]; omega) (by rw [List.length_replicate]; omega)
    (by rw [List.take_replicate, List.take_replicate]; rfl)

example (rnd : ℚ → FloatValue) (hr : Rounds binary64 rnd) :
    ∃ v, parseFloatValue .char8 rnd (encs .char8 [45, 49, 46, 53]) .default = .ok (.fin v)
      ∧ |v - -(1 / 2)| ≤ 1 / 2 ^ 40 := by
  have hn : Spec.RealNumeral FloatFormat.default.radix FloatFormat.default.separator.char
      (FloatFormat.default.sign = .alwaysShow) FloatFormat.default.radixCharacter.char none
      [45, 49, 46, 53] true [1] [5] :=
    ⟨[45, 49], ⟨[45], [49], rfl, ⟨by simp, by decide, [49], by decide, by decide⟩, by simp⟩,
      by decide, .inr ⟨[53], rfl, by decide⟩⟩
  obtain ⟨v, h1, -, h3⟩ := C127_negative .char8 binary64 rnd .default _ _ [1] [5] (.inr rfl) hr
    (by unfold FloatFormat.Valid; decide) (textOf_ascii .char8 [45, 49, 46, 53] (by decide)) hn (by decide)
    (by simp) (by decide) (by decide)
  refine ⟨v, h1, ?_⟩
  have hrad : FloatFormat.default.radix = 10 := rfl
  have e1 : Spec.denoteReal 10 true [1] [] + Spec.fraction 10 [5] = -(1 / 2) := by
    norm_num [Spec.denoteReal, Spec.fraction, Spec.positional]
  have e2 : |Spec.denoteReal 10 true [1] [5]| = 3 / 2 := by
    rw [show Spec.denoteReal 10 true [1] [5] = -(3 / 2) by
      norm_num [Spec.denoteReal, Spec.fraction, Spec.positional]]
    norm_num
  rw [hrad, e1, e2] at h3
  refine h3.trans ?_
  have e3 : (2 : ℚ) ^ 9 / 2 ^ binary64.emax ≤ 1 / 2 ^ 60 := by
    show (2 : ℚ) ^ 9 / 2 ^ 1024 ≤ 1 / 2 ^ 60
    rw [div_le_div_iff₀ (by positivity) (by positivity), one_mul, ← pow_add]
    exact pow_le_pow_right₀ (by norm_num) (by omega)
  have e4 : (8 * ((min [5].length binary64.emax + 1 : Nat) : ℚ)) / 2 ^ binary64.prec * (3 / 2) ≤ 1 / 2 ^ 48 := by
    show (8 * ((2 : Nat) : ℚ)) / 2 ^ 53 * (3 / 2) ≤ 1 / 2 ^ 48
    norm_num
  have e5 : (1 : ℚ) / 2 ^ 48 + 1 / 2 ^ 60 ≤ 1 / 2 ^ 40 := by norm_num
  linarith

/-! ### The functions of `Model/Float.lean` on finite numbers -/

/-- The finite numbers that a rounding with overflow gives. -/
def finitePart (rnd : ℚ → FloatValue) (q : ℚ) : ℚ :=
  match rnd q with
  | .fin r => r
  | _ => 0

theorem Rounds.finitePart {F : BinFmt} {rnd : ℚ → FloatValue} (hF : F.Std) (hr : Rounds F rnd) :
    F.Nearest (finitePart rnd) := by
  rintro q ⟨p, hp, hq⟩
  obtain ⟨r, h1, h2, h3⟩ := hr.near q (lt_of_le_of_lt (hq.trans (le_abs_self p)) (has_lt_overflow hF hp))
  have : Cmp.finitePart rnd q = r := by simp only [Cmp.finitePart, h1]
  rw [this]
  exact ⟨h2, h3⟩

theorem small_finite {F : BinFmt} {rnd : ℚ → FloatValue} (hF : F.Std) (hr : Rounds F rnd) {q : ℚ}
    (hq : |q| ≤ 72) : rnd q = fin (finitePart rnd q) ∧ |finitePart rnd q| ≤ 2 * |q| + 1 := by
  have hroom := overflow_room hF
  have h66 : (72 : ℚ) ≤ 2 ^ 66 := by norm_num
  obtain ⟨r, h1, -, h3, -⟩ := Rounds.finite hF hr (q := q) (by linarith)
  have : finitePart rnd q = r := by simp only [finitePart, h1]
  rw [this]
  refine ⟨h1, ?_⟩
  have hu : unit F ≤ 1 := by
    have := unit_small hF
    have hu0 := unit_pos F
    have he : (0 : ℚ) ≤ F.emax := by positivity
    nlinarith
  have hg := grain_le hF
  have h4 := abs_sub_abs_le_abs_sub r q
  have := mul_le_mul_of_nonneg_right hu (abs_nonneg q)
  linarith

theorem formatFractionValues_eq {F : BinFmt} {rnd : ℚ → FloatValue} (hF : F.Std) (hr : Rounds F rnd)
    (e : Enc) {f : FloatFormat} (hf : f.Valid) :
    ∀ (fuel : Nat) (frac : ℚ) (counted places : Nat) (out : Str e), 0 ≤ frac → frac ≤ 1 →
      formatFractionValues e rnd f fuel (fin frac) counted places out
        = formatFractionLoop e (finitePart rnd) f fuel frac counted places out
  | 0, _, _, _, _, _, _ => rfl
  | fuel + 1, frac, counted, places, out, h0, h1 => by
    have hn := Rounds.finitePart hF hr
    have h36 : (f.radix : ℚ) ≤ 36 := by exact_mod_cast hf.2
    have hr0 : (0 : ℚ) ≤ f.radix := by positivity
    have hq0 : 0 ≤ frac * f.radix := by positivity
    have hq : frac * f.radix ≤ 36 := by nlinarith
    obtain ⟨e1, -⟩ := small_finite hF hr (q := frac * f.radix) (by rw [abs_of_nonneg hq0]; linarith)
    generalize hp : finitePart rnd (frac * f.radix) = product at e1
    have hd0 : 0 ≤ product - ⌊product⌋ := by linarith [Int.floor_le product]
    have hd1 : product - ⌊product⌋ ≤ 1 := by linarith [Int.lt_floor_add_one product]
    obtain ⟨e2, -⟩ := small_finite hF hr (q := product - ⌊product⌋) (by rw [abs_of_nonneg hd0]; linarith)
    have hw := hF.small hd0 (by linarith)
    have hf0 := hn.nonneg hF hw hd0
    have hf1 : finitePart rnd (product - ⌊product⌋) ≤ 1 := by
      have h2 := (hn _ hw).2 1 (by simpa using BinFmt.has_two_pow hF (n := 0) (by have := hF.emax_ge; omega))
      rw [abs_of_nonneg (by linarith : 0 ≤ 1 - (product - ⌊product⌋))] at h2
      have := (abs_le.mp h2).2
      linarith
    generalize hp2 : finitePart rnd (product - ⌊product⌋) = frac' at e2 hf0 hf1
    have hsub : product + -(⌊product⌋ : ℚ) = product - ⌊product⌋ := by ring
    have ih := formatFractionValues_eq hF hr e hf fuel frac'
    unfold formatFractionValues formatFractionLoop
    by_cases hz : frac = 0
    · simp [FloatValue.eq, hz]
    · simp only [FloatValue.eq, hz, decide_false, Bool.false_eq_true, if_false, mul, e1, floor, neg, add,
        hsub, e2, hp, hp2, toInteger, Int.floor_intCast]
      by_cases hc : int8.Has ⌊product⌋
      · simp only [hc, if_true, not_true, if_false, Outcome.ok_bind, ih _ _ _ hf0 hf1]
        cases f.separator <;> rfl
      · simp only [hc, if_false, not_false_eq_true, if_true]
        rfl

/-- On finite numbers the function is the one of C27, C105 and C106. -/
theorem formatFloatValue_eq {F : BinFmt} {rnd : ℚ → FloatValue} (hF : F.Std) (hr : Rounds F rnd) (e : Enc)
    {f : FloatFormat} (hf : f.Valid) (fuel : Nat) (x : ℚ) :
    formatFloatValue e rnd fuel (fin x) f = formatFloat e (finitePart rnd) fuel x f := by
  have hneg : (if negative (fin x) = true then neg (fin x) else fin x) = fin (if x < 0 then -x else x) := by
    simp only [negative, neg, decide_eq_true_eq]
    split <;> rfl
  unfold formatFloatValue formatFloat
  simp only [hneg]
  generalize (if x < 0 then -x else x) = y
  have hn := Rounds.finitePart hF hr
  have hd0 : 0 ≤ y - ⌊y⌋ := by linarith [Int.floor_le y]
  have hd1 : y - ⌊y⌋ ≤ 1 := by linarith [Int.lt_floor_add_one y]
  obtain ⟨e2, -⟩ := small_finite hF hr (q := y - ⌊y⌋) (by rw [abs_of_nonneg hd0]; linarith)
  have hw := hF.small hd0 (by linarith)
  have hf0 := hn.nonneg hF hw hd0
  have hf1 : finitePart rnd (y - ⌊y⌋) ≤ 1 := by
    have h2 := (hn _ hw).2 1 (by simpa using BinFmt.has_two_pow hF (n := 0) (by have := hF.emax_ge; omega))
    rw [abs_of_nonneg (by linarith : 0 ≤ 1 - (y - ⌊y⌋))] at h2
    have := (abs_le.mp h2).2
    linarith
  have hsub : y + -(⌊y⌋ : ℚ) = y - ⌊y⌋ := by ring
  simp only [floor, neg, add, hsub, e2, toInteger, Int.floor_intCast, floorToLongLong,
    formatFractionValues_eq hF hr e hf fuel _ 0 0 [] hf0 hf1, FloatValue.eq, decide_eq_true_eq]

/-- On a machine that never overflows the parser is the one of C28 and C108. -/
theorem parseFloatValue_eq (e : Enc) (rnd : ℚ → ℚ) (s : Str e) {f : FloatFormat} (hf : f.Valid)
    (hr : ∀ q, 1 ≤ q → 1 ≤ rnd q) :
    parseFloatValue e (fun q => fin (rnd q)) s f = parseFloat e rnd s f >>= fun q => .ok (fin q) := by
  have key : ∀ (cs : List Char32) (a b : ℚ), 1 ≤ a →
      (cs.foldlM (parseFractionValue (fun q => fin (rnd q)) f.radix) (fin a, fin b) >>= fun st => .ok st.2)
        = (cs.foldlM (parseFractionStep rnd f.radix) (a, b) >>= fun st => Outcome.ok st.2)
          >>= fun q => .ok (fin q) := by
    intro cs
    induction cs with
    | nil => intro a b _; rfl
    | cons c cs ih =>
      intro a b ha
      have hrq : (1 : ℚ) ≤ f.radix := by exact_mod_cast (by have := hf.1; omega : 1 ≤ f.radix)
      have h1 : 1 ≤ rnd (a * f.radix) := hr _ (by nlinarith)
      have h0 : rnd (a * f.radix) ≠ 0 := by linarith
      rw [List.foldlM_cons, List.foldlM_cons]
      cases hd : digitCharacterToInteger c f.radix with
      | ok d =>
        have e1 : parseFractionValue (fun q => fin (rnd q)) f.radix (fin a, fin b) c
            = if d = -1 then .throw (.parseFailed .wrongPlaceLimit)
              else .ok (fin (rnd (a * f.radix)), fin (rnd (b + rnd (d / rnd (a * f.radix))))) := by
          rw [parseFractionValue, hd, Outcome.ok_bind]
          simp only [appendDigitValue, mul, FloatValue.div, add, if_neg h0]
        have e2 : parseFractionStep rnd f.radix (a, b) c
            = if d = -1 then .throw (.parseFailed .wrongPlaceLimit)
              else .ok (rnd (a * f.radix), rnd (b + rnd (d / rnd (a * f.radix)))) := by
          rw [parseFractionStep, hd, Outcome.ok_bind, appendDigit]
          simp only [if_neg h0]
        rw [e1, e2]
        split
        · rfl
        · rw [Outcome.ok_bind, Outcome.ok_bind]
          exact ih _ _ h1
      | _ => rw [parseFractionValue, parseFractionStep, hd]; rfl
  unfold parseFloatValue parseFloat
  cases convertString e .char32 s with
  | ok u =>
    simp only [Outcome.ok_bind]
    cases IntegerFormat.make f.radix f.sign f.separator with
    | ok g =>
      simp only [Outcome.ok_bind]
      cases u.findIdx? (· == BitVec.ofNat 32 f.radixCharacter.char) with
      | none => cases parseInteger .char32 .llong u g <;> rfl
      | some i =>
        simp only
        cases parseInteger .char32 .llong (u.take i) g with
        | ok v =>
          simp only [Outcome.ok_bind]
          split
          · rfl
          · split
            · rfl
            · exact key _ _ _ le_rfl
        | _ => rfl
    | _ => rfl
  | _ => rfl

/-- More fuel does not change a result. -/
theorem formatFractionLoop_more (e : Enc) (rnd : ℚ → ℚ) (f : FloatFormat) :
    ∀ (fuel : Nat) (frac : ℚ) (counted places : Nat) (out : Str e),
      formatFractionLoop e rnd f fuel frac counted places out ≠ .hang →
      formatFractionLoop e rnd f (fuel + 1) frac counted places out
        = formatFractionLoop e rnd f fuel frac counted places out
  | 0, _, _, _, _, h => absurd rfl h
  | fuel + 1, frac, counted, places, out, h => by
    have ih := formatFractionLoop_more e rnd f fuel
    conv_lhs => unfold formatFractionLoop
    unfold formatFractionLoop at h
    conv_rhs => unfold formatFractionLoop
    by_cases h1 : frac = 0
    · simp only [if_pos h1]
    · simp only [if_neg h1] at h ⊢
      by_cases h2 : ¬ int8.Has ⌊rnd (frac * f.radix)⌋
      · simp only [if_pos h2]
      · simp only [if_neg h2] at h ⊢
        by_cases h3 : f.placeLimit ≠ .none ∧ places = f.placeCount
        · simp only [if_pos h3]
        · simp only [if_neg h3] at h ⊢
          cases hc : appendCP e out (formatDigit ⌊rnd (frac * f.radix)⌋) with
          | ok out' =>
            simp only [hc, Outcome.ok_bind] at h ⊢
            by_cases h4 : counted + 1 = 3
            · simp only [if_pos h4] at h ⊢
              cases hs : f.separator with
              | none =>
                simp only [hs] at h ⊢
                exact ih _ _ _ _ h
              | comma =>
                simp only [hs] at h ⊢
                cases hc2 : appendCP e out' 44#32 with
                | ok out'' => simp only [hc2, Outcome.ok_bind] at h ⊢; exact ih _ _ _ _ h
                | _ => rfl
              | period =>
                simp only [hs] at h ⊢
                cases hc2 : appendCP e out' 46#32 with
                | ok out'' => simp only [hc2, Outcome.ok_bind] at h ⊢; exact ih _ _ _ _ h
                | _ => rfl
            · simp only [if_neg h4] at h ⊢
              exact ih _ _ _ _ h
          | _ => rfl

theorem formatFloat_more (e : Enc) (rnd : ℚ → ℚ) (f : FloatFormat) (x : ℚ) (fuel : Nat)
    (h : formatFloat e rnd fuel x f = .ub) : formatFloat e rnd (fuel + 1) x f = .ub := by
  unfold formatFloat at h ⊢
  cases h1 : IntegerFormat.make f.radix f.sign f.separator with
  | ok g =>
    simp only [h1, Outcome.ok_bind] at h ⊢
    cases h2 : floorToLongLong x with
    | ok i =>
      simp only [h2, Outcome.ok_bind] at h ⊢
      cases h3 : formatInteger e .llong i g with
      | ok out =>
        simp only [h3, Outcome.ok_bind] at h ⊢
        generalize (if x < 0 then -x else x) = y at h ⊢
        by_cases h4 : rnd (y - ⌊y⌋) = 0
        · simp only [if_pos h4] at h ⊢
          exact h
        · simp only [if_neg h4] at h ⊢
          rw [formatFractionLoop_more]
          · exact h
          · intro hh
            rw [hh] at h
            cases h
      | _ => rw [h3] at h; exact h
    | _ => rw [h2] at h; exact h
  | _ => rw [h1] at h; exact h

theorem formatFloat_later (e : Enc) (rnd : ℚ → ℚ) (f : FloatFormat) (x : ℚ) {fuel : Nat}
    (h : formatFloat e rnd fuel x f = .ub) : ∀ n, formatFloat e rnd (fuel + n) x f = .ub
  | 0 => h
  | n + 1 => formatFloat_more e rnd f x _ (formatFloat_later e rnd f x h n)

/-! ### C128 -/

/-- The call comes back with a text. -/
def ValueReturns (e : Enc) (rnd : ℚ → FloatValue) (x : FloatValue) (f : FloatFormat) : Prop :=
  ∃ N s, ∀ fuel ≥ N, formatFloatValue e rnd fuel x f = .ok s

/-- The call is defined: whatever it does, it does not do something undefined. -/
def ValueDefined (e : Enc) (rnd : ℚ → FloatValue) (x : FloatValue) (f : FloatFormat) : Prop :=
  ∀ fuel, formatFloatValue e rnd fuel x f ≠ .ub

/-- The values whose integral part has an absolute value in `long long`. -/
def FitsLongLong : FloatValue → Prop
  | .fin x => llong.min < ⌊x⌋ ∧ ⌊x⌋ ≤ llong.max
  | _ => False

/-- C128: formatting is defined exactly for the finite numbers whose integral part, rounded down, is in
`long long` and not its least value.  In an even radix, or with a limit on the places, it returns exactly
then; for all other values it is undefined. -/
theorem C128_exact (e : Enc) (F : BinFmt) (rnd : ℚ → FloatValue) (f : FloatFormat) (x : FloatValue)
    (hF : F.Std) (hr : Rounds F rnd) (hf : f.Valid) (hx : IsValue F x) :
    (ValueDefined e rnd x f ↔ FitsLongLong x)
    ∧ (¬ FitsLongLong x → ∀ fuel, formatFloatValue e rnd fuel x f = .ub)
    ∧ (f.placeLimit ≠ .none ∨ f.radix % 2 = 0 → (ValueReturns e rnd x f ↔ FitsLongLong x)) := by
  have hn := Rounds.finitePart hF hr
  have hmake : IntegerFormat.make f.radix f.sign f.separator
      = .ok ⟨f.radix, f.sign, f.separator⟩ := by
    rw [IntegerFormat.make, if_neg (by have := hf.1; have := hf.2; simp; omega)]
  have hub : ¬ FitsLongLong x → ∀ fuel, formatFloatValue e rnd fuel x f = .ub := by
    intro h fuel
    match x, hx, h with
    | .fin q, hx, h =>
      rw [formatFloatValue_eq hF hr e hf]
      exact (C105_exact e F _ f q hF hn hf hx).1 h fuel
    | .inf b, _, _ => rw [formatFloatValue, hmake]; rfl
    | .nan, _, _ => rw [formatFloatValue, hmake]; rfl
  have hret : FitsLongLong x → (∀ fuel, formatFloatValue e rnd fuel x f ≠ .ub)
      ∧ (f.placeLimit ≠ .none ∨ f.radix % 2 = 0 → ValueReturns e rnd x f) := by
    intro h
    match x, hx, h with
    | .fin q, hx, h =>
      obtain ⟨h1, h2, h3⟩ := (C105_exact e F _ f q hF hn hf hx).2 h
      have hdef : ∀ fuel, formatFloat e (finitePart rnd) fuel q f ≠ .ub := by
        intro fuel hu
        by_cases hR : Returns e (finitePart rnd) q f
        · obtain ⟨N, s, hs⟩ := hR
          have := hs (fuel + N) (by omega)
          rw [formatFloat_later e _ f q hu N] at this
          cases this
        · rw [h2 hR fuel] at hu
          cases hu
      refine ⟨fun fuel => ?_, fun hg => ?_⟩
      · rw [formatFloatValue_eq hF hr e hf]
        exact hdef fuel
      · obtain ⟨N, s, hs⟩ := h1.mpr (by
          rcases hg with hg | hg
          · exact .inl hg
          · exact .inr (h3 hg))
        exact ⟨N, s, fun fuel hfuel => by rw [formatFloatValue_eq hF hr e hf, hs fuel hfuel]⟩
  refine ⟨⟨fun h => ?_, fun h => (hret h).1⟩, hub, fun hg => ⟨fun h => ?_, fun h => (hret h).2 hg⟩⟩
  · by_contra hc
    exact h 0 (hub hc 0)
  · by_contra hc
    obtain ⟨N, s, hs⟩ := h
    have := hs N le_rfl
    rw [hub hc] at this
    cases this

/-- C128 for the numbers that fit.  Missing: infinities, what is not a number, and numbers whose integral
part is not in `long long`, which are values that a program can pass. -/
theorem C128_partial (e : Enc) (F : BinFmt) (rnd : ℚ → FloatValue) (f : FloatFormat) (x : FloatValue)
    (hF : F.Std) (hr : Rounds F rnd) (hf : f.Valid) (hx : IsValue F x) (hfit : FitsLongLong x)
    (hgo : f.placeLimit ≠ .none ∨ f.radix % 2 = 0) : ValueDefined e rnd x f ∧ ValueReturns e rnd x f := by
  obtain ⟨h1, -, h3⟩ := C128_exact e F rnd f x hF hr hf hx
  exact ⟨h1.mpr hfit, (h3 hgo).mpr hfit⟩

/-- Formatting an infinity, in every encoding, on every machine and in every format, is undefined. -/
theorem C128_violated (e : Enc) (F : BinFmt) (rnd : ℚ → FloatValue) (f : FloatFormat) (hF : F.Std)
    (hr : Rounds F rnd) (hf : f.Valid) :
    ¬ ∀ x, IsValue F x → ValueDefined e rnd x f := by
  intro h
  have := (C128_exact e F rnd f (.inf false) hF hr hf trivial).1.mp (h _ trivial)
  exact this

example : IsValue binary64 (.fin (-3 / 2)) ∧ FitsLongLong (.fin (-3 / 2)) := by
  refine ⟨has_half, ?_⟩
  show llong.min < ⌊(-3 / 2 : ℚ)⌋ ∧ _
  rw [floor_half]
  decide

example : IsValue binary64 (.fin (2 ^ 63)) ∧ ¬ FitsLongLong (.fin (2 ^ 63)) := by
  refine ⟨BinFmt.has_two_pow (.inr rfl) (by decide), ?_⟩
  rintro ⟨-, h⟩
  have h1 : ⌊(2 ^ 63 : ℚ)⌋ = 2 ^ 63 := by norm_num
  rw [h1] at h
  exact absurd h (by decide)

end Cmp
