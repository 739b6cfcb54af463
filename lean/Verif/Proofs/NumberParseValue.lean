import Verif.Proofs.NumberParse

/-
Helper lemmas: the value computed by `parse_integer` on correctly grouped digits.
-/

namespace Cmp

open IntTy

/-- The loop of `parse_integer` as a fold over code points, from right to left. -/
def parseFold (T : IntTy) (f : IntegerFormat) (st : ParseState) (rs : List Nat) :
    Outcome ParseState :=
  rs.foldlM (fun st c => parseStep T f st (BitVec.ofNat 32 c)) st

theorem parseFold_nil (T : IntTy) (f : IntegerFormat) (st : ParseState) :
    parseFold T f st [] = .ok st := rfl

theorem parseFold_cons (T : IntTy) (f : IntegerFormat) (st : ParseState) (c : Nat)
    (rs : List Nat) :
    parseFold T f st (c :: rs)
      = (parseStep T f st (BitVec.ofNat 32 c) >>= fun st => parseFold T f st rs) :=
  List.foldlM_cons

theorem parseFold_append (T : IntTy) (f : IntegerFormat) (st : ParseState) (a b : List Nat) :
    parseFold T f st (a ++ b) = (parseFold T f st a >>= fun st => parseFold T f st b) := by
  induction a generalizing st with
  | nil => rfl
  | cons c a ih =>
    rw [List.cons_append, parseFold_cons, parseFold_cons]
    cases h : parseStep T f st (BitVec.ofNat 32 c) with
    | ok st' => simp only [Outcome.ok_bind]; exact ih st'
    | throw x => rfl
    | terminate => rfl
    | ub => rfl
    | hang => rfl

/-- The last character of a spelled digit sequence, and the rest. -/
theorem spells_reverse {r : Nat} {sep : Option Nat} {body ds : List Nat}
    (h : Spec.Spells r sep body ds) :
    ∃ c l d es, body.reverse = c :: groupFrom sep 1 l ∧ ds.reverse = d :: es
      ∧ Spec.digitValue c = some d ∧ l.map Spec.digitValue = es.map some
      ∧ d < r ∧ (∀ x ∈ es, x < r) := by
  obtain ⟨hne, hlt, chars, hm, rfl⟩ := h
  rw [group_reverse]
  have hm' : chars.reverse.map Spec.digitValue = ds.reverse.map some := by
    rw [List.map_reverse, hm, List.map_reverse]
  cases hc : chars.reverse with
  | nil => rw [hc] at hm'; simp at hm'; exact absurd hm'.symm (by simpa using hne)
  | cons c l =>
    cases hd : ds.reverse with
    | nil => rw [List.reverse_eq_nil_iff] at hd; exact absurd hd hne
    | cons d es =>
      rw [hc, hd] at hm'
      simp only [List.map_cons, List.cons.injEq] at hm'
      have hall : ∀ x ∈ ds.reverse, x < r := by intro x hx; exact hlt x (by simpa using hx)
      rw [hd] at hall
      refine ⟨c, l, d, es, ?_, rfl, hm'.1, hm'.2, hall d (by simp),
        fun x hx => hall x (by simp [hx])⟩
      cases sep <;> simp [groupFrom]

/-- State after the digits of the body have been processed. -/
structure BodyDone (T : IntTy) (f : IntegerFormat) (body ds : List Nat) (v : Int)
    (st : ParseState) : Prop where
  output : st.output = v
  signFound : st.signFound = false
  negate : st.negate = false
  counted : f.separator ≠ .none → st.counted = (ds.length - 1) % 3 + 1
  run : ∀ rest, parseRev T f (body.reverse ++ rest)
    = (parseFold T f st rest >>= parseFinish T)

theorem sep_isSome {f : IntegerFormat} (h : f.separator ≠ .none) :
    f.separator.char.isSome = true := by
  cases hf : f.separator <;> simp_all [Separator.char]

theorem body_done (T : IntTy) {f : IntegerFormat} (h36 : f.radix ≤ 36) {body ds : List Nat}
    (hb : Spec.Spells f.radix f.separator.char body ds) (v : Int)
    (P : Nat → List Nat → ParseState → Prop)
    (hstep : ∀ k d ds st, d < f.radix → P k (d :: ds) st →
      ∃ st', prependDigit T f.radix d st = .ok st' ∧ P (k + 1) ds st'
        ∧ st'.counted = st.counted + 1 ∧ st'.signFound = st.signFound ∧ st'.negate = st.negate)
    (hcount : ∀ k ds st n, P k ds st → P k ds { st with counted := n })
    (hend : ∀ k st, P k [] st → st.output = v)
    (hinit : ∀ d es, ds.reverse = d :: es → d < f.radix → P 0 es
      { output := T.wrap d, power := 1, counted := 1, signFound := false, negate := false }) :
    ∃ st, BodyDone T f body ds v st := by
  obtain ⟨c, l, d, es, hbr, hdr, hv, hl, hd, hes⟩ := spells_reverse hb
  have hlen : ds.length = l.length + 1 := by
    have h1 := congrArg List.length hdr
    have h2 := congrArg List.length hl
    simp at h1 h2
    omega
  obtain ⟨st, hf, hQ, hsf, hng, hc3, hcc⟩ := foldlM_groupFrom T h36 f.separator.char rfl P
    (fun st => st.output = v) hstep hcount hend l es 0 _ hl hes (hinit d es hdr hd) (by simp)
  refine ⟨st, hQ, hsf, hng, ?_, ?_⟩
  · intro hs
    by_cases hl0 : l = []
    · subst hl0
      have hst : st = ⟨T.wrap d, 1, 1, false, false⟩ := by simpa [groupFrom] using hf.symm
      rw [hst, hlen]
      rfl
    · rw [hcc hl0 (sep_isSome hs), hlen]
      simp only
      omega
  · intro rest
    rw [hbr, List.cons_append, parseRev, getNextDigit_digit h36 hv hd, Outcome.ok_bind]
    have := parseFold_append T f ⟨T.wrap d, 1, 1, false, false⟩
      (groupFrom f.separator.char 1 l) rest
    unfold parseFold at this ⊢
    rw [this, hf]
    rfl

/-- A digit sequence whose value fits is processed exactly; for 64-bit signed types the place
value of the leading digit must fit as well. -/
theorem body_exact {T : IntTy} (h : T.Std) {f : IntegerFormat} (h2 : 2 ≤ f.radix)
    (h36 : f.radix ≤ 36) {body ds : List Nat}
    (hb : Spec.Spells f.radix f.separator.char body ds)
    (hv : (Spec.positional f.radix ds : Int) ≤ T.max)
    (hp : T.signed = true ∧ T.bits = 64 → (f.radix ^ (ds.length - 1) : Nat) ≤ T.max) :
    ∃ st, BodyDone T f body ds (Spec.positional f.radix ds) st := by
  have hm := max_ge h
  refine body_done T h36 hb _
    (fun k es st => 0 ≤ st.output
      ∧ (st.output + ((f.radix ^ (k + 1) * revVal f.radix es : Nat) : Int)
          = Spec.positional f.radix ds)
      ∧ (T.signed = true ∧ T.bits = 64 → ((f.radix ^ (k + es.length) : Nat) : Int) ≤ T.max)
      ∧ ((st.power = ((f.radix ^ k : Nat) : Int) ∧ ((f.radix ^ k : Nat) : Int) ≤ T.max)
          ∨ T.max < ((f.radix ^ k : Nat) : Int))) ?_ ?_ ?_ ?_
  · intro k d es st hd hP
    obtain ⟨ho, hs, h64, hpow⟩ := hP
    have hq : f.radix ^ (k + 1) = f.radix ^ k * f.radix := Nat.pow_succ _ _
    have hqp : 0 < f.radix ^ (k + 1) := Nat.pow_pos (by omega)
    have hge : f.radix ^ k ≤ f.radix ^ (k + 1) := Nat.pow_le_pow_right (by omega) (by omega)
    have hexp : f.radix ^ (k + 1) * revVal f.radix (d :: es)
        = d * f.radix ^ (k + 1) + f.radix ^ (k + 1 + 1) * revVal f.radix es := by
      rw [revVal, Nat.mul_add, Nat.pow_succ f.radix (k + 1), Nat.mul_comm d, Nat.mul_assoc]
    have hlen : f.radix ^ (k + (d :: es).length) = f.radix ^ (k + 1 + es.length) := by
      rw [List.length_cons, Nat.add_assoc, Nat.add_comm 1]
    rw [hexp] at hs
    rw [hlen] at h64
    by_cases hfit : ((f.radix ^ (k + 1) : Nat) : Int) ≤ T.max
    · have hpw : st.power = ((f.radix ^ k : Nat) : Int) := by
        rcases hpow with ⟨e, _⟩ | hgt
        · exact e
        · omega
      have hpr : st.power * f.radix = ((f.radix ^ (k + 1) : Nat) : Int) := by
        rw [hpw, hq, Int.natCast_mul]
      have hdm : (d : Int) * (st.power * f.radix) = ((d * f.radix ^ (k + 1) : Nat) : Int) := by
        rw [hpr, Int.natCast_mul]
      refine ⟨_, prependDigit_exact h h36 hd st ho (by omega) (by omega) (by omega)
        (by rw [hdm]; omega), ⟨?_, ?_, h64, ?_⟩, rfl, rfl, rfl⟩
      · show 0 ≤ st.output + d * (st.power * f.radix)
        rw [hdm]; omega
      · show st.output + d * (st.power * f.radix) + _ = _
        rw [hdm]; omega
      · exact .inl ⟨hpr, hfit⟩
    · have hd0 : d = 0 := by
        rcases Nat.eq_zero_or_pos d with e | hpos
        · exact e
        · have : f.radix ^ (k + 1) ≤ d * f.radix ^ (k + 1) := Nat.le_mul_of_pos_left _ hpos
          omega
      subst hd0
      have hn64 : ¬ (T.signed = true ∧ T.bits = 64) := by
        intro hh
        have h1 := h64 hh
        have : f.radix ^ (k + 1) ≤ f.radix ^ (k + 1 + es.length) :=
          Nat.pow_le_pow_right (by omega) (by omega)
        omega
      obtain ⟨p, e⟩ := prependDigit_zero h hn64 f.radix st ho (by omega)
      refine ⟨_, e, ⟨ho, ?_, h64, .inr (by omega)⟩, rfl, rfl, rfl⟩
      simp only
      omega
  · intro k es st n hP; exact hP
  · intro k st hP
    have := hP.2.1
    simp only [revVal, Nat.mul_zero] at this
    omega
  · intro d es hdr hd
    have hw : T.wrap d = d := (has_of_nonneg h (by omega) (by omega)).wrap_eq h
    have hl : ds.length = es.length + 1 := by
      have := congrArg List.length hdr
      simpa using this
    refine ⟨?_, ?_, ?_, ?_⟩
    · simp only [hw]; omega
    · simp only [hw, positional_eq, hdr, revVal, Nat.zero_add, Nat.pow_one]
      omega
    · intro hh
      have := hp hh
      rw [hl] at this
      simpa using this
    · left
      constructor
      · simp
      · simp; omega

theorem emod_mul (a b n : Int) : (a % n * b) % n = a * b % n := by
  rw [Int.mul_emod, Int.emod_emod, ← Int.mul_emod]

theorem mul_emod' (a b n : Int) : (a * (b % n)) % n = a * b % n := by
  rw [Int.mul_emod, Int.emod_emod, ← Int.mul_emod]

theorem modular_step (o d q z n : Int) :
    (o + d * (q % n) + z) % n = (o + (d * q + z)) % n := by
  rw [Int.add_assoc, Int.add_emod o, Int.add_emod (d * (q % n)), mul_emod',
    ← Int.add_emod (d * q), ← Int.add_emod]

/-- For unsigned types every digit sequence is processed modulo `2^bits`. -/
theorem body_modular {T : IntTy} (h : T.Std) (hu : T.signed = false) {f : IntegerFormat}
    (h36 : f.radix ≤ 36) {body ds : List Nat}
    (hb : Spec.Spells f.radix f.separator.char body ds) :
    ∃ st, BodyDone T f body ds (Spec.positional f.radix ds % (2 ^ T.bits : Nat)) st := by
  have hm := max_ge h
  have hw : ∀ x, T.wrap x = x % (2 ^ T.bits : Nat) := wrap_unsigned hu
  rw [← hw]
  refine body_done T h36 hb _
    (fun k es st => T.Has st.output ∧ T.Has st.power
      ∧ st.power = T.wrap ((f.radix ^ k : Nat) : Int)
      ∧ T.wrap (st.output + ((f.radix ^ (k + 1) * revVal f.radix es : Nat) : Int))
          = T.wrap (Spec.positional f.radix ds)) ?_ ?_ ?_ ?_
  · intro k d es st hd hP
    obtain ⟨ho, hp, hpw, hs⟩ := hP
    have hexp : f.radix ^ (k + 1) * revVal f.radix (d :: es)
        = d * f.radix ^ (k + 1) + f.radix ^ (k + 1 + 1) * revVal f.radix es := by
      rw [revVal, Nat.mul_add, Nat.pow_succ f.radix (k + 1), Nat.mul_comm d, Nat.mul_assoc]
    have hpr : T.wrap (st.power * f.radix) = T.wrap ((f.radix ^ (k + 1) : Nat) : Int) := by
      rw [hpw, hw, hw, hw, Nat.pow_succ, Int.natCast_mul, emod_mul]
    refine ⟨_, prependDigit_modular h hu h36 hd st ho hp,
      ⟨has_wrap h _, has_wrap h _, hpr, ?_⟩, rfl, rfl, rfl⟩
    rw [← hs, hexp]
    simp only [hpr]
    generalize f.radix ^ (k + 1 + 1) * revVal f.radix es = z
    generalize hq : f.radix ^ (k + 1) = q
    rw [hw, hw, hw, hw, Int.emod_add_emod, Int.natCast_add, Int.natCast_mul]
    exact modular_step _ _ _ _ _
  · intro k es st n hP; exact hP
  · intro k st hP
    have := hP.2.2.2
    simp only [revVal, Nat.mul_zero, Int.natCast_zero, Int.add_zero] at this
    rw [← this, hP.1.wrap_eq h]
  · intro d es hdr hd
    have hwd : T.wrap d = d := (has_of_nonneg h (by omega) (by omega)).wrap_eq h
    have h1 : T.Has 1 := has_of_nonneg h (by omega) (by omega)
    refine ⟨has_wrap h _, h1, ?_, ?_⟩
    · simp [h1.wrap_eq h]
    · simp only [hwd, positional_eq, hdr, revVal, Nat.zero_add, Nat.pow_one]
      congr 1

theorem parseFinish_plus (T : IntTy) {st : ParseState} (h : st.negate = false) :
    parseFinish T st = .ok st.output := by simp [parseFinish, h]

theorem parseFinish_minus {T : IntTy} (h : T.Std) (hs : T.signed = true) {st : ParseState}
    (hn : st.negate = true) (ho : 0 ≤ st.output) (ho1 : st.output ≤ T.max) :
    parseFinish T st = .ok (-st.output) := by
  have hH : T.Has (-st.output) := by
    refine ⟨?_, by have := max_ge h; omega⟩
    have : T.min = -T.max - 1 := by simp [IntTy.min, IntTy.max, hs]; omega
    omega
  have hHp : T.promote.Has (-st.output) := by
    have : T.promote.min ≤ T.min ∧ T.max ≤ T.promote.max := by
      rcases h.cases with rfl | rfl | rfl | rfl | rfl | rfl | rfl | rfl <;> decide
    exact ⟨Int.le_trans this.1 hH.1, Int.le_trans hH.2 this.2⟩
  rw [parseFinish, if_pos hn, if_pos hs, arith_of_has h.promote hHp, Outcome.ok_bind,
    hH.wrap_eq h]

theorem parseFinish_unsigned {T : IntTy} (hs : T.signed = false) {st : ParseState}
    (hn : st.negate = true) :
    parseFinish T st = .throw (.parseFailed .negativeUnsigned) := by
  simp [parseFinish, hn, hs]

/-- Parsing a signed or unsigned body once its digits have been processed. -/
theorem numeral_parse {T : IntTy} (h : T.Std) {f : IntegerFormat} {body ds sign : List Nat}
    {v : Int} {st : ParseState} (hB : BodyDone T f body ds v st) (hv0 : 0 ≤ v)
    (hv1 : v ≤ T.max) {neg : Bool}
    (hsign : (sign = [] ∧ neg = false) ∨ (sign = [45] ∧ neg = true)
      ∨ (sign = [43] ∧ neg = false ∧ f.sign = .alwaysShow)) :
    parseRev T f (sign ++ body).reverse =
      if neg then (if T.signed then .ok (-v) else .throw (.parseFailed .negativeUnsigned))
      else .ok v := by
  rw [List.reverse_append, hB.run]
  rcases hsign with ⟨rfl, rfl⟩ | ⟨rfl, rfl⟩ | ⟨rfl, rfl, hsg⟩
  · rw [List.reverse_nil, parseFold_nil, Outcome.ok_bind, parseFinish_plus T hB.negate,
      hB.output]
    rfl
  · rw [List.reverse_singleton, parseFold_cons, parseStep_sign T st (.inl rfl) hB.signFound,
      Outcome.ok_bind, parseFold_nil, Outcome.ok_bind]
    cases hs : T.signed with
    | true =>
      rw [parseFinish_minus h hs]
      · simp [hB.output]
      · simp
      · simpa [hB.output] using hv0
      · simpa [hB.output] using hv1
    | false =>
      rw [parseFinish_unsigned hs (by simp)]
      rfl
  · rw [List.reverse_singleton, parseFold_cons,
      parseStep_sign T st (.inr ⟨rfl, hsg⟩) hB.signFound, Outcome.ok_bind, parseFold_nil,
      Outcome.ok_bind, parseFinish_plus T (by simp [hB.negate])]
    simp [hB.output]

end Cmp
