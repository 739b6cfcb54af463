import Verif.Proofs.NumberFormat

/-
Helper lemmas: `parse_integer` on every numeral, also where the arithmetic overflows.
-/

namespace Cmp

open IntTy

/-! ### Conversions and remainders -/

theorem wrap_emod (T : IntTy) (x : Int) :
    T.wrap x % ((2 ^ T.bits : Nat) : Int) = x % ((2 ^ T.bits : Nat) : Int) := by
  unfold wrap
  split
  · exact Int.bmod_emod
  · exact Int.emod_emod _ _

theorem wrap_congr (T : IntTy) {x y : Int}
    (h : x % ((2 ^ T.bits : Nat) : Int) = y % ((2 ^ T.bits : Nat) : Int)) :
    T.wrap x = T.wrap y := by
  unfold wrap
  split
  · simp only [Int.bmod, h]
  · exact h

theorem wrap_of_emod {T : IntTy} (hT : T.Std) {x y : Int} (hx : T.Has x)
    (h : x % ((2 ^ T.bits : Nat) : Int) = y % ((2 ^ T.bits : Nat) : Int)) : x = T.wrap y := by
  rw [← wrap_congr T h, hx.wrap_eq hT]

/-- A conversion to a type that is at least as wide does not matter. -/
theorem wrap_wrap {T C : IntTy} (h : T.bits ≤ C.bits) (x : Int) :
    T.wrap (C.wrap x) = T.wrap x := by
  apply wrap_congr
  have hd : ((2 ^ T.bits : Nat) : Int) ∣ ((2 ^ C.bits : Nat) : Int) :=
    Int.natCast_dvd_natCast.mpr (Nat.pow_dvd_pow 2 h)
  rw [← Int.emod_emod_of_dvd (C.wrap x) hd, wrap_emod, Int.emod_emod_of_dvd _ hd]

theorem wrap_mul_wrap (C : IntTy) (x y : Int) :
    C.wrap (C.wrap x * C.wrap y) = C.wrap (x * y) := by
  apply wrap_congr
  rw [Int.mul_emod, wrap_emod, wrap_emod, ← Int.mul_emod]

theorem wrap_wrap_mul (C : IntTy) (x y : Int) :
    C.wrap (C.wrap x * y) = C.wrap (x * y) := by
  apply wrap_congr
  rw [Int.mul_emod, wrap_emod, ← Int.mul_emod]

/-! ### The digits of a numeral, one after the other -/

theorem outcome_assoc {α β γ : Type} (x : Outcome α) (g : α → Outcome β) (k : β → Outcome γ) :
    (x >>= g >>= k) = (x >>= fun a => g a >>= k) := by
  cases x <;> rfl

/-- What `prepend_digit` does to the output and the power. -/
def place (T : IntTy) (r d : Nat) (o p : Int) : Outcome (Int × Int) := do
  let C := T.common .uint
  let p ← C.arith (C.wrap p * C.wrap r)
  let power := T.wrap p
  let D := IntTy.int.common T
  let m ← D.arith (D.wrap d * D.wrap power)
  let D' := T.common D
  let s ← D'.arith (D'.wrap o + D'.wrap m)
  .ok (T.wrap s, power)

theorem prependDigit_place (T : IntTy) (r d : Nat) (st : ParseState) :
    prependDigit T r d st = (place T r d st.output st.power >>= fun op =>
      .ok { st with output := op.1, power := op.2, counted := st.counted + 1 }) := by
  simp only [prependDigit, place, outcome_assoc]
  rfl

/-- The output after the digits `ds`, least significant first. -/
def accum (T : IntTy) (r : Nat) : List Nat → Int → Int → Outcome Int
  | [], o, _ => .ok o
  | d :: ds, o, p => place T r d o p >>= fun op => accum T r ds op.1 op.2

/-- The end of `parse_integer`. -/
def finish (T : IntTy) (neg : Bool) (o : Int) : Outcome Int :=
  if neg then
    if T.signed then T.promote.arith (-o) >>= fun n => .ok (T.wrap n)
    else .throw (.parseFailed .negativeUnsigned)
  else .ok o

theorem parseFold_groupFrom (T : IntTy) {f : IntegerFormat} (h36 : f.radix ≤ 36)
    (rest : List Nat) (K : Int → Outcome Int)
    (hK : ∀ st : ParseState, st.signFound = false → st.negate = false →
      (parseFold T f st rest >>= parseFinish T) = K st.output) :
    ∀ (l ds : List Nat) (st : ParseState), l.map Spec.digitValue = ds.map some →
      (∀ d ∈ ds, d < f.radix) → st.signFound = false → st.negate = false →
      (f.separator.char.isSome → st.counted ≤ 3) →
      (parseFold T f st (groupFrom f.separator.char st.counted l ++ rest) >>= parseFinish T)
        = (accum T f.radix ds st.output st.power >>= K) := by
  intro l
  induction l with
  | nil =>
    intro ds st hl hd hs hn hc
    cases ds with
    | nil => simpa [groupFrom, accum] using hK st hs hn
    | cons d ds => simp at hl
  | cons c l ih =>
    intro ds st hl hd hs hn hc
    cases ds with
    | nil => simp at hl
    | cons d ds =>
      simp only [List.map_cons, List.cons.injEq] at hl
      have hdr := hd d (by simp)
      have hds : ∀ x ∈ ds, x < f.radix := fun x hx => hd x (by simp [hx])
      -- one digit, at a place where a digit is due
      have step : ∀ st : ParseState, ¬ AtSep f st → st.signFound = false → st.negate = false →
          (f.separator.char.isSome → st.counted + 1 ≤ 3) →
          (parseFold T f st (c :: (groupFrom f.separator.char (st.counted + 1) l ++ rest))
              >>= parseFinish T)
            = (accum T f.radix (d :: ds) st.output st.power >>= K) := by
        intro st ha hs hn hc
        rw [parseFold_cons, parseStep_digit T h36 ha hl.1 hdr, prependDigit_place, accum]
        simp only [outcome_assoc]
        congr 1
        funext op
        rw [Outcome.ok_bind]
        exact ih ds { st with output := op.1, power := op.2, counted := st.counted + 1 } hl.2
          hds hs hn hc
      cases hsep : f.separator.char with
      | none =>
        have hna : ¬ AtSep f st := by
          intro h
          cases hf : f.separator <;> simp [hf, Separator.char] at hsep
          exact h.2 hf
        have := step st hna hs hn (by simp [hsep])
        rw [hsep] at this
        simpa [groupFrom] using this
      | some s =>
        by_cases h3 : st.counted = 3
        · have hna : ¬ AtSep f { st with counted := 0 } := by simp [AtSep]
          have := step { st with counted := 0 } hna hs hn (by simp)
          rw [hsep] at this
          simp only [groupFrom, if_pos h3, List.cons_append]
          rw [parseFold_cons, parseStep_sep T h3 hsep, Outcome.ok_bind]
          exact this
        · have hna : ¬ AtSep f st := by simp [AtSep, h3]
          have hle := hc (by simp [hsep])
          have := step st hna hs hn (by omega)
          rw [hsep] at this
          simp only [groupFrom, if_neg h3, List.cons_append]
          exact this

/-- `parse_integer` on a numeral. -/
theorem numeral_outcome (T : IntTy) {f : IntegerFormat} (h36 : f.radix ≤ 36)
    {body ds sign : List Nat} (hb : Spec.Spells f.radix f.separator.char body ds) {neg : Bool}
    (hsign : (sign = [] ∧ neg = false) ∨ (sign = [45] ∧ neg = true)
      ∨ (sign = [43] ∧ neg = false ∧ f.sign = .alwaysShow)) :
    ∃ d es, ds.reverse = d :: es ∧ d < f.radix ∧ (∀ x ∈ es, x < f.radix)
      ∧ parseRev T f (sign ++ body).reverse
        = (accum T f.radix es (T.wrap d) 1 >>= finish T neg) := by
  obtain ⟨c, l, d, es, hbr, hdr, hv, hl, hd, hes⟩ := spells_reverse hb
  refine ⟨d, es, hdr, hd, hes, ?_⟩
  rw [List.reverse_append, hbr, List.cons_append, parseRev, getNextDigit_digit h36 hv hd,
    Outcome.ok_bind]
  refine parseFold_groupFrom T h36 sign.reverse (finish T neg) ?_ l es
    ⟨T.wrap d, 1, 1, false, false⟩ hl hes rfl rfl (by simp)
  intro st hs hn
  rcases hsign with ⟨rfl, rfl⟩ | ⟨rfl, rfl⟩ | ⟨rfl, rfl, hsg⟩
  · rw [List.reverse_nil, parseFold_nil, Outcome.ok_bind, parseFinish_plus T hn]
    rfl
  · rw [List.reverse_singleton, parseFold_cons, parseStep_sign T st (.inl rfl) hs,
      Outcome.ok_bind, parseFold_nil, Outcome.ok_bind]
    simp only [parseFinish, finish, hn]
    rfl
  · rw [List.reverse_singleton, parseFold_cons, parseStep_sign T st (.inr ⟨rfl, hsg⟩) hs,
      Outcome.ok_bind, parseFold_nil, Outcome.ok_bind, parseFinish_plus T (by simp [hn])]
    rfl

/-! ### Types narrower than `int` -/

theorem place_narrow {T : IntTy} (hs : T.signed = true) (hb : T.bits = 8 ∨ T.bits = 16) {r : Nat}
    (h36 : r ≤ 36) {d : Nat} (hd : d < r) {o p : Int} (ho : T.Has o) :
    place T r d o p = .ok (T.wrap (o + d * T.wrap (p * r)), T.wrap (p * r)) := by
  have hT : T.Std := by unfold Std; omega
  have eC : T.common .uint = uint := by
    obtain ⟨b, s⟩ := T
    simp only at hs hb
    subst hs
    rcases hb with rfl | rfl <;> decide
  have eD : IntTy.int.common T = int := by
    obtain ⟨b, s⟩ := T
    simp only at hs hb
    subst hs
    rcases hb with rfl | rfl <;> decide
  have hi : int.Std := by decide
  have hlim : ∀ x, T.Has x → -32768 ≤ x ∧ x ≤ 32767 := by
    intro x hx
    have h1 := hx.1
    have h2 := hx.2
    rcases hb with hb | hb <;> simp [IntTy.min, IntTy.max, hs, hb] at h1 h2 <;> omega
  have hint : ∀ x : Int, -2000000 ≤ x → x ≤ 2000000 → int.Has x := by
    intro x h1 h2
    simp [Has, IntTy.min, IntTy.max, int]
    omega
  simp only [place]
  rw [common_commonI hT, eC, eD, arith_unsigned (show uint.signed = false from rfl),
    Outcome.ok_bind, wrap_mul_wrap,
    wrap_wrap (T := T) (C := uint) (by rcases hb with hb | hb <;> rw [hb] <;> decide)]
  generalize hq : T.wrap (p * r) = q
  have hqH := hlim q (hq ▸ has_wrap hT _)
  have hoH := hlim o ho
  have hm1 : -1200000 ≤ (d : Int) * q ∧ (d : Int) * q ≤ 1200000 := by
    have h1 : (d : Int) * q ≤ d * 32767 := Int.mul_le_mul_of_nonneg_left hqH.2 (by omega)
    have h2 : (d : Int) * (-32768) ≤ d * q := Int.mul_le_mul_of_nonneg_left hqH.1 (by omega)
    omega
  have hqi : int.Has q := hint q (by omega) (by omega)
  have hdi : int.Has d := hint d (by omega) (by omega)
  have hoi : int.Has o := hint o (by omega) (by omega)
  have hmi : int.Has (d * q) := hint _ (by omega) (by omega)
  rw [hdi.wrap_eq hi, hqi.wrap_eq hi, arith_of_has hi hmi, Outcome.ok_bind, hoi.wrap_eq hi,
    hmi.wrap_eq hi, arith_of_has hi (hint _ (by omega) (by omega)), Outcome.ok_bind]

theorem accum_narrow {T : IntTy} (hs : T.signed = true) (hb : T.bits = 8 ∨ T.bits = 16) {r : Nat}
    (h36 : r ≤ 36) : ∀ (es : List Nat) (k : Nat) (o : Int), (∀ d ∈ es, d < r) → T.Has o →
      accum T r es o (T.wrap ((r ^ k : Nat) : Int))
        = .ok (T.wrap (o + ((r ^ (k + 1) * revVal r es : Nat) : Int))) := by
  have hT : T.Std := by unfold Std; omega
  intro es
  induction es with
  | nil =>
    intro k o _ ho
    simp [accum, revVal, ho.wrap_eq hT]
  | cons d es ih =>
    intro k o hd ho
    rw [accum, place_narrow hs hb h36 (hd d (by simp)) ho, Outcome.ok_bind, wrap_wrap_mul]
    have e1 : ((r ^ k : Nat) : Int) * r = ((r ^ (k + 1) : Nat) : Int) := by
      rw [Nat.pow_succ, Int.natCast_mul]
    rw [e1, ih (k + 1) _ (fun x hx => hd x (by simp [hx])) (has_wrap hT _)]
    congr 1
    apply wrap_congr
    have hexp : r ^ (k + 1) * revVal r (d :: es)
        = d * r ^ (k + 1) + r ^ (k + 1 + 1) * revVal r es := by
      rw [revVal, Nat.mul_add, Nat.pow_succ r (k + 1), Nat.mul_comm d, Nat.mul_assoc]
    rw [hexp, Int.add_emod, wrap_emod, ← Int.add_emod, Int.natCast_add, Int.natCast_mul d]
    generalize ((r ^ (k + 1) : Nat) : Int) = q
    generalize ((r ^ (k + 1 + 1) * revVal r es : Nat) : Int) = z
    rw [Int.add_assoc, Int.add_emod o, Int.add_emod (d * T.wrap q), Int.mul_emod, wrap_emod,
      ← Int.mul_emod, ← Int.add_emod (d * q), ← Int.add_emod]

/-! ### `int` and wider signed types -/

/-- Nothing overflows in the sums from the output `o` on. -/
def Smooth (T : IntTy) (w : Nat → Int) (o : Int) (es : List Nat) : Prop :=
  ∀ k, (h : k < es.length) →
    T.Has (es[k] * w k) ∧ T.Has (o + Spec.weighted w (es.take (k + 1)))

theorem place_wide {T : IntTy} (hs : T.signed = true) (hb : T.bits = 32 ∨ T.bits = 64) {r : Nat}
    (h36 : r ≤ 36) {d : Nat} (hd : d < r) {o p : Int} (ho : T.Has o) (hp : T.Has p) :
    place T r d o p = if (T.bits = 64 → T.Has (p * r)) ∧ T.Has (d * T.wrap (p * r))
        ∧ T.Has (o + d * T.wrap (p * r))
      then .ok (o + d * T.wrap (p * r), T.wrap (p * r)) else .ub := by
  have hT : T.Std := by unfold Std; omega
  have eD : IntTy.int.common T = T := by
    obtain ⟨b, s⟩ := T
    simp only at hs hb
    subst hs
    rcases hb with rfl | rfl <;> decide
  have hsm : ∀ n : Nat, n ≤ 36 → T.Has n := by
    intro n hn
    have := max_ge hT
    exact has_of_nonneg hT (by omega) (by omega)
  have rest : (do
      let m ← T.arith (T.wrap d * T.wrap (T.wrap (p * r)))
      let s ← T.arith (T.wrap o + T.wrap m)
      Outcome.ok (T.wrap s, T.wrap (p * r)))
      = if T.Has (d * T.wrap (p * r)) ∧ T.Has (o + d * T.wrap (p * r))
        then .ok (o + d * T.wrap (p * r), T.wrap (p * r)) else .ub := by
    rw [(hsm d (by omega)).wrap_eq hT, (has_wrap hT _).wrap_eq hT, ho.wrap_eq hT]
    generalize T.wrap (p * r) = q
    by_cases h1 : T.Has (d * q)
    · rw [arith_of_has hT h1, Outcome.ok_bind, h1.wrap_eq hT]
      by_cases h2 : T.Has (o + d * q)
      · rw [arith_of_has hT h2, Outcome.ok_bind, h2.wrap_eq hT, if_pos ⟨h1, h2⟩]
      · have : T.arith (o + d * q) = .ub := by simp [arith, hs, h2]
        rw [this, if_neg (fun h => h2 h.2)]
        rfl
    · have : T.arith (d * q) = .ub := by simp [arith, hs, h1]
      rw [this, if_neg (fun h => h1 h.1)]
      rfl
  simp only [place]
  rw [common_commonI hT, eD]
  rcases hb with hb | hb
  · have eC : T.common .uint = uint := by
      obtain ⟨b, s⟩ := T
      simp only at hs hb
      subst hs hb
      decide
    rw [eC, arith_unsigned (show uint.signed = false from rfl), Outcome.ok_bind, wrap_mul_wrap,
      wrap_wrap (T := T) (C := uint) (by rw [hb]; decide), rest]
    simp [hb]
  · have eC : T.common .uint = T := by
      obtain ⟨b, s⟩ := T
      simp only at hs hb
      subst hs hb
      decide
    rw [eC, hp.wrap_eq hT, (hsm r h36).wrap_eq hT]
    by_cases h1 : T.Has (p * r)
    · rw [arith_of_has hT h1, Outcome.ok_bind, rest]
      simp [h1]
    · have : T.arith (p * r) = .ub := by simp [arith, hs, h1]
      rw [this, if_neg (fun h => h1 (h.1 hb))]
      rfl

theorem accum_wide {T : IntTy} (hs : T.signed = true) (hb : T.bits = 32 ∨ T.bits = 64) {r : Nat}
    (h36 : r ≤ 36) : ∀ (es : List Nat) (k : Nat) (o : Int), (∀ d ∈ es, d < r) →
      T.Has o → (T.bits = 64 → T.Has ((r ^ k : Nat) : Int)) →
      (((∀ j, j < es.length → T.bits = 64 → T.Has ((r ^ (k + 1 + j) : Nat) : Int))
          ∧ Smooth T (fun j => T.wrap ((r ^ (k + 1 + j) : Nat) : Int)) o es) →
        accum T r es o (T.wrap ((r ^ k : Nat) : Int))
          = .ok (o + Spec.weighted (fun j => T.wrap ((r ^ (k + 1 + j) : Nat) : Int)) es))
      ∧ (¬ ((∀ j, j < es.length → T.bits = 64 → T.Has ((r ^ (k + 1 + j) : Nat) : Int))
          ∧ Smooth T (fun j => T.wrap ((r ^ (k + 1 + j) : Nat) : Int)) o es) →
        accum T r es o (T.wrap ((r ^ k : Nat) : Int)) = .ub) := by
  have hT : T.Std := by unfold Std; omega
  intro es
  induction es with
  | nil =>
    intro k o _ ho hk
    refine ⟨fun _ => by simp [accum, Spec.weighted], fun h => ?_⟩
    exact absurd ⟨by simp, fun k h => by simp at h⟩ h
  | cons d es ih =>
    intro k o hd ho hk
    have e1 : T.wrap (T.wrap ((r ^ k : Nat) : Int) * r) = T.wrap ((r ^ (k + 1) : Nat) : Int) := by
      rw [wrap_wrap_mul, Nat.pow_succ, Int.natCast_mul]
    have e2 : T.bits = 64 → T.wrap ((r ^ k : Nat) : Int) * r = ((r ^ (k + 1) : Nat) : Int) := by
      intro h
      rw [(hk h).wrap_eq hT, Nat.pow_succ, Int.natCast_mul]
    have e3 : (fun j => T.wrap ((r ^ (k + 1 + (j + 1)) : Nat) : Int))
        = fun j => T.wrap ((r ^ (k + 1 + 1 + j) : Nat) : Int) := by
      funext j
      rw [show k + 1 + (j + 1) = k + 1 + 1 + j by omega]
    rw [accum, place_wide hs hb h36 (hd d (by simp)) ho (has_wrap hT _), e1]
    by_cases hc : (T.bits = 64 → T.Has (T.wrap ((r ^ k : Nat) : Int) * r))
        ∧ T.Has (d * T.wrap ((r ^ (k + 1) : Nat) : Int))
        ∧ T.Has (o + d * T.wrap ((r ^ (k + 1) : Nat) : Int))
    · rw [if_pos hc, Outcome.ok_bind]
      have hk1 : T.bits = 64 → T.Has ((r ^ (k + 1) : Nat) : Int) := fun h => by
        rw [← e2 h]; exact hc.1 h
      obtain ⟨ih1, ih2⟩ := ih (k + 1) (o + d * T.wrap ((r ^ (k + 1) : Nat) : Int))
        (fun x hx => hd x (by simp [hx])) hc.2.2 hk1
      have hiff : ((∀ j, j < (d :: es).length → T.bits = 64 →
            T.Has ((r ^ (k + 1 + j) : Nat) : Int))
          ∧ Smooth T (fun j => T.wrap ((r ^ (k + 1 + j) : Nat) : Int)) o (d :: es))
          ↔ ((∀ j, j < es.length → T.bits = 64 → T.Has ((r ^ (k + 1 + 1 + j) : Nat) : Int))
          ∧ Smooth T (fun j => T.wrap ((r ^ (k + 1 + 1 + j) : Nat) : Int))
            (o + d * T.wrap ((r ^ (k + 1) : Nat) : Int)) es) := by
        constructor
        · rintro ⟨g1, g2⟩
          refine ⟨fun j hj h => ?_, fun j hj => ?_⟩
          · have := g1 (j + 1) (by simp; omega) h
            rwa [show k + 1 + (j + 1) = k + 1 + 1 + j by omega] at this
          · have := g2 (j + 1) (by simp; omega)
            simp only [List.getElem_cons_succ, List.take_succ_cons, Spec.weighted, e3,
              Nat.add_zero] at this
            refine ⟨?_, ?_⟩
            · have h1 := this.1
              rwa [show k + 1 + (j + 1) = k + 1 + 1 + j by omega] at h1
            · rw [Int.add_assoc]; exact this.2
        · rintro ⟨g1, g2⟩
          refine ⟨fun j hj h => ?_, fun j hj => ?_⟩
          · cases j with
            | zero => exact hk1 h
            | succ j =>
              rw [show k + 1 + (j + 1) = k + 1 + 1 + j by omega]
              exact g1 j (by simpa using hj) h
          · cases j with
            | zero =>
              simp only [List.getElem_cons_zero, List.take_succ_cons, List.take_zero, Spec.weighted,
                Nat.add_zero, Int.add_zero]
              exact hc.2
            | succ j =>
              have := g2 j (by simpa using hj)
              simp only [List.getElem_cons_succ, List.take_succ_cons, Spec.weighted, e3,
                Nat.add_zero]
              rw [show k + 1 + (j + 1) = k + 1 + 1 + j by omega, ← Int.add_assoc]
              exact this
      rw [hiff]
      refine ⟨fun h => ?_, fun h => ih2 h⟩
      rw [ih1 h]
      simp only [Spec.weighted, e3, Nat.add_zero, Int.add_assoc]
    · rw [if_neg hc]
      refine ⟨fun h => ?_, fun _ => rfl⟩
      exfalso
      apply hc
      have h1 := h.2 0 (by simp)
      simp only [List.getElem_cons_zero, List.take_succ_cons, List.take_zero, Spec.weighted,
        Nat.add_zero, Int.add_zero] at h1
      refine ⟨fun h64 => ?_, h1⟩
      rw [e2 h64]
      exact h.1 0 (by simp) h64

/-- Place values that are right up to a multiple of `2^bits` give a value that is. -/
theorem weighted_emod (T : IntTy) (r : Nat) : ∀ (es : List Nat) (k : Nat),
    Spec.weighted (fun j => T.wrap ((r ^ (k + j) : Nat) : Int)) es % ((2 ^ T.bits : Nat) : Int)
      = ((r ^ k * revVal r es : Nat) : Int) % ((2 ^ T.bits : Nat) : Int) := by
  intro es
  induction es with
  | nil => intro k; simp [Spec.weighted, revVal]
  | cons d es ih =>
    intro k
    have e3 : (fun j => T.wrap ((r ^ (k + (j + 1)) : Nat) : Int))
        = fun j => T.wrap ((r ^ (k + 1 + j) : Nat) : Int) := by
      funext j
      rw [show k + (j + 1) = k + 1 + j by omega]
    have hexp : r ^ k * revVal r (d :: es) = d * r ^ k + r ^ (k + 1) * revVal r es := by
      rw [revVal, Nat.mul_add, Nat.pow_succ r k, Nat.mul_comm d, Nat.mul_assoc]
    rw [Spec.weighted, e3, Int.add_emod, ih (k + 1), Nat.add_zero, Int.mul_emod, wrap_emod,
      ← Int.mul_emod, ← Int.add_emod, hexp, Int.natCast_add, Int.natCast_mul d]

theorem finish_wide {T : IntTy} (hs : T.signed = true) (hb : T.bits = 32 ∨ T.bits = 64)
    (neg : Bool) {o : Int} (ho : T.Has o) :
    finish T neg o = if neg = true ∧ o = T.min then .ub else .ok (if neg then -o else o) := by
  have hT : T.Std := by unfold Std; omega
  have eP : T.promote = T := by
    unfold IntTy.promote
    rw [if_neg (by omega)]
  have hmm : T.min = -T.max - 1 := by simp [IntTy.min, IntTy.max, hs]; omega
  unfold finish
  cases neg with
  | false => simp
  | true =>
    simp only [if_true, hs, eP, true_and]
    by_cases h : o = T.min
    · rw [if_pos h]
      have : ¬ T.Has (-o) := by
        intro hh
        have := hh.2
        omega
      simp [arith, hs, this]
    · rw [if_neg h]
      have h1 := ho.1
      have h2 := ho.2
      have hH : T.Has (-o) := ⟨by omega, by omega⟩
      rw [arith_of_has hT hH, Outcome.ok_bind, hH.wrap_eq hT]

theorem finish_narrow {T : IntTy} (hs : T.signed = true) (hb : T.bits = 8 ∨ T.bits = 16)
    (neg : Bool) {o : Int} (ho : T.Has o) :
    finish T neg o = .ok (T.wrap (if neg then -o else o)) := by
  have hT : T.Std := by unfold Std; omega
  have eP : T.promote = int := by
    unfold IntTy.promote
    rw [if_pos (by omega)]
  unfold finish
  cases neg with
  | false => simp [ho.wrap_eq hT]
  | true =>
    have h1 := ho.1
    have h2 := ho.2
    have hH : int.Has (-o) := by
      rcases hb with hb | hb <;>
        simp [Has, IntTy.min, IntTy.max, hs, hb, int] at h1 h2 ⊢ <;> omega
    simp only [if_true, hs, eP]
    rw [arith_of_has (by decide) hH, Outcome.ok_bind]

end Cmp
