import Verif.Proofs.NumberExact
import Verif.Props.Number

/-
Helper lemmas: `format_integer` on the least values of the types narrower than `int`.
-/

namespace Cmp

open IntTy

/-! ### Texts and their encodings -/

theorem encode1_ascii (F : Spec.Form) {u : Nat} (h : u < 128) : F.encode1 u = [u] := by
  cases F
  · simp [Spec.Form.encode1, Spec.utf8, h]
  · simp [Spec.Form.encode1, Spec.utf16, show u < 65536 by omega]
  · rfl

theorem encode1_head (F : Spec.Form) {c u : Nat} {l : List Nat} (h : u < 128)
    (he : F.encode1 c = u :: l) : c = u ∧ l = [] := by
  cases F
  · simp only [Spec.Form.encode1, Spec.utf8] at he
    (repeat' split at he) <;> simp at he <;> omega
  · simp only [Spec.Form.encode1, Spec.utf16] at he
    split at he <;> simp at he
    · exact ⟨he.1, he.2⟩
    · omega
  · simp only [Spec.Form.encode1, Spec.utf32] at he
    simp at he
    exact ⟨he.1, he.2⟩

theorem encode1_ne_nil (F : Spec.Form) (c : Nat) : F.encode1 c ≠ [] := by
  cases F
  · simp only [Spec.Form.encode1, Spec.utf8]
    (repeat' split) <;> simp
  · simp only [Spec.Form.encode1, Spec.utf16]
    (repeat' split) <;> simp
  · simp [Spec.Form.encode1, Spec.utf32]

theorem encode_ascii_unique (F : Spec.Form) : ∀ (a b : List Nat), (∀ c ∈ a, c < 128) →
    F.encode b = F.encode a → b = a := by
  intro a
  induction a with
  | nil =>
    intro b _ h
    cases b with
    | nil => rfl
    | cons c b =>
      exfalso
      have h1 : F.encode1 c ++ F.encode b = [] := by simpa [Spec.Form.encode] using h
      exact encode1_ne_nil F c (List.append_eq_nil_iff.mp h1).1
  | cons u a ih =>
    intro b ha h
    have hu := ha u (by simp)
    have h0 : F.encode (u :: a) = u :: F.encode a := by
      simp [Spec.Form.encode, encode1_ascii F hu]
    rw [h0] at h
    cases b with
    | nil => simp [Spec.Form.encode] at h
    | cons c b =>
      have h1 : F.encode1 c ++ F.encode b = u :: F.encode a := by
        rw [← h]; simp [Spec.Form.encode]
      cases hc : F.encode1 c with
      | nil => exact absurd hc (encode1_ne_nil F c)
      | cons x l =>
        rw [hc] at h1
        simp only [List.cons_append, List.cons.injEq] at h1
        obtain ⟨rfl, h2⟩ := h1
        obtain ⟨rfl, rfl⟩ := encode1_head F hu hc
        rw [ih b (fun x hx => ha x (by simp [hx])) (by simpa using h2)]

/-- A string that denotes an ASCII text denotes no other text. -/
theorem textOf_ascii_unique {e : Enc} {s : Str e} {a b : List Nat} (ha : TextOf e s a)
    (hb : TextOf e s b) (h : ∀ c ∈ a, c < 128) : b = a :=
  encode_ascii_unique e.form a b h (by rw [← hb.1.2, ha.1.2])

/-- Removal of the separators. -/
def ungroup {α : Type} : List α → List α
  | a :: b :: c :: _ :: l => a :: b :: c :: ungroup l
  | l => l

theorem ungroup_groupRev {α : Type} (s : α) : ∀ l : List α, ungroup (Spec.groupRev s l) = l
  | [] => rfl
  | [_] => rfl
  | [_, _] => rfl
  | [_, _, _] => rfl
  | a :: b :: c :: d :: l => by
    rw [Spec.groupRev, ungroup, ungroup_groupRev s (d :: l)]

theorem group_inj {α : Type} (sep : Option α) {a b : List α}
    (h : Spec.group sep a = Spec.group sep b) : a = b := by
  cases sep with
  | none => exact h
  | some s =>
    simp only [Spec.group] at h
    have h1 := congrArg ungroup (List.reverse_inj.mp h)
    rw [ungroup_groupRev, ungroup_groupRev] at h1
    exact List.reverse_inj.mp h1

/-! ### The values the loop goes through -/

/-- The loop of `format_integer` in a type narrower than `int`, from `x` on, yields the digits
`ds`, least significant first. -/
def orbit (T : IntTy) (r : Nat) : Int → List Nat → Bool
  | x, [] => x == 0
  | x, d :: ds => x != 0 && (d : Int) == uint.wrap x % r
    && orbit T r (T.wrap (uint.wrap x / r)) ds

/-- The value after one turn of the loop. -/
def turn (T : IntTy) (r : Nat) (x : Int) : Int := T.wrap (uint.wrap x / r)

/-- One turn of the loop in a type narrower than `int`. -/
theorem formatLoop_turn (e : Enc) {T : IntTy} (hC : T.common .uint = uint) {r : Nat}
    (h2 : 2 ≤ r) (h36 : r ≤ 36) (sep : Separator) (fuel : Nat) {x : Int} (hx : x ≠ 0) (k : Nat)
    (acc : List Nat) :
    ∃ d : Nat, d < r ∧ (d : Int) = uint.wrap x % r
      ∧ formatLoop e T r sep (fuel + 1) x k (encs e acc)
        = formatLoop e T r sep fuel (turn T r x) (if k + 1 = 3 then 0 else k + 1)
          (encs e ((if k + 1 = 3 ∧ turn T r x ≠ 0 then sep.char.toList else [])
            ++ Spec.upperDigit d :: acc)) := by
  have hu : uint.Std := by decide
  obtain ⟨y, hy⟩ : ∃ y : Nat, uint.wrap x = y := by
    have := (has_wrap hu x).1
    rw [show uint.min = 0 from rfl] at this
    exact ⟨(uint.wrap x).toNat, by omega⟩
  have hym : (y : Int) ≤ uint.max := by rw [← hy]; exact (has_wrap hu x).2
  have hmx := max_ge hu
  have e2 : uint.wrap (r : Int) = r :=
    (has_of_nonneg hu (by omega) (by omega)).wrap_eq hu
  have hdl : y / r ≤ y := Nat.div_le_self _ _
  have hml : y % r < r := Nat.mod_lt _ (by omega)
  have ed : (y : Int).tdiv r = ((y / r : Nat) : Int) := by
    rw [Int.tdiv_eq_ediv_of_nonneg (by omega)]; rfl
  have em : (y : Int).tmod r = ((y % r : Nat) : Int) := by
    rw [Int.tmod_eq_emod_of_nonneg (by omega)]; rfl
  have hH : uint.Has ((y / r : Nat) : Int) :=
    has_of_nonneg hu (Int.natCast_nonneg _) (Int.le_trans (Int.ofNat_le.mpr hdl) hym)
  have hr0 : (r : Int) ≠ 0 := by omega
  have erem : uint.rem y r = .ok ((y % r : Nat) : Int) := by
    rw [IntTy.rem, if_neg hr0, ed, if_pos hH, em]
  have ediv : uint.div y r = .ok ((y / r : Nat) : Int) := by
    rw [IntTy.div, if_neg hr0, ed, arith_of_has hu hH]
  have hpre : prependCP e (encs e acc) (formatDigit ((y % r : Nat) : Int))
      = .ok (encs e (Spec.upperDigit (y % r) :: acc)) := by
    rw [formatDigit_eq (by omega)]
    exact prependCP_enc e _ (insOk_ascii e (upperDigit_lt (by omega))) acc
  have ht : turn T r x = T.wrap ((y / r : Nat) : Int) := by rw [turn, hy]; rfl
  refine ⟨y % r, hml, by rw [hy]; rfl, ?_⟩
  rw [formatLoop, if_neg hx]
  simp only [hC, hy, e2]
  rw [erem, Outcome.ok_bind, hpre, Outcome.ok_bind, ediv, Outcome.ok_bind, ← ht]
  by_cases h3 : k + 1 = 3
  · rw [if_pos h3, if_pos h3]
    by_cases hz : turn T r x = 0
    · rw [if_neg (by simpa using hz), if_neg (fun h => h.2 hz)]
      rfl
    · rw [if_pos hz, if_pos ⟨h3, hz⟩]
      cases sep with
      | none => rfl
      | comma =>
        simp only
        rw [show (44#32) = BitVec.ofNat 32 44 from rfl,
          prependCP_enc e 44 (insOk_ascii e (by omega)), Outcome.ok_bind]
        rfl
      | period =>
        simp only
        rw [show (46#32) = BitVec.ofNat 32 46 from rfl,
          prependCP_enc e 46 (insOk_ascii e (by omega)), Outcome.ok_bind]
        rfl
  · rw [if_neg h3, if_neg h3, if_neg (fun h => h3 h.1)]
    rfl

theorem formatLoop_orbit (e : Enc) {T : IntTy} (hC : T.common .uint = uint) {r : Nat}
    (h2 : 2 ≤ r) (h36 : r ≤ 36) (sep : Separator) (s : Str e) :
    ∀ (fuel : Nat) (x : Int) (k : Nat) (acc : List Nat), k ≤ 2 →
      formatLoop e T r sep fuel x k (encs e acc) = .ok s →
      ∃ ds, s = encs e ((groupFrom sep.char k (ds.map Spec.upperDigit)).reverse ++ acc)
        ∧ orbit T r x ds = true ∧ ∀ d ∈ ds, d < r := by
  intro fuel
  induction fuel with
  | zero => intro x k acc _ h; simp [formatLoop] at h
  | succ fuel ih =>
    intro x k acc hk h
    by_cases hx : x = 0
    · subst hx
      simp only [formatLoop, if_true, Outcome.ok.injEq] at h
      exact ⟨[], by simp [groupFrom, ← h], rfl, by simp⟩
    · obtain ⟨d, hdr, hd, e1⟩ := formatLoop_turn e hC h2 h36 sep fuel hx k acc
      rw [e1] at h
      obtain ⟨ds, e2, ho, hds⟩ := ih _ _ _ (by split <;> omega) h
      refine ⟨d :: ds, ?_, ?_, ?_⟩
      · rw [e2, List.map_cons, groupFrom_ne _ (by omega)]
        have hnil : turn T r x = 0 → ds = [] := by
          intro hz
          rw [hz] at ho
          cases ds with
          | nil => rfl
          | cons y ds => simp [orbit] at ho
        have hcons : turn T r x ≠ 0 → ds ≠ [] := by
          rintro hz rfl
          simp only [orbit, beq_iff_eq] at ho
          exact hz ho
        by_cases h3 : k + 1 = 3
        · rw [if_pos h3]
          by_cases hz : turn T r x = 0
          · rw [if_neg (fun h => h.2 hz), hnil hz]
            simp [groupFrom]
          · rw [if_pos ⟨h3, hz⟩, h3]
            cases hs : sep.char with
            | none => simp [groupFrom_none]
            | some c =>
              rw [groupFrom_three c _ (by simpa using hcons hz)]
              simp
        · rw [if_neg h3, if_neg (fun h => h3 h.1)]
          simp
      · rw [orbit]
        simp only [Bool.and_eq_true, bne_iff_ne, beq_iff_eq]
        exact ⟨⟨hx, hd⟩, ho⟩
      · intro c hc
        rcases List.mem_cons.mp hc with rfl | hc
        · exact hdr
        · exact hds c hc

/-- The loop returns within `n` turns. -/
def ends (T : IntTy) (r : Nat) : Nat → Int → Bool
  | 0, _ => false
  | n + 1, x => x == 0 || ends T r n (turn T r x)

theorem formatLoop_ends (e : Enc) {T : IntTy} (hC : T.common .uint = uint) {r : Nat}
    (h2 : 2 ≤ r) (h36 : r ≤ 36) (sep : Separator) :
    ∀ (n fuel : Nat) (x : Int) (k : Nat) (acc : List Nat), n ≤ fuel → ends T r n x = true →
      ∃ s, formatLoop e T r sep fuel x k (encs e acc) = .ok s := by
  intro n
  induction n with
  | zero => intro fuel x k acc _ h; simp [ends] at h
  | succ n ih =>
    intro fuel x k acc hf h
    obtain ⟨fuel, rfl⟩ : ∃ m, fuel = m + 1 := ⟨fuel - 1, by omega⟩
    by_cases hx : x = 0
    · subst hx
      exact ⟨_, by rw [formatLoop, if_pos rfl]⟩
    · obtain ⟨d, _, _, e1⟩ := formatLoop_turn e hC h2 h36 sep fuel hx k acc
      rw [e1]
      simp only [ends, Bool.or_eq_true, beq_iff_eq] at h
      exact ih fuel _ _ _ (by omega) (h.resolve_left hx)

/-- A set of values that the loop cannot leave, without zero. -/
def trap (T : IntTy) (r : Nat) (l : List Int) : Bool :=
  l.all fun x => x != 0 && l.contains (turn T r x)

theorem formatLoop_trap (e : Enc) {T : IntTy} (hC : T.common .uint = uint) {r : Nat}
    (h2 : 2 ≤ r) (h36 : r ≤ 36) (sep : Separator) {l : List Int} (hl : trap T r l = true) :
    ∀ (fuel : Nat) (x : Int) (k : Nat) (acc : List Nat), x ∈ l →
      formatLoop e T r sep fuel x k (encs e acc) = .hang := by
  intro fuel
  induction fuel with
  | zero => intro x k acc _; rfl
  | succ fuel ih =>
    intro x k acc hx
    have h1 := List.all_eq_true.mp hl x hx
    simp only [Bool.and_eq_true, bne_iff_ne, List.contains_iff_mem] at h1
    obtain ⟨d, _, _, e1⟩ := formatLoop_turn e hC h2 h36 sep fuel h1.1 k acc
    rw [e1]
    exact ih _ _ _ h1.2

/-- The values of `n` turns. -/
def turns (T : IntTy) (r : Nat) : Nat → Int → List Int
  | 0, _ => []
  | n + 1, x => x :: turns T r n (turn T r x)

/-- Whatever the digits are, their value is right modulo `2^bits`. -/
theorem orbit_value {T : IntTy} (hb : T.bits ≤ 32) {r : Nat} :
    ∀ (ds : List Nat) (x : Int), orbit T r x ds = true →
      ((revVal r ds : Nat) : Int) % ((2 ^ T.bits : Nat) : Int)
        = x % ((2 ^ T.bits : Nat) : Int) := by
  intro ds
  induction ds with
  | nil =>
    intro x h
    simp only [orbit, beq_iff_eq] at h
    simp [revVal, h]
  | cons d ds ih =>
    intro x h
    rw [orbit] at h
    simp only [Bool.and_eq_true, bne_iff_ne, beq_iff_eq] at h
    obtain ⟨⟨_, hd⟩, ho⟩ := h
    have h1 := ih _ ho
    rw [wrap_emod] at h1
    have hdv : ((2 ^ T.bits : Nat) : Int) ∣ ((2 ^ uint.bits : Nat) : Int) :=
      Int.natCast_dvd_natCast.mpr (Nat.pow_dvd_pow 2 hb)
    have hx : x % ((2 ^ T.bits : Nat) : Int) = uint.wrap x % ((2 ^ T.bits : Nat) : Int) := by
      rw [← Int.emod_emod_of_dvd (uint.wrap x) hdv, wrap_emod, Int.emod_emod_of_dvd _ hdv]
    rw [hx, revVal, Int.natCast_add, Int.natCast_mul, Int.add_emod, Int.mul_emod, h1,
      ← Int.mul_emod, ← Int.add_emod, hd]
    congr 1
    have := Int.emod_add_mul_ediv (uint.wrap x) r
    exact this

/-- The digits of `n`, least significant first. -/
def lows (r : Nat) : Nat → Nat → List Nat
  | 0, _ => []
  | fuel + 1, n => if n = 0 then [] else n % r :: lows r fuel (n / r)

theorem lows_unique {r : Nat} (h2 : 2 ≤ r) : ∀ (ds : List Nat) (fuel n : Nat), n < 2 ^ fuel →
    revVal r ds = n → (∀ d ∈ ds, d < r) → ds.getLast? ≠ some 0 → ds = lows r fuel n := by
  intro ds
  induction ds with
  | nil =>
    intro fuel n _ hv _ _
    simp only [revVal] at hv
    subst hv
    cases fuel <;> simp [lows]
  | cons d ds ih =>
    intro fuel n hn hv hd hl
    have hdr := hd d (by simp)
    have hmod : n % r = d := by
      rw [← hv, revVal, Nat.add_mul_mod_self_left, Nat.mod_eq_of_lt hdr]
    have hdiv : n / r = revVal r ds := by
      rw [← hv, revVal, Nat.add_mul_div_left _ _ (by omega), Nat.div_eq_of_lt hdr, Nat.zero_add]
    have hl' : ds.getLast? ≠ some 0 := by
      cases ds with
      | nil => simp
      | cons x ds => simpa [List.getLast?_cons_cons] using hl
    have hn0 : n ≠ 0 := by
      intro h0
      subst h0
      have hv0 : revVal r ds = 0 := by simpa using hdiv.symm
      have hd0 : d = 0 := by simpa using hmod.symm
      have := ih 0 0 (by simp) hv0 (fun x hx => hd x (by simp [hx])) hl'
      rw [this, hd0] at hl
      simp [lows] at hl
    cases fuel with
    | zero => simp at hn; omega
    | succ fuel =>
      have hlt : n / r < 2 ^ fuel := by
        have h1 : n / r ≤ n / 2 := Nat.div_le_div_left h2 (by omega)
        have h3 : n / 2 < 2 ^ fuel := by rw [Nat.pow_succ] at hn; omega
        omega
      rw [lows, if_neg hn0, hmod,
        ← ih fuel (n / r) hlt hdiv.symm (fun x hx => hd x (by simp [hx])) hl']

/-- The first step of the loop on the least value of a narrow type. -/
theorem formatLoop_least (e : Enc) {T : IntTy} (hs : T.signed = true)
    (hb : T.bits = 8 ∨ T.bits = 16) {r : Nat} (h2 : 2 ≤ r) (h36 : r ≤ 36)
    (hdvd : r ∣ 2 ^ (32 - T.bits) - 1) (sep : Separator) (fuel : Nat) :
    formatLoop e T r sep (fuel + 1) T.min 0 (encs e [])
      = formatLoop e T r sep fuel ((2 ^ (T.bits - 1) / r : Nat) : Int) 1
          (encs e [Spec.upperDigit (2 ^ (T.bits - 1) % r)]) := by
  have hC : T.common .uint = uint := by
    obtain ⟨b, s⟩ := T
    simp only at hs hb
    subst hs
    rcases hb with rfl | rfl <;> decide
  have hu : uint.Std := by decide
  have hT : T.Std := by unfold Std; omega
  have hmx := max_ge hu
  obtain ⟨m, hm⟩ := hdvd
  obtain ⟨n, hn⟩ : ∃ n, n = 2 ^ (T.bits - 1) := ⟨_, rfl⟩
  have hnn : n = 128 ∨ n = 32768 := by
    rcases hb with hb | hb <;> rw [hb] at hn <;> simp at hn <;> omega
  -- the bits of the least value as an `unsigned int`
  have hy : uint.wrap T.min = ((n + r * (2 ^ T.bits * m) : Nat) : Int) := by
    have h1 : r * (2 ^ T.bits * m) = 2 ^ T.bits * (2 ^ (32 - T.bits) - 1) := by
      rw [hm, ← Nat.mul_assoc, Nat.mul_comm r, Nat.mul_assoc]
    rw [h1, hn]
    rcases hb with hb | hb <;> simp [wrap, uint, IntTy.min, hs, hb]
  have e2 : uint.wrap (r : Int) = r :=
    (has_of_nonneg hu (by omega) (by omega)).wrap_eq hu
  generalize hyn : n + r * (2 ^ T.bits * m) = y at hy
  have hmod : y % r = n % r := by rw [← hyn, Nat.add_mul_mod_self_left]
  have hdiv : y / r = n / r + 2 ^ T.bits * m := by
    rw [← hyn, Nat.add_mul_div_left _ _ (by omega)]
  have hym : (y : Int) ≤ uint.max := by rw [← hy]; exact (has_wrap hu _).2
  have hdl : y / r ≤ y := Nat.div_le_self _ _
  have hml : y % r < r := Nat.mod_lt _ (by omega)
  have ed : (y : Int).tdiv r = ((y / r : Nat) : Int) := by
    rw [Int.tdiv_eq_ediv_of_nonneg (by omega)]; rfl
  have em : (y : Int).tmod r = ((y % r : Nat) : Int) := by
    rw [Int.tmod_eq_emod_of_nonneg (by omega)]; rfl
  have hH : uint.Has ((y / r : Nat) : Int) :=
    has_of_nonneg hu (Int.natCast_nonneg _) (Int.le_trans (Int.ofNat_le.mpr hdl) hym)
  have hr0 : (r : Int) ≠ 0 := by omega
  have erem : uint.rem y r = .ok ((y % r : Nat) : Int) := by
    rw [IntTy.rem, if_neg hr0, ed, if_pos hH, em]
  have ediv : uint.div y r = .ok ((y / r : Nat) : Int) := by
    rw [IntTy.div, if_neg hr0, ed, arith_of_has hu hH]
  have hpre : prependCP e (encs e []) (formatDigit ((y % r : Nat) : Int))
      = .ok (encs e [Spec.upperDigit (y % r)]) := by
    rw [formatDigit_eq (by omega)]
    exact prependCP_enc e _ (insOk_ascii e (upperDigit_lt (by omega))) []
  have hx : T.min ≠ 0 := by
    rcases hb with hb | hb <;> simp [IntTy.min, hs, hb]
  have hwr : T.wrap ((y / r : Nat) : Int) = ((n / r : Nat) : Int) := by
    have h1 : n / r ≤ n / 2 := Nat.div_le_div_left h2 (by omega)
    have hN : T.Has ((n / r : Nat) : Int) := by
      refine has_of_nonneg hT (Int.natCast_nonneg _) ?_
      have : T.max = n - 1 := by
        rw [hn]
        rcases hb with hb | hb <;> simp [IntTy.max, hs, hb]
      omega
    refine (wrap_of_emod hT hN ?_).symm
    rw [hdiv, Int.natCast_add, Int.natCast_mul, Int.add_mul_emod_self_left]
  rw [formatLoop, if_neg hx]
  simp only [hC, hy, e2]
  rw [erem, Outcome.ok_bind, hpre, Outcome.ok_bind, ediv, Outcome.ok_bind, hwr, hmod,
    if_neg (by omega), hn]

theorem absAssign_narrow {T : IntTy} (hs : T.signed = true) (hb : T.bits = 8 ∨ T.bits = 16) :
    absAssign T T.min = .ok T.min := by
  obtain ⟨b, s⟩ := T
  simp only at hs hb
  subst hs
  rcases hb with rfl | rfl <;> decide

theorem absAssign_wide {T : IntTy} (hs : T.signed = true) (hb : T.bits = 32 ∨ T.bits = 64) :
    absAssign T T.min = .ub := by
  obtain ⟨b, s⟩ := T
  simp only at hs hb
  subst hs
  rcases hb with rfl | rfl <;> decide

/-- The least value of a narrow type whose radix divides `2^(32-bits) - 1`. -/
theorem formatInteger_least (e : Enc) {T : IntTy} (hs : T.signed = true)
    (hb : T.bits = 8 ∨ T.bits = 16) {f : IntegerFormat} (h2 : 2 ≤ f.radix) (h36 : f.radix ≤ 36)
    (hdvd : f.radix ∣ 2 ^ (32 - T.bits) - 1) :
    ∃ ds, formatInteger e T T.min f
        = .ok (encs e (signText f.sign T.min
            ++ Spec.group f.separator.char (ds.map Spec.upperDigit)))
      ∧ Spec.positional f.radix ds = T.min.natAbs ∧ (∀ d ∈ ds, d < f.radix) ∧ ds ≠ []
      ∧ (ds.head? = some 0 → ds = [0]) := by
  have hT : T.Std := by unfold Std; omega
  have hneg : T.min < 0 := by rcases hb with hb | hb <;> simp [IntTy.min, hs, hb]
  obtain ⟨n, hn⟩ : ∃ n, n = 2 ^ (T.bits - 1) := ⟨_, rfl⟩
  have hnn : n = 128 ∨ n = 32768 := by
    rcases hb with hb | hb <;> rw [hb] at hn <;> simp at hn <;> omega
  have hna : T.min.natAbs = n := by
    rw [hn]
    rcases hb with hb | hb <;> simp [IntTy.min, hs, hb]
  have hmax : T.max = n - 1 := by
    rw [hn]
    rcases hb with hb | hb <;> simp [IntTy.max, hs, hb]
  have hpw : n ≤ 2 ^ T.bits := by rw [hn]; exact Nat.pow_le_pow_right (by omega) (by omega)
  have hdl : n / f.radix < n := Nat.div_lt_self (by omega) (by omega)
  have hloop := formatLoop_least e hs hb h2 h36 hdvd f.separator (2 ^ T.bits)
  rw [← hn] at hloop
  obtain ⟨ds, e1, hval, hd, hl, hne⟩ := formatLoop_eq e hT h2 h36 f.separator (n / f.radix)
    (2 ^ T.bits) 1 [Spec.upperDigit (n % f.radix)] (by omega) (by omega) (by omega)
  have hml : n % f.radix < f.radix := Nat.mod_lt _ (by omega)
  have hv : revVal f.radix (n % f.radix :: ds) = n := by
    rw [revVal, hval]; exact Nat.mod_add_div n f.radix
  have hg : Spec.group f.separator.char ((n % f.radix :: ds).reverse.map Spec.upperDigit)
      = (groupFrom f.separator.char 1 (ds.map Spec.upperDigit)).reverse
        ++ [Spec.upperDigit (n % f.radix)] := by
    rw [group_eq, List.map_reverse, List.reverse_reverse, List.map_cons, groupFrom_ne _ (by omega),
      List.reverse_cons]
  refine ⟨(n % f.radix :: ds).reverse, ?_, ?_, ?_, by simp, ?_⟩
  · rw [formatInteger, if_neg (by omega)]
    simp only
    rw [absAssign_narrow hs hb, Outcome.ok_bind, show ([] : Str e) = encs e [] from rfl, hloop, e1,
      Outcome.ok_bind, if_pos hneg, if_pos (by decide), show (45#32) = BitVec.ofNat 32 45 from rfl,
      prependCP_enc e 45 (insOk_ascii e (by omega)), signText, if_pos hneg, hg]
    rfl
  · rw [positional_eq, List.reverse_reverse, hv, hna]
  · intro d hd'
    rw [List.mem_reverse] at hd'
    rcases List.mem_cons.mp hd' with rfl | hx
    · exact hml
    · exact hd d hx
  · intro hh
    exfalso
    rw [List.head?_reverse] at hh
    cases ds with
    | nil =>
      simp at hh
      simp only [revVal] at hv
      omega
    | cons x ds => exact hl (by simpa [List.getLast?_cons_cons] using hh)

/-- For every other radix the loop does not go through the digits of the least value. -/
theorem orbit_least : ∀ r, r < 37 → 2 ≤ r →
    (orbit int8 r (-128) (lows r 8 128) = true → r ∣ 2 ^ 24 - 1)
    ∧ (orbit int16 r (-32768) (lows r 16 32768) = true → r ∣ 2 ^ 16 - 1) := by
  decide

/-- The radices for which the loop returns on the least `signed char`. -/
def returns8 : List Nat := [3, 5, 7, 9, 11, 12, 13, 15, 17, 19, 21, 23, 27, 28, 33, 35]

/-- The radices for which the loop returns on the least `short`. -/
def returns16 : List Nat := [3, 5, 7, 12, 13, 14, 15, 17, 19, 23, 25, 27, 31, 35, 36]

theorem ends_least : ∀ r, r < 37 → 2 ≤ r →
    (if r ∈ returns8 then ends int8 r 40 (-128)
      else trap int8 r (turns int8 r 40 (-128))) = true
    ∧ (if r ∈ returns16 then ends int16 r 40 (-32768)
      else trap int16 r (turns int16 r 40 (-32768))) = true := by
  decide +kernel

end Cmp
