import Verif.Proofs.NumberParseValue

/-
Helper lemmas: `format_integer`.
-/

namespace Cmp

open IntTy

theorem insOk_ascii (e : Enc) {c : Nat} (h : c < 128) : InsOk e c := by
  cases e <;> simp only [InsOk, Spec.IsScalar] <;> omega

theorem prependCP_enc (e : Enc) (c : Nat) (h : InsOk e c) (cs : List Nat) :
    prependCP e (encs e cs) (BitVec.ofNat 32 c) = .ok (encs e (c :: cs)) := by
  rw [prependCP, prependCodePoint, insertCodePoint_enc e c h _ _ (Nat.zero_le _)]
  simp [encs_cons]

theorem upperDigit_value {d : Nat} (h : d < 36) : Spec.digitValue (Spec.upperDigit d) = some d := by
  unfold Spec.upperDigit Spec.digitValue
  split
  · rw [if_pos (by omega)]; congr 1; omega
  · rw [if_neg (by omega), if_pos (by omega)]; congr 1; omega

theorem upperDigit_lt {d : Nat} (h : d < 36) : Spec.upperDigit d < 128 := by
  unfold Spec.upperDigit; split <;> omega

theorem formatDigit_eq {d : Nat} (h : d < 36) :
    formatDigit d = BitVec.ofNat 32 (Spec.upperDigit d) := by
  have h1 : int8.wrap d = d := (show int8.Has d by
    simp [Has, IntTy.min, IntTy.max, int8]; omega).wrap_eq (by decide)
  have h2 : (if (d : Int) ≤ 9 then (d : Int) + 48 else d + (65 - 10))
      = (Spec.upperDigit d : Int) := by
    unfold Spec.upperDigit; split <;> split <;> omega
  have h3 : int8.wrap (Spec.upperDigit d : Int) = Spec.upperDigit d :=
    (show int8.Has _ by
      have := upperDigit_lt h
      simp [Has, IntTy.min, IntTy.max, int8]; omega).wrap_eq (by decide)
  simp only [formatDigit, h1, h2, h3]
  exact BitVec.ofInt_natCast _ _

/-- One iteration of the formatting loop on a non-zero value that fits. -/
theorem formatLoop_step (e : Enc) {T : IntTy} (h : T.Std) {r : Nat} (h2 : 2 ≤ r) (h36 : r ≤ 36)
    (sep : Separator) (fuel n k : Nat) (hn : 0 < n) (hmax : (n : Int) ≤ T.max)
    (acc : List Nat) :
    formatLoop e T r sep (fuel + 1) n k (encs e acc)
      = (if k + 1 = 3 then
          if n / r = 0 then
            formatLoop e T r sep fuel (n / r : Nat) 0 (encs e (Spec.upperDigit (n % r) :: acc))
          else
            match sep.char with
            | some s => formatLoop e T r sep fuel (n / r : Nat) 0
                (encs e (s :: Spec.upperDigit (n % r) :: acc))
            | none => formatLoop e T r sep fuel (n / r : Nat) 0
                (encs e (Spec.upperDigit (n % r) :: acc))
        else formatLoop e T r sep fuel (n / r : Nat) (k + 1)
          (encs e (Spec.upperDigit (n % r) :: acc))) := by
  have hC := h.commonU
  have hCm := commonU_max h
  have hm := max_ge h
  have hdl : n / r ≤ n := Nat.div_le_self _ _
  have hml : n % r < r := Nat.mod_lt _ (by omega)
  have hnn : (0 : Int) ≤ ((n / r : Nat) : Int) := Int.natCast_nonneg _
  have hnm : ((n / r : Nat) : Int) ≤ (T.common uint).max := by omega
  have e1 : (T.common uint).wrap (n : Int) = n :=
    (has_of_nonneg hC (by omega) (by omega)).wrap_eq hC
  have e2 : (T.common uint).wrap (r : Int) = r :=
    (has_of_nonneg hC (by omega) (by omega)).wrap_eq hC
  have ed : (n : Int).tdiv r = ((n / r : Nat) : Int) := by
    rw [Int.tdiv_eq_ediv_of_nonneg (by omega)]; rfl
  have em : (n : Int).tmod r = ((n % r : Nat) : Int) := by
    rw [Int.tmod_eq_emod_of_nonneg (by omega)]; rfl
  have hH : (T.common uint).Has ((n / r : Nat) : Int) :=
    has_of_nonneg hC hnn hnm
  have hr0 : (r : Int) ≠ 0 := by omega
  have erem : (T.common uint).rem n r = .ok ((n % r : Nat) : Int) := by
    rw [IntTy.rem, if_neg hr0, ed, if_pos hH, em]
  have ediv : (T.common uint).div n r = .ok ((n / r : Nat) : Int) := by
    rw [IntTy.div, if_neg hr0, ed, arith_of_has hC hH]
  have ew : T.wrap ((n / r : Nat) : Int) = ((n / r : Nat) : Int) :=
    (has_of_nonneg h hnn (Int.le_trans (by omega) hmax)).wrap_eq h
  have hpre : prependCP e (encs e acc) (formatDigit ((n % r : Nat) : Int))
      = .ok (encs e (Spec.upperDigit (n % r) :: acc)) := by
    rw [formatDigit_eq (by omega)]
    exact prependCP_enc e _ (insOk_ascii e (upperDigit_lt (by omega))) acc
  rw [formatLoop, if_neg (by omega)]
  simp only [e1, e2]
  rw [erem, Outcome.ok_bind, hpre, Outcome.ok_bind, ediv, Outcome.ok_bind, ew]
  by_cases h3 : k + 1 = 3
  · rw [if_pos h3, if_pos h3]
    by_cases hz : n / r = 0
    · rw [if_pos hz, if_neg (by simp only [hz]; simp)]
    · rw [if_neg hz, if_pos (by omega)]
      cases sep with
      | none => rfl
      | comma =>
        simp only [Separator.char]
        rw [show (44#32) = BitVec.ofNat 32 44 from rfl,
          prependCP_enc e 44 (insOk_ascii e (by omega)), Outcome.ok_bind]
      | period =>
        simp only [Separator.char]
        rw [show (46#32) = BitVec.ofNat 32 46 from rfl,
          prependCP_enc e 46 (insOk_ascii e (by omega)), Outcome.ok_bind]
  · rw [if_neg h3, if_neg h3]

theorem groupFrom_ne {α : Type} (sep : Option α) {k : Nat} (h : k ≠ 3) (c : α) (l : List α) :
    groupFrom sep k (c :: l) = c :: groupFrom sep (k + 1) l := by
  cases sep <;> simp [groupFrom, h]

theorem groupFrom_three {α : Type} (s : α) (l : List α) (h : l ≠ []) :
    groupFrom (some s) 3 l = s :: groupFrom (some s) 0 l := by
  cases l with
  | nil => exact absurd rfl h
  | cons c l => simp [groupFrom]

theorem formatLoop_eq (e : Enc) {T : IntTy} (h : T.Std) {r : Nat} (h2 : 2 ≤ r) (h36 : r ≤ 36)
    (sep : Separator) : ∀ (n fuel k : Nat) (acc : List Nat), n < fuel → (n : Int) ≤ T.max →
      k ≤ 2 →
      ∃ ds, formatLoop e T r sep fuel n k (encs e acc)
          = .ok (encs e ((groupFrom sep.char k (ds.map Spec.upperDigit)).reverse ++ acc))
        ∧ revVal r ds = n ∧ (∀ d ∈ ds, d < r) ∧ ds.getLast? ≠ some 0 ∧ (n ≠ 0 → ds ≠ []) := by
  intro n
  induction n using Nat.strongRecOn with
  | _ n ih =>
    intro fuel k acc hf hmax hk
    obtain ⟨fuel, rfl⟩ : ∃ m, fuel = m + 1 := ⟨fuel - 1, by omega⟩
    by_cases hn : n = 0
    · subst hn
      refine ⟨[], ?_, rfl, by simp, by simp, by simp⟩
      simp [formatLoop, groupFrom]
    · have hdl : n / r < n := Nat.div_lt_self (by omega) (by omega)
      have hml : n % r < r := Nat.mod_lt _ (by omega)
      have hval : n % r + r * (n / r) = n := Nat.mod_add_div n r
      rw [formatLoop_step e h h2 h36 sep fuel n k (by omega) hmax]
      have hrest : ∀ ds : List Nat, revVal r ds = n / r → (∀ d ∈ ds, d < r) →
          ds.getLast? ≠ some 0 → (n / r ≠ 0 → ds ≠ []) →
          revVal r (n % r :: ds) = n ∧ (∀ d ∈ n % r :: ds, d < r)
            ∧ (n % r :: ds).getLast? ≠ some 0 ∧ (n ≠ 0 → n % r :: ds ≠ []) := by
        intro ds hv hd hl hne
        refine ⟨by rw [revVal, hv]; exact hval, ?_, ?_, by simp⟩
        · intro d hd'
          rcases List.mem_cons.mp hd' with rfl | hx
          · exact hml
          · exact hd d hx
        · cases ds with
          | nil =>
            simp only [revVal] at hv
            rw [← hv] at hval
            simp
            omega
          | cons x ds => simpa [List.getLast?_cons_cons] using hl
      by_cases h3 : k + 1 = 3
      · rw [if_pos h3]
        by_cases hz : n / r = 0
        · rw [if_pos hz]
          obtain ⟨ds, e1, hv, hd, hl, hne⟩ := ih (n / r) hdl fuel 0
            (Spec.upperDigit (n % r) :: acc) (by omega) (by omega) (by omega)
          have hds : ds = [] := by
            cases ds with
            | nil => rfl
            | cons x ds =>
              exfalso
              rw [hz] at hv
              have : ∀ l : List Nat, l ≠ [] → l.getLast? ≠ some 0 → revVal r l ≠ 0 := by
                intro l
                induction l with
                | nil => intro h; exact absurd rfl h
                | cons y l ihl =>
                  intro _ hlast
                  rw [revVal]
                  cases l with
                  | nil => simp at hlast; simp [revVal]; exact hlast
                  | cons z l =>
                    have := ihl (by simp) (by simpa [List.getLast?_cons_cons] using hlast)
                    have : 0 < r * revVal r (z :: l) := Nat.mul_pos (by omega) (by omega)
                    omega
              exact this (x :: ds) (by simp) hl hv
          subst hds
          refine ⟨[n % r], ?_, hrest [] hv hd hl hne⟩
          rw [e1]
          have hk3 : k ≠ 3 := by omega
          simp [groupFrom_ne _ hk3, groupFrom, encs_cons]
        · rw [if_neg hz]
          cases hsep : sep.char with
          | none =>
            simp only
            obtain ⟨ds, e1, hv, hd, hl, hne⟩ := ih (n / r) hdl fuel 0
              (Spec.upperDigit (n % r) :: acc) (by omega) (by omega) (by omega)
            refine ⟨n % r :: ds, ?_, hrest ds hv hd hl hne⟩
            rw [e1, hsep]
            simp [groupFrom_none]
          | some s =>
            simp only
            obtain ⟨ds, e1, hv, hd, hl, hne⟩ := ih (n / r) hdl fuel 0
              (s :: Spec.upperDigit (n % r) :: acc) (by omega) (by omega) (by omega)
            refine ⟨n % r :: ds, ?_, hrest ds hv hd hl hne⟩
            rw [e1, hsep, List.map_cons, groupFrom_ne _ (by omega), h3, groupFrom_three s _ (by simpa using hne hz)]
            simp
      · rw [if_neg h3]
        obtain ⟨ds, e1, hv, hd, hl, hne⟩ := ih (n / r) hdl fuel (k + 1)
          (Spec.upperDigit (n % r) :: acc) (by omega) (by omega) (by omega)
        refine ⟨n % r :: ds, ?_, hrest ds hv hd hl hne⟩
        rw [e1]
        have hk3 : k ≠ 3 := by omega
        simp [groupFrom_ne _ hk3, encs_cons]

theorem absAssign_eq {T : IntTy} (h : T.Std) {v : Int} (hv : T.Has v)
    (hmin : T.signed = true → v ≠ T.min) :
    absAssign T v = .ok v.natAbs ∧ (v.natAbs : Int) ≤ T.max := by
  unfold absAssign
  cases hs : T.signed with
  | false =>
    have : T.min = 0 := by simp [IntTy.min, hs]
    have h0 := hv.1
    have : (v.natAbs : Int) = v := by omega
    simp only [Bool.false_eq_true, if_false]
    rw [this]
    exact ⟨rfl, hv.2⟩
  | true =>
    have hmn := hmin hs
    have : T.min = -T.max - 1 := by simp [IntTy.min, IntTy.max, hs]; omega
    have h0 := hv.1
    have h1 := hv.2
    have hle : (v.natAbs : Int) ≤ T.max := by omega
    have hp := promote_max h
    simp only [if_true]
    rw [arith_of_has h.promote (has_of_nonneg h.promote (by omega) (by omega)), Outcome.ok_bind,
      (has_of_nonneg h (by omega) hle).wrap_eq h]
    exact ⟨rfl, hle⟩

theorem max_lt_pow {T : IntTy} (h : T.Std) : T.max < ((2 ^ T.bits : Nat) : Int) := by
  rcases h.cases with rfl | rfl | rfl | rfl | rfl | rfl | rfl | rfl <;> decide

/-- The sign `format_integer` writes. -/
def signText (s : SignStatus) (v : Int) : List Nat :=
  if v < 0 then [45] else if 0 < v ∧ s = .alwaysShow then [43] else []

/-- Summary of `format_integer`: the digits of the absolute value, grouped, after the sign. -/
theorem formatInteger_eq (e : Enc) {T : IntTy} (h : T.Std) {f : IntegerFormat}
    (h2 : 2 ≤ f.radix) (h36 : f.radix ≤ 36) {v : Int} (hv : T.Has v)
    (hmin : T.signed = true → v ≠ T.min) :
    ∃ ds, formatInteger e T v f
        = .ok (encs e (signText f.sign v
            ++ Spec.group f.separator.char (ds.map Spec.upperDigit)))
      ∧ Spec.positional f.radix ds = v.natAbs ∧ (∀ d ∈ ds, d < f.radix) ∧ ds ≠ []
      ∧ (ds.head? = some 0 → ds = [0]) := by
  by_cases hz : v = 0
  · subst hz
    refine ⟨[0], ?_, by simp [Spec.positional], by simp; omega, by simp, by simp⟩
    rw [formatInteger, if_pos rfl]
    have := appendCP_enc e 48 (insOk_ascii e (by omega)) []
    rw [show (48#32) = BitVec.ofNat 32 48 from rfl, this]
    cases f.separator <;>
      simp [signText, encs_cons, Spec.group, Separator.char, Spec.groupRev, Spec.upperDigit]
  · obtain ⟨ha, hle⟩ := absAssign_eq h hv hmin
    have hpow := max_lt_pow h
    obtain ⟨ds, e1, hval, hd, hl, hne⟩ := formatLoop_eq e h h2 h36 f.separator v.natAbs
      (2 ^ T.bits + 1) 0 [] (by omega) hle (by omega)
    refine ⟨ds.reverse, ?_, ?_, by simpa using hd, by simpa using hne (by omega), ?_⟩
    · rw [formatInteger, if_neg hz]
      simp only
      rw [ha, Outcome.ok_bind, show ([] : Str e) = encs e [] from rfl, e1, Outcome.ok_bind]
      have hg : Spec.group f.separator.char (ds.reverse.map Spec.upperDigit)
          = (groupFrom f.separator.char 0 (ds.map Spec.upperDigit)).reverse := by
        rw [group_eq, List.map_reverse, List.reverse_reverse]
      rw [hg, List.append_nil]
      by_cases hneg : v < 0
      · rw [if_pos hneg, if_pos (by decide), show (45#32) = BitVec.ofNat 32 45 from rfl,
          prependCP_enc e 45 (insOk_ascii e (by omega)), signText, if_pos hneg]
        rfl
      · rw [if_neg hneg, signText, if_neg hneg]
        by_cases hs : f.sign = .alwaysShow
        · rw [if_pos hs, if_pos (by decide), if_pos ⟨by omega, hs⟩,
            show (43#32) = BitVec.ofNat 32 43 from rfl,
            prependCP_enc e 43 (insOk_ascii e (by omega))]
          rfl
        · rw [if_neg hs, if_neg (by decide), if_neg (by rintro ⟨_, h⟩; exact hs h)]
          rfl
    · rw [positional_eq, List.reverse_reverse, hval]
    · intro hh
      rw [List.head?_reverse] at hh
      exact absurd hh hl

end Cmp
