import Verif.Proofs.NumberArith
import Verif.Proofs.UnicodeText

/-
Helper lemmas: `parse_integer` on texts.
-/

namespace Cmp

open IntTy

/-- The separator character of a format. -/
def Separator.char : Separator → Option Nat
  | .none => .none
  | .comma => some 44
  | .period => some 46

theorem Separator.char_eq_some {sep : Separator} {s : Nat} (h : sep.char = some s) :
    (sep = .comma ∧ s = 44) ∨ (sep = .period ∧ s = 46) := by
  cases sep <;> simp [Separator.char] at h <;> simp [h]

/-! ### Characters -/

theorem digitValue_cases {c d : Nat} (h : Spec.digitValue c = some d) :
    (48 ≤ c ∧ c ≤ 57 ∧ d = c - 48) ∨ (65 ≤ c ∧ c ≤ 90 ∧ d = c - 55)
      ∨ (97 ≤ c ∧ c ≤ 122 ∧ d = c - 87) := by
  unfold Spec.digitValue at h
  split at h
  · simp at h; omega
  split at h
  · simp at h; omega
  split at h
  · simp at h; omega
  · simp at h

theorem isDigit_iff (r c : Nat) : Spec.IsDigit r c ↔
    (48 ≤ c ∧ c ≤ 57 ∧ c < 48 + r) ∨ (65 ≤ c ∧ c ≤ 90 ∧ c < 55 + r)
      ∨ (97 ≤ c ∧ c ≤ 122 ∧ c < 87 + r) := by
  unfold Spec.IsDigit Spec.digitValue
  split
  · simp; omega
  · split
    · simp; omega
    · split
      · simp; omega
      · simp; omega

instance (r c : Nat) : Decidable (Spec.IsDigit r c) := decidable_of_iff _ (isDigit_iff r c).symm

/-- `is_radix_digit` where `std::tolower` is defined. -/
theorem isRadixDigit_eq {c r : Nat} (h36 : r ≤ 36) (hc : c < 2 ^ 32)
    (hd : r < 10 ∨ c ≤ 255) :
    isRadixDigit (BitVec.ofNat 32 c) r = .ok (decide (Spec.IsDigit r c)) := by
  have e : (BitVec.ofNat 32 c).toNat = c := by rw [BitVec.toNat_ofNat, Nat.mod_eq_of_lt hc]
  have hdec : decide (Spec.IsDigit r c) = decide ((48 ≤ c ∧ c ≤ 57 ∧ c < 48 + r)
      ∨ (65 ≤ c ∧ c ≤ 90 ∧ c < 55 + r) ∨ (97 ≤ c ∧ c ≤ 122 ∧ c < 87 + r)) := by
    rw [decide_eq_decide]; exact isDigit_iff r c
  rw [hdec]
  unfold isRadixDigit
  by_cases hr : r < 10
  · rw [if_pos hr, e]
    congr 1
    rw [Bool.eq_iff_iff]
    simp only [Bool.and_eq_true, decide_eq_true_eq]
    omega
  · rw [if_neg hr]
    have hc' : c ≤ 255 := by omega
    rw [tolower, if_pos (.inl (by rw [e]; exact hc')), Outcome.ok_bind]
    have hm : (97 + r - 10) % 2 ^ 32 = 87 + r := by omega
    rw [hm, e]
    congr 1
    rw [Bool.eq_iff_iff]
    simp only [Bool.or_eq_true, Bool.and_eq_true, decide_eq_true_eq]
    split
    · rename_i hup
      rw [BitVec.toNat_add, e, BitVec.toNat_ofNat]
      omega
    · rename_i hup
      rw [e]
      omega

theorem isRadixDigit_defined {c : Char32} {r : Nat} :
    (∃ b, isRadixDigit c r = .ok b) ∨ isRadixDigit c r = .ub := by
  unfold isRadixDigit tolower
  split
  · exact .inl ⟨_, rfl⟩
  · split
    · exact .inl ⟨_, rfl⟩
    · exact .inr rfl

theorem digitCharacterToInteger_digit {c d r : Nat} (h36 : r ≤ 36)
    (hv : Spec.digitValue c = some d) (hd : d < r) :
    digitCharacterToInteger (BitVec.ofNat 32 c) r = .ok d := by
  have hcs := digitValue_cases hv
  have e : (BitVec.ofNat 32 c).toNat = c := by
    rw [BitVec.toNat_ofNat, Nat.mod_eq_of_lt (by omega)]
  rw [digitCharacterToInteger, isRadixDigit_eq h36 (by omega) (by omega), Outcome.ok_bind,
    decide_eq_true ⟨d, hv, hd⟩]
  simp only [Bool.not_true, Bool.false_eq_true, if_false, BitVec.le_def, e, BitVec.toNat_ofNat,
    Bool.and_eq_true, decide_eq_true_eq, Nat.reducePow, Nat.reduceMod]
  rcases hcs with h | h | h
  · rw [if_pos (by omega)]; congr 1; omega
  · rw [if_neg (by omega), if_neg (by omega), if_pos (by omega)]; congr 1; omega
  · rw [if_neg (by omega), if_pos (by omega)]; congr 1; omega

theorem getNextDigit_digit {c d r : Nat} (h36 : r ≤ 36)
    (hv : Spec.digitValue c = some d) (hd : d < r) :
    getNextDigit (BitVec.ofNat 32 c) r = .ok d := by
  rw [getNextDigit, digitCharacterToInteger_digit h36 hv hd, Outcome.ok_bind, if_neg (by omega)]

theorem getNextDigit_nondigit {c r : Nat} (h36 : r ≤ 36) (hc : c < 2 ^ 32)
    (hok : r < 10 ∨ c ≤ 255) (hn : ¬ Spec.IsDigit r c) :
    getNextDigit (BitVec.ofNat 32 c) r = .throw (.parseFailed .digitCharacterExpected) := by
  rw [getNextDigit, digitCharacterToInteger, isRadixDigit_eq h36 hc hok, decide_eq_false hn]
  rfl

theorem isSignCharacter_eq {c : Nat} (hc : c < 2 ^ 32) :
    isSignCharacter (BitVec.ofNat 32 c) = decide (c = 45 ∨ c = 43) := by
  unfold isSignCharacter
  rw [Bool.eq_iff_iff]
  simp only [Bool.or_eq_true, beq_iff_eq, decide_eq_true_eq]
  rw [show (45#32) = BitVec.ofNat 32 45 from rfl, show (43#32) = BitVec.ofNat 32 43 from rfl,
    ofNat32_inj hc (by decide), ofNat32_inj hc (by decide)]

/-- A sign character the format accepts as a sign. -/
def SignOk (s : SignStatus) (c : Nat) : Prop := c = 45 ∨ (c = 43 ∧ s = .alwaysShow)

instance (s : SignStatus) (c : Nat) : Decidable (SignOk s c) := by unfold SignOk; infer_instance

theorem checkForSign_sign {c : Nat} (st : ParseState) {s : SignStatus} (h : SignOk s c)
    (hf : st.signFound = false) :
    checkForSign (BitVec.ofNat 32 c) st s
      = .ok (true, { st with signFound := true, negate := st.negate || decide (c = 45) }) := by
  rcases h with rfl | ⟨rfl, rfl⟩
  · simp [checkForSign, isSignCharacter, hf]
  · simp [checkForSign, isSignCharacter, hf]

theorem checkForSign_second {c : Nat} (hc : c = 45 ∨ c = 43) (st : ParseState) {s : SignStatus}
    (hf : st.signFound = true) :
    checkForSign (BitVec.ofNat 32 c) st s = .throw (.parseFailed .multipleSigns) := by
  rcases hc with rfl | rfl <;> simp [checkForSign, isSignCharacter, hf]

theorem checkForSign_other {c : Nat} (hc : c < 2 ^ 32) (hn : ¬ (c = 45 ∨ c = 43))
    (st : ParseState) {s : SignStatus} :
    checkForSign (BitVec.ofNat 32 c) st s = .ok (false, st) := by
  simp [checkForSign, isSignCharacter_eq hc, hn]

theorem checkForSign_unaccepted {c : Nat} (hc : c < 2 ^ 32)
    (st : ParseState) {s : SignStatus} (hn : ¬ SignOk s c) (hf : st.signFound = false) :
    checkForSign (BitVec.ofNat 32 c) st s = .ok (false, st) := by
  by_cases h : c = 45 ∨ c = 43
  · rcases h with rfl | rfl
    · exact absurd (.inl rfl) hn
    · cases s with
      | alwaysShow => exact absurd (.inr ⟨rfl, rfl⟩) hn
      | onlyWhenNegative => simp [checkForSign, isSignCharacter, hf]
  · exact checkForSign_other hc h st

/-! ### One step of the loop -/

/-- The next character must be a separator (or a sign). -/
def AtSep (f : IntegerFormat) (st : ParseState) : Prop :=
  st.counted = 3 ∧ f.separator ≠ .none

instance (f : IntegerFormat) (st : ParseState) : Decidable (AtSep f st) := by
  unfold AtSep; infer_instance

theorem parseStep_atSep (T : IntTy) {f : IntegerFormat} {st : ParseState} (h : AtSep f st)
    (c : Char32) :
    parseStep T f st c = (do
      let (b, st) ← checkForSign c { st with counted := 0 } f.sign
      if b then .ok st
      else do
        checkForThousandsSeparator c f.separator
        .ok st) := by
  unfold parseStep
  rw [if_pos (by simpa [AtSep] using h)]

theorem parseStep_notAtSep (T : IntTy) {f : IntegerFormat} {st : ParseState} (h : ¬ AtSep f st)
    (c : Char32) :
    parseStep T f st c = (do
      let (b, st) ← checkForSign c st f.sign
      if b then .ok st
      else if !(← isRadixDigit c f.radix) then reportNonDigit
      else do
        let d ← getNextDigit c f.radix
        prependDigit T f.radix d st) := by
  unfold parseStep
  rw [if_neg (by simpa [AtSep] using h)]

theorem parseStep_digit (T : IntTy) {f : IntegerFormat} (h36 : f.radix ≤ 36) {st : ParseState}
    (h : ¬ AtSep f st) {c d : Nat} (hv : Spec.digitValue c = some d) (hd : d < f.radix) :
    parseStep T f st (BitVec.ofNat 32 c) = prependDigit T f.radix d st := by
  have hcs := digitValue_cases hv
  rw [parseStep_notAtSep T h, checkForSign_other (by omega) (by omega), Outcome.ok_bind]
  simp only [Bool.false_eq_true, if_false]
  rw [isRadixDigit_eq h36 (by omega) (by omega), Outcome.ok_bind, decide_eq_true ⟨d, hv, hd⟩]
  simp only [Bool.not_true, Bool.false_eq_true, if_false]
  rw [getNextDigit_digit h36 hv hd, Outcome.ok_bind]

theorem parseStep_nondigit (T : IntTy) {f : IntegerFormat} (h36 : f.radix ≤ 36)
    {st : ParseState} (h : ¬ AtSep f st) {c : Nat} (hc : c < 2 ^ 32)
    (hok : f.radix < 10 ∨ c ≤ 255) (hn : ¬ Spec.IsDigit f.radix c)
    (hs : ¬ (c = 45 ∨ c = 43) ∨ (¬ SignOk f.sign c ∧ st.signFound = false)) :
    parseStep T f st (BitVec.ofNat 32 c) = .throw (.parseFailed .digitCharacterExpected) := by
  have e : checkForSign (BitVec.ofNat 32 c) st f.sign = .ok (false, st) := by
    rcases hs with hs | ⟨hs, hf⟩
    · exact checkForSign_other hc hs st
    · exact checkForSign_unaccepted hc st hs hf
  rw [parseStep_notAtSep T h, e, Outcome.ok_bind]
  simp only [Bool.false_eq_true, if_false]
  rw [isRadixDigit_eq h36 hc hok, Outcome.ok_bind, decide_eq_false hn]
  rfl

theorem parseStep_sep (T : IntTy) {f : IntegerFormat} {st : ParseState} (h : st.counted = 3)
    {s : Nat} (hs : f.separator.char = some s) :
    parseStep T f st (BitVec.ofNat 32 s) = .ok { st with counted := 0 } := by
  have hcs := Separator.char_eq_some hs
  have h' : AtSep f st := ⟨h, by rintro e; rw [e] at hs; simp [Separator.char] at hs⟩
  rw [parseStep_atSep T h', checkForSign_other (by omega) (by omega), Outcome.ok_bind]
  simp only [Bool.false_eq_true, if_false]
  rcases hcs with ⟨e, rfl⟩ | ⟨e, rfl⟩ <;> rw [e] <;> rfl

theorem parseStep_nosep (T : IntTy) {f : IntegerFormat} {st : ParseState} (h : st.counted = 3)
    {s c : Nat} (hs : f.separator.char = some s) (hc : c < 2 ^ 32) (hn : c ≠ s)
    (hsg : ¬ (c = 45 ∨ c = 43) ∨ (¬ SignOk f.sign c ∧ st.signFound = false)) :
    parseStep T f st (BitVec.ofNat 32 c)
      = .throw (.parseFailed .thousandsSeparatorMissing) := by
  have hcs := Separator.char_eq_some hs
  have h' : AtSep f st := ⟨h, by rintro e; rw [e] at hs; simp [Separator.char] at hs⟩
  have e : checkForSign (BitVec.ofNat 32 c) { st with counted := 0 } f.sign
      = .ok (false, { st with counted := 0 }) := by
    rcases hsg with hs | ⟨hs, hf⟩
    · exact checkForSign_other hc hs _
    · exact checkForSign_unaccepted hc _ hs hf
  rw [parseStep_atSep T h', e, Outcome.ok_bind]
  simp only [Bool.false_eq_true, if_false]
  have : checkForThousandsSeparator (BitVec.ofNat 32 c) f.separator
      = .throw (.parseFailed .thousandsSeparatorMissing) := by
    unfold checkForThousandsSeparator
    rw [if_pos]
    rcases hcs with ⟨e, rfl⟩ | ⟨e, rfl⟩
    · simp only [e, decide_true, Bool.true_and, Bool.or_eq_true]
      left
      rw [bne_iff_ne]
      intro hh
      exact hn ((ofNat32_inj hc (by decide)).mp hh)
    · simp only [e, decide_true, Bool.true_and, Bool.or_eq_true]
      right
      rw [bne_iff_ne]
      intro hh
      exact hn ((ofNat32_inj hc (by decide)).mp hh)
  rw [this]
  rfl

/-- An accepted sign; the digit count is reset if a separator was due. -/
theorem parseStep_sign (T : IntTy) {f : IntegerFormat} (st : ParseState) {c : Nat}
    (h : SignOk f.sign c) (hf : st.signFound = false) :
    parseStep T f st (BitVec.ofNat 32 c) = .ok { st with
      counted := if AtSep f st then 0 else st.counted,
      signFound := true, negate := st.negate || decide (c = 45) } := by
  by_cases ha : AtSep f st
  · rw [parseStep_atSep T ha, checkForSign_sign { st with counted := 0 } h hf, Outcome.ok_bind, if_pos ha]
    rfl
  · rw [parseStep_notAtSep T ha, checkForSign_sign _ h hf, Outcome.ok_bind, if_neg ha]
    rfl

theorem parseStep_second (T : IntTy) {f : IntegerFormat} (st : ParseState) {c : Nat}
    (h : c = 45 ∨ c = 43) (hf : st.signFound = true) :
    parseStep T f st (BitVec.ofNat 32 c) = .throw (.parseFailed .multipleSigns) := by
  by_cases ha : AtSep f st
  · rw [parseStep_atSep T ha, checkForSign_second h { st with counted := 0 } hf]; rfl
  · rw [parseStep_notAtSep T ha, checkForSign_second h _ hf]; rfl

/-! ### The whole function on a text -/

/-- `parse_integer` as a function of the code points from right to left. -/
def parseRev (T : IntTy) (f : IntegerFormat) : List Nat → Outcome Int
  | [] => .throw (.parseFailed .emptyInput)
  | c :: rs => do
    let d ← getNextDigit (BitVec.ofNat 32 c) f.radix
    let st ← rs.foldlM (fun st c => parseStep T f st (BitVec.ofNat 32 c))
      { output := T.wrap d, power := 1, counted := 1, signFound := false, negate := false }
    parseFinish T st

theorem parseInteger_encs (e : Enc) (T : IntTy) (f : IntegerFormat) (cs : List Nat)
    (h : ∀ c ∈ cs, BwdOk e c) :
    parseInteger e T (encs e cs) f = parseRev T f cs.reverse := by
  rcases List.eq_nil_or_concat cs with rfl | ⟨init, c, rfl⟩
  · rfl
  · have hc : BwdOk e c := h c (by simp)
    have hpos := encU_length_pos e c
    have e1 : encs e (init ++ [c]) = encs e init ++ (encU e c ++ []) := by
      simp [encs_append, encs_cons]
    have e2 : (encs e init ++ (encU e c ++ [])).length
        = (encs e init).length + (encU e c).length := by simp
    rw [List.concat_eq_append, parseInteger, e1, e2, if_neg (by omega), rderef_enc e c hc,
      Outcome.ok_bind, List.reverse_append]
    simp only [List.reverse_cons, List.reverse_nil, List.nil_append, List.cons_append]
    rw [parseRev]
    congr 1
    funext d
    rw [retreat_enc e c hc, Outcome.ok_bind]
    by_cases hi : init = []
    · subst hi
      rfl
    · rw [if_neg]
      · have hl := encs_length_ge e init
        have := rforEachFrom_enc e (parseStep T f) init.reverse (encU e c ++ [])
          ((encs e init).length + (encU e c).length + 1)
          ⟨T.wrap d, 1, 1, false, false⟩ (by
            intro x hx
            exact h x (by simp at hx; simp [hx])) (by simp; omega)
        rw [List.reverse_reverse] at this
        rw [this]
      · have := encs_length_ge e init
        have := List.length_pos_iff.mpr hi
        omega

/-! ### Digit sequences, least significant first -/

/-- Value of a digit sequence, least significant first. -/
def revVal (r : Nat) : List Nat → Nat
  | [] => 0
  | d :: l => d + r * revVal r l

theorem revVal_append (r : Nat) (a b : List Nat) :
    revVal r (a ++ b) = revVal r a + r ^ a.length * revVal r b := by
  induction a with
  | nil => simp [revVal]
  | cons x a ih =>
    simp only [List.cons_append, revVal, ih, List.length_cons, Nat.pow_succ, Nat.mul_add]
    rw [Nat.mul_comm (r ^ a.length) r, Nat.mul_assoc]
    omega

theorem positional_eq (r : Nat) (ds : List Nat) :
    Spec.positional r ds = revVal r ds.reverse := by
  have h : ∀ (ds : List Nat) (a : Nat), ds.foldl (fun a d => a * r + d) a
      = revVal r ds.reverse + r ^ ds.length * a := by
    intro ds
    induction ds with
    | nil => intro a; simp [revVal]
    | cons d ds ih =>
      intro a
      rw [List.foldl_cons, ih, List.reverse_cons, revVal_append, List.length_reverse]
      simp only [revVal, Nat.mul_add, List.length_cons, Nat.pow_succ]
      have e : r ^ ds.length * (a * r) = r ^ ds.length * r * a := by
        rw [Nat.mul_comm a r, Nat.mul_assoc]
      rw [e]
      omega
  have := h ds 0
  simpa [Spec.positional] using this

/-- Insertion of separators when `k` digits have been counted since the last one. -/
def groupFrom {α : Type} (sep : Option α) : Nat → List α → List α
  | _, [] => []
  | k, c :: l =>
    match sep with
    | none => c :: groupFrom sep (k + 1) l
    | some s => if k = 3 then s :: c :: groupFrom sep 1 l else c :: groupFrom sep (k + 1) l

theorem groupFrom_none {α : Type} (k : Nat) (l : List α) : groupFrom none k l = l := by
  induction l generalizing k with
  | nil => rfl
  | cons c l ih => simp [groupFrom, ih]

theorem groupFrom_groupRev {α : Type} (s : α) : ∀ (l : List α),
    groupFrom (some s) 0 l = Spec.groupRev s l
  | [] => rfl
  | [_] => rfl
  | [_, _] => rfl
  | [_, _, _] => rfl
  | a :: b :: c :: d :: l => by
    have := groupFrom_groupRev s (d :: l)
    simp only [groupFrom, Nat.reduceEqDiff, Nat.reduceAdd, if_false, if_true] at this ⊢
    rw [Spec.groupRev, ← this]

/-- The grouped digits, from right to left. -/
theorem group_reverse {α : Type} (sep : Option α) (l : List α) :
    (Spec.group sep l).reverse = groupFrom sep 0 l.reverse := by
  cases sep with
  | none => simp [Spec.group, groupFrom_none]
  | some s => simp [Spec.group, groupFrom_groupRev]

theorem group_eq {α : Type} (sep : Option α) (l : List α) :
    Spec.group sep l = (groupFrom sep 0 l.reverse).reverse := by
  rw [← group_reverse, List.reverse_reverse]

/-- One digit after the other through the loop, whatever the arithmetic does. -/
theorem foldlM_groupFrom (T : IntTy) {f : IntegerFormat} (h36 : f.radix ≤ 36) (sep : Option Nat)
    (hsep : f.separator.char = sep)
    (P : Nat → List Nat → ParseState → Prop)
    (Q : ParseState → Prop)
    (hstep : ∀ k d ds st, d < f.radix → P k (d :: ds) st →
      ∃ st', prependDigit T f.radix d st = .ok st' ∧ P (k + 1) ds st'
        ∧ st'.counted = st.counted + 1 ∧ st'.signFound = st.signFound ∧ st'.negate = st.negate)
    (hcount : ∀ k ds st n, P k ds st → P k ds { st with counted := n })
    (hend : ∀ k st, P k [] st → Q st) :
    ∀ (l ds : List Nat) (k : Nat) (st : ParseState), l.map Spec.digitValue = ds.map some →
      (∀ d ∈ ds, d < f.radix) → P k ds st → (sep.isSome → st.counted ≤ 3) →
      ∃ st', (groupFrom sep st.counted l).foldlM
          (fun st c => parseStep T f st (BitVec.ofNat 32 c)) st = .ok st'
        ∧ Q st' ∧ st'.signFound = st.signFound ∧ st'.negate = st.negate
        ∧ (sep.isSome → st'.counted ≤ 3)
        ∧ (l ≠ [] → sep.isSome → st'.counted = (st.counted + l.length - 1) % 3 + 1) := by
  intro l
  induction l with
  | nil =>
    intro ds k st hl hd hP hc
    cases ds with
    | nil =>
      exact ⟨st, by simp [groupFrom], hend k st hP, rfl, rfl, hc, by simp⟩
    | cons d ds => simp at hl
  | cons c l ih =>
    intro ds k st hl hd hP hc
    cases ds with
    | nil => simp at hl
    | cons d ds =>
      simp only [List.map_cons, List.cons.injEq] at hl
      have hdr := hd d (by simp)
      have hds : ∀ x ∈ ds, x < f.radix := fun x hx => hd x (by simp [hx])
      cases sep with
      | none =>
        have hna : ¬ AtSep f st := by
          intro h
          cases hf : f.separator <;> simp [hf, Separator.char] at hsep
          exact h.2 hf
        obtain ⟨st', e, hP', hk, hsf, hng⟩ := hstep k d ds st hdr hP
        obtain ⟨st'', e2, hQ, hsf2, hng2, hc2, hc3⟩ := ih ds (k + 1) st' hl.2 hds hP' (by simp)
        refine ⟨st'', ?_, hQ, hsf2.trans hsf, hng2.trans hng, by simp, by simp⟩
        rw [groupFrom, List.foldlM_cons, parseStep_digit T h36 hna hl.1 hdr, e, Outcome.ok_bind,
          ← hk]
        exact e2
      | some s =>
        by_cases h3 : st.counted = 3
        · have hna : ¬ AtSep f { st with counted := 0 } := by simp [AtSep]
          obtain ⟨st', e, hP', hk, hsf, hng⟩ := hstep k d ds { st with counted := 0 } hdr
            (hcount k _ st 0 hP)
          simp only [Nat.zero_add] at hk
          obtain ⟨st'', e2, hQ, hsf2, hng2, hc2, hc3⟩ :=
            ih ds (k + 1) st' hl.2 hds hP' (by omega)
          refine ⟨st'', ?_, hQ, hsf2.trans hsf, hng2.trans hng, hc2, ?_⟩
          · simp only [groupFrom, if_pos h3]
            rw [List.foldlM_cons, parseStep_sep T h3 hsep, Outcome.ok_bind, List.foldlM_cons,
              parseStep_digit T h36 hna hl.1 hdr, e, Outcome.ok_bind, ← hk]
            exact e2
          · intro _ _
            by_cases hl0 : l = []
            · subst hl0
              have : st'' = st' := by simpa [groupFrom] using e2.symm
              rw [this, hk]
              simp; omega
            · rw [hc3 hl0 rfl, hk]
              have := List.length_pos_iff.mpr hl0
              simp only [List.length_cons]; omega
        · have hna : ¬ AtSep f st := by simp [AtSep, h3]
          have hle := hc rfl
          obtain ⟨st', e, hP', hk, hsf, hng⟩ := hstep k d ds st hdr hP
          obtain ⟨st'', e2, hQ, hsf2, hng2, hc2, hc3⟩ :=
            ih ds (k + 1) st' hl.2 hds hP' (by omega)
          refine ⟨st'', ?_, hQ, hsf2.trans hsf, hng2.trans hng, hc2, ?_⟩
          · simp only [groupFrom, if_neg h3]
            rw [List.foldlM_cons, parseStep_digit T h36 hna hl.1 hdr, e, Outcome.ok_bind, ← hk]
            exact e2
          · intro _ _
            by_cases hl0 : l = []
            · subst hl0
              have : st'' = st' := by simpa [groupFrom] using e2.symm
              rw [this, hk]
              simp; omega
            · rw [hc3 hl0 rfl, hk]
              have := List.length_pos_iff.mpr hl0
              simp only [List.length_cons]; omega

end Cmp
