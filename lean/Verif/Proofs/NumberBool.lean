import Verif.Model.NumberBool
import Verif.Proofs.NumberLax

/-
`parse_integer` for `bool`: it goes on as for any other unsigned type, and remembers whether there was a digit
other than zero.
-/

namespace Cmp

open IntTy
open _root_.Spec (LaxRead)

/-- Zero or one. -/
def ofTruth (b : Bool) : Int := if b then 1 else 0

theorem truth_nat (d : Nat) : truth d = ofTruth (d != 0) := by
  unfold truth ofTruth
  by_cases h : d = 0 <;> simp [h]

theorem prependDigitTruth_eq {r : Nat} (h2 : 2 ≤ r) (h36 : r ≤ 36) {d : Nat} (hd : d < r)
    (b : Bool) (n : Nat) (x y : Bool) :
    prependDigitTruth r d ⟨ofTruth b, 1, n, x, y⟩
      = .ok ⟨ofTruth (b || d != 0), 1, n + 1, x, y⟩ := by
  have e1 : uint.arith (uint.wrap 1 * uint.wrap r) = .ok (r : Int) := by
    have hw : uint.wrap 1 = 1 := by decide
    have hr : uint.wrap r = r := Has.wrap_eq (T := uint) (by decide) (by
      constructor
      · simp [IntTy.min, uint]
      · simp [IntTy.max, uint]
        omega)
    rw [hw, hr, Int.one_mul]
    exact arith_of_has (T := uint) (by decide) (by
      constructor
      · simp [IntTy.min, uint]
      · simp [IntTy.max, uint]
        omega)
  have e2 : truth (r : Int) = 1 := by unfold truth; rw [if_neg (by omega)]
  have e3 : int.arith ((d : Int) * 1) = .ok (d : Int) := by
    rw [Int.mul_one]
    exact arith_of_has (T := int) (by decide) (by
      constructor
      · exact Int.le_trans (by decide) (Int.natCast_nonneg d)
      · simp [IntTy.max, int]
        omega)
  have e4 : int.arith (ofTruth b + d) = .ok (ofTruth b + d) :=
    arith_of_has (T := int) (by decide) (by
      cases b <;> constructor <;> simp [ofTruth, IntTy.min, IntTy.max, int] <;> omega)
  have e5 : truth (ofTruth b + d) = ofTruth (b || d != 0) := by
    cases b
    · simp only [ofTruth, Bool.false_eq_true, if_false, Int.zero_add, Bool.false_or]
      exact truth_nat d
    · simp only [ofTruth, if_true, Bool.true_or]
      unfold truth
      rw [if_neg (by omega)]
  simp only [prependDigitTruth, e1, e2, e3, e4, e5, Outcome.ok_bind]

/-! ### It goes on as for `unsigned char` -/

/-- What does not depend on the type. -/
def ParseState.course (st : ParseState) : Nat × Bool × Bool := (st.counted, st.signFound, st.negate)

/-- Two outcomes of the same kind, related if they are values. -/
def Alike {α β : Type} (R : α → β → Prop) : Outcome α → Outcome β → Prop
  | .ok a, .ok b => R a b
  | .throw x, .throw y => x = y
  | .terminate, .terminate => True
  | .ub, .ub => True
  | .hang, .hang => True
  | _, _ => False

theorem Alike.bind {α β γ δ : Type} {R : α → β → Prop} {S : γ → δ → Prop} {x : Outcome α}
    {y : Outcome β} (h : Alike R x y) {g : α → Outcome γ} {k : β → Outcome δ}
    (hg : ∀ a b, R a b → Alike S (g a) (k b)) : Alike S (x >>= g) (y >>= k) := by
  cases x <;> cases y <;> first
    | exact hg _ _ h
    | exact h
    | exact h.elim

theorem Alike.refl {α : Type} (x : Outcome α) : Alike Eq x x := by
  cases x <;> first | rfl | trivial

/-- As far as they have come alike, and the place value has not vanished. -/
def Along (a b : ParseState) : Prop :=
  a.course = b.course ∧ a.power = 1 ∧ (∃ x, a.output = ofTruth x) ∧ uint8.Has b.output ∧ uint8.Has b.power

theorem checkForSign_alike {g : SignStatus} {a b : ParseState} (h : Along a b) (c : Char32) :
    Alike (fun p q => p.1 = q.1 ∧ Along p.2 q.2) (checkForSign c a g)
      (checkForSign c b g) := by
  obtain ⟨o, p, n, x, y⟩ := a
  obtain ⟨o', p', n', x', y'⟩ := b
  obtain ⟨h1, h2, h3⟩ := h
  simp only [ParseState.course, Prod.mk.injEq] at h1 h2 h3
  obtain ⟨rfl, rfl, rfl⟩ := h1
  unfold checkForSign
  split
  · split
    · rfl
    · split
      · exact ⟨rfl, rfl, h2, h3⟩
      · exact ⟨rfl, rfl, h2, h3⟩
  · exact ⟨rfl, rfl, h2, h3⟩

theorem getNextDigit_range {c : Char32} {r : Nat} (h36 : r ≤ 36) {d : Int}
    (h : getNextDigit c r = .ok d) (hc : c.toNat ≤ 0x10FFFF) : ∃ n : Nat, d = n ∧ n < r := by
  have hb : BitVec.ofNat 32 c.toNat = c := by simp
  rw [← hb] at h
  obtain ⟨m, hm, hr⟩ := getNextDigit_ok_isDigit h36 hc h
  rw [getNextDigit_digit h36 hm hr] at h
  exact ⟨m, by cases h; rfl, hr⟩

theorem prepend_alike {f : IntegerFormat} (hf : f.Valid) {a b : ParseState} (h : Along a b) {m : Nat}
    (hm : m < f.radix) :
    Alike Along (prependDigitTruth f.radix m a) (prependDigit uint8 f.radix m b) := by
  obtain ⟨h3, h4, ⟨x, h5⟩, h6, h7⟩ := h
  obtain ⟨o, p, n, u, v⟩ := a
  obtain ⟨o', p', n', u', v'⟩ := b
  simp only [ParseState.course, Prod.mk.injEq] at h3 h4 h5
  obtain ⟨rfl, rfl, rfl⟩ := h3
  subst h4 h5
  rw [prependDigitTruth_eq hf.1 hf.2 hm, prependDigit_modular (T := uint8) (by decide) rfl hf.2 hm
    _ h6 h7]
  exact ⟨rfl, rfl, ⟨_, rfl⟩, has_wrap (by decide) _, has_wrap (by decide) _⟩

theorem digit_alike {f : IntegerFormat} (hf : f.Valid) {a b : ParseState} (h : Along a b) (x : Outcome Int)
    (hx : ∀ d, x = .ok d → ∃ n : Nat, d = n ∧ n < f.radix) :
    Alike Along (x >>= fun d => prependDigitTruth f.radix d a)
      (x >>= fun d => prependDigit uint8 f.radix d b) := by
  cases x with
  | ok d =>
    obtain ⟨m, rfl, hm⟩ := hx d rfl
    rw [Outcome.ok_bind, Outcome.ok_bind]
    exact prepend_alike hf h hm
  | throw x => exact rfl
  | terminate => trivial
  | ub => trivial
  | hang => trivial

theorem stepTruth_atSep {f : IntegerFormat} {st : ParseState} (h : AtSep f st) (c : Char32) :
    parseStepTruth f st c = (do
      let (b, st) ← checkForSign c { st with counted := 0 } f.sign
      if b then .ok st
      else do
        checkForThousandsSeparator c f.separator
        .ok st) := by
  unfold parseStepTruth
  rw [if_pos (by simpa [AtSep] using h)]

theorem stepTruth_notAtSep {f : IntegerFormat} {st : ParseState} (h : ¬ AtSep f st) (c : Char32) :
    parseStepTruth f st c = (do
      let (b, st) ← checkForSign c st f.sign
      if b then .ok st
      else if !(← isRadixDigit c f.radix) then reportNonDigit
      else do
        let d ← getNextDigit c f.radix
        prependDigitTruth f.radix d st) := by
  unfold parseStepTruth
  rw [if_neg (by simpa [AtSep] using h)]

theorem parseStep_alike {f : IntegerFormat} (hf : f.Valid) {a b : ParseState} (h : Along a b)
    {c : Char32} (hc : c.toNat ≤ 0x10FFFF) :
    Alike Along (parseStepTruth f a c) (parseStep uint8 f b c) := by
  have hk : a.counted = b.counted := congrArg (·.1) h.1
  by_cases hs : AtSep f b
  · rw [parseStep_atSep uint8 hs, stepTruth_atSep (show AtSep f a from ⟨hk.trans hs.1, hs.2⟩)]
    refine Alike.bind (checkForSign_alike (a := { a with counted := 0 })
      (b := { b with counted := 0 }) ?_ c) ?_
    · obtain ⟨h1, h2, h3⟩ := h
      simp only [ParseState.course, Prod.mk.injEq] at h1
      exact ⟨by simp only [ParseState.course, h1.2.1, h1.2.2], h2, h3⟩
    · rintro ⟨s, a⟩ ⟨t, b⟩ ⟨h1, h2⟩
      obtain rfl : s = t := h1
      cases s
      · exact Alike.bind (Alike.refl _) fun _ _ _ => h2
      · exact h2
  · rw [parseStep_notAtSep uint8 hs, stepTruth_notAtSep (show ¬ AtSep f a from fun h' => hs ⟨hk.symm.trans h'.1, h'.2⟩)]
    refine Alike.bind (checkForSign_alike h c) ?_
    rintro ⟨s, a⟩ ⟨t, b⟩ ⟨h1, h2⟩
    obtain rfl : s = t := h1
    cases s
    · refine Alike.bind (Alike.refl _) ?_
      rintro p _ rfl
      cases p
      · exact (Alike.refl (.throw (.parseFailed .digitCharacterExpected) : Outcome Unit))
      · simp only [Bool.not_true, Bool.false_eq_true, if_false]
        exact digit_alike hf h2 _ fun d hd => getNextDigit_range hf.2 hd hc
    · exact h2

/-! ### On a text -/

/-- The loop over the code points, from right to left. -/
def foldTruth (f : IntegerFormat) (st : ParseState) (rs : List Nat) : Outcome ParseState :=
  rs.foldlM (fun st c => parseStepTruth f st (BitVec.ofNat 32 c)) st

theorem foldTruth_cons (f : IntegerFormat) (st : ParseState) (c : Nat) (rs : List Nat) :
    foldTruth f st (c :: rs)
      = (parseStepTruth f st (BitVec.ofNat 32 c) >>= fun st => foldTruth f st rs) :=
  List.foldlM_cons

/-- `parse_integer<bool>` as a function of the code points from right to left. -/
def revTruth (f : IntegerFormat) : List Nat → Outcome Bool
  | [] => .throw (.parseFailed .emptyInput)
  | c :: rs => do
    let d ← getNextDigit (BitVec.ofNat 32 c) f.radix
    let st ← foldTruth f
      { output := truth d, power := 1, counted := 1, signFound := false, negate := false } rs
    parseFinishTruth st

theorem parseTruth_encs (e : Enc) (f : IntegerFormat) (cs : List Nat) (h : ∀ c ∈ cs, BwdOk e c) :
    parseTruth e (encs e cs) f = revTruth f cs.reverse := by
  rcases List.eq_nil_or_concat cs with rfl | ⟨init, c, rfl⟩
  · rfl
  · have hc : BwdOk e c := h c (by simp)
    have hpos := encU_length_pos e c
    have e1 : encs e (init ++ [c]) = encs e init ++ (encU e c ++ []) := by
      simp [encs_append, encs_cons]
    have e2 : (encs e init ++ (encU e c ++ [])).length
        = (encs e init).length + (encU e c).length := by simp
    rw [List.concat_eq_append, parseTruth, e1, e2, if_neg (by omega), rderef_enc e c hc,
      Outcome.ok_bind, List.reverse_append]
    simp only [List.reverse_cons, List.reverse_nil, List.nil_append, List.cons_append]
    rw [revTruth]
    congr 1
    funext d
    rw [retreat_enc e c hc, Outcome.ok_bind]
    by_cases hi : init = []
    · subst hi
      rfl
    · rw [if_neg]
      · have hl := encs_length_ge e init
        have := rforEachFrom_enc e (parseStepTruth f) init.reverse (encU e c ++ [])
          ((encs e init).length + (encU e c).length + 1)
          ⟨truth d, 1, 1, false, false⟩ (by
            intro x hx
            exact h x (by simp at hx; simp [hx])) (by simp; omega)
        rw [List.reverse_reverse] at this
        rw [this]
        rfl
      · have := encs_length_ge e init
        have := List.length_pos_iff.mpr hi
        omega

theorem fold_alike {f : IntegerFormat} (hf : f.Valid) (rs : List Nat) (h : ∀ c ∈ rs, c ≤ 0x10FFFF) :
    ∀ {a b : ParseState}, Along a b → Alike Along (foldTruth f a rs) (parseFold uint8 f b rs) := by
  induction rs with
  | nil => intro a b hab; exact hab
  | cons c rs ih =>
    intro a b hab
    rw [foldTruth_cons, parseFold_cons]
    have hc := h c (by simp)
    exact Alike.bind (parseStep_alike hf hab (by simp; omega)) fun _ _ h' =>
      ih (fun c hc => h c (by simp [hc])) h'

theorem rev_alike {f : IntegerFormat} (hf : f.Valid) (rs : List Nat) (h : ∀ c ∈ rs, c ≤ 0x10FFFF) :
    Alike (fun _ _ => True) (revTruth f rs) (parseRev uint8 f rs) := by
  cases rs with
  | nil => rfl
  | cons c rs =>
    rw [revTruth, parseRev]
    cases hd : getNextDigit (BitVec.ofNat 32 c) f.radix with
    | ok d =>
      simp only [Outcome.ok_bind]
      have hc := h c (by simp)
      obtain ⟨m, rfl, hm⟩ := getNextDigit_range hf.2 hd (by simp; omega)
      refine Alike.bind (fold_alike hf rs (fun c hc => h c (by simp [hc])) 
        (a := ⟨truth m, 1, 1, false, false⟩) (b := ⟨uint8.wrap m, 1, 1, false, false⟩)
        ⟨rfl, rfl, ⟨_, truth_nat m⟩, has_wrap (by decide) _, by simp [IntTy.Has, IntTy.min, IntTy.max, uint8]⟩) ?_
      rintro a b ⟨h1, -⟩
      have hn : a.negate = b.negate := congrArg (·.2.2) h1
      rw [parseFinishTruth, parseFinish, hn]
      cases b.negate
      · trivial
      · rfl
    | throw x => exact rfl
    | terminate => trivial
    | ub => trivial
    | hang => trivial

/-! ### The value -/

theorem stepTruth_digit {f : IntegerFormat} (hf : f.Valid) {b : Bool} {n : Nat} {x y : Bool}
    (h : ¬ (n = 3 ∧ f.separator ≠ .none)) {c d : Nat} (hv : Spec.digitValue c = some d) (hd : d < f.radix) :
    parseStepTruth f ⟨ofTruth b, 1, n, x, y⟩ (BitVec.ofNat 32 c)
      = .ok ⟨ofTruth (b || d != 0), 1, n + 1, x, y⟩ := by
  have hcs := digitValue_cases hv
  unfold parseStepTruth
  rw [if_neg (by simpa using h), checkForSign_other (by omega) (by omega), Outcome.ok_bind]
  simp only [Bool.false_eq_true, if_false]
  rw [isRadixDigit_eq hf.2 (by omega) (by omega), Outcome.ok_bind, decide_eq_true ⟨d, hv, hd⟩]
  simp only [Bool.not_true, Bool.false_eq_true, if_false]
  rw [getNextDigit_digit hf.2 hv hd, Outcome.ok_bind, prependDigitTruth_eq hf.1 hf.2 hd]

theorem stepTruth_sep {f : IntegerFormat} {st : ParseState} (h : st.counted = 3) {s : Nat}
    (hs : f.separator.char = some s) :
    parseStepTruth f st (BitVec.ofNat 32 s) = .ok { st with counted := 0 } := by
  have hcs := Separator.char_eq_some hs
  have h' : f.separator ≠ .none := by rintro e; rw [e] at hs; simp [Separator.char] at hs
  unfold parseStepTruth
  rw [if_pos (by simp [h, h']), checkForSign_other (by omega) (by omega), Outcome.ok_bind]
  simp only [Bool.false_eq_true, if_false]
  rcases hcs with ⟨e, rfl⟩ | ⟨e, rfl⟩ <;> rw [e] <;> rfl

theorem stepTruth_sign {f : IntegerFormat} (st : ParseState) {c : Nat} (h : SignOk f.sign c)
    (hf : st.signFound = false) :
    parseStepTruth f st (BitVec.ofNat 32 c) = .ok { st with
      counted := if st.counted = 3 ∧ f.separator ≠ .none then 0 else st.counted,
      signFound := true, negate := st.negate || decide (c = 45) } := by
  unfold parseStepTruth
  by_cases ha : st.counted = 3 ∧ f.separator ≠ .none
  · rw [if_pos (by simpa using ha), checkForSign_sign { st with counted := 0 } h hf, Outcome.ok_bind, if_pos ha]
    rfl
  · rw [if_neg (by simpa using ha), checkForSign_sign _ h hf, Outcome.ok_bind, if_neg ha]
    rfl

/-- The state after a text that was read: whether there was a digit other than zero. -/
theorem lax_truth {f : IntegerFormat} (hf : f.Valid) {cs ds : List Nat} {sign : Option Bool} {due : Bool}
    (h : LaxRead f.radix f.separator.char (f.sign = .alwaysShow) cs ds sign due) :
    ∃ n, (f.separator ≠ .none → n = if due then 3 else ds.length % 3)
      ∧ ∀ rest, revTruth f (cs.reverse ++ rest)
        = (foldTruth f ⟨ofTruth (ds.any (· != 0)), 1, n, sign.isSome, sign == some true⟩ rest
            >>= parseFinishTruth) := by
  have one : ∀ {cs ds : List Nat} {due : Bool} {c : Nat} {n : Nat} (_ : SignOk f.sign c)
      (_ : LaxRead f.radix f.separator.char (f.sign = .alwaysShow) cs ds none due)
      (_ : f.separator ≠ .none → n = if due then 3 else ds.length % 3)
      (_ : ∀ rest, revTruth f (cs.reverse ++ rest)
        = (foldTruth f ⟨ofTruth (ds.any (· != 0)), 1, n, false, false⟩ rest >>= parseFinishTruth)),
      ∃ n, (f.separator ≠ .none → n = ds.length % 3) ∧ ∀ rest, revTruth f ((c :: cs).reverse ++ rest)
        = (foldTruth f ⟨ofTruth (ds.any (· != 0)), 1, n, true, decide (c = 45)⟩ rest >>= parseFinishTruth) := by
    intro cs ds due c n hs h hn ih
    refine ⟨if n = 3 ∧ f.separator ≠ .none then 0 else n, fun hs' => ?_, fun rest => ?_⟩
    · have := hn hs'
      cases due with
      | false => simp at this; rw [if_neg (by omega)]; exact this
      | true => rw [if_pos ⟨this, hs'⟩, (lax_due h rfl).2]
    · rw [List.reverse_cons, List.append_assoc, ih, List.singleton_append, foldTruth_cons,
        stepTruth_sign _ hs rfl, Outcome.ok_bind]
      rfl
  induction h with
  | @last c d hv hd =>
    refine ⟨1, fun _ => rfl, fun rest => ?_⟩
    rw [List.reverse_singleton, List.singleton_append, revTruth, getNextDigit_digit hf.2 hv hd,
      Outcome.ok_bind, truth_nat]
    simp
  | @digit cs ds sign c d h hv hd ih =>
    obtain ⟨n, hn, ih⟩ := ih
    refine ⟨n + 1, fun hs => ?_, fun rest => ?_⟩
    · have := hn hs
      rw [if_neg (by simp)] at this
      have h1 := sep_isSome hs
      simp only [List.length_cons]
      by_cases h3 : (ds.length + 1) % 3 = 0
      · rw [if_pos (by simpa using ⟨h1, h3⟩)]; omega
      · rw [if_neg (by simpa using fun _ => h3)]; omega
    · have hna : ¬ (n = 3 ∧ f.separator ≠ .none) := by
        rintro ⟨h1, h2⟩
        have := hn h2
        rw [if_neg (by simp)] at this
        omega
      rw [List.reverse_cons, List.append_assoc, ih, List.singleton_append, foldTruth_cons,
        stepTruth_digit hf hna hv hd, Outcome.ok_bind, List.any_cons, Bool.or_comm]
  | @separator cs ds sign c h hs ih =>
    obtain ⟨n, hn, ih⟩ := ih
    have hne : f.separator ≠ .none := by
      intro e; rw [e] at hs; simp [Separator.char] at hs
    have h3 := hn hne
    rw [if_pos rfl] at h3
    refine ⟨0, fun _ => ?_, fun rest => ?_⟩
    · rw [if_neg (by simp), (lax_due h rfl).2]
    · rw [List.reverse_cons, List.append_assoc, ih, List.singleton_append, foldTruth_cons,
        stepTruth_sep h3 hs, Outcome.ok_bind]
  | @minus cs ds due h ih =>
    obtain ⟨n, hn, ih⟩ := ih
    obtain ⟨m, hm, ih'⟩ := one (.inl rfl) h hn ih
    exact ⟨m, by simpa using hm, ih'⟩
  | @plus cs ds due h hp ih =>
    obtain ⟨n, hn, ih⟩ := ih
    obtain ⟨m, hm, ih'⟩ := one (.inr ⟨rfl, by simpa using hp⟩) h hn ih
    exact ⟨m, by simpa using hm, ih'⟩

end Cmp
