import Verif.Spec.Lax
import Verif.Props.NumberExact

/-
`parse_integer` on every text: how far it gets, character by character.
-/

namespace Cmp

open IntTy
open _root_.Spec (LaxRead)

/-- The output and the place value after the digits `ds`, least significant first. -/
def accumBoth (T : IntTy) (r : Nat) : List Nat → Int → Int → Outcome (Int × Int)
  | [], o, p => .ok (o, p)
  | d :: ds, o, p => place T r d o p >>= fun op => accumBoth T r ds op.1 op.2

theorem accumBoth_fst (T : IntTy) (r : Nat) : ∀ (ds : List Nat) (o p : Int),
    (accumBoth T r ds o p >>= fun op => .ok op.1) = accum T r ds o p := by
  intro ds
  induction ds with
  | nil => intro o p; rfl
  | cons d ds ih =>
    intro o p
    rw [accumBoth, accum, outcome_assoc]
    congr 1
    funext op
    exact ih _ _

theorem accumBoth_snoc (T : IntTy) (r : Nat) (d : Nat) : ∀ (ds : List Nat) (o p : Int),
    accumBoth T r (ds ++ [d]) o p
      = (accumBoth T r ds o p >>= fun op => place T r d op.1 op.2) := by
  intro ds
  induction ds with
  | nil =>
    intro o p
    rw [List.nil_append, accumBoth, accumBoth, Outcome.ok_bind]
    cases place T r d o p <;> rfl
  | cons x ds ih =>
    intro o p
    rw [List.cons_append, accumBoth, accumBoth, outcome_assoc]
    congr 1
    funext op
    exact ih _ _

theorem lax_digits {r : Nat} {sep : Option Nat} {plus : Bool} {cs ds : List Nat}
    {sign : Option Bool} {due : Bool} (h : LaxRead r sep plus cs ds sign due) :
    ds ≠ [] ∧ (∀ d ∈ ds, d < r) ∧ cs ≠ [] := by
  induction h with
  | last _ hd => exact ⟨by simp, by simpa using hd, by simp⟩
  | digit _ _ hd ih => exact ⟨by simp, by simpa using ⟨hd, ih.2.1⟩, by simp⟩
  | separator _ _ ih => exact ⟨ih.1, ih.2.1, by simp⟩
  | minus _ ih => exact ⟨ih.1, ih.2.1, by simp⟩
  | plus _ _ ih => exact ⟨ih.1, ih.2.1, by simp⟩

theorem lax_due {r : Nat} {sep : Option Nat} {plus : Bool} {cs ds : List Nat}
    {sign : Option Bool} {due : Bool} (h : LaxRead r sep plus cs ds sign due) :
    due = true → sep.isSome = true ∧ ds.length % 3 = 0 := by
  cases h with
  | last => simp
  | digit => intro h; simpa using h
  | separator => simp
  | minus => simp
  | plus => simp

/-- The state of the parser after a text it has read. -/
theorem lax_state (T : IntTy) {f : IntegerFormat} (h36 : f.radix ≤ 36) {cs ds : List Nat}
    {sign : Option Bool} {due : Bool}
    (h : LaxRead f.radix f.separator.char (f.sign = .alwaysShow) cs ds sign due) :
    ∃ d es n, ds.reverse = d :: es
      ∧ (f.separator ≠ .none → n = if due then 3 else ds.length % 3)
      ∧ ∀ rest, parseRev T f (cs.reverse ++ rest)
        = (accumBoth T f.radix es (T.wrap d) 1 >>= fun op =>
            parseFold T f ⟨op.1, op.2, n, sign.isSome, sign == some true⟩ rest
              >>= parseFinish T) := by
  induction h with
  | @last c d hv hd =>
    refine ⟨d, [], 1, rfl, fun _ => rfl, fun rest => ?_⟩
    rw [List.reverse_singleton, List.singleton_append, parseRev, getNextDigit_digit h36 hv hd,
      Outcome.ok_bind]
    rfl
  | @digit cs ds sign c d h hv hd ih =>
    obtain ⟨d0, es, n, hdr, hn, ih⟩ := ih
    refine ⟨d0, es ++ [d], n + 1, by simp [hdr], fun hs => ?_, fun rest => ?_⟩
    · have := hn hs
      rw [if_neg (by simp)] at this
      have h1 := sep_isSome hs
      simp only [List.length_cons]
      by_cases h3 : (ds.length + 1) % 3 = 0
      · rw [if_pos (by simpa using ⟨h1, h3⟩)]; omega
      · rw [if_neg (by simpa using fun _ => h3)]; omega
    · have hna : ∀ o p, ¬ AtSep f ⟨o, p, n, sign.isSome, sign == some true⟩ := by
        rintro o p ⟨h1, h2⟩
        have := hn h2
        rw [if_neg (by simp)] at this
        simp only at h1
        omega
      rw [List.reverse_cons, List.append_assoc, ih, accumBoth_snoc, outcome_assoc]
      congr 1
      funext op
      rw [List.singleton_append, parseFold_cons, parseStep_digit T h36 (hna _ _) hv hd,
        prependDigit_place]
      simp only [outcome_assoc]
      rfl
  | @separator cs ds sign c h hs ih =>
    obtain ⟨d0, es, n, hdr, hn, ih⟩ := ih
    have hne : f.separator ≠ .none := by
      intro e; rw [e] at hs; simp [Separator.char] at hs
    have h3 := hn hne
    rw [if_pos rfl] at h3
    refine ⟨d0, es, 0, hdr, fun _ => ?_, fun rest => ?_⟩
    · rw [if_neg (by simp), (lax_due h rfl).2]
    · rw [List.reverse_cons, List.append_assoc, ih]
      congr 1
      funext op
      rw [List.singleton_append, parseFold_cons, parseStep_sep T h3 hs, Outcome.ok_bind]
  | @minus cs ds due h ih =>
    obtain ⟨d0, es, n, hdr, hn, ih⟩ := ih
    by_cases ha : n = 3 ∧ f.separator ≠ .none
    · refine ⟨d0, es, 0, hdr, fun hs => ?_, fun rest => ?_⟩
      · have := hn hs
        cases due with
        | false => simp at this; omega
        | true => rw [if_neg (by simp), (lax_due h rfl).2]
      · rw [List.reverse_cons, List.append_assoc, ih]
        congr 1
        funext op
        rw [List.singleton_append, parseFold_cons, parseStep_sign T _ (.inl rfl) (by rfl),
          Outcome.ok_bind, if_pos (show AtSep f ⟨op.1, op.2, n, _, _⟩ from ha)]
        rfl
    · refine ⟨d0, es, n, hdr, fun hs => ?_, fun rest => ?_⟩
      · have := hn hs
        cases due with
        | false => exact this
        | true => exact absurd ⟨this, hs⟩ ha
      · rw [List.reverse_cons, List.append_assoc, ih]
        congr 1
        funext op
        rw [List.singleton_append, parseFold_cons, parseStep_sign T _ (.inl rfl) (by rfl),
          Outcome.ok_bind, if_neg (show ¬ AtSep f ⟨op.1, op.2, n, _, _⟩ from ha)]
        rfl
  | @plus cs ds due h hp ih =>
    obtain ⟨d0, es, n, hdr, hn, ih⟩ := ih
    have hsg : SignOk f.sign 43 := .inr ⟨rfl, by simpa using hp⟩
    by_cases ha : n = 3 ∧ f.separator ≠ .none
    · refine ⟨d0, es, 0, hdr, fun hs => ?_, fun rest => ?_⟩
      · have := hn hs
        cases due with
        | false => simp at this; omega
        | true => rw [if_neg (by simp), (lax_due h rfl).2]
      · rw [List.reverse_cons, List.append_assoc, ih]
        congr 1
        funext op
        rw [List.singleton_append, parseFold_cons, parseStep_sign T _ hsg (by rfl),
          Outcome.ok_bind, if_pos (show AtSep f ⟨op.1, op.2, n, _, _⟩ from ha)]
        rfl
    · refine ⟨d0, es, n, hdr, fun hs => ?_, fun rest => ?_⟩
      · have := hn hs
        cases due with
        | false => exact this
        | true => exact absurd ⟨this, hs⟩ ha
      · rw [List.reverse_cons, List.append_assoc, ih]
        congr 1
        funext op
        rw [List.singleton_append, parseFold_cons, parseStep_sign T _ hsg (by rfl),
          Outcome.ok_bind, if_neg (show ¬ AtSep f ⟨op.1, op.2, n, _, _⟩ from ha)]
        rfl

/-! ### The arithmetic -/

theorem digitValue_upper {d : Nat} (h : d < 36) :
    Spec.digitValue (Spec.upperDigit d) = some d := by
  unfold Spec.digitValue Spec.upperDigit
  by_cases h10 : d < 10
  · rw [if_pos h10, if_pos (by omega)]
    congr 1
    omega
  · rw [if_neg h10, if_neg (by omega), if_pos (by omega)]
    congr 1
    omega

/-- Arithmetic on the digits `ds` is defined in the type `T`. -/
def Sums (T : IntTy) (r : Nat) (neg : Bool) (ds : List Nat) : Prop :=
  T.signed = true → 32 ≤ T.bits → AddsUp T r neg ds

/-- The digits of a text, added up: borrowed from the numeral with these digits. -/
theorem accum_outcome {T : IntTy} (hT : T.Std) {r : Nat} (h2 : 2 ≤ r) (h36 : r ≤ 36)
    {ds es : List Nat} {d : Nat} (hdr : ds.reverse = d :: es) (hds : ∀ x ∈ ds, x < r)
    (neg : Bool) :
    (T.signed = false → neg = true →
      (accum T r es (T.wrap d) 1 >>= finish T neg) = .throw (.parseFailed .negativeUnsigned))
    ∧ (T.signed = true ∨ neg = false → Sums T r neg ds →
      (accum T r es (T.wrap d) 1 >>= finish T neg) = .ok (T.wrap (Spec.denote r neg ds)))
    ∧ (¬ Sums T r neg ds → (accum T r es (T.wrap d) 1 >>= finish T neg) = .ub) := by
  have hne : ds ≠ [] := by rintro rfl; simp at hdr
  have hsp : Spec.Spells r (Separator.none).char (ds.map Spec.upperDigit) ds := by
    refine ⟨hne, hds, ds.map Spec.upperDigit, ?_, rfl⟩
    rw [List.map_map]
    apply List.map_congr_left
    intro x hx
    exact digitValue_upper (by have := hds x hx; omega)
  let f : IntegerFormat := ⟨r, .alwaysShow, .none⟩
  have hf : f.Valid := ⟨h2, h36⟩
  let sg : List Nat := if neg then [45] else []
  have hsg : (sg = [] ∧ neg = false) ∨ (sg = [45] ∧ neg = true)
      ∨ (sg = [43] ∧ neg = false ∧ f.sign = .alwaysShow) := by
    cases neg
    · exact .inl ⟨rfl, rfl⟩
    · exact .inr (.inl ⟨rfl, rfl⟩)
  have hnum : Spec.Numeral r (Separator.none).char true (sg ++ ds.map Spec.upperDigit) neg ds := by
    refine ⟨sg, _, rfl, hsp, ?_⟩
    cases neg
    · exact .inl ⟨rfl, rfl⟩
    · exact .inr (.inl ⟨rfl, rfl⟩)
  have hsmall : ∀ c ∈ sg ++ ds.map Spec.upperDigit, c < 128 := by
    intro c hc
    rw [List.mem_append] at hc
    rcases hc with hc | hc
    · cases neg
      · simp [sg] at hc
      · have : c = 45 := by simpa [sg] using hc
        omega
    · rw [List.mem_map] at hc
      obtain ⟨x, hx, rfl⟩ := hc
      have := hds x hx
      unfold Spec.upperDigit
      split <;> omega
  have ht := textOf_ascii .char32 (sg ++ ds.map Spec.upperDigit) hsmall
  obtain ⟨d', es', hdr', _, _, hout⟩ := numeral_outcome T (f := f) h36 hsp hsg
  rw [hdr] at hdr'
  cases hdr'
  obtain ⟨x1, x2, x3, x4, x5⟩ := C25_exact .char32 T f _ _ neg ds hT hf ht hnum
  have hp : parseInteger .char32 T (encs .char32 (sg ++ ds.map Spec.upperDigit)) f
      = (accum T r es (T.wrap d) 1 >>= finish T neg) := by
    rw [← hout, parseInteger_encs .char32 T f _ ht.bwd]
  rw [hp] at x1 x2 x3 x4 x5
  refine ⟨x1, fun h hs => ?_, fun h => ?_⟩
  · cases hsig : T.signed with
    | false => exact x2 hsig (by simpa [hsig] using h)
    | true =>
      by_cases h32 : 32 ≤ T.bits
      · exact x4 hsig h32 (hs hsig h32)
      · exact x3 hsig (by omega)
  · unfold Sums at h
    by_cases hsig : T.signed = true
    · by_cases h32 : 32 ≤ T.bits
      · exact x5 hsig h32 (fun hh => h (fun _ _ => hh))
      · exact absurd (fun _ hh => absurd hh h32) h
    · exact absurd (fun hh => absurd hh hsig) h

/-- The place value after a text whose digits add up is of no interest. -/
theorem accumBoth_ok {T : IntTy} (hT : T.Std) {r : Nat} (h2 : 2 ≤ r) (h36 : r ≤ 36)
    {ds es : List Nat} {d : Nat} (hdr : ds.reverse = d :: es) (hds : ∀ x ∈ ds, x < r) :
    (Sums T r false ds → ∃ op, accumBoth T r es (T.wrap d) 1 = .ok op)
    ∧ (¬ Sums T r false ds → accumBoth T r es (T.wrap d) 1 = .ub) := by
  obtain ⟨-, x2, x3⟩ := accum_outcome hT h2 h36 hdr hds false
  have hfin : (accum T r es (T.wrap d) 1 >>= finish T false)
      = (accumBoth T r es (T.wrap d) 1 >>= fun op => .ok op.1) := by
    rw [← accumBoth_fst, outcome_assoc]
    rfl
  rw [hfin] at x2 x3
  refine ⟨fun h => ?_, fun h => ?_⟩
  · have := x2 (.inr rfl) h
    rw [Outcome.bind_eq_ok] at this
    obtain ⟨op, h1, -⟩ := this
    exact ⟨op, h1⟩
  · have := x3 h
    generalize accumBoth T r es (T.wrap d) 1 = y at this
    cases y <;> first | rfl | cases this

/-! ### Where the reading stops -/

/-- The character `x` cannot be put in front of the text read so far. -/
def Stuck (f : IntegerFormat) (x : Nat) (sign : Option Bool) (due : Bool) : Prop :=
  if sign.isSome ∧ (x = 45 ∨ x = 43) then True
  else if SignOk f.sign x then False
  else if due then f.separator.char ≠ some x
  else ¬ Spec.IsDigit f.radix x

theorem lax_or_stuck (f : IntegerFormat) : ∀ cs : List Nat, cs ≠ [] →
    (∃ ds sign due, LaxRead f.radix f.separator.char (f.sign = .alwaysShow) cs ds sign due)
    ∨ (∃ pre x, cs = pre ++ [x] ∧ ¬ Spec.IsDigit f.radix x)
    ∨ (∃ pre x body ds sign due, cs = pre ++ x :: body
        ∧ LaxRead f.radix f.separator.char (f.sign = .alwaysShow) body ds sign due
        ∧ Stuck f x sign due) := by
  intro cs
  induction cs with
  | nil => intro h; exact absurd rfl h
  | cons c cs ih =>
    intro _
    by_cases hcs : cs = []
    · subst hcs
      by_cases hd : Spec.IsDigit f.radix c
      · obtain ⟨d, h1, h2⟩ := hd
        exact .inl ⟨[d], none, false, .last h1 h2⟩
      · exact .inr (.inl ⟨[], c, rfl, hd⟩)
    · rcases ih hcs with ⟨ds, sign, due, h⟩ | ⟨pre, x, rfl, h⟩ | ⟨pre, x, body, ds, sign, due, rfl, h⟩
      · by_cases h1 : sign.isSome ∧ (c = 45 ∨ c = 43)
        · exact .inr (.inr ⟨[], c, cs, ds, sign, due, rfl, h, by rw [Stuck, if_pos h1]; trivial⟩)
        by_cases h2 : SignOk f.sign c
        · have hnone : sign = none := by
            cases sign with
            | none => rfl
            | some b =>
              refine absurd ⟨rfl, ?_⟩ h1
              rcases h2 with h2 | h2
              · exact .inl h2
              · exact .inr h2.1
          subst hnone
          rcases h2 with rfl | ⟨rfl, hp⟩
          · exact .inl ⟨ds, _, _, .minus h⟩
          · exact .inl ⟨ds, _, _, .plus h (by simpa using hp)⟩
        cases due with
        | true =>
          by_cases h3 : f.separator.char = some c
          · exact .inl ⟨ds, _, _, .separator h h3⟩
          · exact .inr (.inr ⟨[], c, cs, ds, sign, true, rfl, h, by
              rw [Stuck, if_neg h1, if_neg h2, if_pos rfl]; exact h3⟩)
        | false =>
          by_cases h3 : Spec.IsDigit f.radix c
          · obtain ⟨d, h4, h5⟩ := h3
            exact .inl ⟨d :: ds, _, _, .digit h h4 h5⟩
          · exact .inr (.inr ⟨[], c, cs, ds, sign, false, rfl, h, by
              rw [Stuck, if_neg h1, if_neg h2, if_neg (by simp)]; exact h3⟩)
      · exact .inr (.inl ⟨c :: pre, x, rfl, h⟩)
      · exact .inr (.inr ⟨c :: pre, x, body, ds, sign, due, rfl, h⟩)

theorem isRadixDigit_ub {c r : Nat} (hc : c < 0xFFFFFFFF) (hr : 10 ≤ r) (hx : 255 < c) :
    isRadixDigit (BitVec.ofNat 32 c) r = .ub := by
  have e : (BitVec.ofNat 32 c).toNat = c := by rw [BitVec.toNat_ofNat, Nat.mod_eq_of_lt (by omega)]
  rw [isRadixDigit, if_neg (by omega), tolower, if_neg]
  · rfl
  · rw [e]
    rintro (h | h)
    · omega
    · have := congrArg BitVec.toNat h
      rw [e] at this
      simp at this
      omega

theorem parseStep_wide (T : IntTy) {f : IntegerFormat} {st : ParseState} (h : ¬ AtSep f st)
    {c : Nat} (hc : c < 0xFFFFFFFF) (hr : 10 ≤ f.radix) (hx : 255 < c) :
    parseStep T f st (BitVec.ofNat 32 c) = .ub := by
  rw [parseStep_notAtSep T h, checkForSign_other (by omega) (by omega), Outcome.ok_bind]
  simp only [Bool.false_eq_true, if_false]
  rw [isRadixDigit_ub hc hr hx]
  rfl

end Cmp
