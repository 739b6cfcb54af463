import Verif.Model.TestModule

/-
Lemmas for the test runner.
-/

namespace Cmp

namespace Spec

theorem decimalBelow_eq (f g n : Nat) (hf : n < f) (hg : n < g) :
    decimalBelow f n = decimalBelow g n := by
  induction f generalizing g n with
  | zero => omega
  | succ f ih =>
    cases g with
    | zero => omega
    | succ g =>
      simp only [decimalBelow]
      split
      · rfl
      · rw [ih g (n / 10) (by omega) (by omega)]

theorem decimal_small {n : Nat} (h : n < 10) : decimal n = [digitChar n] := by
  rw [decimal, decimalBelow, if_pos h]

theorem decimal_large {n : Nat} (h : 10 ≤ n) :
    decimal n = decimal (n / 10) ++ [digitChar (n % 10)] := by
  rw [decimal, decimalBelow, if_neg (by omega), decimalBelow_eq n (n / 10 + 1) _ (by omega) (by omega)]
  rfl

theorem decimal_length_pos (n : Nat) : 0 < (decimal n).length := by
  by_cases h : n < 10
  · rw [decimal_small h]; simp
  · rw [decimal_large (by omega)]; simp

theorem decimal_length_mono {a b : Nat} (h : a ≤ b) : (decimal a).length ≤ (decimal b).length := by
  induction b using Nat.strongRecOn generalizing a with
  | _ b ih =>
    by_cases hb : b < 10
    · rw [decimal_small (by omega : a < 10), decimal_small hb]
      simp
    · by_cases ha : a < 10
      · rw [decimal_small ha]
        exact decimal_length_pos b
      · rw [decimal_large (by omega : 10 ≤ a), decimal_large (by omega : 10 ≤ b)]
        simp only [List.length_append, List.length_cons, List.length_nil]
        have := ih (b / 10) (by omega) (a := a / 10) (by omega)
        omega

/-- A number with at most `k + 1` digits. -/
theorem decimal_length_le (k n : Nat) (h : n < 10 ^ (k + 1)) : (decimal n).length ≤ k + 1 := by
  induction k generalizing n with
  | zero => rw [decimal_small (by omega)]; simp
  | succ k ih =>
    by_cases hn : n < 10
    · rw [decimal_small hn]; simp
    · rw [decimal_large (by omega)]
      have := ih (n / 10) (by rw [Nat.pow_succ] at h; omega)
      simp only [List.length_append, List.length_cons, List.length_nil]
      omega

theorem digitChar_toNat {d : Nat} (h : d < 10) : (digitChar d).toNat = 48 + d := by
  have : ∀ d < 10, (digitChar d).toNat = 48 + d := by decide
  exact this d h

theorem numeralValue_append (a : List Char) (c : Char) :
    numeralValue (a ++ [c]) = numeralValue a * 10 + (c.toNat - 48) := by
  simp [numeralValue]

theorem numeralValue_decimal (n : Nat) : numeralValue (decimal n) = n := by
  induction n using Nat.strongRecOn with
  | _ n ih =>
    by_cases h : n < 10
    · rw [decimal_small h]
      simp [numeralValue, digitChar_toNat h]
    · rw [decimal_large (by omega), numeralValue_append, ih (n / 10) (by omega),
        digitChar_toNat (by omega)]
      omega

theorem decimal_digits (n : Nat) : ∀ c ∈ decimal n, 48 ≤ c.toNat ∧ c.toNat ≤ 57 := by
  induction n using Nat.strongRecOn with
  | _ n ih =>
    by_cases h : n < 10
    · rw [decimal_small h]
      intro c hc
      simp only [List.mem_singleton] at hc
      rw [hc, digitChar_toNat h]
      omega
    · rw [decimal_large (by omega)]
      intro c hc
      rcases List.mem_append.mp hc with hc | hc
      · exact ih _ (by omega) c hc
      · simp only [List.mem_singleton] at hc
        rw [hc, digitChar_toNat (by omega)]
        omega

theorem numeralValue_zeros (k : Nat) (s : List Char) :
    numeralValue (List.replicate k '0' ++ s) = numeralValue s := by
  induction k with
  | zero => simp
  | succ k ih =>
    rw [List.replicate_succ, List.cons_append, ← ih]
    rfl

end Spec

namespace TestModule

open Spec

theorem ofNat_sub_toNat (a b : Nat) (h : b ≤ a) (ha : a < 2 ^ 32) :
    (BitVec.ofNat 32 a - BitVec.ofNat 32 b).toNat = a - b := by
  rw [BitVec.toNat_sub, BitVec.toNat_ofNat, BitVec.toNat_ofNat]
  omega

theorem countDigitsLoop_eq (f n c : Nat) (h : (decimal n).length ≤ f) :
    countDigitsLoop f (n : Int) c = .ok (c + (decimal n).length) := by
  induction f generalizing n c with
  | zero =>
    have := decimal_length_pos n
    omega
  | succ f ih =>
    have ht : (n : Int).tdiv 10 = ((n / 10 : Nat) : Int) := by
      rw [Int.tdiv_eq_ediv_of_nonneg (by omega)]
      rfl
    rw [countDigitsLoop, ht]
    by_cases hn : n < 10
    · rw [if_neg (by omega), decimal_small hn]
      rfl
    · rw [decimal_large (by omega)] at h ⊢
      simp only [List.length_append, List.length_cons, List.length_nil] at h ⊢
      rw [if_pos (by omega), ih (n / 10) (c + 1) (by omega)]
      congr 1
      omega

theorem countDigits_eq (n : Nat) (h : n < 2 ^ 31) : countDigits (n : Int) = .ok (decimal n).length := by
  rw [countDigits, countDigitsLoop_eq 11 n 0]
  · simp
  · have := decimal_length_le 9 n (by omega)
    omega

theorem putZeros_eq (k : Nat) : ∀ (pre s : List Char), k ≤ s.length →
    putZeros k pre.length (pre ++ s) = .ok (pre ++ List.replicate k '0' ++ s.drop k) := by
  induction k with
  | zero => intro pre s _; simp [putZeros]
  | succ k ih =>
    intro pre s h
    cases s with
    | nil => simp at h
    | cons x s =>
      rw [putZeros, if_pos (by simp)]
      have e1 : (pre ++ x :: s).set pre.length '0' = (pre ++ ['0']) ++ s := by
        rw [List.set_append_right _ _ (Nat.le_refl _)]
        simp
      have e2 := ih (pre ++ ['0']) s (by simpa using h)
      rw [List.length_append, List.length_singleton] at e2
      rw [e1, e2]
      simp [List.replicate_succ]

theorem putDigits_eq (length : Nat) (hl : length < 2 ^ 32) (f n : Nat) (hn : n < 2 ^ 32)
    (hf : (decimal n).length ≤ f) : ∀ (a b : List Char), a.length + b.length = length →
    (decimal n).length ≤ a.length →
    putDigits (BitVec.ofNat 32 length) f (BitVec.ofNat 32 (b.length + 1)) (BitVec.ofNat 32 n) (a ++ b)
      = .ok (a.take (a.length - (decimal n).length) ++ decimal n ++ b) := by
  induction f generalizing n with
  | zero =>
    have := decimal_length_pos n
    omega
  | succ f ih =>
    intro a b hab ha
    have hpos := decimal_length_pos n
    have hat : (BitVec.ofNat 32 length - BitVec.ofNat 32 (b.length + 1)).toNat = a.length - 1 := by
      rw [ofNat_sub_toNat _ _ (by omega) hl]
      omega
    have hmod : (BitVec.ofNat 32 n % 10).toNat = n % 10 := by
      rw [BitVec.toNat_umod, BitVec.toNat_ofNat, Nat.mod_eq_of_lt hn]
      rfl
    have hdiv : BitVec.ofNat 32 n / 10 = BitVec.ofNat 32 (n / 10) := by
      apply BitVec.eq_of_toNat_eq
      rw [BitVec.toNat_udiv, BitVec.toNat_ofNat, BitVec.toNat_ofNat, Nat.mod_eq_of_lt hn,
        Nat.mod_eq_of_lt (by omega)]
      rfl
    have hset : (a ++ b).set (a.length - 1) (Char.ofNat (n % 10 + 48)) =
        a.take (a.length - 1) ++ (digitChar (n % 10) :: b) := by
      rw [List.set_append_left _ _ (by omega)]
      have : a.set (a.length - 1) (Char.ofNat (n % 10 + 48)) =
          a.take (a.length - 1) ++ [digitChar (n % 10)] := by
        rw [List.set_eq_take_append_cons_drop, if_pos (by omega),
          show a.length - 1 + 1 = a.length by omega, List.drop_length, digitChar, Nat.add_comm]
      rw [this]
      simp
    rw [putDigits]
    simp only [hat, hmod, hset, hdiv]
    rw [if_pos (by rw [List.length_append]; omega)]
    by_cases hs : n < 10
    · rw [if_neg (by
        rw [show n / 10 = 0 by omega]
        simp)]
      rw [decimal_small hs, Nat.mod_eq_of_lt hs]
      simp
    · have hne : BitVec.ofNat 32 (n / 10) ≠ 0 := by
        intro h
        have := congrArg BitVec.toNat h
        rw [BitVec.toNat_ofNat, Nat.mod_eq_of_lt (by omega)] at this
        simp at this
        omega
      rw [if_pos hne]
      have hd := decimal_large (n := n) (by omega)
      have hlen : (decimal n).length = (decimal (n / 10)).length + 1 := by rw [hd]; simp
      have hidx : BitVec.ofNat 32 (b.length + 1) + 1 =
          BitVec.ofNat 32 ((digitChar (n % 10) :: b).length + 1) := by
        rw [List.length_cons]
        apply BitVec.eq_of_toNat_eq
        simp [BitVec.toNat_add, BitVec.toNat_ofNat]
      rw [hidx, ih (n / 10) (by omega) (by omega) (a.take (a.length - 1)) (digitChar (n % 10) :: b)
        (by simp; omega) (by simp; omega)]
      rw [hd]
      simp only [List.length_take, List.take_take, List.length_append, List.length_cons,
        List.length_nil, List.append_assoc, List.cons_append, List.nil_append]
      congr 3
      omega

/-- `zero_pad` of a number that does not exceed the total. -/
theorem zeroPad_eq (total n : Nat) (h : n ≤ total) (ht : total < 2 ^ 31) :
    zeroPad total (BitVec.ofNat 32 n) = .ok (padded total n) := by
  have hint : ∀ k < 2 ^ 31, (BitVec.ofNat 32 k).toInt = (k : Int) := by
    intro k hk
    rw [BitVec.toInt_eq_toNat_cond, BitVec.toNat_ofNat, Nat.mod_eq_of_lt (by omega), if_pos (by omega)]
  have hmono := decimal_length_mono h
  have h10 := decimal_length_le 9 total (by omega)
  have hdiff : (BitVec.ofNat 32 (decimal total).length - BitVec.ofNat 32 (decimal n).length).toNat =
      (decimal total).length - (decimal n).length := ofNat_sub_toNat _ _ hmono (by omega)
  rw [zeroPad, hint n (by omega), countDigits_eq n (by omega), Outcome.ok_bind, hint total ht,
    countDigits_eq total ht, Outcome.ok_bind]
  simp only [hdiff]
  have e1 := putZeros_eq ((decimal total).length - (decimal n).length) []
    (List.replicate (decimal total).length '\x00') (by simp)
  simp only [List.length_nil, List.nil_append, List.drop_replicate] at e1
  rw [e1, Outcome.ok_bind]
  have e2 := putDigits_eq (decimal total).length (by omega) 11 n (by omega)
    (by have := decimal_length_le 9 n (by omega); omega)
    (List.replicate ((decimal total).length - (decimal n).length) '0' ++
      List.replicate ((decimal total).length - ((decimal total).length - (decimal n).length)) '\x00')
    [] (by simp) (by simp; omega)
  rw [List.append_nil, List.length_nil] at e2
  rw [show (1 : BitVec 32) = BitVec.ofNat 32 (0 + 1) from rfl, e2, padded, List.append_nil]
  congr 2
  rw [List.length_append, List.length_replicate, List.length_replicate]
  rw [show (decimal total).length - (decimal n).length
      + ((decimal total).length - ((decimal total).length - (decimal n).length))
      - (decimal n).length = (List.replicate ((decimal total).length - (decimal n).length) '0').length
    by rw [List.length_replicate]; omega]
  rw [List.take_left']
  rfl

/-! ### The body of a test -/

theorem ofCode_code (m : Message) : Message.ofCode m.code = m := by cases m <;> rfl

theorem clearLoop_eq (q : List Nat) : clearLoop q = [] := by
  induction q with
  | nil => rfl
  | cons _ _ ih => exact ih

theorem alone_stages (b : TestBody) : ∀ (k : Nat) (q : List Message) (ok : Bool) (n : Nat)
    (text : List Char), alone b k q = some (ok, n, text) → k ≤ n := by
  induction b with
  | done ok => intro k q ok n text h; simp [alone] at h; omega
  | raise => intro k q ok n text h; simp [alone] at h
  | startTest _ _ => intro k q ok n text h; simp [alone] at h
  | endStage b ih =>
    intro k q ok n text h
    simp only [alone, Option.map_eq_some_iff] at h
    obtain ⟨⟨ok', n', t'⟩, h1, h2⟩ := h
    simp only [Prod.mk.injEq] at h2
    have := ih _ _ _ _ _ h1
    omega
  | push m b ih => intro k q ok n text h; exact ih _ _ _ _ _ h
  | pop next ih =>
    intro k q ok n text h
    cases q with
    | nil => exact ih _ _ _ _ _ _ h
    | cons m q => exact ih _ _ _ _ _ _ h
  | clear b ih => intro k q ok n text h; exact ih _ _ _ _ _ h
  | count next ih => intro k q ok n text h; exact ih _ _ _ _ _ _ h
  | log t b ih =>
    intro k q ok n text h
    simp only [alone, Option.map_eq_some_iff] at h
    obtain ⟨⟨ok', n', t'⟩, h1, h2⟩ := h
    simp only [Prod.mk.injEq] at h2
    have := ih _ _ _ _ _ h1
    omega

theorem runBody_eq (b : TestBody) : ∀ (k : Nat) (q : List Message) (ok : Bool) (n : Nat)
    (text : List Char) (s : TestModule), alone b k q = some (ok, n, text) →
    s.stage = BitVec.ofNat 16 k → s.queue = q.map Message.code →
    ∃ q' text', runBody b s = (.ok ok,
        { s with stage := BitVec.ofNat 16 n, queue := q', out := s.out ++ text' }) ∧
      (n < 65536 → text' = text) := by
  induction b with
  | done ok =>
    intro k q ok n text s h hs hq
    simp only [alone, Option.some.injEq, Prod.mk.injEq] at h
    obtain ⟨rfl, rfl, rfl⟩ := h
    refine ⟨s.queue, [], ?_, fun _ => rfl⟩
    rw [← hs, List.append_nil]
    rfl
  | raise => intro k q ok n text s h; simp [alone] at h
  | startTest _ _ => intro k q ok n text s h; simp [alone] at h
  | endStage b ih =>
    intro k q ok n text s h hs hq
    simp only [alone, Option.map_eq_some_iff] at h
    obtain ⟨⟨ok', n', t'⟩, h1, h2⟩ := h
    simp only [Prod.mk.injEq] at h2
    obtain ⟨rfl, rfl, rfl⟩ := h2
    have hle := alone_stages b _ _ _ _ _ h1
    have hst : s.stage + 1 = BitVec.ofNat 16 (k + 1) := by rw [hs, BitVec.ofNat_add]; rfl
    obtain ⟨q', t'', e, he⟩ := ih _ _ _ _ _
      ({ s with stage := s.stage + 1, out := s.out ++ ("Stage ".toList ++
        Spec.decimal (s.stage + 1).toNat ++ " completed successfully.\n".toList) } : TestModule)
      h1 hst hq
    refine ⟨q', "Stage ".toList ++ Spec.decimal (s.stage + 1).toNat ++
      " completed successfully.\n".toList ++ t'', ?_, ?_⟩
    · rw [runBody, M.bind_ok (show endStage s = (.ok (), _) from rfl), e]
      simp only [List.append_assoc]
    · intro hn
      rw [he hn, hst, BitVec.toNat_ofNat, Nat.mod_eq_of_lt (by omega)]
  | push m b ih =>
    intro k q ok n text s h hs hq
    obtain ⟨q', t', e, he⟩ := ih _ _ _ _ _ ({ s with queue := s.queue ++ [m.code] } : TestModule) h hs
      (by simp [hq])
    exact ⟨q', t', by rw [runBody, M.bind_ok (show pushMessage m s = (.ok (), _) from rfl), e], he⟩
  | pop next ih =>
    intro k q ok n text s h hs hq
    cases q with
    | nil =>
      obtain ⟨q', t', e, he⟩ := ih _ _ _ _ _ _ s h hs hq
      refine ⟨q', t', ?_, he⟩
      have : popMessage s = (.ok .empty, s) := by
        simp only [List.map_nil] at hq
        simp only [popMessage, hq]
      rw [runBody, M.bind_ok this, e]
    | cons m q =>
      obtain ⟨q', t', e, he⟩ := ih _ _ _ _ _ _ ({ s with queue := q.map Message.code } : TestModule) h
        hs rfl
      refine ⟨q', t', ?_, he⟩
      have : popMessage s = (.ok m, { s with queue := q.map Message.code }) := by
        simp only [List.map_cons] at hq
        simp only [popMessage, hq, ofCode_code]
      rw [runBody, M.bind_ok this, e]
  | clear b ih =>
    intro k q ok n text s h hs hq
    obtain ⟨q', t', e, he⟩ := ih _ _ _ _ _ ({ s with queue := clearLoop s.queue } : TestModule) h hs
      (by simp [clearLoop_eq])
    exact ⟨q', t', by rw [runBody, M.bind_ok (show clearMessageQueue s = (.ok (), _) from rfl), e], he⟩
  | count next ih =>
    intro k q ok n text s h hs hq
    obtain ⟨q', t', e, he⟩ := ih _ _ _ _ _ _ s h hs hq
    refine ⟨q', t', ?_, he⟩
    have : getMessageCount s = (.ok q.length, s) := by rw [getMessageCount, hq, List.length_map]
    rw [runBody, M.bind_ok this, e]
  | log t b ih =>
    intro k q ok n text s h hs hq
    simp only [alone, Option.map_eq_some_iff] at h
    obtain ⟨⟨ok', n', t'⟩, h1, h2⟩ := h
    simp only [Prod.mk.injEq] at h2
    obtain ⟨rfl, rfl, rfl⟩ := h2
    obtain ⟨q', t'', e, he⟩ := ih _ _ _ _ _ ({ s with out := s.out ++ t } : TestModule) h1 hs hq
    refine ⟨q', t ++ t'', ?_, fun hn => by rw [he hn]⟩
    rw [runBody, M.bind_ok (show print t s = (.ok (), _) from rfl), e]
    simp only [List.append_assoc]

/-! ### The run -/

/-- A test function that announces itself and then runs its body. -/
def testOf (t : List Char × TestBody) : TestBody := .startTest t.1 t.2

/-- What a test function does on its own. -/
def reportOf (t : List Char × TestBody) : Option TestReport :=
  (alone t.2 0 []).map fun r => ⟨t.1, r.1, r.2.1, r.2.2⟩

theorem setWidth_ofNat (i : Nat) :
    (BitVec.ofNat 16 i).setWidth 32 = BitVec.ofNat 32 (i % 65536) := by
  apply BitVec.eq_of_toNat_eq
  simp

/-- What the module remembers about a failed test. -/
def failedEntry (r : TestReport × Nat) : BitVec 16 × List Char × BitVec 16 :=
  (BitVec.ofNat 16 r.2, r.1.name, BitVec.ofNat 16 (r.1.stages + 1))

/-- The line printed at the start of a test. -/
def startText (num name : List Char) : List Char :=
  "Test #".toList ++ num ++ " - '".toList ++ name ++ "' starting.\n".toList

theorem startTest_eq (name : List Char) (s : TestModule) (num : List Char)
    (h : zeroPad s.total ((s.index + 1).setWidth 32) = .ok num) :
    startTest name s = (.ok (), { s with
      index := s.index + 1, name := name, stage := 0, out := s.out ++ startText num name }) := by
  rw [startTest, M.bind_ok (M.modify_apply _ _), M.bind_ok (M.get_apply _)]
  simp only [h]
  rfl

theorem clearMessageQueue_eq (s : TestModule) :
    clearMessageQueue s = (.ok (), { s with queue := [] }) := by
  rw [clearMessageQueue, M.modify_apply, clearLoop_eq]

theorem noteResult_eq (ok : Bool) (s : TestModule) :
    noteResult ok s = (.ok (), { s with
      successes := if ok then s.successes + 1 else s.successes
      failed := if ok then s.failed else s.failed ++ [(s.index, s.name, s.stage + 1)] }) := by
  cases ok <;> rfl

/-- The line about the result of a test. -/
def resultLine (num name : List Char) (ok : Bool) (stage : BitVec 16) : List Char :=
  "Test #".toList ++ num ++ " - '".toList ++ name ++ "' ".toList
    ++ (if ok then "succeeded".toList else "failed".toList)
    ++ " with ".toList ++ Spec.decimal stage.toNat
    ++ (if stage = 1 then " successful stage.".toList else " successful stages.".toList)
    ++ "\n".toList

/-- The lines printed at the end of a test. -/
def endText (num name : List Char) (ok : Bool) (stage : BitVec 16) : List Char :=
  resultLine num name ok stage ++ (List.replicate (6 + num.length) '=' ++ "\n".toList)

theorem print_eq (text : List Char) (s : TestModule) :
    print text s = (.ok (), { s with out := s.out ++ text }) := rfl

theorem endTest_eq (ok : Bool) (s : TestModule) (num : List Char)
    (h : zeroPad s.total (s.index.setWidth 32) = .ok num) :
    endTest ok s = (.ok (), { s with
      successes := if ok then s.successes + 1 else s.successes
      failed := if ok then s.failed else s.failed ++ [(s.index, s.name, s.stage + 1)]
      queue := []
      out := s.out ++ endText num s.name ok s.stage }) := by
  rw [endTest, M.bind_ok (M.get_apply _), h, M.bind_ok (M.lift_apply _ _)]
  change (do
    print (resultLine num s.name ok s.stage)
    print (List.replicate (6 + num.length) '=')
    print "\n".toList
    noteResult ok
    clearMessageQueue : M TestModule Unit) s = _
  rw [M.bind_ok (print_eq _ _), M.bind_ok (print_eq _ _), M.bind_ok (print_eq _ _),
    M.bind_ok (noteResult_eq _ _), clearMessageQueue_eq, endText]
  generalize resultLine num s.name ok s.stage = line
  generalize "\n".toList = newline
  rw [← List.append_assoc, ← List.append_assoc]

theorem transcript_eq (total i : Nat) (r : TestReport) (h : r.stages < 65536) :
    startText (padded total i) r.name ++ (r.text ++
      endText (padded total i) r.name r.ok (BitVec.ofNat 16 r.stages)) = r.transcript total i := by
  have h2 : (BitVec.ofNat 16 r.stages = 1) = (r.stages = 1) := by
    apply propext
    constructor
    · intro e
      have := congrArg BitVec.toNat e
      simp only [BitVec.toNat_ofNat] at this
      change r.stages % 65536 = 1 at this
      omega
    · intro e
      rw [e]
      rfl
  have h3 : (BitVec.ofNat 16 r.stages).toNat = r.stages := by
    rw [BitVec.toNat_ofNat]
    omega
  unfold TestReport.transcript startText endText resultLine
  rw [h3]
  simp only [h2]
  generalize padded total i = num
  generalize Spec.decimal r.stages = dec
  generalize (if r.ok = true then "succeeded".toList else "failed".toList) = b1
  generalize (if r.stages = 1 then " successful stage.".toList else " successful stages.".toList) = b2
  generalize "Test #".toList = a1
  generalize " - '".toList = a2
  generalize "' starting.\n".toList = a3
  generalize "' ".toList = a4
  generalize " with ".toList = a5
  generalize "\n".toList = a6
  simp only [List.append_assoc]

theorem runTest_eq (t : List Char × TestBody) (r : TestReport) (hr : reportOf t = some r) (i : Nat)
    (s : TestModule) (hi : s.index = BitVec.ofNat 16 i) (hq : s.queue = [])
    (htot : i + 1 ≤ s.total) (hlim : s.total < 2 ^ 31) :
    ∃ name stage text, (do
        let ok ← runBody (testOf t)
        endTest ok : M TestModule Unit) s = (.ok (),
        { s with
          name := name
          index := BitVec.ofNat 16 (i + 1)
          stage := stage
          queue := []
          successes := s.successes + BitVec.ofNat 16 (if r.ok then 1 else 0)
          failed := s.failed ++ ([(r, i + 1)].filter (fun r => !r.1.ok)).map failedEntry
          out := s.out ++ text }) ∧
      (s.total < 65536 → r.stages < 65536 → text = r.transcript s.total (i + 1)) := by
  simp only [reportOf, Option.map_eq_some_iff] at hr
  obtain ⟨⟨ok, n, body⟩, h1, rfl⟩ := hr
  have hnum : zeroPad s.total ((BitVec.ofNat 16 (i + 1)).setWidth 32) =
      .ok (padded s.total ((i + 1) % 65536)) := by
    rw [setWidth_ofNat]
    exact zeroPad_eq _ _ (by have := Nat.mod_le (i + 1) 65536; omega) hlim
  have hidx : s.index + 1 = BitVec.ofNat 16 (i + 1) := by rw [hi, BitVec.ofNat_add]; rfl
  have estart := startTest_eq t.1 s _ (by rw [hidx]; exact hnum)
  rw [hidx] at estart
  obtain ⟨q', text', erun, htext⟩ := runBody_eq t.2 0 [] ok n body ({ s with index := BitVec.ofNat 16 (i + 1), name := t.1, stage := 0, out := s.out ++ startText (padded s.total ((i + 1) % 65536)) t.1 } : TestModule) h1 (by rfl) hq
  have ebody := Eq.trans (show runBody (testOf t) s = _ from M.bind_ok estart) erun
  rw [M.bind_ok ebody]
  refine ⟨t.1, BitVec.ofNat 16 n, startText (padded s.total ((i + 1) % 65536)) t.1 ++ (text' ++
    endText (padded s.total ((i + 1) % 65536)) t.1 ok (BitVec.ofNat 16 n)), ?_, ?_⟩
  · refine (endTest_eq ok _ (padded s.total ((i + 1) % 65536)) ?_).trans ?_
    · dsimp only
      exact hnum
    dsimp only
    have h1 : (BitVec.ofNat 16 n + 1 : BitVec 16) = BitVec.ofNat 16 (n + 1) := by
      rw [BitVec.ofNat_add]; rfl
    generalize startText (padded s.total ((i + 1) % 65536)) t.1 = a
    generalize endText (padded s.total ((i + 1) % 65536)) t.1 ok (BitVec.ofNat 16 n) = b
    have hs : (if ok then s.successes + 1 else s.successes) =
        s.successes + BitVec.ofNat 16 (if ok then 1 else 0) := by
      cases ok
      · exact (BitVec.add_zero _).symm
      · rfl
    have hf : (if ok then s.failed
          else s.failed ++ [(BitVec.ofNat 16 (i + 1), t.1, BitVec.ofNat 16 n + 1)]) =
        s.failed ++ ([((⟨t.1, ok, n, body⟩ : TestReport), i + 1)].filter
          (fun r => !r.1.ok)).map failedEntry := by
      rw [h1]
      cases ok
      · rfl
      · exact (List.append_nil _).symm
    rw [List.append_assoc, List.append_assoc, hs, hf]
  · intro ht hst
    rw [htext hst, Nat.mod_eq_of_lt (show i + 1 < 65536 by omega)]
    exact transcript_eq s.total (i + 1) ⟨t.1, ok, n, body⟩ hst

/-- One round of the loop of `run_tests`. -/
def runTest (t : TestBody) : M TestModule Unit := do
  let ok ← runBody t
  endTest ok

theorem runLoop_eq (tests : List (List Char × TestBody)) : ∀ (rs : List TestReport) (i : Nat)
    (s : TestModule), tests.map reportOf = rs.map some → s.index = BitVec.ofNat 16 i →
    s.queue = [] → i + tests.length ≤ s.total → s.total < 2 ^ 31 →
    ∃ us s', M.runList runTest (tests.map testOf) s = (.ok us, s') ∧ s'.queue = [] ∧
      s'.total = s.total ∧
      s'.successes = s.successes + BitVec.ofNat 16 (rs.length - failures rs) ∧
      s'.failed = s.failed ++
        ((rs.zipIdx (i + 1)).filter (fun r => !r.1.ok)).map failedEntry ∧
      ∃ text, s'.out = s.out ++ text ∧
        (s.total < 65536 → (∀ r ∈ rs, r.stages < 65536) →
          text = (rs.zipIdx (i + 1)).flatMap fun (r, i) => r.transcript s.total i) := by
  induction tests with
  | nil =>
    intro rs i s hr hi hq _ _
    cases rs with
    | nil =>
      refine ⟨[], s, rfl, hq, rfl, ?_, ?_, [], ?_, fun _ _ => rfl⟩
      · exact (BitVec.add_zero _).symm
      · exact (List.append_nil _).symm
      · exact (List.append_nil _).symm
    | cons r rs => cases hr
  | cons t tests ih =>
    intro rs i s hr hi hq htot hlim
    cases rs with
    | nil => cases hr
    | cons r rs =>
      simp only [List.map_cons, List.cons.injEq] at hr
      obtain ⟨hr1, hr2⟩ := hr
      simp only [List.length_cons] at htot
      obtain ⟨name, stage, text1, e1, h1⟩ := runTest_eq t r hr1 i s hi hq (by omega) hlim
      obtain ⟨us, s', e2, q2, t2, su2, f2, text2, o2, h2⟩ :=
        ih rs (i + 1) ⟨name, BitVec.ofNat 16 (i + 1), stage,
          s.successes + BitVec.ofNat 16 (if r.ok then 1 else 0),
          s.failed ++ ([(r, i + 1)].filter (fun r => !r.1.ok)).map failedEntry, s.total, [],
          s.out ++ text1⟩ hr2 rfl rfl (by show i + 1 + tests.length ≤ s.total; omega) hlim
      refine ⟨() :: us, s', ?_, q2, t2, ?_, ?_, text1 ++ text2, ?_, ?_⟩
      · exact M.runList_cons e1 e2
      · rw [su2]
        dsimp only
        rw [BitVec.add_assoc, ← BitVec.ofNat_add]
        congr 2
        have hle : failures rs ≤ rs.length := List.length_filter_le _ _
        cases hok : r.ok
        · simp only [failures, List.filter_cons, hok, Bool.not_false, if_true, List.length_cons] at *
          simp
        · simp only [failures, List.filter_cons, hok, Bool.not_true, Bool.false_eq_true, if_false,
            if_true, List.length_cons] at *
          omega
      · rw [f2]
        dsimp only
        rw [List.append_assoc, ← List.map_append, ← List.filter_append]
        rfl
      · rw [o2]
        dsimp only
        rw [List.append_assoc]
      · intro ht hst
        rw [h1 ht (hst r (by simp)), h2 ht (fun x hx => hst x (by simp [hx]))]
        rfl

/-- The line about a failed test. -/
def failLine (t : BitVec 16 × List Char × BitVec 16) : List Char :=
  "Test #".toList ++ Spec.decimal t.1.toNat ++ " - '".toList ++ t.2.1
    ++ "' failed on stage ".toList ++ Spec.decimal t.2.2.toNat ++ "\n".toList

theorem reportLoop_eq (fs : List (BitVec 16 × List Char × BitVec 16)) : ∀ s : TestModule,
    ∃ us, M.runList reportFailedTest fs s =
      (.ok us, { s with out := s.out ++ fs.flatMap failLine }) := by
  induction fs with
  | nil => intro s; exact ⟨[], by simp only [M.runList_nil, List.flatMap_nil, List.append_nil]⟩
  | cons f fs ih =>
    intro s
    obtain ⟨us, e⟩ := ih { s with out := s.out ++ failLine f }
    refine ⟨() :: us, ?_⟩
    rw [M.runList_cons (show reportFailedTest f s = (.ok (), _) from rfl) e]
    rw [List.flatMap_cons, List.append_assoc s.out]

theorem failures_zipIdx (rs : List TestReport) (k : Nat) :
    ((rs.zipIdx k).filter (fun r => !r.1.ok)).length = failures rs := by
  induction rs generalizing k with
  | nil => rfl
  | cons r rs ih =>
    simp only [List.zipIdx_cons, List.filter_cons, failures] at ih ⊢
    cases r.ok <;> simp [ih]

theorem failure_lines (rs : List TestReport) (k : Nat) (hk : k + rs.length ≤ 65536)
    (hst : ∀ r ∈ rs, r.stages < 65535) :
    (((rs.zipIdx k).filter (fun r => !r.1.ok)).map failedEntry).flatMap failLine =
    ((rs.zipIdx k).filter (fun (r, _) => !r.ok)).flatMap fun (r, i) => r.failure i := by
  rw [List.flatMap_map]
  have : ∀ x ∈ (rs.zipIdx k).filter (fun r => !r.1.ok), x.2 < 65536 ∧ x.1.stages < 65535 := by
    intro x hx
    have hx := (List.mem_filter.mp hx).1
    have h1 := List.fst_mem_of_mem_zipIdx hx
    have h2 := List.snd_lt_of_mem_zipIdx hx
    exact ⟨by omega, hst _ h1⟩
  generalize (rs.zipIdx k).filter (fun r => !r.1.ok) = xs at this
  induction xs with
  | nil => rfl
  | cons x xs ih =>
    obtain ⟨ha, hb⟩ := this x (by simp)
    rw [List.flatMap_cons, List.flatMap_cons, ih (fun y hy => this y (by simp [hy]))]
    refine congrArg (· ++ _) ?_
    unfold failedEntry failLine TestReport.failure
    dsimp only
    rw [BitVec.toNat_ofNat, BitVec.toNat_ofNat, Nat.mod_eq_of_lt ha,
      Nat.mod_eq_of_lt (show x.1.stages + 1 < 2 ^ 16 by omega)]

/-- A run of a fresh module. -/
theorem runTests_eq (tests : List (List Char × TestBody)) (rs : List TestReport)
    (hr : tests.map reportOf = rs.map some) (hlim : tests.length < 2 ^ 31) :
    ∃ s', runTests (tests.map testOf) (make tests.length) = (.ok (failures rs), s') ∧
      s'.queue = [] ∧
      (tests.length < 65536 → (∀ r ∈ rs, r.stages < 65535) → s'.out = runOutput rs) := by
  have hlen : tests.length = rs.length := by simpa using congrArg List.length hr
  obtain ⟨us, s1, e1, q1, t1, su1, f1, text, o1, h1⟩ := runLoop_eq tests rs 0 (make tests.length) hr
    rfl rfl (by show 0 + tests.length ≤ tests.length; omega) hlim
  have hfl : s1.failed.length = failures rs := by
    rw [f1, List.length_append, List.length_map, failures_zipIdx]
    exact Nat.zero_add _
  obtain ⟨vs, e2⟩ := reportLoop_eq s1.failed { s1 with
    out := s1.out ++ ("Successful tests: ".toList ++ Spec.decimal s1.successes.toNat ++ "\n".toList)
      ++ ("Failed tests: ".toList ++ Spec.decimal s1.failed.length ++ "\n".toList)
      ++ "\n".toList }
  have hle : failures rs ≤ rs.length := List.length_filter_le _ _
  have e : runTests (tests.map testOf) (make tests.length) = (.ok s1.failed.length, { s1 with
      out := s1.out
        ++ ("Successful tests: ".toList ++ Spec.decimal s1.successes.toNat ++ "\n".toList)
        ++ ("Failed tests: ".toList ++ Spec.decimal s1.failed.length ++ "\n".toList)
        ++ "\n".toList ++ s1.failed.flatMap failLine }) := by
    have : ∀ {x : M TestModule Nat} {a s s'}, x s = (.ok a, s') → M.noexcept x s = (.ok a, s') := by
      intro x a s s' h
      rw [M.noexcept_apply, h]
      rfl
    apply this
    refine (M.bind_ok e1).trans ?_
    rw [M.bind_ok (M.get_apply _), M.bind_ok (print_eq _ _), M.bind_ok (print_eq _ _),
      M.bind_ok (print_eq _ _), M.bind_ok e2]
    rfl
  rw [hfl] at e
  refine ⟨_, e, q1, ?_⟩
  intro hc hst
  have hs : s1.successes.toNat = rs.length - failures rs := by
    rw [su1]
    show (0#16 + BitVec.ofNat 16 _).toNat = _
    rw [BitVec.zero_add, BitVec.toNat_ofNat]
    omega
  show s1.out ++ _ ++ _ ++ _ ++ s1.failed.flatMap failLine = _
  rw [o1, h1 hc (fun r hr => by have := hst r hr; omega), hs]
  have hf : s1.failed.flatMap failLine =
      ((rs.zipIdx 1).filter (fun (r, _) => !r.ok)).flatMap fun (r, i) => r.failure i := by
    rw [f1]
    exact failure_lines rs 1 (by omega) hst
  rw [hf]
  have hn : "\n\n".toList = "\n".toList ++ "\n".toList := rfl
  unfold runOutput
  rw [hn]
  show [] ++ _ ++ _ ++ _ ++ _ ++ _ = _
  rw [List.nil_append, show (make tests.length).total = rs.length from hlen]
  generalize "Successful tests: ".toList = a1
  generalize "Failed tests: ".toList = a2
  generalize "\n".toList = a3
  simp only [List.append_assoc]

end TestModule

end Cmp
