import Verif.Proofs.TestModule

/-
Properties of the test runner: `test_module`.
-/

namespace Cmp

open Spec TestModule

/-! ### C63 -/

theorem putZeros_ub (n : Nat) : ∀ (at_ : Nat) (s : List Char), at_ + n > max s.length at_ →
    putZeros n at_ s = .ub := by
  induction n with
  | zero => intro at_ s h; omega
  | succ n ih =>
    intro at_ s h
    rw [putZeros]
    split
    · exact ih _ _ (by rw [List.length_set]; omega)
    · rfl

/-- **C63** is violated: the total is converted to `int`.  With 2^32 tests the number 10 is written
behind the end of a one-character string. -/
theorem C63_violated : ¬ ∀ (total n : Nat), n ≤ total → n < 2 ^ 32 →
    ∃ text, zeroPad total (BitVec.ofNat 32 n) = .ok text := by
  intro h
  obtain ⟨text, e⟩ := h (2 ^ 32) 10 (by decide) (by decide)
  have : zeroPad (2 ^ 32) (BitVec.ofNat 32 10) = .ub := by
    have ht : (BitVec.ofNat 32 (2 ^ 32)) = (0 : BitVec 32) := by
      rw [← BitVec.toNat_inj, BitVec.toNat_ofNat, Nat.mod_self]
      rfl
    unfold zeroPad
    rw [ht]
    have h1 : countDigits (BitVec.ofNat 32 10).toInt = .ok 2 := by decide +kernel
    have h2 : countDigits (0 : BitVec 32).toInt = .ok 1 := by decide +kernel
    rw [h1, h2]
    show (do
      let s ← putZeros (BitVec.ofNat 32 1 - BitVec.ofNat 32 2).toNat 0 (List.replicate 1 '\x00')
      putDigits (BitVec.ofNat 32 1) 11 1 (BitVec.ofNat 32 10) s : Outcome (List Char)) = _
    rw [putZeros_ub _ _ _ (by decide +kernel)]
    rfl
  rw [this] at e
  cases e

/-- **C63** for totals below 2^31: the padded number is as wide as the total, consists of digits and
denotes the number, and every access is inside the string. -/
theorem C63_partial (total n : Nat) (hn : n ≤ total) (ht : total < 2 ^ 31) :
    ∃ text, zeroPad total (BitVec.ofNat 32 n) = .ok text ∧
      text.length = (decimal total).length ∧
      (∀ c ∈ text, '0' ≤ c ∧ c ≤ '9') ∧
      numeralValue text = n := by
  refine ⟨padded total n, zeroPad_eq total n hn ht, ?_, ?_, ?_⟩
  · have := decimal_length_mono hn
    simp only [padded, List.length_append, List.length_replicate]
    omega
  · intro c hc
    simp only [padded, List.mem_append] at hc
    rcases hc with hc | hc
    · have := (List.mem_replicate.mp hc).2
      subst this
      exact ⟨by decide, by decide⟩
    · exact decimal_digits n c hc
  · rw [padded, numeralValue_zeros, numeralValue_decimal]

/-- The reference numeral of a number is itself right. -/
theorem C63_partial_numeral (n : Nat) : numeralValue (decimal n) = n := numeralValue_decimal n

example : zeroPad 1234 7#32 = .ok "0007".toList := by decide +kernel

/-! ### C62 -/

theorem messages_run (ops : List MessageOp) : ∀ (pushed : List Message) (taken : Nat)
    (s : TestModule), taken ≤ pushed.length → s.queue = (pushed.drop taken).map Message.code →
    ∃ s', M.runList messageStep ops s = (.ok (messageResults pushed taken ops), s') := by
  induction ops with
  | nil => intro pushed taken s _ _; exact ⟨s, rfl⟩
  | cons op ops ih =>
    intro pushed taken s ht hq
    cases op with
    | push m =>
      obtain ⟨s', e⟩ := ih (pushed ++ [m]) taken { s with queue := s.queue ++ [m.code] }
        (by simp; omega) (by rw [List.drop_append_of_le_length ht, List.map_append, hq]; rfl)
      exact ⟨s', M.runList_cons (show messageStep (.push m) s = (.ok .done, _) from rfl) e⟩
    | clear =>
      obtain ⟨s', e⟩ := ih [] 0 { s with queue := [] } (by simp) rfl
      refine ⟨s', M.runList_cons (a := .done) ?_ e⟩
      show (do clearMessageQueue; pure MessageObs.done : M TestModule MessageObs) s = _
      rw [M.bind_ok (clearMessageQueue_eq s)]
      rfl
    | count =>
      obtain ⟨s', e⟩ := ih pushed taken s ht hq
      refine ⟨s', M.runList_cons (a := .count (pushed.length - taken)) ?_ e⟩
      show (Outcome.ok (MessageObs.count s.queue.length), s) = _
      rw [hq, List.length_map, List.length_drop]
    | pop =>
      by_cases hlt : taken < pushed.length
      · have hd : pushed.drop taken = pushed[taken] :: pushed.drop (taken + 1) :=
          List.drop_eq_getElem_cons hlt
        rw [hd, List.map_cons] at hq
        obtain ⟨s', e⟩ := ih pushed (taken + 1)
          { s with queue := (pushed.drop (taken + 1)).map Message.code } (by omega) rfl
        refine ⟨s', ?_⟩
        have hp : messageStep .pop s = (.ok (.message pushed[taken]),
            { s with queue := (pushed.drop (taken + 1)).map Message.code }) := by
          have : popMessage s = (.ok pushed[taken],
              { s with queue := (pushed.drop (taken + 1)).map Message.code }) := by
            unfold popMessage
            rw [hq]
            simp only [ofCode_code]
          show (do let m ← popMessage; pure (MessageObs.message m) : M TestModule MessageObs) s = _
          rw [M.bind_ok this]
          rfl
        rw [M.runList_cons hp e]
        simp only [messageResults, List.getElem?_eq_getElem hlt]
      · have hd : pushed.drop taken = [] := List.drop_eq_nil_of_le (by omega)
        obtain ⟨s', e⟩ := ih pushed taken s ht hq
        rw [hd, List.map_nil] at hq
        refine ⟨s', ?_⟩
        have hp : messageStep .pop s = (.ok (.message .empty), s) := by
          have : popMessage s = (.ok .empty, s) := by
            unfold popMessage
            rw [hq]
          show (do let m ← popMessage; pure (MessageObs.message m) : M TestModule MessageObs) s = _
          rw [M.bind_ok this]
          rfl
        rw [M.runList_cons hp e]
        simp only [messageResults, List.getElem?_eq_none (Nat.le_of_not_lt hlt)]

/-- **C62**: whatever has happened to the module before, from an empty queue on every history of
pushing, taking, counting and clearing shows a queue that is first in, first out, and empty messages
when nothing is left. -/
theorem C62_fifo (s : TestModule) (hs : s.queue = []) (ops : List MessageOp) :
    (M.runList messageStep ops s).1 = .ok (messageResults [] 0 ops) := by
  obtain ⟨s', e⟩ := messages_run ops [] 0 s (by simp) hs
  rw [e]

/-- **C62**: when a test has ended nothing is left in the queue: whatever was pushed before, the next
test sees an empty queue. -/
theorem C62_endTest (s s' : TestModule) (ok : Bool) (h : endTest ok s = (.ok (), s'))
    (ops : List MessageOp) :
    (M.runList messageStep ops s').1 = .ok (messageResults [] 0 ops) := by
  refine C62_fifo s' ?_ ops
  unfold endTest at h
  rw [M.bind_ok (M.get_apply _)] at h
  cases hz : zeroPad s.total (s.index.setWidth 32) with
  | ok num =>
    have := endTest_eq ok s num hz
    unfold endTest at this
    rw [M.bind_ok (M.get_apply _)] at this
    rw [this] at h
    cases h
    rfl
  | throw e => rw [hz] at h; cases h
  | terminate => rw [hz] at h; cases h
  | ub => rw [hz] at h; cases h
  | hang => rw [hz] at h; cases h

/-- A test that leaves a message behind does end. -/
example : (endTest true { make 3 with queue := [4], index := 1 }).1 = .ok () := by decide +kernel

example : messageResults [] 0 [.push .constructorCalled, .push .destructorCalled, .pop, .count, .pop,
    .pop] = [.done, .done, .message .constructorCalled, .count 1, .message .destructorCalled,
    .message .empty] := rfl

/-! ### C61 -/

/-- **C61** is violated: a module that is run again still counts the failures of the earlier run. -/
theorem C61_violated : ¬ ∀ (tests : List (List Char × TestBody)) (rs : List TestReport),
    tests.map reportOf = rs.map some →
    (M.runList (fun _ : Unit => runTests (tests.map testOf)) [(), ()] (make tests.length)).1 =
      .ok [failures rs, failures rs] := by
  intro h
  have := h [("a".toList, .done false)] [⟨"a".toList, false, 0, []⟩] rfl
  revert this
  decide +kernel

/-- **C61** is violated: a test function that announces itself too often writes behind a string. -/
theorem C61_violated_announced : ¬ ∀ (tests : List TestBody),
    ∃ n, (runTests tests (make tests.length)).1 = .ok n := by
  intro h
  obtain ⟨n, e⟩ := h [(List.range 10).foldr (fun _ b => .startTest "a".toList b) (.done true)]
  have hub : (runTests [(List.range 10).foldr (fun _ b => .startTest "a".toList b) (.done true)]
      (make 1)).1 = .ub := by decide +kernel
  rw [show (runTests [_] (make [_].length)).1 = .ub from hub] at e
  cases e

/-- **C61** for the first run of a module whose test functions announce themselves once and return:
`run_tests` returns the number of tests that failed. -/
theorem C61_partial_result (tests : List (List Char × TestBody)) (rs : List TestReport)
    (hr : tests.map reportOf = rs.map some) (hlim : tests.length < 2 ^ 31) :
    (runTests (tests.map testOf) (make tests.length)).1 = .ok (failures rs) := by
  obtain ⟨s', e, _⟩ := runTests_eq tests rs hr hlim
  rw [e]

/-- **C61** for the first run of a module with fewer than 65536 tests of fewer than 65535 stages,
whose functions announce themselves once and return: what is printed is what the test functions
print, each once and in order, and behind that the totals and a line about each test that failed. -/
theorem C61_partial (tests : List (List Char × TestBody)) (rs : List TestReport)
    (hr : tests.map reportOf = rs.map some) (hlim : tests.length < 65536)
    (hst : ∀ r ∈ rs, r.stages < 65535) :
    ∃ s', runTests (tests.map testOf) (make tests.length) = (.ok (failures rs), s') ∧
      s'.out = runOutput rs := by
  obtain ⟨s', e, _, h⟩ := runTests_eq tests rs hr (by omega)
  exact ⟨s', e, h hlim hst⟩

/-- Two test functions: one fails after a stage in which it pops what it has pushed. -/
example : [("a".toList, TestBody.push .destructorCalled (.pop fun m => if m = .destructorCalled then
      .endStage (.done false) else .raise)), ("b".toList, .log "!".toList (.done true))].map reportOf =
    [(⟨"a".toList, false, 1, "Stage 1 completed successfully.\n".toList⟩ : TestReport),
      ⟨"b".toList, true, 0, "!".toList⟩].map some := by rfl

end Cmp
