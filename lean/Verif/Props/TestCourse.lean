import Verif.Props.PadExact
import Verif.Spec.TestCourse

/-
C61 in full: what `run_tests` does, for all test functions and in every run of a module.
-/

namespace Cmp

open Cmp.Spec TestModule

namespace TestModule

/-- The module keeps the ledger `l` modulo 65536, and has `q` in its queue. -/
structure Keeps (s : TestModule) (l : Ledger) (q : List Message) : Prop where
  index : s.index = BitVec.ofNat 16 l.announced
  name : s.name = l.name
  stage : s.stage = BitVec.ofNat 16 l.stages
  successes : s.successes = BitVec.ofNat 16 l.good
  failed : s.failed = l.bad.map fun t => (BitVec.ofNat 16 t.1, t.2.1, BitVec.ofNat 16 t.2.2)
  queue : s.queue = q.map Message.code

theorem keeps_make (n : Nat) : (make n).Keeps ⟨0, "<uninitialized>".toList, 0, 0, []⟩ [] :=
  ⟨rfl, rfl, rfl, rfl, rfl, rfl⟩

theorem zeroPad_number (total k : Nat) (ht : total < 2 ^ 31) :
    zeroPad total ((BitVec.ofNat 16 k).setWidth 32) =
      if (decimal (k % 65536)).length ≤ (decimal total).length then .ok (padded total (k % 65536))
      else .ub := by
  have hw : wrapped total = total := by
    unfold wrapped
    rw [Nat.mod_eq_of_lt (by omega), if_pos ht]
  rw [setWidth_ofNat, C63_exact _ _ (by omega), hw]

theorem startTest_wide (name : List Char) (s : TestModule)
    (h : zeroPad s.total ((s.index + 1).setWidth 32) = .ub) : (startTest name s).1 = .ub := by
  rw [startTest, M.bind_ok (M.modify_apply _ _), M.bind_ok (M.get_apply _)]
  simp only [h]
  rfl

theorem endTest_wide (ok : Bool) (s : TestModule) (h : zeroPad s.total (s.index.setWidth 32) = .ub) :
    (endTest ok s).1 = .ub := by
  rw [endTest, M.bind_ok (M.get_apply _), h]
  rfl

theorem bind_ub {σ α β : Type} {x : M σ α} {f : α → M σ β} {s : σ} (h : (x s).1 = .ub) :
    ((x >>= f) s).1 = .ub := by
  rw [M.bind_apply]
  rcases hx : x s with ⟨o, s'⟩
  rw [hx] at h
  cases h
  rfl

/-- The body of a test function and its deeds. -/
theorem runBody_tell (b : TestBody) : ∀ (s : TestModule) (l : Ledger) (q : List Message),
    s.Keeps l q → s.total < 2 ^ 31 →
    match l.tell s.total (deeds b q).1 with
    | none => (runBody b s).1 = .ub
    | some (l', text) => ∃ s' q', s'.Keeps l' q' ∧ s'.total = s.total ∧ s'.out = s.out ++ text
        ∧ runBody b s = (match (deeds b q).2 with
            | some ok => .ok ok
            | none => .throw .outOfRange, s') := by
  induction b with
  | done ok =>
    intro s l q h _
    exact ⟨s, q, h, rfl, by simp, rfl⟩
  | raise =>
    intro s l q h _
    exact ⟨s, q, h, rfl, by simp, rfl⟩
  | startTest name b ih =>
    intro s l q h ht
    have hi : s.index + 1 = BitVec.ofNat 16 (l.announced + 1) := by
      rw [h.index, BitVec.ofNat_add]; rfl
    have hz := zeroPad_number s.total (l.announced + 1) ht
    simp only [deeds, Ledger.tell]
    by_cases hn : (l.after (.announce name)).Narrow s.total
    · rw [if_pos hn]
      rw [if_pos (show (decimal ((l.announced + 1) % 65536)).length ≤ (decimal s.total).length from hn),
        ← hi] at hz
      have e1 := startTest_eq name s _ hz
      have hk : TestModule.Keeps { s with
          index := s.index + 1, name := name, stage := 0,
          out := s.out ++ startText (padded s.total ((l.announced + 1) % 65536)) name }
          (l.after (.announce name)) q :=
        ⟨hi, rfl, rfl, h.successes, h.failed, h.queue⟩
      have := ih _ _ _ hk ht
      cases htl : (l.after (.announce name)).tell s.total (deeds b q).1 with
      | none =>
        simp only [htl] at this
        simp only [Option.map_none]
        rw [runBody, M.bind_ok e1]
        exact this
      | some p =>
        obtain ⟨l', text⟩ := p
        simp only [htl] at this
        obtain ⟨s', q', k', t', o', e'⟩ := this
        simp only [Option.map_some]
        refine ⟨s', q', k', t', ?_, ?_⟩
        · rw [o']
          simp only [List.append_assoc]
          rfl
        · rw [runBody, M.bind_ok e1, e']
    · rw [if_neg hn]
      rw [if_neg (show ¬ (decimal ((l.announced + 1) % 65536)).length ≤ (decimal s.total).length
        from hn), ← hi] at hz
      exact bind_ub (startTest_wide name s hz)
  | endStage b ih =>
    intro s l q h ht
    have hst : s.stage + 1 = BitVec.ofNat 16 (l.stages + 1) := by rw [h.stage, BitVec.ofNat_add]; rfl
    have h16 : (2 : Nat) ^ 16 = 65536 := rfl
    have hk : TestModule.Keeps { s with
        stage := s.stage + 1,
        out := s.out ++ ("Stage ".toList ++ Spec.decimal (s.stage + 1).toNat
          ++ " completed successfully.\n".toList) } (l.after .stage) q :=
      ⟨h.index, h.name, hst, h.successes, h.failed, h.queue⟩
    have := ih _ _ _ hk ht
    simp only [deeds, Ledger.tell]
    cases htl : (l.after .stage).tell s.total (deeds b q).1 with
    | none =>
      simp only [htl] at this
      simp only [Option.map_none]
      rw [runBody, M.bind_ok (show endStage s = (.ok (), _) from rfl)]
      exact this
    | some p =>
      obtain ⟨l', text⟩ := p
      simp only [htl] at this
      obtain ⟨s', q', k', t', o', e'⟩ := this
      simp only [Option.map_some]
      refine ⟨s', q', k', t', ?_, ?_⟩
      · rw [o', hst, BitVec.toNat_ofNat, h16]
        unfold Ledger.line Ledger.after
        dsimp only
        generalize "Stage ".toList = a1
        generalize " completed successfully.\n".toList = a2
        simp only [List.append_assoc]
      · rw [runBody, M.bind_ok (show endStage s = (.ok (), _) from rfl), e']
  | push m b ih =>
    intro s l q h ht
    have := ih ({ s with queue := s.queue ++ [m.code] } : TestModule) l (q ++ [m])
      ⟨h.index, h.name, h.stage, h.successes, h.failed, by simp [h.queue]⟩ ht
    rw [deeds, runBody, M.bind_ok (show pushMessage m s = (.ok (), _) from rfl)]
    exact this
  | pop next ih =>
    intro s l q h ht
    cases q with
    | nil =>
      have hp : popMessage s = (.ok .empty, s) := by
        have := h.queue
        simp only [List.map_nil] at this
        simp only [popMessage, this]
      rw [deeds, runBody, M.bind_ok hp]
      exact ih _ s l [] h ht
    | cons m q =>
      have hp : popMessage s = (.ok m, { s with queue := q.map Message.code }) := by
        have := h.queue
        simp only [List.map_cons] at this
        simp only [popMessage, this, ofCode_code]
      rw [deeds, runBody, M.bind_ok hp]
      exact ih m { s with queue := q.map Message.code } l q
        ⟨h.index, h.name, h.stage, h.successes, h.failed, rfl⟩ ht
  | clear b ih =>
    intro s l q h ht
    rw [deeds, runBody, M.bind_ok (clearMessageQueue_eq s)]
    exact ih { s with queue := [] } l [] ⟨h.index, h.name, h.stage, h.successes, h.failed, rfl⟩ ht
  | count next ih =>
    intro s l q h ht
    have hc : getMessageCount s = (.ok q.length, s) := by
      rw [getMessageCount, h.queue, List.length_map]
    rw [deeds, runBody, M.bind_ok hc]
    exact ih _ s l q h ht
  | log t b ih =>
    intro s l q h ht
    have hk : TestModule.Keeps { s with out := s.out ++ t } l q :=
      ⟨h.index, h.name, h.stage, h.successes, h.failed, h.queue⟩
    have := ih _ _ _ hk ht
    simp only [deeds, Ledger.tell]
    cases htl : l.tell s.total (deeds b q).1 with
    | none =>
      simp only [htl] at this
      simp only [Option.map_none]
      rw [runBody, M.bind_ok (show print t s = (.ok (), _) from rfl)]
      exact this
    | some p =>
      obtain ⟨l', text⟩ := p
      simp only [htl] at this
      obtain ⟨s', q', k', t', o', e'⟩ := this
      simp only [Option.map_some]
      refine ⟨s', q', k', t', ?_, ?_⟩
      · rw [o']
        simp only [List.append_assoc]
      · rw [runBody, M.bind_ok (show print t s = (.ok (), _) from rfl), e']

theorem endText_result (total : Nat) (l : Ledger) (ok : Bool) (b : BitVec 16)
    (hb : b = BitVec.ofNat 16 l.stages) :
    endText (padded total (l.announced % 65536)) l.name ok b = l.result total ok := by
  have h1 : b.toNat = l.stages % 65536 := by rw [hb, BitVec.toNat_ofNat]
  have h2 : (b = 1) = (l.stages % 65536 = 1) := by
    apply propext
    rw [← h1]
    constructor
    · rintro rfl; rfl
    · intro h
      exact BitVec.eq_of_toNat_eq h
  unfold endText resultLine Ledger.result Ledger.number
  rw [h1]
  simp only [h2]
  generalize padded total (l.announced % 65536) = num
  generalize (if ok = true then "succeeded".toList else "failed".toList) = b1
  generalize (if l.stages % 65536 = 1 then " successful stage.".toList
    else " successful stages.".toList) = b2
  generalize "Test #".toList = a1
  generalize " - '".toList = a2
  generalize "' ".toList = a4
  generalize " with ".toList = a5
  generalize "\n".toList = a6
  simp only [List.append_assoc]

/-- What the test functions do when they are run: the first may find messages in the queue. -/
def allDeeds (q : List Message) : List TestBody → List (List Deed × Option Bool)
  | [] => []
  | t :: ts => deeds t q :: ts.map (deeds · [])

theorem runLoop_course (tests : List TestBody) : ∀ (s : TestModule) (l : Ledger) (q : List Message),
    s.Keeps l q → s.total < 2 ^ 31 →
    match course s.total l (allDeeds q tests) with
    | .ends l' text => ∃ s' q' us, M.runList runTest tests s = (.ok us, s') ∧ s'.Keeps l' q'
        ∧ (tests ≠ [] → q' = []) ∧ s'.total = s.total ∧ s'.out = s.out ++ text
    | .raises => (M.runList runTest tests s).1 = .throw .outOfRange
    | .tooWide => (M.runList runTest tests s).1 = .ub := by
  induction tests with
  | nil =>
    intro s l q h _
    exact ⟨s, q, [], rfl, h, by simp, rfl, by simp⟩
  | cons t tests ih =>
    intro s l q h ht
    have hb := runBody_tell t s l q h ht
    have hstop : ∀ {o : Outcome Unit}, (runTest t s).1 = o → (∀ a, o ≠ .ok a) →
        ∀ {p : Outcome (List Unit)}, (∀ e, o = .throw e → p = .throw e) → (o = .ub → p = .ub) →
        (o = .ub ∨ ∃ e, o = .throw e) → (M.runList runTest (t :: tests) s).1 = p := by
      intro o ho _ p h1 h2 h3
      rw [M.runList, M.bind_apply]
      rcases hx : runTest t s with ⟨o', s'⟩
      rw [hx] at ho
      simp only at ho
      subst ho
      rcases h3 with rfl | ⟨e, rfl⟩
      · exact (h2 rfl).symm
      · exact (h1 e rfl).symm
    simp only [allDeeds, course]
    cases htl : l.tell s.total (deeds t q).1 with
    | none =>
      simp only [htl] at hb ⊢
      exact hstop (o := .ub) (bind_ub hb) (by simp) (by simp) (fun _ => rfl) (.inl rfl)
    | some p =>
      obtain ⟨l1, t1⟩ := p
      simp only [htl] at hb
      obtain ⟨s1, q1, k1, tot1, o1, e1⟩ := hb
      cases hr : (deeds t q).2 with
      | none =>
        simp only [hr] at e1 ⊢
        refine hstop (o := .throw .outOfRange) ?_ (by simp) (by simp) (by simp) (.inr ⟨_, rfl⟩)
        rw [runTest, M.bind_apply, e1]
      | some ok =>
        simp only [hr] at e1 ⊢
        have hz := zeroPad_number s1.total l1.announced (by omega)
        rw [← k1.index] at hz
        by_cases hn : l1.Narrow s.total
        · rw [if_pos hn]
          rw [tot1, if_pos (show (decimal (l1.announced % 65536)).length ≤ (decimal s.total).length
            from hn)] at hz
          have e2 := endTest_eq ok s1 _ (by rw [tot1]; exact hz)
          have hrun : runTest t s = (.ok (), _) := (M.bind_ok e1).trans e2
          have hk : TestModule.Keeps { s1 with
              successes := if ok then s1.successes + 1 else s1.successes
              failed := if ok then s1.failed else s1.failed ++ [(s1.index, s1.name, s1.stage + 1)]
              queue := []
              out := s1.out ++ endText (padded s.total (l1.announced % 65536)) s1.name ok s1.stage }
              (l1.noted ok) [] := by
            cases ok with
            | true =>
              refine ⟨k1.index, k1.name, k1.stage, ?_, k1.failed, rfl⟩
              show s1.successes + 1 = BitVec.ofNat 16 (l1.good + 1)
              rw [k1.successes, BitVec.ofNat_add]
              rfl
            | false =>
              refine ⟨k1.index, k1.name, k1.stage, k1.successes, ?_, rfl⟩
              show s1.failed ++ [(s1.index, s1.name, s1.stage + 1)]
                = (l1.bad ++ [(l1.announced, l1.name, l1.stages + 1)]).map _
              rw [k1.failed, k1.index, k1.name, k1.stage, List.map_append]
              simp only [List.map_cons, List.map_nil]
              rw [BitVec.ofNat_add]
              rfl
          have hout : s1.out ++ endText (padded s.total (l1.announced % 65536)) s1.name ok s1.stage
              = s.out ++ (t1 ++ l1.result s.total ok) := by
            rw [k1.name, endText_result s.total l1 ok _ k1.stage, o1, List.append_assoc]
          have hall : allDeeds [] tests = tests.map (deeds · []) := by cases tests <;> rfl
          obtain ⟨s1', hrun, hk, htot, hout⟩ : ∃ s1' : TestModule,
              runTest t s = (.ok (), s1') ∧ s1'.Keeps (l1.noted ok) [] ∧ s1'.total = s.total
              ∧ s1'.out = s.out ++ (t1 ++ l1.result s.total ok) := ⟨_, hrun, hk, tot1, hout⟩
          have := ih _ _ _ hk (by omega)
          rw [hall, htot] at this
          generalize tests.map (deeds · []) = rest at this ⊢
          cases hc : course s.total (l1.noted ok) rest with
          | ends l2 t2 =>
            simp only [hc] at this
            obtain ⟨s2, q2, us, e3, k2, hq2, tot2, o2⟩ := this
            refine ⟨s2, q2, () :: us, M.runList_cons hrun e3, k2, fun _ => ?_, tot2, ?_⟩
            · by_cases hne : tests = []
              · subst hne
                cases e3
                have := k2.queue
                rw [hk.queue] at this
                simpa using this.symm
              · exact hq2 hne
            · rw [o2, hout]
              simp only [List.append_assoc]
          | raises =>
            simp only [hc] at this
            simp only [Course.behind]
            rw [M.runList, M.bind_ok hrun, M.bind_apply]
            generalize M.runList runTest tests _ = x at this ⊢
            obtain ⟨o, s'⟩ := x
            simp only at this
            rw [this]
          | tooWide =>
            simp only [hc] at this
            simp only [Course.behind]
            rw [M.runList, M.bind_ok hrun]
            exact bind_ub this
        · rw [if_neg hn]
          rw [tot1, if_neg (show ¬ (decimal (l1.announced % 65536)).length ≤ (decimal s.total).length
            from hn)] at hz
          refine hstop (o := .ub) ?_ (by simp) (by simp) (fun _ => rfl) (.inl rfl)
          rw [runTest, M.bind_ok e1]
          exact endTest_wide ok s1 (by rw [tot1]; exact hz)

theorem totals_eq {s : TestModule} {l : Ledger} {q : List Message} (h : s.Keeps l q) :
    ("Successful tests: ".toList ++ Spec.decimal s.successes.toNat ++ "\n".toList)
      ++ ("Failed tests: ".toList ++ Spec.decimal s.failed.length ++ "\n".toList)
      ++ "\n".toList ++ s.failed.flatMap failLine = l.totals := by
  have hn : "\n\n".toList = "\n".toList ++ "\n".toList := rfl
  have hf : s.failed.flatMap failLine = l.bad.flatMap fun t => "Test #".toList
      ++ decimal (t.1 % 65536) ++ " - '".toList ++ t.2.1 ++ "' failed on stage ".toList
      ++ decimal (t.2.2 % 65536) ++ "\n".toList := by
    rw [h.failed, List.flatMap_map]
    congr 1
  unfold Ledger.totals
  rw [hf, hn, h.successes, h.failed, List.length_map, BitVec.toNat_ofNat]
  generalize l.bad.flatMap _ = rest
  generalize "Successful tests: ".toList = a1
  generalize "Failed tests: ".toList = a2
  generalize "\n".toList = a3
  simp only [List.append_assoc]

end TestModule

/-- **C61** in full, for all test functions, in any run of a module with fewer than 2^31 tests.  What
is printed and returned is what the ledger of the module says, which is never started afresh: each run
returns the number of all failures since the module was made, and goes on counting the tests.  Numbers
are counted modulo 65536.  A run comes to its end unless an exception leaves a test function, which
terminates the program, or a number has more digits than that of the tests, when memory in front of a
string is written to. -/
theorem C61_exact (tests : List TestBody) (s : TestModule) (l : Ledger) (q : List Message)
    (h : s.Keeps l q) (ht : s.total < 2 ^ 31) :
    match course s.total l (allDeeds q tests) with
    | .ends l' text => ∃ s' q', runTests tests s = (.ok l'.bad.length, s') ∧ s'.Keeps l' q'
        ∧ (tests ≠ [] → q' = []) ∧ s'.total = s.total ∧ s'.out = s.out ++ text ++ l'.totals
    | .raises => (runTests tests s).1 = .terminate
    | .tooWide => (runTests tests s).1 = .ub := by
  have hl := runLoop_course tests s l q h ht
  have hne : ∀ {o : Outcome (List Unit)}, (M.runList runTest tests s).1 = o →
      (o = .ub → (runTests tests s).1 = .ub)
      ∧ (o = .throw .outOfRange → (runTests tests s).1 = .terminate) := by
    intro o ho
    rw [runTests, M.noexcept_apply, M.bind_apply]
    change _ ∧ _
    generalize hx : M.runList runTest tests s = x at ho
    obtain ⟨o', s'⟩ := x
    simp only at ho
    subst ho
    have hx' : M.runList (fun t => do
        let ok ← runBody t
        endTest ok) tests s = (o', s') := hx
    rw [hx']
    exact ⟨by rintro rfl; rfl, by rintro rfl; rfl⟩
  cases hc : course s.total l (allDeeds q tests) with
  | raises =>
    simp only [hc] at hl
    exact (hne hl).2 rfl
  | tooWide =>
    simp only [hc] at hl
    exact (hne hl).1 rfl
  | ends l' text =>
    simp only [hc] at hl
    obtain ⟨s1, q1, us, e1, k1, hq1, tot1, o1⟩ := hl
    obtain ⟨vs, e2⟩ := reportLoop_eq s1.failed { s1 with
      out := s1.out ++ ("Successful tests: ".toList ++ Spec.decimal s1.successes.toNat ++ "\n".toList)
        ++ ("Failed tests: ".toList ++ Spec.decimal s1.failed.length ++ "\n".toList)
        ++ "\n".toList }
    have e : runTests tests s = (.ok s1.failed.length, { s1 with
        out := s1.out
          ++ ("Successful tests: ".toList ++ Spec.decimal s1.successes.toNat ++ "\n".toList)
          ++ ("Failed tests: ".toList ++ Spec.decimal s1.failed.length ++ "\n".toList)
          ++ "\n".toList ++ s1.failed.flatMap failLine }) := by
      have : ∀ {x : M TestModule Nat} {a s s'}, x s = (.ok a, s') → M.noexcept x s = (.ok a, s') := by
        intro x a s s' h
        rw [M.noexcept_apply, h]
        rfl
      apply this
      refine (M.bind_ok e1).trans ?_
      rw [M.bind_ok (M.get_apply _), M.bind_ok (print_eq _ _), M.bind_ok (print_eq _ _),
        M.bind_ok (print_eq _ _), M.bind_ok e2]
      rfl
    have hlen : s1.failed.length = l'.bad.length := by rw [k1.failed, List.length_map]
    obtain ⟨s2, e, k2, tot2, o2⟩ : ∃ s2 : TestModule, runTests tests s = (.ok s1.failed.length, s2)
        ∧ s2.Keeps l' q1 ∧ s2.total = s.total ∧ s2.out = s1.out
          ++ ("Successful tests: ".toList ++ Spec.decimal s1.successes.toNat ++ "\n".toList)
          ++ ("Failed tests: ".toList ++ Spec.decimal s1.failed.length ++ "\n".toList)
          ++ "\n".toList ++ s1.failed.flatMap failLine :=
      ⟨_, e, ⟨k1.index, k1.name, k1.stage, k1.successes, k1.failed, k1.queue⟩, tot1, rfl⟩
    refine ⟨s2, q1, by rw [e, hlen], k2, hq1, tot2, ?_⟩
    rw [o2]
    rw [← totals_eq k1, ← o1]
    generalize s1.failed.flatMap failLine = x1
    generalize "Successful tests: ".toList ++ Spec.decimal s1.successes.toNat ++ "\n".toList = x2
    generalize "Failed tests: ".toList ++ Spec.decimal s1.failed.length ++ "\n".toList = x3
    simp only [List.append_assoc]

/-- The second run of a module with one test, which fails, returns 2; the tenth is undefined
behaviour. -/
example :
    (M.runList (fun _ : Unit => runTests [testOf ("a".toList, .done false)]) [(), ()] (make 1)).1
      = .ok [1, 2]
    ∧ (M.runList (fun _ : Unit => runTests [testOf ("a".toList, .done false)])
        (List.replicate 10 ()) (make 1)).1 = .ub
    ∧ course 1 ⟨9, "a".toList, 0, 0, []⟩ (allDeeds [] [testOf ("a".toList, .done false)]) = .tooWide
    ∧ (runTests [.raise] (make 1)).1 = .terminate := by
  refine ⟨by decide +kernel, by decide +kernel, ?_, by decide +kernel⟩
  rfl

end Cmp
