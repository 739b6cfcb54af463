import Verif.Spec.Dummy
import Verif.Model.Dummy
import Verif.Props.TestModule
import Mathlib.Data.List.GetD
import Mathlib.Tactic.ByContra

/-
Property C104: the objects by which tests see which special member functions are called.
-/

namespace Cmp

open Cmp.Spec (DummyOp MessageOp MessageObs made valueOf Proper valuesRead living messagesIn
  messageResults)
open TestModule

namespace Bench

/-- Run an operation: what is seen of the messages, and the value that is read. -/
def step : DummyOp → M Bench (List MessageObs × Option Int)
  | .construct v => do
    construct v
    pure ([.done], none)
  | .copy i => do
    copy i
    pure ([.done], none)
  | .move i => do
    move i
    pure ([.done], none)
  | .destroy i => do
    destroy i
    pure ([.done], none)
  | .get i => do
    let v ← getValue i
    pure ([], some v)
  | .set i v => do
    setValue i v
    pure ([], none)
  | .queue op => do
    let m ← onOwner (messageStep op)
    pure ([m], none)

/-- The objects are as the past says. -/
def Agrees (past : List DummyOp) (dummies : List (Option Int)) : Prop :=
  dummies.length = made past ∧ ∀ i, dummies.getD i none = valueOf past i

theorem withDummy_ok {α : Type} {i : Nat} {x : Int → M Bench α} {s : Bench} {v : Int}
    (h : s.dummies.getD i none = some v) : withDummy i x s = x v s := by
  have : s.dummies[i]? = some (some v) := by
    rw [List.getD_eq_getElem?_getD] at h
    cases e : s.dummies[i]? with
    | none => rw [e] at h; simp at h
    | some o => rw [e] at h; simp at h; rw [h]
  simp only [withDummy, this]

theorem getD_append (l : List (Option Int)) (x : Option Int) (i : Nat) :
    (l ++ [x]).getD i none = if i = l.length then x else l.getD i none := by
  rcases Nat.lt_trichotomy i l.length with h | rfl | h
  · rw [if_neg (by omega), List.getD_append _ _ _ _ h]
  · rw [if_pos rfl, List.getD_append_right _ _ _ _ (Nat.le_refl _)]
    simp
  · rw [if_neg (by omega), List.getD_eq_default _ _ (by simp; omega), List.getD_eq_default _ _ (by omega)]

theorem getD_set (l : List (Option Int)) (x : Option Int) {j : Nat} (hj : j < l.length) (i : Nat) :
    (l.set j x).getD i none = if i = j then x else l.getD i none := by
  rw [List.getD_eq_getElem?_getD, List.getElem?_set, List.getD_eq_getElem?_getD]
  by_cases h : i = j
  · subst h; simp [hj]
  · rw [if_neg (Ne.symm h), if_neg h]

theorem lt_of_getD {l : List (Option Int)} {i : Nat} {v : Int} (h : l.getD i none = some v) :
    i < l.length := by
  by_contra hn
  rw [List.getD_eq_default _ _ (by omega)] at h
  cases h

/-- What an operation does to the objects, to the messages, and what is read. -/
theorem step_eq {past : List DummyOp} {s : Bench} (h : Agrees past s.dummies) (op : DummyOp)
    (hp : ∀ i, op.uses = some i → valueOf past i ≠ none) {seen : List MessageObs} {t : TestModule}
    (hm : M.runList messageStep op.messages s.owner = (.ok seen, t)) :
    ∃ d v, step op s = (.ok (seen, v), ⟨t, d⟩) ∧ Agrees (op :: past) d ∧
      (v.map some).toList = valuesRead past [op] := by
  have alive : ∀ i, op.uses = some i → ∃ v, s.dummies.getD i none = some v ∧ valueOf past i = some v := by
    intro i hi
    cases e : valueOf past i with
    | none => exact absurd e (hp i hi)
    | some v => exact ⟨v, by rw [h.2, e], rfl⟩
  have push : ∀ m : Message, M.runList messageStep [.push m] s.owner = (.ok seen, t) →
      seen = [.done] ∧ t = { s.owner with queue := s.owner.queue ++ [m.code] } := by
    intro m e
    have e' : ((.ok [.done], { s.owner with queue := s.owner.queue ++ [m.code] }) :
        Outcome (List MessageObs) × TestModule) = (.ok seen, t) := e
    simp only [Prod.mk.injEq, Outcome.ok.injEq] at e'
    exact ⟨e'.1.symm, e'.2.symm⟩
  have none' : M.runList messageStep [] s.owner = (.ok seen, t) → seen = [] ∧ t = s.owner := by
    intro e
    rw [M.runList_nil, Prod.mk.injEq, Outcome.ok.injEq] at e
    exact ⟨e.1.symm, e.2.symm⟩
  have grown : ∀ (v : Int), (s.dummies ++ [some v]).length = made past + 1 := by
    intro v
    rw [List.length_append, h.1]
    rfl
  cases op with
  | construct v =>
    obtain ⟨rfl, rfl⟩ := push _ hm
    refine ⟨s.dummies ++ [some v], none, rfl, ⟨grown v, fun i => ?_⟩, rfl⟩
    rw [getD_append, valueOf, h.1, h.2]
  | copy j =>
    obtain ⟨rfl, rfl⟩ := push _ hm
    obtain ⟨v, hv, hv'⟩ := alive j rfl
    refine ⟨s.dummies ++ [some v], none, M.bind_ok (withDummy_ok hv), ⟨grown v, fun i => ?_⟩, rfl⟩
    rw [getD_append, valueOf, h.1, h.2, hv']
  | move j =>
    obtain ⟨rfl, rfl⟩ := push _ hm
    obtain ⟨v, hv, hv'⟩ := alive j rfl
    have hj := lt_of_getD hv
    refine ⟨(s.dummies ++ [some v]).set j (some 0), none, ?_, ⟨?_, fun i => ?_⟩, rfl⟩
    · have : move j s = (.ok (), ⟨{ s.owner with queue := s.owner.queue ++
          [Message.moveConstructorCalled.code] }, (s.dummies ++ [some v]).set j (some 0)⟩) := by
        rw [move, M.noexcept_apply, withDummy_ok hv]
        rfl
      exact M.bind_ok this
    · rw [List.length_set]
      exact grown v
    · rw [getD_set _ _ (by rw [List.length_append]; omega), getD_append, valueOf, ← h.1, h.2, hv']
      by_cases h1 : i = j
      · rw [if_pos h1, if_pos h1, if_neg (by omega)]
      · rw [if_neg h1, if_neg h1]
  | destroy j =>
    obtain ⟨rfl, rfl⟩ := push _ hm
    obtain ⟨v, hv, hv'⟩ := alive j rfl
    have hj := lt_of_getD hv
    refine ⟨s.dummies.set j none, none, M.bind_ok (withDummy_ok hv), ⟨?_, fun i => ?_⟩, rfl⟩
    · rw [List.length_set]
      exact h.1
    · rw [getD_set _ _ hj, valueOf, h.2]
  | get j =>
    obtain ⟨rfl, rfl⟩ := none' hm
    obtain ⟨v, hv, hv'⟩ := alive j rfl
    refine ⟨s.dummies, some v, M.bind_ok (withDummy_ok hv), ⟨h.1, h.2⟩, ?_⟩
    simp [valuesRead, hv']
  | set j x =>
    obtain ⟨rfl, rfl⟩ := none' hm
    obtain ⟨v, hv, hv'⟩ := alive j rfl
    have hj := lt_of_getD hv
    refine ⟨s.dummies.set j (some x), none, M.bind_ok (withDummy_ok hv), ⟨?_, fun i => ?_⟩, rfl⟩
    · rw [List.length_set]
      exact h.1
    · rw [getD_set _ _ hj, valueOf, h.2]
  | queue op =>
    simp only [DummyOp.messages, M.runList] at hm
    rw [M.bind_apply] at hm
    refine ⟨s.dummies, none, ?_, ⟨h.1, h.2⟩, rfl⟩
    cases e : messageStep op s.owner with
    | mk o t' =>
      rw [e] at hm
      cases o with
      | ok a =>
        have hm' : ((.ok [a], t') : Outcome (List MessageObs) × TestModule) = (.ok seen, t) := hm
        simp only [Prod.mk.injEq, Outcome.ok.injEq] at hm'
        obtain ⟨rfl, rfl⟩ := hm'
        have : onOwner (messageStep op) s = (.ok a, { s with owner := t' }) := by
          simp only [onOwner, e]
        exact M.bind_ok this
      | throw => simp at hm
      | terminate => simp at hm
      | ub => simp at hm
      | hang => simp at hm

theorem split_cons {α ι σ : Type} {f : ι → M σ α} {is js : List ι} {s t : σ} {r : List α}
    (h : M.runList f (is ++ js) s = (.ok r, t)) :
    ∃ r1 s1 r2, M.runList f is s = (.ok r1, s1) ∧ M.runList f js s1 = (.ok r2, t) ∧ r = r1 ++ r2 := by
  induction is generalizing s r with
  | nil => exact ⟨[], s, r, rfl, h, rfl⟩
  | cons i is ih =>
    simp only [List.cons_append, M.runList] at h
    rw [M.bind_apply] at h
    cases e : f i s with
    | mk o s' =>
      rw [e] at h
      cases o with
      | ok a =>
        simp only at h
        rw [M.bind_apply] at h
        cases e' : M.runList f (is ++ js) s' with
        | mk o' t' =>
          rw [e'] at h
          cases o' with
          | ok as =>
            simp only [M.pure_apply, Prod.mk.injEq, Outcome.ok.injEq] at h
            obtain ⟨rfl, rfl⟩ := h
            obtain ⟨r1, s1, r2, h1, h2, rfl⟩ := ih e'
            exact ⟨a :: r1, s1, r2, M.runList_cons e h1, h2, rfl⟩
          | throw => simp at h
          | terminate => simp at h
          | ub => simp at h
          | hang => simp at h
      | throw => simp at h
      | terminate => simp at h
      | ub => simp at h
      | hang => simp at h

theorem valuesRead_cons (past : List DummyOp) (op : DummyOp) (ops : List DummyOp) :
    valuesRead past (op :: ops) = valuesRead past [op] ++ valuesRead (op :: past) ops := by
  cases op <;> rfl

theorem run_eq (ops : List DummyOp) : ∀ (past : List DummyOp) (s : Bench) (seen : List MessageObs)
    (t : TestModule), Agrees past s.dummies → Proper past ops →
    M.runList messageStep (ops.flatMap DummyOp.messages) s.owner = (.ok seen, t) →
    ∃ as d, M.runList step ops s = (.ok as, ⟨t, d⟩) ∧ as.flatMap Prod.fst = seen ∧
      (as.filterMap Prod.snd).map some = valuesRead past ops ∧ Agrees (ops.reverse ++ past) d := by
  induction ops with
  | nil =>
    intro past s seen t h _ hm
    rw [List.flatMap_nil, M.runList_nil, Prod.mk.injEq, Outcome.ok.injEq] at hm
    obtain ⟨rfl, rfl⟩ := hm
    exact ⟨[], s.dummies, rfl, rfl, rfl, h⟩
  | cons op ops ih =>
    intro past s seen t h hp hm
    rw [List.flatMap_cons] at hm
    obtain ⟨r1, s1, r2, h1, h2, rfl⟩ := split_cons hm
    obtain ⟨d, v, e, ha, hv⟩ := step_eq h op hp.1 h1
    obtain ⟨as, d', e', q1, q2, q3⟩ := ih (op :: past) ⟨s1, d⟩ r2 t ha hp.2 h2
    refine ⟨(r1, v) :: as, d', M.runList_cons e e', ?_, ?_, by simpa using q3⟩
    · rw [List.flatMap_cons, q1]
    · rw [valuesRead_cons, ← q2, ← hv]
      cases v <;> simp

/-- **C104**: whatever a test does with its objects and its messages, as long as it uses only objects
that are there: the messages it takes are those of the special member functions that were called, in
order; and the values it reads are those the objects were given, also by copying and moving. -/
theorem C104_observed (owner : TestModule) (hq : owner.queue = []) (ops : List DummyOp)
    (hp : Proper [] ops) :
    ∃ as s, M.runList step ops ⟨owner, []⟩ = (.ok as, s) ∧
      as.flatMap Prod.fst = messageResults [] 0 (ops.flatMap DummyOp.messages) ∧
      (as.filterMap Prod.snd).map some = valuesRead [] ops := by
  obtain ⟨t, e⟩ := messages_run (ops.flatMap DummyOp.messages) [] 0 owner (by simp) hq
  obtain ⟨as, d, h1, h2, h3, -⟩ := run_eq ops [] ⟨owner, []⟩ _ t ⟨rfl, fun i => by simp [valueOf]⟩ hp e
  exact ⟨as, _, h1, h2, h3⟩

/-! The balance of the messages -/

/-- Objects that begin with an operation. -/
def begun : DummyOp → Nat
  | .construct _ | .copy _ | .move _ => 1
  | _ => 0

/-- Objects that end with an operation. -/
def ended : DummyOp → Nat
  | .destroy _ => 1
  | _ => 0

theorem countP_put {l : List (Option Int)} {j : Nat} {v : Int} (h : l.getD j none = some v)
    (x : Option Int) : (l.set j x).countP (·.isSome) + 1 =
      l.countP (·.isSome) + if x.isSome then 1 else 0 := by
  have hj := lt_of_getD h
  have hv : l[j] = some v := by
    rw [List.getD_eq_getElem?_getD, List.getElem?_eq_getElem hj] at h
    simpa using h
  have hpos : 0 < l.countP (·.isSome) := List.countP_pos_iff.mpr ⟨l[j], List.getElem_mem hj, by rw [hv]; rfl⟩
  rw [List.countP_set hj, hv]
  simp only [Option.isSome_some, if_true]
  omega

theorem living_eq {past : List DummyOp} {d : List (Option Int)} (h : Agrees past d) :
    living past = d.countP (·.isSome) := by
  have : d = (List.range d.length).map (fun i => valueOf past i) := by
    apply List.ext_getElem?
    intro i
    by_cases hi : i < d.length
    · have := h.2 i
      rw [List.getD_eq_getElem?_getD, List.getElem?_eq_getElem hi] at this
      rw [List.getElem?_eq_getElem hi, List.getElem?_map, List.getElem?_range hi]
      simpa using this
    · rw [List.getElem?_eq_none (by omega), List.getElem?_eq_none (by simp; omega)]
  conv => rhs; rw [this]
  rw [living, ← h.1, List.countP_map, List.countP_eq_length_filter]
  rfl

/-- One operation. -/
theorem living_step {past : List DummyOp} {d : List (Option Int)} (h : Agrees past d) (op : DummyOp)
    (hp : ∀ i, op.uses = some i → valueOf past i ≠ none) :
    living (op :: past) + ended op = living past + begun op := by
  obtain ⟨t, e⟩ := messages_run op.messages [] 0 (TestModule.make 0) (by simp) rfl
  have alive : ∀ i, op.uses = some i → ∃ v, d.getD i none = some v := by
    intro i hi
    cases e : valueOf past i with
    | none => exact absurd e (hp i hi)
    | some v => exact ⟨v, by rw [h.2, e]⟩
  obtain ⟨d', v, hs, ha, -⟩ := step_eq (s := ⟨TestModule.make 0, d⟩) h op hp e
  rw [living_eq h, living_eq ha]
  have hd : (step op ⟨TestModule.make 0, d⟩).2.dummies = d' := by rw [hs]
  cases op with
  | construct v =>
    have : d' = d ++ [some v] := hd.symm
    rw [this]
    simp [begun, ended]
  | copy j =>
    obtain ⟨v, hv⟩ := alive j rfl
    have : d' = d ++ [some v] := by
      rw [← hd]
      show (step (.copy j) ⟨TestModule.make 0, d⟩).2.dummies = _
      rw [step, copy, M.bind_apply, withDummy_ok hv]
      rfl
    rw [this]
    simp [begun, ended]
  | move j =>
    obtain ⟨v, hv⟩ := alive j rfl
    have : d' = (d ++ [some v]).set j (some 0) := by
      rw [← hd, step, move, M.bind_apply, M.noexcept_apply, withDummy_ok hv]
      rfl
    have h2 : (d ++ [some v]).getD j none = some v := by
      rw [getD_append, if_neg (by have := lt_of_getD hv; omega), hv]
    have := countP_put h2 (some 0)
    simp_all [begun, ended]
  | destroy j =>
    obtain ⟨v, hv⟩ := alive j rfl
    have : d' = d.set j none := by
      rw [← hd, step, destroy, M.bind_apply, withDummy_ok hv]
      rfl
    have := countP_put hv none
    simp_all [begun, ended]
  | get j =>
    obtain ⟨v, hv⟩ := alive j rfl
    have : d' = d := by
      rw [← hd, step, getValue, M.bind_apply, withDummy_ok hv]
      rfl
    rw [this]
    rfl
  | set j x =>
    obtain ⟨v, hv⟩ := alive j rfl
    have : d' = d.set j (some x) := by
      rw [← hd, step, setValue, M.bind_apply, withDummy_ok hv]
      rfl
    have := countP_put hv (some x)
    simp_all [begun, ended]
  | queue op =>
    have : d' = d := by
      rw [← hd, step, M.bind_apply]
      cases e : onOwner (messageStep op) ⟨TestModule.make 0, d⟩ with
      | mk o s =>
        have hs : s.dummies = d := by
          have := congrArg (fun x => x.2.dummies) e
          exact this.symm
        cases o <;> exact hs
    rw [this]
    rfl

/-- The messages of operations that do not touch the queue themselves. -/
def sent : DummyOp → List Message
  | .construct _ => [.constructorCalled]
  | .copy _ => [.copyConstructorCalled]
  | .move _ => [.moveConstructorCalled]
  | .destroy _ => [.destructorCalled]
  | _ => []

theorem messages_sent (op : DummyOp) (h : ∀ q, op ≠ .queue q) :
    op.messages = (sent op).map MessageOp.push := by
  cases op with
  | queue q => exact absurd rfl (h q)
  | _ => rfl

theorem allMessages_sent (ops : List DummyOp) (h : ∀ q, DummyOp.queue q ∉ ops) :
    ops.flatMap DummyOp.messages = (ops.flatMap sent).map MessageOp.push := by
  induction ops with
  | nil => rfl
  | cons op ops ih =>
    rw [List.flatMap_cons, List.flatMap_cons, List.map_append, ih fun q hq => h q (by simp [hq]),
      messages_sent op fun q e => h q (by simp [e])]

theorem messagesIn_append (a b : List MessageObs) : messagesIn (a ++ b) = messagesIn a ++ messagesIn b := by
  induction a with
  | nil => rfl
  | cons x a ih => cases x <;> simp [messagesIn, ih]

theorem messageResults_pushes (ms : List Message) (rest : List MessageOp) : ∀ (pushed : List Message)
    (taken : Nat), messagesIn (messageResults pushed taken (ms.map MessageOp.push ++ rest)) =
      messagesIn (messageResults (pushed ++ ms) taken rest) := by
  induction ms with
  | nil => intro pushed taken; simp
  | cons m ms ih =>
    intro pushed taken
    simp only [List.map_cons, List.cons_append, messageResults, messagesIn]
    rw [ih, List.append_assoc, List.singleton_append]

theorem messageResults_pops (n : Nat) : ∀ (pushed : List Message) (taken : Nat),
    taken + n = pushed.length →
    messagesIn (messageResults pushed taken (List.replicate n .pop)) = pushed.drop taken := by
  induction n with
  | zero =>
    intro pushed taken h
    rw [List.drop_eq_nil_of_le (by omega)]
    rfl
  | succ n ih =>
    intro pushed taken h
    have hlt : taken < pushed.length := by omega
    rw [List.replicate_succ, messageResults, List.getElem?_eq_getElem hlt]
    simp only [messagesIn]
    rw [ih pushed (taken + 1) (by omega), List.drop_eq_getElem_cons hlt]

theorem balance (ops : List DummyOp) : ∀ (past : List DummyOp) (d : List (Option Int)), Agrees past d →
    Proper past ops →
    (ops.flatMap sent).count .constructorCalled + (ops.flatMap sent).count .copyConstructorCalled +
      (ops.flatMap sent).count .moveConstructorCalled + living past =
    (ops.flatMap sent).count .destructorCalled + living (ops.reverse ++ past) := by
  induction ops with
  | nil => intro past d _ _; simp
  | cons op ops ih =>
    intro past d h hp
    have h1 := living_step h op hp.1
    obtain ⟨t, e⟩ := messages_run op.messages [] 0 (TestModule.make 0) (by simp) rfl
    obtain ⟨d', v, -, ha, -⟩ := step_eq (s := ⟨TestModule.make 0, d⟩) h op hp.1 e
    have h2 := ih (op :: past) d' ha hp.2
    have h3 : (sent op).count .constructorCalled + (sent op).count .copyConstructorCalled +
        (sent op).count .moveConstructorCalled = begun op ∧
        (sent op).count .destructorCalled = ended op := by cases op <;> exact ⟨rfl, rfl⟩
    rw [List.flatMap_cons]
    simp only [List.count_append, List.reverse_cons, List.append_assoc, List.singleton_append]
    omega

theorem proper_pops (n : Nat) : ∀ past : List DummyOp, Proper past (List.replicate n (.queue .pop)) := by
  induction n with
  | zero => intro past; trivial
  | succ n ih => intro past; exact ⟨(fun i h => by cases h), ih _⟩

theorem proper_append (a b : List DummyOp) : ∀ past : List DummyOp, Proper past a →
    Proper (a.reverse ++ past) b → Proper past (a ++ b) := by
  induction a with
  | nil => intro past _ h; simpa using h
  | cons op a ih =>
    intro past h1 h2
    refine ⟨h1.1, ih _ h1.2 ?_⟩
    simpa using h2

/-- **C104**: a test that makes and destroys objects and then takes all the messages finds as many
objects begun as ended, but for those that are still there; so it notices every object that is not
destroyed. -/
theorem C104_balance (owner : TestModule) (hq : owner.queue = []) (ops : List DummyOp)
    (hp : Proper [] ops) (hno : ∀ q, DummyOp.queue q ∉ ops) :
    ∃ as s, M.runList step (ops ++ List.replicate (ops.flatMap DummyOp.messages).length (.queue .pop))
        ⟨owner, []⟩ = (.ok as, s) ∧
      (messagesIn (as.flatMap Prod.fst)).count .constructorCalled +
        (messagesIn (as.flatMap Prod.fst)).count .copyConstructorCalled +
        (messagesIn (as.flatMap Prod.fst)).count .moveConstructorCalled =
      (messagesIn (as.flatMap Prod.fst)).count .destructorCalled + living ops.reverse := by
  obtain ⟨as, s, h1, h2, -⟩ := C104_observed owner hq _
    (proper_append ops (List.replicate (ops.flatMap DummyOp.messages).length (.queue .pop)) [] hp
      (proper_pops _ _))
  refine ⟨as, s, h1, ?_⟩
  have hpops : ∀ n, (List.replicate n (DummyOp.queue .pop)).flatMap DummyOp.messages =
      List.replicate n MessageOp.pop := by
    intro n
    induction n with
    | zero => rfl
    | succ n ih => rw [List.replicate_succ, List.flatMap_cons, ih, List.replicate_succ]; rfl
  have hm : messagesIn (as.flatMap Prod.fst) = ops.flatMap sent := by
    rw [h2, List.flatMap_append, hpops, allMessages_sent ops hno, messageResults_pushes,
      messageResults_pops _ _ 0 (by simp)]
    simp
  rw [hm]
  have := balance ops [] [] ⟨rfl, fun i => by simp [valueOf]⟩ hp
  simpa [living, made] using this

/-- An object is made, copied, moved from and destroyed; the copy gets a new value. -/
def dummyExample : List DummyOp :=
  [.construct 5, .copy 0, .set 1 7, .move 0, .get 0, .get 1, .get 2, .destroy 0, .destroy 2]

example : Proper [] dummyExample ∧ (∀ q, DummyOp.queue q ∉ dummyExample) ∧
    valuesRead [] dummyExample = [some 0, some 7, some 5] ∧ living dummyExample.reverse = 1 := by
  refine ⟨?_, ?_, by decide, by decide⟩
  · simp [Proper, dummyExample, DummyOp.uses, valueOf, made]
  · simp [dummyExample]

end Bench

end Cmp
