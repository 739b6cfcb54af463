import Verif.Spec.Shared
import Verif.Props.FileLife

/-
Property C103: streams of different kinds and settings that share a resource.
-/

namespace Cmp

open Cmp.Spec (StreamStep StreamItem itemsOf itemBytes)
open InStream OutStream

namespace Shared

variable {ρ : Type}

/-- A step of a program that writes. -/
def writeStep (native : Endian) (W : Writer ρ) : StreamStep → M (Shared ρ) Unit
  | .construct e f => construct e f
  | .copy i => copy i
  | .setEndian i e => setEndian i e
  | .setForm i f => setForm i f
  | .value i object => output i (writeValue native W object)
  | .codePoint i c => output i (writeCodePoint native W (BitVec.ofNat 32 c))
  | .flush i => output i (OutStream.flush W)
  | .destroy i => destroyOutput W i

/-- The same step of a program that reads what the other has written. -/
def readStep (native : Endian) (R : Reader ρ) : StreamStep → M (Shared ρ) (Option StreamItem)
  | .construct e f => do
    construct e f
    pure none
  | .copy i => do
    copy i
    pure none
  | .setEndian i e => do
    setEndian i e
    pure none
  | .setForm i f => do
    setForm i f
    pure none
  | .value i object => do
    let b ← input i (readValue native R object.length)
    pure (some (.value b))
  | .codePoint i _ => do
    let c ← input i (readFiltered native R)
    pure (some (.codePoint c.toNat))
  | .flush _ => pure none
  | .destroy i => do
    destroyInput i
    pure none

theorem withStream_ok {α : Type} {i : Nat} {x : Settings → M (Shared ρ) α} {s : Shared ρ} {t : Settings}
    (h : s.streams.getD i none = some t) : withStream i x s = x t s := by
  have : s.streams[i]? = some (some t) := by
    rw [List.getD_eq_getElem?_getD] at h
    cases e : s.streams[i]? with
    | none => rw [e] at h; simp at h
    | some o => rw [e] at h; simp at h; rw [h]
  simp only [withStream, this]

theorem set_self {α : Type} {l : List (Option α)} {i : Nat} {t : α} (h : l.getD i none = some t) :
    l.set i (some t) = l := by
  apply List.ext_getElem?
  intro j
  rw [List.getElem?_set]
  by_cases hj : i = j
  · subst hj
    rw [List.getD_eq_getElem?_getD] at h
    cases e : l[i]? with
    | none => rw [e] at h; simp at h
    | some o =>
      have hlt : i < l.length := by
        rw [List.getElem?_eq_some_iff] at e
        exact e.1
      rw [e] at h
      simp at h
      simp [hlt, h]
  · simp [hj]

theorem output_ok {α : Type} {i : Nat} {x : M (OutStream ρ) α} {s : Shared ρ} {t : Settings} {a : α} {r' : ρ}
    (h : s.streams.getD i none = some t)
    (e : x ⟨s.res, t.endian, t.form⟩ = (.ok a, ⟨r', t.endian, t.form⟩)) :
    output i x s = (.ok a, ⟨r', s.streams⟩) := by
  refine (withStream_ok h).trans ?_
  simp only [e]
  rw [set_self h]

theorem input_ok {α : Type} {i : Nat} {x : M (InStream ρ) α} {s : Shared ρ} {t : Settings} {a : α} {r' : ρ}
    (h : s.streams.getD i none = some t)
    (e : x ⟨s.res, t.endian, t.form⟩ = (.ok a, ⟨r', t.endian, t.form⟩)) :
    input i x s = (.ok a, ⟨r', s.streams⟩) := by
  refine (withStream_ok h).trans ?_
  simp only [e]
  rw [set_self h]

/-- Items that can be written. -/
def Writable : Settings × StreamItem → Prop
  | (_, .value object) => object ≠ []
  | (t, .codePoint c) => Spec.IsScalar c ∧ (t.form = .utf8 → ¬ LowSurrogate c)

/-- Items that survive reading: values in the host's byte order or of one byte, and code points
other than the carriage return. -/
def Readable (native : Endian) : Settings × StreamItem → Prop
  | (t, .value object) => t.endian = native ∨ object.length = 1
  | (_, .codePoint c) => c ≠ 13

theorem Readable.not_cr {native : Endian} {x : Settings × StreamItem} (h : Readable native x) :
    x.2 ≠ .codePoint 13 := by
  obtain ⟨t, o | c⟩ := x
  · simp
  · intro h'
    simp only [StreamItem.codePoint.injEq] at h'
    exact h h'

/-- What is read of an item: values come in the order of the bytes on the resource. -/
def itemBack (native : Endian) : Settings × StreamItem → StreamItem
  | (t, .value object) => .value (if t.endian = native then object else object.reverse)
  | (_, .codePoint c) => .codePoint c

theorem itemBack_readable {native : Endian} {x : Settings × StreamItem} (h : Readable native x) :
    itemBack native x = x.2 := by
  obtain ⟨t, o | c⟩ := x
  · rcases h with h | h
    · simp only [itemBack, if_pos h]
    · match o, h with
      | [b], _ => simp [itemBack]
  · rfl

/-- Items that are read from the resource in portions of such sizes. -/
def InReach (sizes : Nat → Prop) : Settings × StreamItem → Prop
  | (_, .value object) => sizes object.length
  | (t, .codePoint _) => sizes t.form.form.unitSize

/-- The last thing that is done is to flush, or to destroy an output stream. -/
def EndsFlushed (steps : List StreamStep) : Prop :=
  ∃ i, steps.getLast? = some (.destroy i) ∨ steps.getLast? = some (.flush i)

theorem EndsFlushed.cons {step : StreamStep} {steps : List StreamStep}
    (h : EndsFlushed (step :: steps)) :
    (steps = [] ∧ ∃ i, step = .destroy i ∨ step = .flush i) ∨ EndsFlushed steps := by
  cases steps with
  | nil =>
    obtain ⟨i, h⟩ := h
    simp only [List.getLast?_singleton, Option.some.injEq] at h
    exact .inl ⟨rfl, i, h⟩
  | cons x xs =>
    obtain ⟨i, h⟩ := h
    rw [List.getLast?_cons_cons] at h
    exact .inr ⟨i, h⟩

/-- Writing through any streams appends the bytes of the items to what the resource was given. -/
theorem write_all {W : Writer ρ} {fits : List Byte → Prop} {got out : List Byte → ρ → Prop}
    (C : W.Collects fits got out) (again : ∀ w r, out w r → got w r) (native : Endian)
    (steps : List StreamStep) : ∀ (s : Shared ρ) (items : List (Settings × StreamItem)) (w : List Byte),
    itemsOf s.streams steps = some items → (∀ x ∈ items, Writable x) →
    fits (w ++ items.flatMap (itemBytes native)) → got w s.res →
    ∃ us s', M.runList (writeStep native W) steps s = (.ok us, s') ∧
      got (w ++ items.flatMap (itemBytes native)) s'.res ∧
      (EndsFlushed steps → out (w ++ items.flatMap (itemBytes native)) s'.res) := by
  induction steps with
  | nil =>
    intro s items w hi _ _ hg
    simp only [itemsOf, Option.some.injEq] at hi
    subst hi
    exact ⟨[], s, rfl, by simpa using hg, fun ⟨i, h⟩ => by simp at h⟩
  | cons step steps ih =>
    intro s items w hi hw hf hg
    cases step with
    | construct e f =>
      obtain ⟨us, s', h1, h2, h3⟩ := ih { s with streams := s.streams ++ [some ⟨e, f⟩] } items w hi hw hf hg
      exact ⟨() :: us, s', M.runList_cons rfl h1, h2, fun h => h3 (h.cons.resolve_left (by simp))⟩
    | copy i =>
      simp only [itemsOf, Option.bind_eq_bind, Option.bind_eq_some_iff] at hi
      obtain ⟨t, ht, hi⟩ := hi
      obtain ⟨us, s', h1, h2, h3⟩ := ih { s with streams := s.streams ++ [some t] } items w hi hw hf hg
      exact ⟨() :: us, s', M.runList_cons (withStream_ok ht) h1, h2, fun h => h3 (h.cons.resolve_left (by simp))⟩
    | setEndian i e =>
      simp only [itemsOf, Option.bind_eq_bind, Option.bind_eq_some_iff] at hi
      obtain ⟨t, ht, hi⟩ := hi
      obtain ⟨us, s', h1, h2, h3⟩ := ih { s with streams := s.streams.set i (some ⟨e, t.form⟩) } items w hi
        hw hf hg
      exact ⟨() :: us, s', M.runList_cons (withStream_ok ht) h1, h2, fun h => h3 (h.cons.resolve_left (by simp))⟩
    | setForm i f =>
      simp only [itemsOf, Option.bind_eq_bind, Option.bind_eq_some_iff] at hi
      obtain ⟨t, ht, hi⟩ := hi
      obtain ⟨us, s', h1, h2, h3⟩ := ih { s with streams := s.streams.set i (some ⟨t.endian, f⟩) } items w hi
        hw hf hg
      exact ⟨() :: us, s', M.runList_cons (withStream_ok ht) h1, h2, fun h => h3 (h.cons.resolve_left (by simp))⟩
    | value i object =>
      simp only [itemsOf, Option.bind_eq_bind, Option.bind_eq_some_iff, Option.pure_def,
        Option.some.injEq] at hi
      obtain ⟨t, ht, items', hi, rfl⟩ := hi
      rw [List.flatMap_cons, ← List.append_assoc] at hf ⊢
      obtain ⟨r1, e1, q1⟩ := writeValue_eq C native ⟨s.res, t.endian, t.form⟩ w object
        (hw (t, .value object) (by simp)) (C.shorter _ _ hf) hg
      obtain ⟨us, s', h1, h2, h3⟩ := ih { s with res := r1 } items' _ hi (fun x hx => hw x (by simp [hx]))
        hf q1
      exact ⟨() :: us, s', M.runList_cons (output_ok ht e1) h1, h2, fun h => h3 (h.cons.resolve_left (by simp))⟩
    | codePoint i c =>
      simp only [itemsOf, Option.bind_eq_bind, Option.bind_eq_some_iff, Option.pure_def,
        Option.some.injEq] at hi
      obtain ⟨t, ht, items', hi, rfl⟩ := hi
      rw [List.flatMap_cons, ← List.append_assoc] at hf ⊢
      have hb : itemBytes native (t, .codePoint c) = cpBytes t.form t.endian c := by
        rw [itemBytes, textBytes_cons, textBytes_nil, List.append_nil]
      rw [hb] at hf ⊢
      obtain ⟨hsc, h8⟩ : Writable (t, .codePoint c) := hw (t, .codePoint c) (by simp)
      obtain ⟨r1, e1, q1⟩ := writeCodePoint_eq C native ⟨s.res, t.endian, t.form⟩ c
        (writeOk_of hsc h8) w (C.shorter _ _ hf) hg
      obtain ⟨us, s', h1, h2, h3⟩ := ih { s with res := r1 } items' _ hi (fun x hx => hw x (by simp [hx]))
        hf q1
      exact ⟨() :: us, s', M.runList_cons (output_ok ht e1) h1, h2, fun h => h3 (h.cons.resolve_left (by simp))⟩
    | flush i =>
      simp only [itemsOf, Option.bind_eq_bind, Option.bind_eq_some_iff] at hi
      obtain ⟨t, ht, hi⟩ := hi
      obtain ⟨r1, e1, q1⟩ := OutStream.flush_eq C ⟨s.res, t.endian, t.form⟩ w hg
      obtain ⟨us, s', h1, h2, h3⟩ := ih { s with res := r1 } items w hi hw hf (again _ _ q1)
      refine ⟨() :: us, s', M.runList_cons (output_ok ht e1) h1, h2, fun h => ?_⟩
      rcases h.cons with ⟨rfl, -⟩ | h
      · simp only [itemsOf, Option.some.injEq] at hi
        subst hi
        rw [M.runList_nil, Prod.mk.injEq] at h1
        rw [← h1.2]
        simpa using q1
      · exact h3 h
    | destroy i =>
      simp only [itemsOf, Option.bind_eq_bind, Option.bind_eq_some_iff] at hi
      obtain ⟨t, ht, hi⟩ := hi
      obtain ⟨r1, e1, q1⟩ := OutStream.flush_eq C ⟨s.res, t.endian, t.form⟩ w hg
      obtain ⟨us, s', h1, h2, h3⟩ := ih ⟨r1, s.streams.set i none⟩ items w hi hw hf (again _ _ q1)
      refine ⟨() :: us, s', M.runList_cons ?_ h1, h2, fun h => ?_⟩
      · show destroyOutput W i s = _
        rw [destroyOutput, M.noexcept_apply, M.bind_ok (output_ok ht e1)]
        rfl
      rcases h.cons with ⟨rfl, -⟩ | h
      · simp only [itemsOf, Option.some.injEq] at hi
        subst hi
        rw [M.runList_nil, Prod.mk.injEq] at h1
        rw [← h1.2]
        simpa using q1
      · exact h3 h

/-- Reading a code point other than the carriage return, whatever comes after it. -/
theorem readFiltered_one {R : Reader ρ} {sizes : Nat → Prop} {tells : Bool}
    {left : List Byte → ρ → Prop} (D : R.Delivers sizes tells left) (native : Endian) (s : InStream ρ)
    (hs : sizes s.form.form.unitSize) (c : Nat) (hc : Spec.IsScalar c) (h13 : c ≠ 13) (rest : List Byte)
    (h : left (cpBytes s.form s.endian c ++ rest) s.res) :
    ∃ r', readFiltered native R s = (.ok (BitVec.ofNat 32 c), { s with res := r' }) ∧
      left rest r' := by
  obtain ⟨r', e, q⟩ := readCodePoint_text D native s hs c hc rest h
  refine ⟨r', ?_, q⟩
  have : BitVec.ofNat 32 c ≠ 13#32 := fun h => h13 ((ofNat32_inj (isScalar_lt hc) (by decide)).mp h)
  rw [readFiltered, M.bind_ok e, if_neg this]
  rfl

/-- Reading through streams that are used in the same way takes the items off again. -/
theorem read_all {R : Reader ρ} {sizes : Nat → Prop} {tells : Bool} {left : List Byte → ρ → Prop}
    (D : R.Delivers sizes tells left) (native : Endian) (steps : List StreamStep) :
    ∀ (s : Shared ρ) (items : List (Settings × StreamItem)) (rest : List Byte),
    itemsOf s.streams steps = some items → (∀ x ∈ items, Writable x) →
    (∀ x ∈ items, x.2 ≠ .codePoint 13) → (∀ x ∈ items, InReach sizes x) →
    left (items.flatMap (itemBytes native) ++ rest) s.res →
    ∃ as s', M.runList (readStep native R) steps s = (.ok as, s') ∧
      as.filterMap id = items.map (itemBack native) ∧ left rest s'.res := by
  induction steps with
  | nil =>
    intro s items rest hi _ _ _ hl
    simp only [itemsOf, Option.some.injEq] at hi
    subst hi
    exact ⟨[], s, rfl, rfl, by simpa using hl⟩
  | cons step steps ih =>
    intro s items rest hi hw hr hf hl
    cases step with
    | construct e f =>
      obtain ⟨us, s', h1, h2, h3⟩ := ih { s with streams := s.streams ++ [some ⟨e, f⟩] } items rest hi
        hw hr hf hl
      exact ⟨none :: us, s', M.runList_cons rfl h1, h2, h3⟩
    | copy i =>
      simp only [itemsOf, Option.bind_eq_bind, Option.bind_eq_some_iff] at hi
      obtain ⟨t, ht, hi⟩ := hi
      obtain ⟨us, s', h1, h2, h3⟩ := ih { s with streams := s.streams ++ [some t] } items rest hi
        hw hr hf hl
      exact ⟨none :: us, s', M.runList_cons (M.bind_ok (withStream_ok ht)) h1, h2, h3⟩
    | setEndian i e =>
      simp only [itemsOf, Option.bind_eq_bind, Option.bind_eq_some_iff] at hi
      obtain ⟨t, ht, hi⟩ := hi
      obtain ⟨us, s', h1, h2, h3⟩ := ih { s with streams := s.streams.set i (some ⟨e, t.form⟩) } items
        rest hi hw hr hf hl
      exact ⟨none :: us, s', M.runList_cons (M.bind_ok (withStream_ok ht)) h1, h2, h3⟩
    | setForm i f =>
      simp only [itemsOf, Option.bind_eq_bind, Option.bind_eq_some_iff] at hi
      obtain ⟨t, ht, hi⟩ := hi
      obtain ⟨us, s', h1, h2, h3⟩ := ih { s with streams := s.streams.set i (some ⟨t.endian, f⟩) } items
        rest hi hw hr hf hl
      exact ⟨none :: us, s', M.runList_cons (M.bind_ok (withStream_ok ht)) h1, h2, h3⟩
    | value i object =>
      simp only [itemsOf, Option.bind_eq_bind, Option.bind_eq_some_iff, Option.pure_def,
        Option.some.injEq] at hi
      obtain ⟨t, ht, items', hi, rfl⟩ := hi
      generalize hob : itemBytes native (t, .value object) = b
      have hlen : b.length = object.length := by
        rw [← hob, itemBytes]
        split <;> simp
      have hne : b ≠ [] := by
        intro h0
        rw [h0] at hlen
        exact hw (t, .value object) (by simp) (List.length_eq_zero_iff.mp hlen.symm)
      rw [List.flatMap_cons, List.append_assoc, hob] at hl
      obtain ⟨r1, e1, q1⟩ := readValue_full D native ⟨s.res, t.endian, t.form⟩ b _ hne
        (by rw [hlen]; exact hf (t, .value object) (by simp)) hl
      rw [hlen] at e1
      obtain ⟨us, s', h1, h2, h3⟩ := ih { s with res := r1 } items' rest hi
        (fun x hx => hw x (by simp [hx])) (fun x hx => hr x (by simp [hx]))
        (fun x hx => hf x (by simp [hx])) q1
      refine ⟨some (.value b) :: us, s', M.runList_cons (M.bind_ok (input_ok ht e1)) h1, ?_, h3⟩
      rw [List.map_cons, show itemBack native (t, .value object) = .value b by rw [← hob]; rfl]
      exact congrArg (_ :: ·) h2
    | codePoint i c =>
      simp only [itemsOf, Option.bind_eq_bind, Option.bind_eq_some_iff, Option.pure_def,
        Option.some.injEq] at hi
      obtain ⟨t, ht, items', hi, rfl⟩ := hi
      have hb : itemBytes native (t, .codePoint c) = cpBytes t.form t.endian c := by
        rw [itemBytes, textBytes_cons, textBytes_nil, List.append_nil]
      rw [List.flatMap_cons, List.append_assoc, hb] at hl
      obtain ⟨hsc, -⟩ : Writable (t, .codePoint c) := hw (t, .codePoint c) (by simp)
      obtain ⟨r1, e1, q1⟩ := readFiltered_one D native ⟨s.res, t.endian, t.form⟩
        (hf (t, .codePoint c) (by simp)) c hsc
        (fun h => hr (t, .codePoint c) (by simp) (by rw [h])) _ hl
      obtain ⟨us, s', h1, h2, h3⟩ := ih { s with res := r1 } items' rest hi
        (fun x hx => hw x (by simp [hx])) (fun x hx => hr x (by simp [hx]))
        (fun x hx => hf x (by simp [hx])) q1
      refine ⟨some (.codePoint c) :: us, s', M.runList_cons (?_ : readStep native R (.codePoint i c) s = _)
        h1, ?_, h3⟩
      · rw [readStep, M.bind_ok (input_ok ht e1), BitVec.toNat_ofNat, Nat.mod_eq_of_lt (isScalar_lt hsc)]
        rfl
      · exact congrArg (_ :: ·) h2
    | flush i =>
      simp only [itemsOf, Option.bind_eq_bind, Option.bind_eq_some_iff] at hi
      obtain ⟨t, ht, hi⟩ := hi
      obtain ⟨us, s', h1, h2, h3⟩ := ih s items rest hi hw hr hf hl
      exact ⟨none :: us, s', M.runList_cons rfl h1, h2, h3⟩
    | destroy i =>
      simp only [itemsOf, Option.bind_eq_bind, Option.bind_eq_some_iff] at hi
      obtain ⟨t, ht, hi⟩ := hi
      obtain ⟨us, s', h1, h2, h3⟩ := ih { s with streams := s.streams.set i none } items rest hi
        hw hr hf hl
      exact ⟨none :: us, s', M.runList_cons (M.bind_ok (withStream_ok ht)) h1, h2, h3⟩

end Shared

/-- Byte containers, where it is also known that more can be written after a flush. -/
theorem Ctr.collects_on (cap : Nat) :
    Ctr.writer.Collects (fun _ => True)
      (fun w r => Res.Writing cap (fun _ => True) (Res.Overwrote (Ctr.Idle 1) [] 0) r w)
      (fun w r => r.dev.content = w ∧
        Res.Writing cap (fun _ => True) (Res.Overwrote (Ctr.Idle 1) [] 0) r w) := by
  have T : Res.Takes Ctr.writeRaw (fun _ => True) (Res.Overwrote (Ctr.Idle 1) [] 0) :=
    ⟨fun d w bytes h _ _ => (Res.takes_overlay (Ctr.store 1) [] 0
      (Nat.le_refl _)).take d w bytes h (.inr ⟨rfl, Nat.one_dvd _⟩) (.inr ⟨rfl, Nat.one_dvd _⟩)⟩
  refine ⟨fun _ _ _ => trivial, (Ctr.collects cap []).write, ?_⟩
  intro w r h
  obtain ⟨d, e, q', q⟩ := Res.flush_writing T h trivial
  refine ⟨_, e, ?_, q'⟩
  have := q.content_eq
  simpa [Res.overlay] using this

open Shared

/-- The claim for containers of bytes: what is written through any number of streams is there in the
order in which it was written, each item in the form its stream had at the time; and a program that
uses streams in the same way to read gets it back. -/
def SharesContainer (native : Endian) (cap cap' : Nat) (steps : List StreamStep)
    (items : List (Settings × StreamItem)) : Prop :=
  ∃ us s, M.runList (writeStep native Ctr.writer) steps ⟨freshCtr cap 1 [], []⟩ = (.ok us, s) ∧
    s.res.dev.content = items.flatMap (itemBytes native) ∧
    ∃ as s', M.runList (readStep native Ctr.reader) steps ⟨freshCtr cap' 1 s.res.dev.content, []⟩ =
      (.ok as, s') ∧ as.filterMap id = items.map Prod.snd

/-- The full claim fails: a value written in the byte order that is not the host's is not read back
(C48), whatever is done with other streams. -/
theorem C103_violated :
    ¬ ∀ native cap cap' steps items, itemsOf [] steps = some items → EndsFlushed steps →
      (∀ x ∈ items, Writable x) → (∀ x ∈ items, x.2 ≠ .codePoint 13) →
      (∀ x ∈ items, InReach (fun n => n ≤ cap' ∨ cap' = 0) x) →
      SharesContainer native cap cap' steps items := by
  intro h
  obtain ⟨us, s, e, hc, as, s', e', q⟩ := h .little 0 0
    [.construct .big .utf8, .value 0 [2, 1], .destroy 0] [(⟨.big, .utf8⟩, .value [2, 1])] (by decide)
    ⟨0, .inl rfl⟩ (by simp [Writable]) (by simp) (by simp [InReach])
  rw [hc] at e'
  have : (M.runList (readStep .little Ctr.reader)
      [.construct .big .utf8, .value 0 [2, 1], .destroy 0] ⟨freshCtr 0 1 [1, 2], []⟩).1
      = .ok [none, some (.value [1, 2]), none] := by decide +kernel
  have e'' : M.runList (readStep .little Ctr.reader)
      [.construct .big .utf8, .value 0 [2, 1], .destroy 0] ⟨freshCtr 0 1 [1, 2], []⟩ = (.ok as, s') := e'
  rw [e''] at this
  simp only [Outcome.ok.injEq] at this
  subst this
  revert q
  decide

/-- C103 for containers.  Missing: values of several bytes in the byte order that is not the host's
(C48), the code points that UTF-8 streams refuse (C50), and the carriage return, which the input
streams treat as half of a line break (C55). -/
theorem C103_partial (native : Endian) (cap cap' : Nat) (steps : List StreamStep)
    (items : List (Settings × StreamItem)) (hi : itemsOf [] steps = some items)
    (hl : EndsFlushed steps) (hw : ∀ x ∈ items, Writable x) (hr : ∀ x ∈ items, Readable native x)
    (hf : ∀ x ∈ items, InReach (fun n => n ≤ cap' ∨ cap' = 0) x) :
    SharesContainer native cap cap' steps items := by
  obtain ⟨us, s, e, -, q⟩ := write_all (Ctr.collects_on cap) (fun _ _ h => h.2) native steps
    ⟨freshCtr cap 1 [], []⟩ items [] hi hw trivial (Ctr.got_fresh cap)
  have hc : s.res.dev.content = items.flatMap (itemBytes native) := (q hl).1
  refine ⟨us, s, e, hc, ?_⟩
  obtain ⟨as, s', e', q', -⟩ := read_all (ctr_delivers cap' s.res.dev.content) native steps
    ⟨freshCtr cap' 1 s.res.dev.content, []⟩ items [] hi hw
    (fun x hx => (hr x hx).not_cr) hf
    (by rw [List.append_nil, ← hc]; exact Ctr.left_fresh cap' 1 _)
  exact ⟨as, s', e', by rw [q']; exact List.map_congr_left fun x hx => itemBack_readable (hr x hx)⟩

/-- C103 for containers in full, but for carriage returns and for the code points UTF-8 streams refuse:
what is written is always right; of the values in the byte order that is not the host's the bytes come
back in reverse, without disturbing anything else.  So what is read is what was written exactly if all
of these read the same in both directions. -/
theorem C103_exact (native : Endian) (cap cap' : Nat) (steps : List StreamStep)
    (items : List (Settings × StreamItem)) (hi : itemsOf [] steps = some items)
    (hl : EndsFlushed steps) (hw : ∀ x ∈ items, Writable x) (hr : ∀ x ∈ items, x.2 ≠ .codePoint 13)
    (hf : ∀ x ∈ items, InReach (fun n => n ≤ cap' ∨ cap' = 0) x) :
    (∃ us s, M.runList (writeStep native Ctr.writer) steps ⟨freshCtr cap 1 [], []⟩ = (.ok us, s) ∧
      s.res.dev.content = items.flatMap (itemBytes native) ∧
      ∃ as s', M.runList (readStep native Ctr.reader) steps ⟨freshCtr cap' 1 s.res.dev.content, []⟩ =
        (.ok as, s') ∧ as.filterMap id = items.map fun x =>
          match x with
          | (t, .value object) => .value (if t.endian = native then object else object.reverse)
          | (_, .codePoint c) => .codePoint c)
    ∧ (SharesContainer native cap cap' steps items ↔
        ∀ t object, (t, .value object) ∈ items → t.endian = native ∨ object.reverse = object) := by
  have key : ∃ us s, M.runList (writeStep native Ctr.writer) steps ⟨freshCtr cap 1 [], []⟩ = (.ok us, s) ∧
      s.res.dev.content = items.flatMap (itemBytes native) ∧
      ∃ as s', M.runList (readStep native Ctr.reader) steps ⟨freshCtr cap' 1 s.res.dev.content, []⟩ =
        (.ok as, s') ∧ as.filterMap id = items.map (itemBack native) := by
    obtain ⟨us, s, e, -, q⟩ := write_all (Ctr.collects_on cap) (fun _ _ h => h.2) native steps
      ⟨freshCtr cap 1 [], []⟩ items [] hi hw trivial (Ctr.got_fresh cap)
    have hc : s.res.dev.content = items.flatMap (itemBytes native) := (q hl).1
    refine ⟨us, s, e, hc, ?_⟩
    obtain ⟨as, s', e', q', -⟩ := read_all (ctr_delivers cap' s.res.dev.content) native steps
      ⟨freshCtr cap' 1 s.res.dev.content, []⟩ items [] hi hw hr hf
      (by rw [List.append_nil, ← hc]; exact Ctr.left_fresh cap' 1 _)
    exact ⟨as, s', e', q'⟩
  have hiff : items.map (itemBack native) = items.map Prod.snd ↔
      ∀ t object, (t, .value object) ∈ items → t.endian = native ∨ object.reverse = object := by
    rw [List.map_inj_left]
    constructor
    · intro h t object hm
      have := h _ hm
      simp only [itemBack, StreamItem.value.injEq] at this
      by_cases he : t.endian = native
      · exact .inl he
      · rw [if_neg he] at this
        exact .inr this
    · rintro h ⟨t, o | c⟩ hm
      · simp only [itemBack, StreamItem.value.injEq]
        rcases h t o hm with he | he
        · rw [if_pos he]
        · rw [he, ite_self]
      · rfl
  refine ⟨?_, ?_⟩
  · obtain ⟨us, s, e, hc, as, s', e', q'⟩ := key
    refine ⟨us, s, e, hc, as, s', e', ?_⟩
    rw [q']
    exact List.map_congr_left fun x _ => by obtain ⟨t, o | c⟩ := x <;> rfl
  · obtain ⟨us, s, e, hc, as, s', e', q'⟩ := key
    rw [← hiff]
    constructor
    · rintro ⟨us2, s2, e2, -, as2, s2', e2', q2⟩
      rw [e] at e2
      simp only [Prod.mk.injEq, Outcome.ok.injEq] at e2
      rw [← e2.2, e'] at e2'
      simp only [Prod.mk.injEq, Outcome.ok.injEq] at e2'
      rw [← q', e2'.1, q2]
    · intro h
      exact ⟨us, s, e, hc, as, s', e', by rw [q', h]⟩

/-- C103 for files: the file is written through a file object that creates it if necessary, and read
through another one.  The limits are those of C103_partial and, for the file, those of C96. -/
theorem C103_partial_file (P : FilePlatform) (native : Endian) (cap cap' : Nat)
    (files : Nat → Option (List Byte)) (reads reads' : List Nat) (path : Nat) (mode mode' : AccessMode)
    (steps : List StreamStep) (items : List (Settings × StreamItem)) (hm : mode ≠ .readOnly)
    (hm' : mode' ≠ .writeOnly) (hcap : cap ≤ P.most) (hcap' : cap' ≤ P.most) (hs : P.Steady reads')
    (hi : itemsOf [] steps = some items) (hl : EndsFlushed steps) (hw : ∀ x ∈ items, Writable x)
    (hr : ∀ x ∈ items, Readable native x)
    (hf : ∀ x ∈ items, InReach (fun n => n ≤ P.most ∧ (n ≤ cap' ∨ cap' = 0)) x)
    (hmost : (items.flatMap (itemBytes native)).length ≤ P.most)
    (hold : ∀ old, files path = some old → old.length ≤ (items.flatMap (itemBytes native)).length) :
    ∃ us s, M.runList (writeStep native (FileObj.writer P)) steps
        ⟨FileObj.make P cap files reads path mode .create, []⟩ = (.ok us, s) ∧
      s.res.res.dev.files =
        (fun p => if p = path then some (items.flatMap (itemBytes native)) else files p) ∧
      ∃ as s', M.runList (readStep native (FileObj.reader P)) steps
          ⟨FileObj.make P cap' s.res.res.dev.files reads' path mode' .fail, []⟩ = (.ok as, s') ∧
        as.filterMap id = items.map Prod.snd := by
  obtain ⟨us, s, e, -, q⟩ := write_all
    (FileObj.collects P cap files path mode ((files path).getD []) reads hm hcap) (fun _ _ h => h.2)
    native steps ⟨FileObj.make P cap files reads path mode .create, []⟩ items [] hi hw hmost
    (FileObj.saving_make P cap files reads path mode)
  have hfiles := (q hl).1
  rw [List.nil_append] at hfiles
  have hov : Res.overlay ((files path).getD []) 0 (items.flatMap (itemBytes native)) =
      items.flatMap (itemBytes native) := by
    have : ((files path).getD []).drop (items.flatMap (itemBytes native)).length = [] := by
      cases hc : files path with
      | none => simp
      | some old => exact List.drop_eq_nil_of_le (hold old hc)
    rw [Res.overlay, Nat.zero_add, this, List.take_zero, List.nil_append, List.append_nil]
  rw [hov] at hfiles
  refine ⟨us, s, e, hfiles, ?_⟩
  have hc : s.res.res.dev.files path = some (items.flatMap (itemBytes native)) := by
    rw [hfiles]
    simp [FileDev.withFile]
  have D := FileObj.delivers P cap' s.res.res.dev.files path mode'
    (items.flatMap (itemBytes native)) hm' hcap'
  obtain ⟨as, s', e', q', -⟩ := read_all D native steps
    ⟨FileObj.make P cap' s.res.res.dev.files reads' path mode' .fail, []⟩ items [] hi hw
    (fun x hx => (hr x hx).not_cr) hf
    (by
      rw [List.append_nil]
      exact FileObj.left_fresh P cap' s.res.res.dev.files reads' path mode' _ hc hs)
  exact ⟨as, s', e', by rw [q']; exact List.map_congr_left fun x hx => itemBack_readable (hr x hx)⟩

/-- A header with a length, a text in UTF-16, and a change of the byte order in the middle. -/
def sharedExample : List StreamStep :=
  [.construct .little .utf8, .construct .little .utf16, .value 0 [3, 0], .codePoint 1 0x41, .flush 1,
    .setEndian 1 .big, .codePoint 1 0x20AC, .copy 1, .setForm 2 .utf8, .codePoint 2 0x1F600,
    .destroy 1, .value 0 [7], .codePoint 2 10, .destroy 2, .destroy 0]

example : ∃ items, itemsOf [] sharedExample = some items ∧ EndsFlushed sharedExample ∧
    (∀ x ∈ items, Writable x) ∧ (∀ x ∈ items, Readable .little x) ∧
    (∀ x ∈ items, InReach (fun n => n ≤ 4 ∨ (4 : Nat) = 0) x) ∧
    items.flatMap (itemBytes .little) = [3, 0, 0x41, 0, 0x20, 0xAC, 0xF0, 0x9F, 0x98, 0x80, 7, 10] := by
  refine ⟨_, rfl, ⟨0, .inl rfl⟩, ?_, ?_, ?_, by decide +kernel⟩
  · simp [Writable]; decide
  · simp [Readable]
  · simp [InReach, EncodingForm.form, Spec.Form.unitSize]

end Cmp
