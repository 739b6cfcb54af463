import Verif.Model.Trio
import Verif.Proofs.Console

/-
Property C113: standard output and standard error together, and what has arrived when input is
awaited.
-/

namespace Cmp

/-- Operations on the three resources. -/
inductive TrioOp
  | write (h : OutHandle) (bytes : List Byte)
  | flush (h : OutHandle)
  | read (n : Nat)
  deriving DecidableEq, Repr

/-- Perform an operation; the result is a byte count. -/
def Trio.step (p : StdPlatform) : TrioOp → M Trio Nat
  | .write h bytes => Trio.write p h bytes
  | .flush h => do
    Trio.flush p h
    pure 0
  | .read n => do
    let g ← Trio.read p n
    pure g.count

namespace Spec

/-- What a program sent to a handle. -/
def sent (h : OutHandle) (ops : List TrioOp) : List Byte := ops.flatMap fun
  | .write k bytes => if k = h then bytes else []
  | _ => []

/-- What has arrived there. -/
def arrived (h : OutHandle) (log : List TermEvent) : List Byte := log.flatMap fun
  | .wrote k bytes => if k = h then bytes else []
  | _ => []

end Spec

open Cmp.Spec (sent arrived)

/-- After `ops` a read of `n` bytes makes everything that was sent to `h` arrive before it asks for
input. -/
def ArrivesFirst (p : StdPlatform) (capIn : Nat) (cap : OutHandle → Nat) (supply : List Byte)
    (reads : List (Option Nat)) (ops : List TrioOp) (n : Nat) (h : OutHandle) : Prop :=
  ∃ results t g t' flushed asks,
    M.runList (Trio.step p) ops (Trio.make capIn cap supply reads []) = (.ok results, t)
    ∧ Trio.read p n t = (.ok g, t')
    ∧ t'.term.log = t.term.log ++ flushed ++ asks
    ∧ (∀ e ∈ flushed, ∃ k bytes, e = .wrote k bytes)
    ∧ (∀ e ∈ asks, ∃ m given, e = .asked m given)
    ∧ arrived h (t.term.log ++ flushed) = sent h ops

namespace Trio

theorem arrived_append (h : OutHandle) (a b : List TermEvent) :
    arrived h (a ++ b) = arrived h a ++ arrived h b := by simp [arrived]

theorem arrived_asks (h : OutHandle) {l : List TermEvent} (hl : ∀ e ∈ l, ∃ m given, e = .asked m given) :
    arrived h l = [] := by
  simp only [arrived, List.flatMap_eq_nil_iff]
  intro x hx
  obtain ⟨m, k, rfl⟩ := hl x hx
  rfl

theorem arrived_tag (h : OutHandle) (l : List StdEvent) :
    arrived h (l.map (TermEvent.tag h)) = Sys.output l := by
  induction l with
  | nil => rfl
  | cons e l ih =>
    have e1 : arrived h ((e :: l).map (TermEvent.tag h)) =
        arrived h [TermEvent.tag h e] ++ arrived h (l.map (TermEvent.tag h)) := by simp [arrived]
    have e2 : Sys.output (e :: l) = Sys.output [e] ++ Sys.output l := by simp [Sys.output]
    rw [e1, e2, ih]
    cases e <;> simp [arrived, TermEvent.tag, Sys.output]

theorem arrived_other {h k : OutHandle} (hk : k ≠ h) (l : List StdEvent) :
    arrived h (l.map (TermEvent.tag k)) = [] := by
  simp only [arrived, List.flatMap_eq_nil_iff]
  intro x hx
  obtain ⟨e, -, rfl⟩ := List.mem_map.mp hx
  cases e with
  | asked => rfl
  | wrote b => simp [TermEvent.tag, hk]

/-! ### The calls -/

theorem call_ok {α : Type} (h : OutHandle) {x : M Sys α} {t : Term} {a : α} {d : Sys}
    (e : x { t.sys with log := [] } = (.ok a, d)) :
    Term.call h x t = (.ok a, ⟨{ d with log := [] }, t.log ++ d.log.map (TermEvent.tag h)⟩) := by
  simp only [Term.call, e]

/-- The handle has accepted `w` and all will accept anything. -/
def Got (h : OutHandle) (t : Term) (w : List Byte) : Prop := arrived h t.log = w ∧ t.sys.writes = []

theorem takes (p : StdPlatform) (h : OutHandle) :
    Res.Takes (fun b => Term.call h (p.writeRaw b)) (fun _ => True) (Got h) where
  take := by
    intro t w bytes hg _ _
    obtain ⟨d, e, h1, h2⟩ := p.takes.take { t.sys with log := [] } [] bytes ⟨rfl, hg.2⟩ trivial trivial
    refine ⟨_, call_ok h e, ?_, h2⟩
    rw [arrived_append, hg.1, arrived_tag, h1]
    rfl

theorem takesSome (p : StdPlatform) (h : OutHandle) :
    Res.TakesSome (fun b => Term.call h (p.writeRaw b)) (fun t => arrived h t.log) := by
  intro bytes t
  have key : Res.TakesSome p.writeRaw (fun s => Sys.output s.log) := by
    cases p with
    | unix => exact Sys.write_takesSome
    | windows => exact Sys.write_takesSome_windows
  obtain ⟨k, d, e, part, h1, h2⟩ := key bytes { t.sys with log := [] }
  refine ⟨k, _, call_ok h e, part, h1, ?_⟩
  simp only [arrived_append, arrived_tag, h2]
  rfl

/-- Only `h` was written to. -/
structure Writes (h : OutHandle) (t t' : Term) : Prop where
  reads : t'.sys.reads = t.sys.reads
  accepts : t.sys.writes = [] → t'.sys.writes = []
  log : ∃ ws, t'.log = t.log ++ ws ∧ (∀ e ∈ ws, ∃ bytes, e = .wrote h bytes)

theorem writes_refl (h : OutHandle) (t : Term) : Writes h t t := ⟨rfl, id, [], by simp, by simp⟩

theorem writes_trans (h : OutHandle) (a b c : Term) (x : Writes h a b) (y : Writes h b c) :
    Writes h a c := by
  obtain ⟨x1, x2, l, x3, x4⟩ := x
  obtain ⟨y1, y2, m, y3, y4⟩ := y
  refine ⟨y1.trans x1, y2 ∘ x2, l ++ m, by rw [y3, x3, List.append_assoc], ?_⟩
  intro e he
  rcases List.mem_append.mp he with he | he
  · exact x4 e he
  · exact y4 e he

theorem call_writes (p : StdPlatform) (h : OutHandle) (bytes : List Byte) (t : Term) :
    Writes h t (Term.call h (p.writeRaw bytes) t).2 := by
  obtain ⟨h1, h2, ws, h3, h4⟩ := p.writes bytes { t.sys with log := [] }
  refine ⟨h1, ?_, _, rfl, ?_⟩
  · intro hw
    obtain ⟨d, e, -, h6⟩ := p.takes.take { t.sys with log := [] } [] bytes ⟨rfl, hw⟩ trivial trivial
    simp only [Term.call, e]
    exact h6
  · intro x hx
    obtain ⟨e, he, rfl⟩ := List.mem_map.mp hx
    rw [h3] at he
    obtain ⟨w, rfl⟩ := h4 e (by simpa using he)
    exact ⟨w, rfl⟩

/-- Only input was asked for. -/
def Asks (t t' : Term) : Prop :=
  t'.sys.writes = t.sys.writes ∧ ∃ as, t'.log = t.log ++ as ∧ ∀ e ∈ as, ∃ n g, e = TermEvent.asked n g

theorem asks_refl (t : Term) : Asks t t := ⟨rfl, [], by simp, by simp⟩

theorem asks_trans (a b c : Term) (x : Asks a b) (y : Asks b c) : Asks a c := by
  obtain ⟨x1, l, x3, x4⟩ := x
  obtain ⟨y1, m, y3, y4⟩ := y
  refine ⟨y1.trans x1, l ++ m, by rw [y3, x3, List.append_assoc], ?_⟩
  intro e he
  rcases List.mem_append.mp he with he | he
  · exact x4 e he
  · exact y4 e he

theorem call_asks (p : StdPlatform) (n : Nat) (rr : ReadRequest) (t : Term) :
    Asks t (Term.call .out (p.readRaw n rr) t).2 := by
  have key : ∀ s, Sys.Asks s (p.readRaw n rr s).2 := by
    intro s
    cases p with
    | unix => exact Stdin.asks n rr s
    | windows =>
      show Sys.Asks s (Stdin.readRawWindows n rr s).2
      unfold Stdin.readRawWindows
      split
      · exact ⟨rfl, _, rfl, by simp⟩
      · exact Sys.asks_refl s
  obtain ⟨h1, as, h2, h3⟩ := key { t.sys with log := [] }
  refine ⟨h1, _, rfl, ?_⟩
  intro x hx
  obtain ⟨e, he, rfl⟩ := List.mem_map.mp hx
  rw [h2] at he
  obtain ⟨n, g, rfl⟩ := h3 e (by simpa using he)
  exact ⟨n, g, rfl⟩

/-- No call to read fails. -/
def Answers (t : Term) : Prop := Sys.ReadsSucceed t.sys

theorem feeds (p : StdPlatform) :
    Res.Feeds False (fun n rr => Term.call .out (p.readRaw n rr)) Answers (·.sys.supply) := by
  intro n rr t ht
  have key : Res.Feeds False p.readRaw Sys.ReadsSucceed Sys.supply := by
    cases p with
    | unix => exact Stdin.feeds
    | windows => exact Stdin.feeds_windows
  obtain ⟨g, d, e, h1, h2, h3, -⟩ := key n rr { t.sys with log := [] } ht
  exact ⟨g, _, call_ok .out e, h1, h2, h3, fun h => h.elim⟩

/-! ### The resources -/

variable {p : StdPlatform} {capIn : Nat} {cap : OutHandle → Nat}

/-- The state after `w h` was sent to each `h`, if everything is accepted. -/
structure Ready (capIn : Nat) (cap : OutHandle → Nat) (w : OutHandle → List Byte) (t : Trio) : Prop where
  outs : ∀ h, Res.Writing (cap h) (fun _ => True) (Got h) ⟨t.outs h, t.term⟩ (w h)
  inp : Res.Fed capIn Answers ⟨t.inp, t.term⟩

/-- The state whatever is accepted. -/
structure Loose (capIn : Nat) (cap : OutHandle → Nat) (w : OutHandle → List Byte) (t : Trio) : Prop where
  outs : ∀ h, Res.Passing (cap h) (fun t => arrived h t.log) ⟨t.outs h, t.term⟩ (w h)
  inp : Res.Fed capIn Answers ⟨t.inp, t.term⟩

theorem fed_writes {h : OutHandle} {b : IoBuffer} {d d' : Term} (hi : Res.Fed capIn Answers ⟨b, d⟩)
    (hw : Writes h d d') : Res.Fed capIn Answers ⟨b, d'⟩ := by
  refine ⟨hi.length, ?_, hi.loaded⟩
  intro e he
  rw [hw.reads] at he
  exact hi.inv e he

theorem arrived_writes {h k : OutHandle} (hk : k ≠ h) {d d' : Term} (hw : Writes h d d') :
    arrived k d'.log = arrived k d.log := by
  obtain ⟨ws, h1, h2⟩ := hw.log
  rw [h1, arrived_append]
  have : arrived k ws = [] := by
    simp only [arrived, List.flatMap_eq_nil_iff]
    intro x hx
    obtain ⟨b, rfl⟩ := h2 x hx
    simp [Ne.symm hk]
  rw [this, List.append_nil]

theorem arrived_of_asks {k : OutHandle} {d d' : Term} (ha : Asks d d') :
    arrived k d'.log = arrived k d.log := by
  obtain ⟨-, as, h1, h2⟩ := ha
  rw [h1, arrived_append, arrived_asks k h2, List.append_nil]

/-- An operation on the resource of one handle, for the others. -/
theorem Ready.onOut {w : OutHandle → List Byte} {t : Trio} (ht : Ready capIn cap w t) {h : OutHandle}
    {α : Type} {x : M (Res Term) α} {a : α} {r : Res Term} {v : List Byte}
    (e : x ⟨t.outs h, t.term⟩ = (.ok a, r)) (hr : Res.Writing (cap h) (fun _ => True) (Got h) r v)
    (hw : Writes h t.term r.dev) :
    ∃ t', Trio.onOut h x t = (.ok a, t') ∧ Ready capIn cap (fun k => if k = h then v else w k) t'
      ∧ t'.term = r.dev := by
  refine ⟨{ t with outs := fun k => if k = h then r.buf else t.outs k, term := r.dev },
    by simp only [Trio.onOut, e], ⟨?_, fed_writes ht.inp hw⟩, rfl⟩
  intro k
  by_cases hk : k = h
  · subst hk
    simp only [if_true]
    exact hr
  · simp only [if_neg hk]
    obtain ⟨h1, h2, h3, u, ⟨h4, h4'⟩, h5, h6⟩ := ht.outs k
    exact ⟨h1, h2, h3, u, ⟨(arrived_writes hk hw).trans h4, hw.accepts h4'⟩, h5, h6⟩

theorem Loose.onOut {w : OutHandle → List Byte} {t : Trio} (ht : Loose capIn cap w t) {h : OutHandle}
    {α : Type} {x : M (Res Term) α} {a : α} {r : Res Term} {v : List Byte}
    (e : x ⟨t.outs h, t.term⟩ = (.ok a, r)) (hr : Res.Passing (cap h) (fun t => arrived h t.log) r v)
    (hw : Writes h t.term r.dev) :
    ∃ t', Trio.onOut h x t = (.ok a, t') ∧ Loose capIn cap (fun k => if k = h then v else w k) t' := by
  refine ⟨{ t with outs := fun k => if k = h then r.buf else t.outs k, term := r.dev },
    by simp only [Trio.onOut, e], ⟨?_, fed_writes ht.inp hw⟩⟩
  intro k
  by_cases hk : k = h
  · subst hk
    simp only [if_true]
    exact hr
  · simp only [if_neg hk]
    obtain ⟨h1, h2, h3, h4⟩ := ht.outs k
    exact ⟨h1, h2, h3, by simpa only [arrived_writes hk hw] using h4⟩

theorem ite_same (w : OutHandle → List Byte) (h : OutHandle) :
    (fun k => if k = h then w h else w k) = w := by
  funext k
  by_cases hk : k = h
  · simp [hk]
  · simp [hk]

theorem write_ready {w : OutHandle → List Byte} {t : Trio} (ht : Ready capIn cap w t) (h : OutHandle)
    (bytes : List Byte) :
    ∃ t', Trio.write p h bytes t = (.ok bytes.length, t') ∧
      Ready capIn cap (fun k => if k = h then w h ++ bytes else w k) t' := by
  obtain ⟨r, e, h1, -⟩ := Res.write_writing (takes p h) (ht.outs h) trivial (bytes := bytes) trivial
  have hm := Res.moves_write (writes_refl h) (writes_trans h) _ (call_writes p h) bytes
    ⟨t.outs h, t.term⟩
  rw [e] at hm
  obtain ⟨t', e', h2, -⟩ := ht.onOut e h1 hm
  exact ⟨t', e', h2⟩

theorem flush_ready {w : OutHandle → List Byte} {t : Trio} (ht : Ready capIn cap w t) (h : OutHandle) :
    ∃ t', Trio.flush p h t = (.ok (), t') ∧ Ready capIn cap w t' ∧ Writes h t.term t'.term ∧
      arrived h t'.term.log = w h := by
  obtain ⟨d, e, h1, hg⟩ := Res.flush_writing (takes p h) (ht.outs h) trivial
  have hm := Res.moves_flush (writes_refl h) (writes_trans h) _ (call_writes p h)
    ⟨t.outs h, t.term⟩
  rw [e] at hm
  obtain ⟨t', e', h2, h3⟩ := ht.onOut e h1 hm
  rw [ite_same] at h2
  exact ⟨t', e', h2, by rw [h3]; exact hm, by rw [h3]; exact hg.1⟩

theorem read_ready {w : OutHandle → List Byte} {t : Trio} (ht : Ready capIn cap w t) (n : Nat) :
    ∃ g t' s, Trio.read p n t = (.ok g, t') ∧ Ready capIn cap w t' ∧ Writes .out t.term s ∧
      arrived .out s.log = w .out ∧ Asks s t'.term := by
  obtain ⟨t1, e, h1, hw, ha⟩ := flush_ready (p := p) ht .out
  obtain ⟨g, r, e', -, -, h2, -⟩ := Res.read_fed (feeds p) h1.inp n
  have hm := Res.moves_read asks_refl asks_trans _ (call_asks p) n ⟨t1.inp, t1.term⟩
  rw [e'] at hm
  refine ⟨⟨g, g.length⟩, { t1 with inp := r.buf, term := r.dev }, t1.term, ?_, ⟨?_, h2⟩, hw, ha, hm⟩
  · rw [Trio.read, M.bind_ok e]
    simp only [Trio.onIn, e']
  · intro h
    obtain ⟨h3, h4, h5, u, ⟨h6, h6'⟩, h7, h8⟩ := h1.outs h
    exact ⟨h3, h4, h5, u, ⟨(arrived_of_asks hm).trans h6, hm.1.trans h6'⟩, h7, h8⟩

theorem sent_cons (h : OutHandle) (op : TrioOp) (ops : List TrioOp) :
    sent h (op :: ops) = sent h [op] ++ sent h ops := by simp [sent]

theorem step_ready {w : OutHandle → List Byte} {t : Trio} (ht : Ready capIn cap w t) (op : TrioOp) :
    ∃ k t', Trio.step p op t = (.ok k, t') ∧ Ready capIn cap (fun h => w h ++ sent h [op]) t' := by
  cases op with
  | write h bytes =>
    obtain ⟨t', e, h1⟩ := write_ready (p := p) ht h bytes
    refine ⟨_, t', e, ?_⟩
    have : (fun k => if k = h then w h ++ bytes else w k) = fun k => w k ++ sent k [.write h bytes] := by
      funext k
      by_cases hk : k = h
      · simp [hk, sent]
      · simp [hk, sent, Ne.symm hk]
    rw [← this]
    exact h1
  | flush h =>
    obtain ⟨t', e, h1, -⟩ := flush_ready (p := p) ht h
    exact ⟨0, t', by rw [Trio.step, M.bind_ok e]; rfl, by simpa [sent] using h1⟩
  | read n =>
    obtain ⟨g, t', -, e, h1, -⟩ := read_ready (p := p) ht n
    exact ⟨g.count, t', by rw [Trio.step, M.bind_ok e]; rfl, by simpa [sent] using h1⟩

theorem run_ready {w : OutHandle → List Byte} {t : Trio} (ht : Ready capIn cap w t) (ops : List TrioOp) :
    ∃ ks t', M.runList (Trio.step p) ops t = (.ok ks, t') ∧ Ready capIn cap (fun h => w h ++ sent h ops) t' := by
  induction ops generalizing t w with
  | nil => exact ⟨[], t, rfl, by simpa [sent] using ht⟩
  | cons op ops ih =>
    obtain ⟨k, t1, e1, h1⟩ := step_ready (p := p) ht op
    obtain ⟨ks, t2, e2, h2⟩ := ih h1
    refine ⟨_, t2, M.runList_cons e1 e2, ?_⟩
    have : (fun h => w h ++ sent h (op :: ops)) = fun h => w h ++ sent h [op] ++ sent h ops := by
      funext h
      rw [sent_cons, List.append_assoc]
    rw [this]
    exact h2

theorem step_loose {w : OutHandle → List Byte} {t : Trio} (ht : Loose capIn cap w t) (op : TrioOp) :
    ∃ k t', Trio.step p op t = (.ok k, t') ∧ Loose capIn cap (fun h => w h ++ sent h [op]) t' := by
  have hflush : ∀ h, ∃ t', Trio.flush p h t = (.ok (), t') ∧ Loose capIn cap w t' := by
    intro h
    obtain ⟨d, e, h1⟩ := Res.flush_passing (takesSome p h) (ht.outs h)
    have hm := Res.moves_flush (writes_refl h) (writes_trans h) _ (call_writes p h) ⟨t.outs h, t.term⟩
    rw [e] at hm
    obtain ⟨t', e', h2⟩ := ht.onOut e h1 hm
    rw [ite_same] at h2
    exact ⟨t', e', h2⟩
  cases op with
  | write h bytes =>
    obtain ⟨k, r, e, h1⟩ := Res.doOut_passing (takesSome p h) (ht.outs h) (.write bytes)
    have hm := Res.moves_write (writes_refl h) (writes_trans h) _ (call_writes p h) bytes
      ⟨t.outs h, t.term⟩
    have e1 : Res.write (fun b => Term.call h (p.writeRaw b)) bytes ⟨t.outs h, t.term⟩ = (.ok k, r) := e
    rw [e1] at hm
    obtain ⟨t', e', h2⟩ := ht.onOut e1 h1 hm
    refine ⟨k, t', e', ?_⟩
    have : (fun k => if k = h then w h ++ bytes else w k) = fun k => w k ++ sent k [.write h bytes] := by
      funext k
      by_cases hk : k = h
      · simp [hk, sent]
      · simp [hk, sent, Ne.symm hk]
    rw [← this]
    exact h2
  | flush h =>
    obtain ⟨t', e, h1⟩ := hflush h
    exact ⟨0, t', by rw [Trio.step, M.bind_ok e]; rfl, by simpa [sent] using h1⟩
  | read n =>
    obtain ⟨t1, e, h1⟩ := hflush .out
    obtain ⟨g, r, e', -, -, h2, -⟩ := Res.read_fed (feeds p) h1.inp n
    have hm := Res.moves_read asks_refl asks_trans _ (call_asks p) n ⟨t1.inp, t1.term⟩
    rw [e'] at hm
    have e2 : Trio.read p n t = (.ok ⟨g, g.length⟩, { t1 with inp := r.buf, term := r.dev }) := by
      rw [Trio.read, M.bind_ok e]
      simp only [Trio.onIn, e']
    refine ⟨g.length, { t1 with inp := r.buf, term := r.dev }, by rw [Trio.step, M.bind_ok e2]; rfl, ?_, h2⟩
    intro h
    obtain ⟨h3, h4, h5, h6⟩ := h1.outs h
    refine ⟨h3, h4, h5, ?_⟩
    simp only [arrived_of_asks hm, sent, List.flatMap_cons, List.flatMap_nil, List.append_nil]
    exact h6

theorem run_loose {w : OutHandle → List Byte} {t : Trio} (ht : Loose capIn cap w t) (ops : List TrioOp) :
    ∃ ks t', M.runList (Trio.step p) ops t = (.ok ks, t') ∧ Loose capIn cap (fun h => w h ++ sent h ops) t' := by
  induction ops generalizing t w with
  | nil => exact ⟨[], t, rfl, by simpa [sent] using ht⟩
  | cons op ops ih =>
    obtain ⟨k, t1, e1, h1⟩ := step_loose (p := p) ht op
    obtain ⟨ks, t2, e2, h2⟩ := ih h1
    refine ⟨_, t2, M.runList_cons e1 e2, ?_⟩
    have : (fun h => w h ++ sent h (op :: ops)) = fun h => w h ++ sent h [op] ++ sent h ops := by
      funext h
      rw [sent_cons, List.append_assoc]
    rw [this]
    exact h2

theorem make_ready (capIn : Nat) (cap : OutHandle → Nat) (supply : List Byte) (reads : List (Option Nat))
    (hreads : ∀ e ∈ reads, e ≠ none) : Ready capIn cap (fun _ => []) (make capIn cap supply reads []) :=
  ⟨fun _ => Res.writing_make _ _ [] ⟨rfl, rfl⟩ trivial, Res.fed_make capIn _ hreads⟩

theorem make_loose (capIn : Nat) (cap : OutHandle → Nat) (supply : List Byte) (reads writes : List (Option Nat))
    (hreads : ∀ e ∈ reads, e ≠ none) : Loose capIn cap (fun _ => []) (make capIn cap supply reads writes) :=
  ⟨fun _ => ⟨by simp [make, IoBuffer.make], by simp [make, IoBuffer.make], fun _ => rfl,
    by simp [make, IoBuffer.make, IoBuffer.pending, arrived]⟩, Res.fed_make capIn _ hreads⟩

end Trio

/-- A question that was written to `uerr` has not arrived when the answer is awaited. -/
theorem C113_violated : ¬ ∀ p capIn cap supply reads ops n h, (∀ e ∈ reads, e ≠ none) →
    ArrivesFirst p capIn cap supply reads ops n h := by
  intro h
  obtain ⟨ks, t, g, t', ws, as, e, e', hl, -, ha, ho⟩ :=
    h .unix 1024 (fun _ => 1024) [9] [] [.write .err [63]] 1 .err (by simp)
  have e0 : (Trio.read .unix 1 (M.runList (Trio.step .unix) [.write .err [63]]
      (Trio.make 1024 (fun _ => 1024) [9] [] [])).2).2.term.log = [.asked 1024 1] := by decide +kernel
  rw [e] at e0
  dsimp only at e0
  rw [e'] at e0
  dsimp only at e0
  have : arrived .err t'.term.log = [63] := by
    rw [hl, Trio.arrived_append, ho, Trio.arrived_asks _ ha]
    rfl
  rw [e0] at this
  exact absurd this (by decide +kernel)

/-- On a terminal that shows both, what was written last comes first. -/
theorem C113_violated_order :
    (Trio.close .unix (M.runList (Trio.step .unix) [.write .out [49], .write .err [50]]
      (Trio.make 1024 (fun _ => 1024) [] [] [])).2).2.term.log = [.wrote .err [50], .wrote .out [49]] := by
  decide +kernel

/-- C113 for `uout`, and what holds for both: if the system accepts what it is given and reading does
not fail, then what has arrived at a handle is a prefix of what was sent there, less than a full
buffer is missing (nothing if there is no buffer), a flush of the handle makes the rest arrive and
touches nothing else, and at the end of the program everything arrives.  Missing: `uerr` before input
is awaited, unless it has no buffer or is flushed. -/
theorem C113_partial (p : StdPlatform) (capIn : Nat) (cap : OutHandle → Nat) (supply : List Byte)
    (reads : List (Option Nat)) (hreads : ∀ e ∈ reads, e ≠ none) (ops : List TrioOp) :
    (∀ n h, h = .out ∨ cap h = 0 ∨ ops.getLast? = some (.flush h) →
      ArrivesFirst p capIn cap supply reads ops n h) ∧
    ∃ results t, M.runList (Trio.step p) ops (Trio.make capIn cap supply reads []) = (.ok results, t) ∧
      (∀ h, ∃ rest, arrived h t.term.log ++ rest = sent h ops ∧ rest.length ≤ cap h) ∧
      (∀ h, ∃ t', Trio.flush p h t = (.ok (), t') ∧ arrived h t'.term.log = sent h ops ∧
        ∀ k, k ≠ h → arrived k t'.term.log = arrived k t.term.log) ∧
      ∃ t', Trio.close p t = (.ok (), t') ∧ ∀ h, arrived h t'.term.log = sent h ops := by
  obtain ⟨ks, t, e, ht⟩ := Trio.run_ready (p := p) (Trio.make_ready capIn cap supply reads hreads) ops
  simp only [List.nil_append] at ht
  have hrest : ∀ h, ∃ rest, arrived h t.term.log ++ rest = sent h ops ∧ rest.length ≤ cap h := by
    intro h
    obtain ⟨h1, h2, -, w, ⟨h3, -⟩, -, h4⟩ := ht.outs h
    refine ⟨(t.outs h).pending, by rw [← h4, ← h3], ?_⟩
    unfold IoBuffer.pending
    split
    · simp only [List.length_take]
      simp only at h2
      omega
    · simp
  constructor
  · intro n h hh
    obtain ⟨g, t', s, e', -, ⟨-, -, ws, h1, h2⟩, h3, -, as, h4, h5⟩ := Trio.read_ready (p := p) ht n
    refine ⟨ks, t, g, t', ws, as, e, e', by rw [h4, h1], fun x hx => ⟨.out, h2 x hx⟩, h5, ?_⟩
    by_cases ho : h = .out
    · rw [← h1, ho]
      exact h3
    have hw : arrived h (t.term.log ++ ws) = arrived h t.term.log := by
      rw [Trio.arrived_append]
      have : arrived h ws = [] := by
        simp only [arrived, List.flatMap_eq_nil_iff]
        intro x hx
        obtain ⟨b, rfl⟩ := h2 x hx
        simp [Ne.symm ho]
      rw [this, List.append_nil]
    rw [hw]
    rcases hh with hh | hh | hh
    · exact absurd hh ho
    · obtain ⟨rest, h6, h7⟩ := hrest h
      rw [hh] at h7
      have h8 : rest = [] := List.eq_nil_of_length_eq_zero (by omega)
      rw [← h6, h8, List.append_nil]
    · obtain ⟨pre, rfl⟩ := List.getLast?_eq_some_iff.mp hh
      obtain ⟨ks', t1, e1, ht1⟩ := Trio.run_ready (p := p) (Trio.make_ready capIn cap supply reads hreads) pre
      simp only [List.nil_append] at ht1
      obtain ⟨t2, e2, -, -, h6⟩ := Trio.flush_ready (p := p) ht1 h
      have e3 : M.runList (Trio.step p) [.flush h] t1 = (.ok [0], t2) :=
        M.runList_cons (by rw [Trio.step, M.bind_ok e2]; rfl) rfl
      rw [M.runList_append e1 e3] at e
      simp only [Prod.mk.injEq] at e
      rw [← e.2, h6]
      simp [sent]
  · refine ⟨ks, t, e, hrest, ?_, ?_⟩
    · intro h
      obtain ⟨t', e', -, h2, h3⟩ := Trio.flush_ready (p := p) ht h
      exact ⟨t', e', h3, fun k hk => Trio.arrived_writes hk h2⟩
    · obtain ⟨t1, e1, h1, -, h3⟩ := Trio.flush_ready (p := p) ht .err
      obtain ⟨t2, e2, -, h4, h5⟩ := Trio.flush_ready (p := p) h1 .out
      refine ⟨t2, by rw [Trio.close, M.bind_ok e1, e2], ?_⟩
      intro h
      cases h with
      | out => exact h5
      | err => rw [Trio.arrived_writes (by decide) h4, h3]

/-- Whatever the system accepts, nothing that was sent to one handle arrives at the other, nothing
arrives that was not sent, and the order is kept. -/
theorem C113_partial_apart (p : StdPlatform) (capIn : Nat) (cap : OutHandle → Nat) (supply : List Byte)
    (reads writes : List (Option Nat)) (hreads : ∀ e ∈ reads, e ≠ none) (ops : List TrioOp) :
    ∃ results t, M.runList (Trio.step p) ops (Trio.make capIn cap supply reads writes) = (.ok results, t) ∧
      ∀ h, (arrived h t.term.log).Sublist (sent h ops) := by
  obtain ⟨ks, t, e, ht⟩ := Trio.run_loose (p := p) (Trio.make_loose capIn cap supply reads writes hreads) ops
  refine ⟨ks, t, e, fun h => ?_⟩
  have := (ht.outs h).sublist
  simp only [List.nil_append] at this
  exact (List.sublist_append_left _ _).trans this

/-- Questions and remarks. -/
example : (Trio.close .windows (M.runList (Trio.step .windows)
      [.write .out [1, 2], .write .err [3], .read 2, .write .err [4, 5, 6], .write .out [7], .flush .err]
      (Trio.make 4 (fun h => if h = .out then 8 else 2) [1, 0, 3, 0] [some 1] [])).2).2.term.log =
    [.wrote .out [1, 2], .asked 4 2, .wrote .err [3], .wrote .err [4, 5, 6], .wrote .out [7]] := by decide +kernel

end Cmp
