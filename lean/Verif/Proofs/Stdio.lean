import Verif.Model.Stdio
import Verif.Proofs.Output
import Batteries.Data.List.Basic

/-
Standard input under every schedule of short reads, standard output under every schedule of partial
writes, and tied resources.
-/

namespace Cmp

namespace Res

variable {δ : Type}

/- ### Devices that feed bytes in portions of their own choice -/

/-- A device that answers each request with the next bytes of `rest`, at most as many as asked for;
if `eager`, with at least one as long as there are any. -/
def Feeds (eager : Prop) (raw : Nat → ReadRequest → M δ ReadResult) (inv : δ → Prop)
    (rest : δ → List Byte) : Prop :=
  ∀ n rr d, inv d → ∃ g d', raw n rr d = (.ok ⟨g, g.length⟩, d') ∧ g.length ≤ n ∧
    rest d = g ++ rest d' ∧ inv d' ∧ (eager → g = [] → n = 0 ∨ rest d = [])

/-- The bytes an input resource holds in its buffer. -/
def held (r : Res δ) : List Byte := if r.buf.readDirty then [] else r.buf.unread

/-- The state of an input resource on such a device. -/
structure Fed (cap : Nat) (inv : δ → Prop) (r : Res δ) : Prop where
  length : r.buf.data.length = cap
  inv : inv r.dev
  loaded : r.buf.readDirty = false → r.buf.size ≤ cap ∧ r.buf.position ≤ r.buf.size

variable {eager : Prop} {raw : Nat → ReadRequest → M δ ReadResult} {inv : δ → Prop}
  {rest : δ → List Byte}

theorem readLoaded_fed (F : Feeds eager raw inv rest) {cap : Nat} {r : Res δ}
    (h : Fed cap inv r) (hd : r.buf.readDirty = false) (n : Nat) :
    ∃ g r', readLoaded raw n r = (.ok ⟨g, g.length⟩, r') ∧ g.length ≤ n ∧
      r.buf.unread ++ rest r.dev = g ++ (r'.buf.unread ++ rest r'.dev) ∧
      r'.buf.readDirty = false ∧ Fed cap inv r' ∧
      (eager → g = [] → n = 0 ∨ r.buf.unread ++ rest r.dev = []) := by
  obtain ⟨hl, hi, hs⟩ := h
  obtain ⟨hs, hp⟩ := hs hd
  have hul := r.buf.unread_length (by omega)
  by_cases hw : r.buf.position + n ≤ r.buf.size
  · have e := readLoaded_within raw r n (by omega) hw
    have hlen : (r.buf.unread.take n).length = n := by simp; omega
    rw [show (⟨r.buf.unread.take n, n⟩ : ReadResult) =
      ⟨r.buf.unread.take n, (r.buf.unread.take n).length⟩ by rw [hlen]] at e
    have hun : ({ r.buf with position := r.buf.position + n } : IoBuffer).unread =
        r.buf.unread.drop n := by simp [IoBuffer.unread, List.drop_drop]
    refine ⟨_, _, e, by omega, ?_, hd, ⟨hl, hi, fun _ => ⟨hs, hw⟩⟩, ?_⟩
    · simp only [hun]
      rw [← List.append_assoc, List.take_append_drop]
    · intro _ h0
      rw [h0] at hlen
      exact .inl (by simpa using hlen.symm)
  · by_cases hc : n - (r.buf.size - r.buf.position) > r.buf.data.length
    · obtain ⟨g, d', e, h1, h2, h3, h4⟩ := F (n - (r.buf.size - r.buf.position)) .leanRetrieval
        r.dev hi
      have e' := readLoaded_lean (n := n) (by omega) hp (by omega) hc e
      rw [← List.length_append] at e'
      have hun : ({ r.buf with position := r.buf.size } : IoBuffer).unread = [] := by
        simp [IoBuffer.unread]
      refine ⟨_, _, e', by simp; omega, ?_, hd, ⟨hl, h3, fun _ => ⟨hs, Nat.le_refl _⟩⟩, ?_⟩
      · simp only [hun, h2, List.nil_append, List.append_assoc]
      · intro he h0
        simp only [List.append_eq_nil_iff] at h0 ⊢
        refine .inr ⟨h0.1, ?_⟩
        rcases h4 he h0.2 with h | h
        · omega
        · exact h
    · obtain ⟨g, d', e, h1, h2, h3, h4⟩ := F r.buf.data.length .fillBuffer r.dev hi
      have e' := readLoaded_fill (n := n) (by omega) hp (by omega) (by omega) h1 e
      have hun : ∀ k, ({ filled r.buf ⟨g, g.length⟩ with position := k } : IoBuffer).unread =
          g.drop k := by
        intro k
        have := filled_unread r.buf g h1
        simp only [IoBuffer.unread, filled, List.drop_zero] at this ⊢
        rw [this]
      refine ⟨_, _, e', ?_, ?_, rfl, ⟨?_, h3, fun _ => ⟨?_, ?_⟩⟩, ?_⟩
      · simp; omega
      · simp only [hun, h2]
        have : g.drop (min g.length (n - r.buf.unread.length)) =
            g.drop (n - r.buf.unread.length) := by
          by_cases hle : g.length ≤ n - r.buf.unread.length
          · rw [Nat.min_eq_left hle, List.drop_eq_nil_of_le (Nat.le_refl _),
              List.drop_eq_nil_of_le hle]
          · rw [Nat.min_eq_right (by omega)]
        rw [this, List.append_assoc, ← List.append_assoc (g.take _), List.take_append_drop]
      · rw [← hl]; exact filled_length _ _ _
      · simp only [filled]; omega
      · simp only [filled]; omega
      · intro he h0
        simp only [List.append_eq_nil_iff] at h0 ⊢
        obtain ⟨h5, h6⟩ := h0
        rw [h5] at h6 hul
        simp only [List.length_nil, Nat.sub_zero, List.take_eq_nil_iff] at h6 hul
        rcases h6 with h6 | h6
        · exact .inl h6
        · rcases h4 he h6 with h | h
          · left; omega
          · exact .inr ⟨h5, h⟩

theorem read_fed (F : Feeds eager raw inv rest) {cap : Nat} {r : Res δ} (h : Fed cap inv r)
    (n : Nat) :
    ∃ g r', read raw n r = (.ok ⟨g, g.length⟩, r') ∧ g.length ≤ n ∧
      r.held ++ rest r.dev = g ++ (r'.held ++ rest r'.dev) ∧ Fed cap inv r' ∧
      (eager → g = [] → n = 0 ∨ r.held ++ rest r.dev = []) := by
  by_cases hc : 0 < r.buf.data.length
  · rw [read_buffered _ _ _ hc]
    cases hd : r.buf.readDirty with
    | false =>
      rw [readBuffered_clean _ _ _ hd]
      obtain ⟨g, r', e, h1, h2, h3, h4, h5⟩ := readLoaded_fed F h hd n
      refine ⟨g, r', e, h1, ?_, h4, ?_⟩
      · simpa [held, hd, h3] using h2
      · simpa [held, hd] using h5
    | true =>
      obtain ⟨g, d, e, h1, h2, h3, h4⟩ := F r.buf.data.length .fillBuffer r.dev h.inv
      rw [readBuffered_dirty hd e]
      have hu := filled_unread r.buf g h1
      have hF : Fed cap inv ⟨filled r.buf ⟨g, g.length⟩, d⟩ :=
        ⟨by rw [← h.length]; exact filled_length _ _ _, h3,
          fun _ => ⟨by simp only [filled]; rw [← h.length]; exact h1, Nat.zero_le _⟩⟩
      obtain ⟨g', r', e', h1', h2', h3', h4', h5'⟩ := readLoaded_fed F hF rfl n
      refine ⟨g', r', e', h1', ?_, h4', ?_⟩
      · simp only [held, hd, h3', if_true, List.nil_append]
        rw [h2, ← hu]
        simpa using h2'
      · simp only [hu] at h5'
        simp only [held, hd, if_true, List.nil_append]
        rw [h2]
        exact h5'
  · rw [read_unbuffered _ _ _ (by omega)]
    obtain ⟨g, d, e, h1, h2, h3, h4⟩ := F n .leanRetrieval r.dev h.inv
    have hz : r.held = [] := by
      unfold held
      have := h.loaded
      cases hd : r.buf.readDirty with
      | true => rfl
      | false =>
        have := (this hd).1
        have hl := h.length
        simp only [Bool.false_eq_true, if_false, IoBuffer.unread]
        rw [show r.buf.size = 0 by omega]; simp
    refine ⟨g, _, onDev_ok e, h1, ?_, ⟨h.length, h3, h.loaded⟩, ?_⟩
    · have hz' : (⟨r.buf, d⟩ : Res δ).held = [] := hz
      simp only [hz, hz', List.nil_append]
      exact h2
    · rw [hz, List.nil_append]; exact h4

theorem reads_fed (F : Feeds eager raw inv rest) {cap : Nat} {r : Res δ} (h : Fed cap inv r)
    (ns : List Nat) :
    ∃ outs r', M.runList (read raw) ns r = (.ok outs, r') ∧ Fed cap inv r' ∧
      r.held ++ rest r.dev = (outs.map (·.bytes)).flatten ++ (r'.held ++ rest r'.dev) ∧
      List.Forall₂ (fun n g => g.count = g.bytes.length ∧ g.count ≤ n) ns outs := by
  induction ns generalizing r with
  | nil => exact ⟨[], r, rfl, h, rfl, .nil⟩
  | cons n ns ih =>
    obtain ⟨g, r', e, h1, h2, h3, -⟩ := read_fed F h n
    obtain ⟨outs, r'', e', h1', h2', h3'⟩ := ih h3
    refine ⟨_, r'', M.runList_cons e e', h1', ?_, .cons ⟨rfl, h1⟩ h3'⟩
    rw [h2, h2']
    simp

theorem held_length {cap : Nat} {r : Res δ} (h : Fed cap inv r) : r.held.length ≤ cap := by
  unfold held
  cases hd : r.buf.readDirty with
  | true => simp
  | false =>
    have := h.loaded hd
    have := h.length
    simp only [Bool.false_eq_true, if_false]
    rw [r.buf.unread_length (by omega)]
    omega

theorem fed_make (cap : Nat) (d : δ) (h : inv d) : Fed cap inv ⟨IoBuffer.make cap, d⟩ :=
  ⟨by simp [IoBuffer.make], h, fun h => by simp [IoBuffer.make] at h⟩

/- ### Devices that take some of what they are given -/

/-- Every write passes on a part of what was written, in order, whatever the device accepts. -/
structure Passing (cap : Nat) (got : δ → List Byte) (r : Res δ) (written : List Byte) :
    Prop where
  length : r.buf.data.length = cap
  position : r.buf.position ≤ cap
  clean : r.buf.writeDirty = false → r.buf.position = 0
  sublist : (got r.dev ++ r.buf.pending).Sublist written

variable {wr : List Byte → M δ Nat} {got : δ → List Byte}

/-- A device that takes a part, possibly nothing. -/
def TakesSome (wr : List Byte → M δ Nat) (got : δ → List Byte) : Prop :=
  ∀ bytes d, ∃ k d', wr bytes d = (.ok k, d') ∧ ∃ part, part.Sublist bytes ∧
    got d' = got d ++ part

theorem flush_passing (T : TakesSome wr got) {cap : Nat} {r : Res δ} {w : List Byte}
    (h : Passing cap got r w) :
    ∃ d, flush wr r = (.ok (), ⟨{ r.buf with writeDirty := false, position := 0 }, d⟩) ∧
      Passing cap got ⟨{ r.buf with writeDirty := false, position := 0 }, d⟩ w := by
  obtain ⟨hl, hp, hc, hs⟩ := h
  cases hd : r.buf.writeDirty with
  | true =>
    obtain ⟨k, d, e, part, h1, h2⟩ := T (r.buf.data.take r.buf.position) r.dev
    refine ⟨d, flush_dirty hd (by omega) e, hl, Nat.zero_le _, fun _ => rfl, ?_⟩
    simp only [IoBuffer.pending, hd, if_true] at hs
    simp only [IoBuffer.pending, Bool.false_eq_true, if_false, List.append_nil, h2]
    exact ((List.Sublist.refl _).append h1).trans hs
  | false =>
    have e : ({ r.buf with writeDirty := false, position := 0 } : IoBuffer) = r.buf := by
      have := hc hd
      cases r with | mk b d => cases b with | mk a b c e f => simp_all
    refine ⟨r.dev, ?_, ?_⟩
    · rw [e]; exact flush_clean wr r hd
    · rw [e]; exact ⟨hl, hp, hc, hs⟩

theorem bufWrite_passing {cap : Nat} {r : Res δ} {w bytes : List Byte}
    (h : Passing cap got r w) (hn : r.buf.position + bytes.length ≤ cap) :
    ∃ r', bufWrite bytes r = (.ok bytes.length, r') ∧ Passing cap got r' (w ++ bytes) := by
  obtain ⟨hl, hp, hc, hs⟩ := h
  refine ⟨_, bufWrite_ok r bytes (by omega), ?_, hn, fun h => by simp at h, ?_⟩
  · simp only [List.length_append, List.length_take, List.length_drop]; omega
  · have hpd : r.buf.data.take r.buf.position = r.buf.pending := by
      cases hd : r.buf.writeDirty with
      | true => simp [IoBuffer.pending, hd]
      | false => simp [IoBuffer.pending, hd, hc hd]
    have hk : (r.buf.data.take r.buf.position ++ bytes).length =
        r.buf.position + bytes.length := by
      simp; omega
    simp only [IoBuffer.pending, if_true]
    rw [List.take_left' hk, hpd, ← List.append_assoc]
    exact hs.append (List.Sublist.refl _)

theorem doOut_passing (T : TakesSome wr got) {cap : Nat} {r : Res δ} {w : List Byte}
    (h : Passing cap got r w) (op : OutOp) :
    ∃ k r', doOut wr op r = (.ok k, r') ∧ Passing cap got r' (w ++ op.bytes) := by
  cases op with
  | flush =>
    obtain ⟨d, e, h'⟩ := flush_passing T h
    refine ⟨0, _, by simp only [doOut]; rw [M.bind_ok e]; rfl, ?_⟩
    simpa [OutOp.bytes] using h'
  | write bytes =>
    have hl := h.length
    have raw : ∀ (r : Res δ), Passing cap got r w → r.buf.pending = [] →
        ∃ k r', onDev (wr bytes) r = (.ok k, r') ∧ Passing cap got r' (w ++ bytes) := by
      intro r h hz
      obtain ⟨k, d, e, part, h1, h2⟩ := T bytes r.dev
      refine ⟨k, _, onDev_ok e, h.length, h.position, h.clean, ?_⟩
      have hs := h.sublist
      simp only [hz, List.append_nil, h2] at hs ⊢
      exact hs.append h1
    simp only [doOut, write]
    rw [M.bind_ok (M.get_apply r)]
    by_cases hc : r.buf.capacity > 0
    · rw [if_pos hc]
      simp only [writeBuffered]
      rw [M.bind_ok (M.get_apply r)]
      by_cases hn : r.buf.position + bytes.length > r.buf.capacity
      · rw [if_pos hn]
        obtain ⟨d, e, h'⟩ := flush_passing T h
        rw [M.bind_ok e]
        by_cases hb' : bytes.length > r.buf.capacity
        · rw [if_pos hb']
          exact raw _ h' (by simp [IoBuffer.pending])
        · rw [if_neg hb']
          simp only [IoBuffer.capacity] at hb'
          obtain ⟨r', e', h''⟩ := bufWrite_passing (bytes := bytes) h' (by simp only; omega)
          exact ⟨_, r', e', h''⟩
      · rw [if_neg hn]
        simp only [IoBuffer.capacity] at hn
        obtain ⟨r', e', h''⟩ := bufWrite_passing (bytes := bytes) h (by omega)
        exact ⟨_, r', e', h''⟩
    · rw [if_neg hc]
      simp only [IoBuffer.capacity] at hc
      have := h.position
      exact raw r h (by simp [IoBuffer.pending, show r.buf.position = 0 by omega])

theorem runOut_passing (T : TakesSome wr got) {cap : Nat} {r : Res δ} {w : List Byte}
    (h : Passing cap got r w) (ops : List OutOp) :
    ∃ ks r', M.runList (doOut wr) ops r = (.ok ks, r') ∧
      Passing cap got r' (w ++ ops.flatMap (·.bytes)) := by
  induction ops generalizing r w with
  | nil => exact ⟨[], r, rfl, by simpa using h⟩
  | cons op ops ih =>
    obtain ⟨k, r', e, h'⟩ := doOut_passing T h op
    obtain ⟨ks, r'', e', h''⟩ := ih h'
    exact ⟨_, r'', M.runList_cons e e', by simpa [List.flatMap_cons] using h''⟩

end Res

/- ### The system -/

namespace Sys

/-- No call to read fails. -/
def ReadsSucceed (s : Sys) : Prop := ∀ e ∈ s.reads, e ≠ none

/-- No call to read fails or returns nothing while there is something. -/
def ReadsProgress (s : Sys) : Prop := ∀ e ∈ s.reads, ∃ k, e = some (k + 1)

theorem output_append (a b : List StdEvent) : output (a ++ b) = output a ++ output b := by
  simp [output]

theorem transferred_le {n k : Nat} {l : List (Option Nat)} (h : transferred n l = some k) :
    k ≤ n := by
  match l with
  | [] => simp [transferred] at h; omega
  | none :: _ => simp [transferred] at h
  | some _ :: _ => simp [transferred] at h; omega

theorem transferred_some {n : Nat} {l : List (Option Nat)} (h : ∀ e ∈ l, e ≠ none) :
    ∃ k, transferred n l = some k := by
  match l with
  | [] => exact ⟨n, rfl⟩
  | none :: _ => exact absurd rfl (h none (by simp))
  | some k :: _ => exact ⟨min k n, rfl⟩

theorem transferred_progress {n k : Nat} {l : List (Option Nat)} (h : ∀ e ∈ l, ∃ k, e = some (k + 1))
    (hk : transferred n l = some k) (h0 : k = 0) : n = 0 := by
  match l with
  | [] => simp [transferred] at hk; omega
  | none :: _ => simp [transferred] at hk
  | some j :: _ =>
    obtain ⟨i, hi⟩ := h (some j) (by simp)
    simp [transferred] at hk hi
    omega

theorem read_ok (s : Sys) (n : Nat) {k : Nat} (h : transferred n s.reads = some k) :
    read n s = (.ok (some (s.supply.take k)), { s with
      supply := s.supply.drop k, reads := s.reads.tail, log := s.log ++ [.asked n (s.supply.take k).length] }) := by
  simp [read, h]

theorem write_takesSome : Res.TakesSome Stdout.writeRaw (fun s => output s.log) := by
  intro bytes s
  simp only [Stdout.writeRaw]
  rw [M.bind_ok (show Sys.write bytes s = _ from rfl)]
  have key : ∀ k, output (s.log ++ [StdEvent.wrote (bytes.take k)]) =
      output s.log ++ bytes.take k := by
    intro k
    rw [output_append]; simp [output]
  cases transferred bytes.length s.writes with
  | some k => exact ⟨_, _, rfl, _, List.take_sublist _ _, key _⟩
  | none => exact ⟨_, _, rfl, _, List.take_sublist _ _, key _⟩

theorem write_takesSome_windows :
    Res.TakesSome Stdout.writeRawWindows (fun s => output s.log) := by
  intro bytes s
  simp only [Stdout.writeRawWindows]
  rw [M.bind_ok (show Sys.write bytes s = _ from rfl)]
  refine ⟨_, _, rfl, _, List.take_sublist ((transferred bytes.length s.writes).getD 0) _, ?_⟩
  simp only
  rw [output_append]; simp [output]

/-- The system accepts all that is written. -/
theorem write_all (s : Sys) (bytes : List Byte) (h : s.writes = []) :
    Sys.write bytes s = (.ok (some bytes.length), { s with log := s.log ++ [.wrote bytes] }) := by
  simp [write, h, transferred]

end Sys

theorem Stdin.feeds : Res.Feeds False Stdin.readRaw Sys.ReadsSucceed Sys.supply := by
  intro n rr s hs
  obtain ⟨k, hk⟩ := Sys.transferred_some (n := n) hs
  simp only [Stdin.readRaw]
  rw [M.bind_ok (Sys.read_ok s n hk)]
  have := Sys.transferred_le hk
  exact ⟨_, _, rfl, by simp; omega, (List.take_append_drop _ _).symm,
    fun e he => hs e (List.mem_of_mem_tail he), fun h => h.elim⟩

theorem Stdin.feeds_progress : Res.Feeds True Stdin.readRaw Sys.ReadsProgress Sys.supply := by
  intro n rr s hs
  obtain ⟨k, hk⟩ := Sys.transferred_some (n := n) (l := s.reads) (fun e he => by
    obtain ⟨k, rfl⟩ := hs e he; simp)
  simp only [Stdin.readRaw]
  rw [M.bind_ok (Sys.read_ok s n hk)]
  have := Sys.transferred_le hk
  refine ⟨_, _, rfl, by simp; omega, (List.take_append_drop _ _).symm,
    fun e he => hs e (List.mem_of_mem_tail he), fun _ h => ?_⟩
  simp only [List.take_eq_nil_iff] at h
  rcases h with h | h
  · exact .inl (Sys.transferred_progress hs hk h)
  · exact .inr h

theorem Stdin.feeds_windows : Res.Feeds False Stdin.readRawWindows Sys.ReadsSucceed Sys.supply := by
  intro n rr s hs
  obtain ⟨k, hk⟩ := Sys.transferred_some (n := n / 2) hs
  have := Sys.transferred_le hk
  simp only [Stdin.readRawWindows, hk]
  exact ⟨_, _, rfl, by simp; omega, (List.take_append_drop _ _).symm,
    fun e he => hs e (List.mem_of_mem_tail he), fun h => h.elim⟩

end Cmp
