import Verif.Proofs.Tied

/-
Properties C41 to C43 and C72: the standard streams.
-/

namespace Cmp

/-- Standard input as constructed, on a system that will supply `supply` as `reads` schedules. -/
def freshStdin (cap : Nat) (supply : List Byte) (reads : List (Option Nat)) : Res Sys :=
  ⟨IoBuffer.make cap, ⟨supply, reads, [], []⟩⟩

/-- Standard output as constructed, on a system that accepts as `writes` schedules. -/
def freshStdout (cap : Nat) (writes : List (Option Nat)) : Res Sys :=
  ⟨IoBuffer.make cap, ⟨[], [], writes, []⟩⟩

/-- What the descriptor has accepted. -/
def Res.accepted (r : Res Sys) : List Byte := Sys.output r.dev.log

/-! ### C41 -/

/-- The claim: after a history of writes, flushes and reads, a read on the tied input first makes
the system accept everything written so far, and only then asks it for input. -/
def FlushesFirst (capIn capOut : Nat) (supply : List Byte) (reads writes : List (Option Nat))
    (ops : List StdOp) (n : Nat) : Prop :=
  ∃ results t g t' flushed asks,
    M.runList Tied.doStd ops
        ⟨IoBuffer.make capIn, IoBuffer.make capOut, ⟨supply, reads, writes, []⟩⟩ = (.ok results, t)
    ∧ Tied.read Stdin.readRaw Stdout.writeRaw n t = (.ok g, t')
    ∧ t'.world.log = t.world.log ++ flushed ++ asks
    ∧ (∀ e ∈ flushed, ∃ bytes, e = .wrote bytes)
    ∧ (∀ e ∈ asks, ∃ m given, e = .asked m given)
    ∧ Sys.output (t.world.log ++ flushed) = ops.flatMap (·.bytes)

/-- If the descriptor accepts one of three bytes, input is asked for although the other two have
not been accepted (they never are, see C43). -/
theorem C41_violated : ¬ ∀ capIn capOut supply reads writes ops n,
    (∀ e ∈ writes, ∃ k, e = some (k + 1)) →
    FlushesFirst capIn capOut supply reads writes ops n := by
  intro h
  obtain ⟨ks, t, g, t', ws, as, e, e', hl, -, ha, ho⟩ :=
    h 4 4 [9] [] [some 1] [.write [1, 2, 3]] 1 (by simp)
  have out_asks : ∀ l : List StdEvent, (∀ e ∈ l, ∃ m given, e = .asked m given) → Sys.output l = [] := by
    intro l hl
    simp only [Sys.output, List.flatMap_eq_nil_iff]
    intro x hx
    obtain ⟨m, k, rfl⟩ := hl x hx
    rfl
  have e0 : (Tied.read Stdin.readRaw Stdout.writeRaw 1
      (M.runList Tied.doStd [.write [1, 2, 3]]
        ⟨IoBuffer.make 4, IoBuffer.make 4, ⟨[9], [], [some 1], []⟩⟩).2).2.world.log =
      [.wrote [1], .asked 4 1] := by decide +kernel
  rw [e] at e0
  dsimp only at e0
  rw [e'] at e0
  dsimp only at e0
  have : Sys.output t'.world.log = [1, 2, 3] := by
    rw [hl, show Sys.output (t.world.log ++ ws ++ as) =
      Sys.output (t.world.log ++ ws) ++ Sys.output as by simp [Sys.output], ho, out_asks as ha]
    rfl
  rw [e0] at this
  exact absurd this (by decide +kernel)

/-- The claim holds for every history if the descriptor accepts all it is given and reading from
standard input does not fail.  Missing: descriptors that accept less (where the claim is wrong) and
histories with failing reads. -/
theorem C41_partial (capIn capOut : Nat) (supply : List Byte) (reads : List (Option Nat))
    (hreads : ∀ e ∈ reads, e ≠ none) (ops : List StdOp) (n : Nat) :
    FlushesFirst capIn capOut supply reads [] ops n := by
  have h0 : Tied.Ready capIn capOut []
      ⟨IoBuffer.make capIn, IoBuffer.make capOut, ⟨supply, reads, [], []⟩⟩ :=
    ⟨Res.writing_make capOut _ [] ⟨rfl, rfl⟩ trivial, Res.fed_make capIn _ hreads⟩
  obtain ⟨ks, t, e, h⟩ := Tied.runStd_ready h0 ops
  obtain ⟨g, t', s, e', -, hg, ⟨-, -, ws, hw, hw'⟩, -, as, ha, ha'⟩ := Tied.read_ready h n
  refine ⟨ks, t, g, t', ws, as, e, e', by rw [ha, hw], hw', ha', ?_⟩
  rw [← hw]
  simpa using hg.1

/-- A prompt without newline is on the terminal before the answer is awaited. -/
example : (Tied.read Stdin.readRaw Stdout.writeRaw 2
      (M.runList Tied.doStd [.write [63, 32], .read 1, .write [33]]
        ⟨IoBuffer.make 4, IoBuffer.make 8, ⟨[1, 2, 3], [some 1], [], []⟩⟩).2).2.world.log =
    [.wrote [63, 32], .asked 4 1, .wrote [33], .asked 4 2] := by decide +kernel

/-! ### C42 -/

/-- Whatever portions the system hands out (without error), reading from standard input, with
requests of any size and with any buffer, gives the supply in order: returned bytes, then bytes
still in the buffer, then bytes not yet supplied.  Those in the buffer are what the next reads
return, without asking the system. -/
theorem C42_stdin_in_order (cap : Nat) (supply : List Byte) (reads : List (Option Nat))
    (hreads : ∀ e ∈ reads, e ≠ none) (ns : List Nat) :
    ∃ outs r held, M.runList (Res.read Stdin.readRaw) ns (freshStdin cap supply reads) =
        (.ok outs, r)
      ∧ (outs.map (·.bytes)).flatten ++ held ++ r.dev.supply = supply
      ∧ List.Forall₂ (fun n g => g.count = g.bytes.length ∧ g.count ≤ n) ns outs
      ∧ held.length ≤ cap
      ∧ ∀ n, 0 < n → n ≤ held.length → ∃ b,
          Res.read Stdin.readRaw n r = (.ok ⟨held.take n, n⟩, ⟨b, r.dev⟩) := by
  obtain ⟨outs, r, e, h, h1, h2⟩ := Res.reads_fed Stdin.feeds
    (Res.fed_make cap (⟨supply, reads, [], []⟩ : Sys) hreads) ns
  refine ⟨outs, r, r.held, e, ?_, h2, Res.held_length h, ?_⟩
  · rw [List.append_assoc, ← h1]
    simp [Res.held, IoBuffer.make]
  · intro n hn hle
    cases hd : r.buf.readDirty with
    | true => simp [Res.held, hd] at hle; omega
    | false =>
      have hl := h.loaded hd
      have hlen := h.length
      have hh : r.held = r.buf.unread := by simp [Res.held, hd]
      rw [hh] at hle ⊢
      have hul := r.buf.unread_length (by omega)
      rw [Res.read_buffered _ _ _ (by omega), Res.readBuffered_clean _ _ _ hd,
        Res.readLoaded_within _ _ _ (by omega) (by omega)]
      exact ⟨_, rfl⟩

example : (∀ e ∈ [some 2, some 0, some 1], e ≠ none)
    ∧ (M.runList (Res.read Stdin.readRaw) [1, 4, 3, 9, 1]
        (freshStdin 3 [1, 2, 3, 4, 5, 6, 7, 8, 9] [some 2, some 0, some 1])).1 =
      .ok [⟨[1], 1⟩, ⟨[2], 1⟩, ⟨[3], 1⟩, ⟨[4, 5, 6, 7, 8, 9], 6⟩, ⟨[], 0⟩] := by decide +kernel

/-- The same on a Windows console delivering two-byte units. -/
theorem C42_stdin_in_order_windows (cap : Nat) (supply : List Byte) (reads : List (Option Nat))
    (hreads : ∀ e ∈ reads, e ≠ none) (ns : List Nat) :
    ∃ outs r held, M.runList (Res.read Stdin.readRawWindows) ns (freshStdin cap supply reads) =
        (.ok outs, r)
      ∧ (outs.map (·.bytes)).flatten ++ held ++ r.dev.supply = supply
      ∧ List.Forall₂ (fun n g => g.count = g.bytes.length ∧ g.count ≤ n) ns outs
      ∧ held.length ≤ cap := by
  obtain ⟨outs, r, e, h, h1, h2⟩ := Res.reads_fed Stdin.feeds_windows
    (Res.fed_make cap (⟨supply, reads, [], []⟩ : Sys) hreads) ns
  refine ⟨outs, r, r.held, e, ?_, h2, Res.held_length h⟩
  rw [List.append_assoc, ← h1]
  simp [Res.held, IoBuffer.make]

/-- If the system hands out at least one byte at a time, a read for at least one byte comes back
empty only when everything has been read. -/
theorem C42_stdin_progress (cap : Nat) (supply : List Byte) (reads : List (Option Nat))
    (hreads : ∀ e ∈ reads, ∃ k, e = some (k + 1)) (ns : List Nat) (n : Nat) (hn : 0 < n) :
    ∃ outs r g r', M.runList (Res.read Stdin.readRaw) ns (freshStdin cap supply reads) =
        (.ok outs, r)
      ∧ Res.read Stdin.readRaw n r = (.ok g, r')
      ∧ (g.count = 0 → (outs.map (·.bytes)).flatten = supply) := by
  obtain ⟨outs, r, e, h, h1, -⟩ := Res.reads_fed Stdin.feeds_progress
    (Res.fed_make cap (⟨supply, reads, [], []⟩ : Sys) hreads) ns
  obtain ⟨g, r', e', -, -, -, hp⟩ := Res.read_fed Stdin.feeds_progress h n
  refine ⟨outs, r, _, r', e, e', fun h0 => ?_⟩
  have hg : g = [] := List.eq_nil_of_length_eq_zero h0
  rcases hp trivial hg with h | h
  · omega
  · rw [h, List.append_nil] at h1
    rw [← h1]
    simp [Res.held, IoBuffer.make]

example : (∀ e ∈ [some 2, some 1], ∃ k, e = some (k + 1)) ∧ (0 < 7) :=
  ⟨by simp, by decide⟩

/-! ### C43 -/

/-- The claim: after a flush the descriptor has accepted every byte written. -/
def DeliversAll (cap : Nat) (writes : List (Option Nat)) (ops : List OutOp) : Prop :=
  ∃ ks r r', M.runList (Res.doOut Stdout.writeRaw) ops (freshStdout cap writes) = (.ok ks, r)
    ∧ Res.flush Stdout.writeRaw r = (.ok (), r')
    ∧ r'.accepted = ops.flatMap (·.bytes)

/-- If the descriptor accepts one of three bytes, the other two are dropped. -/
theorem C43_violated : ¬ ∀ cap writes ops, (∀ e ∈ writes, ∃ k, e = some (k + 1)) →
    DeliversAll cap writes ops := by
  intro h
  obtain ⟨ks, r, r', e, e', q⟩ := h 4 [some 1] [.write [1, 2, 3]] (by simp)
  have e0 : M.runList (Res.doOut Stdout.writeRaw) [.write [1, 2, 3]] (freshStdout 4 [some 1]) =
      (.ok [3], ⟨⟨[1, 2, 3, 0], 0, 3, true, true⟩, ⟨[], [], [some 1], []⟩⟩) := by decide +kernel
  rw [e0] at e
  simp only [Prod.mk.injEq] at e
  rw [← e.2] at e'
  have e1 : Res.flush Stdout.writeRaw ⟨⟨[1, 2, 3, 0], 0, 3, true, true⟩, ⟨[], [], [some 1], []⟩⟩ =
      (.ok (), ⟨⟨[1, 2, 3, 0], 0, 0, true, false⟩, ⟨[], [], [], [.wrote [1]]⟩⟩) := by
    decide +kernel
  rw [e1] at e'
  simp only [Prod.mk.injEq, true_and] at e'
  rw [← e'] at q
  exact absurd q (by decide +kernel)

/-- If the descriptor accepts all it is given, every byte is delivered.  In every other case too
nothing is invented, duplicated or reordered: what it has accepted is a subsequence of what was
written.  Missing: that nothing is lost when the descriptor accepts less than it is given, which
the code gets wrong. -/
theorem C43_partial (cap : Nat) (ops : List OutOp) :
    DeliversAll cap [] ops
    ∧ ∀ writes, ∃ ks r r',
        M.runList (Res.doOut Stdout.writeRaw) ops (freshStdout cap writes) = (.ok ks, r)
        ∧ Res.flush Stdout.writeRaw r = (.ok (), r')
        ∧ r.accepted.Sublist (ops.flatMap (·.bytes))
        ∧ r'.accepted.Sublist (ops.flatMap (·.bytes)) := by
  constructor
  · obtain ⟨r, e, h⟩ := Res.runOut_writing Stdout.takes (Res.writing_make cap
      ⟨[], [], [], []⟩ [] ⟨rfl, rfl⟩ trivial) ops (fun _ _ => trivial)
    obtain ⟨d, e', -, q⟩ := Res.flush_writing Stdout.takes h trivial
    exact ⟨_, r, _, e, e', by simpa [Res.accepted] using q.1⟩
  · intro writes
    have h0 : Res.Passing cap (fun s => Sys.output s.log) (freshStdout cap writes) [] :=
      ⟨by simp [freshStdout, IoBuffer.make], by simp [freshStdout, IoBuffer.make], fun _ => rfl,
        by simp [freshStdout, IoBuffer.make, IoBuffer.pending, Sys.output]⟩
    obtain ⟨ks, r, e, h⟩ := Res.runOut_passing Sys.write_takesSome h0 ops
    obtain ⟨d, e', h'⟩ := Res.flush_passing Sys.write_takesSome h
    refine ⟨ks, r, _, e, e', ?_, ?_⟩
    · exact (List.sublist_append_left _ _).trans (by simpa [Res.accepted] using h.sublist)
    · exact (List.sublist_append_left _ _).trans (by simpa [Res.accepted] using h'.sublist)

example : DeliversAll 2 [] [.write [1, 2, 3], .write [4], .flush, .write [5]] :=
  (C43_partial _ _).1

/-! ### C72 -/

/-- The claim: when the system reports an error, `read` does not report data. -/
def ReportsNoData (cap n : Nat) (supply : List Byte) (reads : List (Option Nat)) : Prop :=
  ∃ r, Res.read Stdin.readRaw n (freshStdin cap supply (none :: reads)) = (.ok ⟨[], 0⟩, r)

/-- With a buffer, a read of one byte returns a zero byte that nobody typed. -/
theorem C72_violated : ¬ ∀ cap n supply reads, ReportsNoData cap n supply reads := by
  intro h
  obtain ⟨r, e⟩ := h 2 1 [] []
  have : (Res.read Stdin.readRaw 1 (freshStdin 2 [] [none])).1 = .ok ⟨[0], 1⟩ := by decide +kernel
  rw [e] at this
  change Outcome.ok _ = _ at this
  exact absurd this (by decide +kernel)

/-- Not one unlucky case: with a buffer every first read of up to the capacity that meets an error
returns as many zero bytes as asked for; without a buffer it claims 2^64 - 1 bytes. -/
theorem C72_violated_always (cap n : Nat) (supply : List Byte) (reads : List (Option Nat))
    (hn : n ≤ cap) (hc : cap < 2 ^ 64 - 1) :
    (0 < cap → (Res.read Stdin.readRaw n (freshStdin cap supply (none :: reads))).1 =
      .ok ⟨List.replicate n 0, n⟩)
    ∧ ∀ m, (Res.read Stdin.readRaw m (freshStdin 0 supply (none :: reads))).1 =
        .ok ⟨[], 2 ^ 64 - 1⟩ := by
  constructor
  · intro h0
    have key : ∀ b : IoBuffer, b.data = List.replicate cap 0 → b.readDirty = true →
        (Res.read Stdin.readRaw n ⟨b, ⟨supply, none :: reads, [], []⟩⟩).1 =
          .ok ⟨List.replicate n 0, n⟩ := by
      intro b hb hd
      rw [Res.read_buffered _ _ _ (show 0 < b.data.length by simp [hb, h0])]
      have hraw : Stdin.readRaw b.data.length .fillBuffer ⟨supply, none :: reads, [], []⟩ =
          (.ok ⟨[], 2 ^ 64 - 1⟩, ⟨supply, reads, [], [.asked b.data.length 0]⟩) := rfl
      rw [Res.readBuffered_dirty hd hraw]
      generalize 2 ^ 64 - 1 = big at *
      have h1 : ¬ ((Res.filled b ⟨[], big⟩).position + n > (Res.filled b ⟨[], big⟩).size) := by
        simp only [Res.filled]; omega
      have h2 : ¬ (n > cap) := by omega
      simp only [Res.readLoaded]
      rw [M.bind_ok (M.get_apply _), if_neg h1]
      simp only [Res.filled]
      have : Res.bufRead n (⟨⟨([] : List Byte).take b.data.length ++ b.data.drop ([] : List Byte).length,
          big, 0, false, b.writeDirty⟩, ⟨supply, reads, [], [.asked b.data.length 0]⟩⟩ : Res Sys) =
          (.ok (List.replicate n 0), ⟨⟨b.data, big, n, false, b.writeDirty⟩,
            ⟨supply, reads, [], [.asked b.data.length 0]⟩⟩) := by
        have h3 : ¬ (n > big) := by omega
        simp [Res.bufRead, IoBuffer.read, hb, h2, h3, Nat.min_eq_left hn]
      rw [M.bind_ok this]
      simp
    exact key _ (by simp [IoBuffer.make]) rfl
  · intro m
    rw [Res.read_unbuffered _ _ _ (by simp [freshStdin, IoBuffer.make])]
    rfl

example : (3 ≤ 4096) ∧ (4096 < 2 ^ 64 - 1) := by decide

end Cmp
