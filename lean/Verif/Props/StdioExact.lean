import Verif.Props.Stdio
import Verif.Proofs.Batches

/-
Properties C41, C43 and C72 in full: what the standard streams make of every behaviour of the system.
-/

namespace Cmp

namespace Spec

/-- What a system that answers its calls as `schedule` says accepts of `batches`, one call for each:
the first bytes of each.  A call that fails accepts nothing, one behind the end of the schedule
accepts everything. -/
def acceptedOf : List (Option Nat) → List (List Byte) → List Byte
  | _, [] => []
  | [], b :: bs => b ++ acceptedOf [] bs
  | none :: schedule, _ :: bs => acceptedOf schedule bs
  | some k :: schedule, b :: bs => b.take k ++ acceptedOf schedule bs

/-- The system accepts each of `batches` completely. -/
def AllAccepted : List (Option Nat) → List (List Byte) → Prop
  | _, [] => True
  | [], _ => True
  | none :: schedule, b :: bs => b = [] ∧ AllAccepted schedule bs
  | some k :: schedule, b :: bs => b.length ≤ k ∧ AllAccepted schedule bs

end Spec

open Cmp.Spec (acceptedOf AllAccepted batches)

theorem acceptedOf_nil (bs : List (List Byte)) : acceptedOf [] bs = bs.flatten := by
  induction bs with
  | nil => rfl
  | cons b bs ih => rw [acceptedOf, ih, List.flatten_cons]

theorem acceptedOf_snoc (bs : List (List Byte)) (schedule : List (Option Nat)) (b : List Byte) :
    acceptedOf schedule (bs ++ [b])
      = acceptedOf schedule bs ++ b.take ((Sys.transferred b.length (schedule.drop bs.length)).getD 0) := by
  induction bs generalizing schedule with
  | nil =>
    match schedule with
    | [] => simp [acceptedOf, Sys.transferred]
    | none :: s => simp [acceptedOf, Sys.transferred]
    | some k :: s => simp [acceptedOf, Sys.transferred]
  | cons c bs ih =>
    match schedule with
    | [] =>
      rw [List.cons_append, acceptedOf, ih, acceptedOf]
      simp
    | none :: s =>
      rw [List.cons_append, acceptedOf, ih, acceptedOf]
      simp
    | some k :: s =>
      rw [List.cons_append, acceptedOf, ih, acceptedOf]
      simp

theorem acceptedOf_sublist (schedule : List (Option Nat)) (bs : List (List Byte)) :
    (acceptedOf schedule bs).length ≤ bs.flatten.length
      ∧ (acceptedOf schedule bs = bs.flatten ↔ AllAccepted schedule bs) := by
  induction bs generalizing schedule with
  | nil => cases schedule <;> simp [acceptedOf, AllAccepted]
  | cons b bs ih =>
    match schedule with
    | [] => rw [acceptedOf_nil]; simp [AllAccepted]
    | none :: s =>
      obtain ⟨h1, h2⟩ := ih s
      rw [acceptedOf, AllAccepted, List.flatten_cons]
      refine ⟨by rw [List.length_append]; omega, ?_⟩
      constructor
      · intro h
        have := congrArg List.length h
        rw [List.length_append] at this
        have hb : b = [] := List.eq_nil_of_length_eq_zero (by omega)
        subst hb
        exact ⟨rfl, h2.mp (by simpa using h)⟩
      · rintro ⟨rfl, h⟩
        simpa using h2.mpr h
    | some k :: s =>
      obtain ⟨h1, h2⟩ := ih s
      rw [acceptedOf, AllAccepted, List.flatten_cons]
      refine ⟨by simp only [List.length_append, List.length_take]; omega, ?_⟩
      constructor
      · intro h
        have := congrArg List.length h
        rw [List.length_append, List.length_append, List.length_take] at this
        have hb : b.length ≤ k := by omega
        rw [List.take_of_length_le hb] at h
        exact ⟨hb, h2.mp (List.append_cancel_left h)⟩
      · rintro ⟨hb, h⟩
        rw [List.take_of_length_le hb, h2.mpr h]

/-- An output resource that has offered `batches` to a system with the schedule `writes` and keeps
`pending`. -/
structure Offering (cap : Nat) (writes : List (Option Nat)) (batches : List (List Byte))
    (pending : Option (List Byte)) (r : Res Sys) : Prop where
  length : r.buf.data.length = cap
  position : r.buf.position = (pending.getD []).length
  fits : (pending.getD []).length ≤ cap
  dirty : r.buf.writeDirty = pending.isSome
  data : r.buf.data.take r.buf.position = pending.getD []
  left : r.dev.writes = writes.drop batches.length
  got : Sys.output r.dev.log = acceptedOf writes batches

theorem offering_raw {cap : Nat} {writes : List (Option Nat)} {batches : List (List Byte)}
    {pending : Option (List Byte)} {r : Res Sys} (h : Offering cap writes batches pending r)
    (b : List Byte) :
    ∃ n d, Stdout.writeRaw b r.dev = (.ok n, d) ∧ n ≤ b.length
      ∧ d.writes = writes.drop (batches ++ [b]).length
      ∧ Sys.output d.log = acceptedOf writes (batches ++ [b]) := by
  refine ⟨(Sys.transferred b.length r.dev.writes).getD 0, (Sys.write b r.dev).2, ?_, ?_, ?_, ?_⟩
  · cases ht : Sys.transferred b.length r.dev.writes <;>
      simp [Stdout.writeRaw, M.bind_apply, Sys.write, ht]
  · cases hw : r.dev.writes with
    | nil => simp [Sys.transferred]
    | cons e w => cases e <;> simp [Sys.transferred]; omega
  · simp only [Sys.write, h.left]
    rw [List.tail_drop]
    simp
  · have := h.got
    simp only [Sys.write, Sys.output, List.flatMap_append] at this ⊢
    rw [this, acceptedOf_snoc, h.left]
    simp

theorem offering_flush {cap : Nat} {writes : List (Option Nat)} {batches : List (List Byte)}
    {pending : Option (List Byte)} {r : Res Sys} (h : Offering cap writes batches pending r) :
    ∃ r', Res.flush Stdout.writeRaw r = (.ok (), r')
      ∧ Offering cap writes (batches ++ pending.toList) none r' := by
  cases pending with
  | none =>
    refine ⟨r, Res.flush_clean _ _ (by simpa using h.dirty), ?_⟩
    simpa using h
  | some p =>
    obtain ⟨n, d, e, -, h1, h2⟩ := offering_raw h p
    have hd := h.data
    simp only [Option.getD_some] at hd
    refine ⟨_, Res.flush_dirty (by simpa using h.dirty) (by
      have := h.position; have := h.fits; have := h.length; omega) (by rw [hd]; exact e), ?_⟩
    exact ⟨h.length, by simp, by simp, by simp, by simp, h1, h2⟩

/-- The batches, and what is kept, after an operation. -/
theorem offering_step {cap : Nat} {writes : List (Option Nat)} {done : List (List Byte)}
    {pending : Option (List Byte)} {r : Res Sys} (h : Offering cap writes done pending r)
    (op : OutOp) (hp : cap = 0 → pending = none) :
    ∃ n r' more pending', Res.doOut Stdout.writeRaw op r = (.ok n, r')
      ∧ Offering cap writes (done ++ more) pending' r' ∧ (cap = 0 → pending' = none)
      ∧ ∀ ops, batches cap pending (op :: ops) = more ++ batches cap pending' ops := by
  cases op with
  | flush =>
    obtain ⟨r', e, h'⟩ := offering_flush h
    exact ⟨0, r', _, _, by simp only [Res.doOut]; rw [M.bind_ok e]; rfl, h', fun _ => rfl,
      fun ops => rfl⟩
  | write bytes =>
    simp only [Res.doOut]
    by_cases hc : cap = 0
    · have hpn := hp hc
      subst hpn
      obtain ⟨n, d, e, -, h1, h2⟩ := offering_raw h bytes
      refine ⟨n, { r with dev := d }, [bytes], none, ?_,
        ⟨h.length, h.position, h.fits, h.dirty, h.data, h1, h2⟩, fun _ => rfl,
        fun ops => by rw [batches, if_pos hc]; rfl⟩
      simp only [Res.write]
      rw [M.bind_ok (M.get_apply r), if_neg (by rw [IoBuffer.capacity, h.length]; omega)]
      exact Res.onDev_ok e
    · have hwr : Res.write Stdout.writeRaw bytes r = Res.writeBuffered Stdout.writeRaw bytes r := by
        simp only [Res.write]
        rw [M.bind_ok (M.get_apply r), if_pos (by rw [IoBuffer.capacity, h.length]; omega)]
      by_cases hover : (pending.getD []).length + bytes.length > cap
      · by_cases hbig : bytes.length > cap
        · obtain ⟨r1, e1, h1⟩ := offering_flush h
          obtain ⟨n, d, e, -, h2, h3⟩ := offering_raw h1 bytes
          rw [List.append_assoc] at h2 h3
          refine ⟨n, { r1 with dev := d }, pending.toList ++ [bytes], none, ?_,
            ⟨h1.length, h1.position, h1.fits, h1.dirty, h1.data, h2, h3⟩, fun _ => rfl,
            fun ops => by rw [batches, if_neg hc, if_pos hover, if_pos hbig]; simp⟩
          rw [hwr]
          simp only [Res.writeBuffered]
          rw [M.bind_ok (M.get_apply r), if_pos (by
            rw [IoBuffer.capacity, h.length, h.position]; omega), M.bind_ok e1,
            if_pos (by rw [IoBuffer.capacity, h.length]; omega)]
          exact Res.onDev_ok e
        · obtain ⟨r1, e1, h1⟩ := offering_flush h
          have hp0 : r1.buf.position = 0 := by simpa using h1.position
          have hl1 := h1.length
          have e2 := Res.bufWrite_ok r1 bytes (by omega)
          have e3 : Res.write Stdout.writeRaw bytes r = Res.bufWrite bytes r1 := by
            rw [hwr]
            simp only [Res.writeBuffered]
            rw [M.bind_ok (M.get_apply r), if_pos (by
              rw [IoBuffer.capacity, h.length, h.position]; omega), M.bind_ok e1,
              if_neg (by rw [IoBuffer.capacity, h.length]; omega)]
          refine ⟨_, _, pending.toList, some bytes, e3.trans e2,
            ⟨?_, by simp [hp0], by simp; omega, by simp, ?_, h1.left, h1.got⟩, fun h => absurd h hc,
            fun ops => by rw [batches, if_neg hc, if_pos hover, if_neg hbig]⟩
          · simp [hp0]; omega
          · simp [hp0]
      · have hpos := h.position
        have hl := h.length
        have e2 := Res.bufWrite_ok r bytes (by omega)
        have e3 : Res.write Stdout.writeRaw bytes r = Res.bufWrite bytes r := by
          rw [hwr]
          simp only [Res.writeBuffered]
          rw [M.bind_ok (M.get_apply r), if_neg (by
            rw [IoBuffer.capacity, h.length, h.position]; omega)]
        have hd := h.data
        refine ⟨_, _, [], some (pending.getD [] ++ bytes), e3.trans e2,
          ⟨?_, by simp [hpos], by simp; omega, by simp, ?_, by simpa using h.left,
            by simpa using h.got⟩, fun h => absurd h hc,
          fun ops => by rw [batches, if_neg hc, if_neg hover]; rfl⟩
        · simp; omega
        · simp only [Option.getD_some]
          rw [hd, List.take_append_of_le_length (by simp; omega), List.take_of_length_le (by
            simp; omega)]

theorem offering_run {cap : Nat} {writes : List (Option Nat)} (ops : List OutOp) :
    ∀ {done : List (List Byte)} {pending : Option (List Byte)} {r : Res Sys},
    Offering cap writes done pending r → (cap = 0 → pending = none) →
    ∃ ns r' r'', M.runList (Res.doOut Stdout.writeRaw) ops r = (.ok ns, r')
      ∧ Res.flush Stdout.writeRaw r' = (.ok (), r'')
      ∧ Offering cap writes (done ++ batches cap pending ops) none r'' := by
  induction ops with
  | nil =>
    intro done pending r h hp
    obtain ⟨r', e, h'⟩ := offering_flush h
    exact ⟨[], r, r', rfl, e, h'⟩
  | cons op ops ih =>
    intro done pending r h hp
    obtain ⟨n, r1, more, p1, x1, h1, hp1, hb⟩ := offering_step h op hp
    obtain ⟨ns, r2, r3, x2, x3, h2⟩ := ih h1 hp1
    rw [List.append_assoc, ← hb] at h2
    exact ⟨n :: ns, r2, r3, M.runList_cons x1 x2, x3, h2⟩

/-- C43 for every behaviour of the system.  What a program writes and flushes is cut into batches in
a way that does not depend on the system; each is offered to the system in one call, and what is
not accepted in that call is dropped.  So everything arrives just if each call accepts all it is
offered. -/
theorem C43_exact (cap : Nat) (ops : List OutOp) (writes : List (Option Nat)) :
    (batches cap none ops).flatten = ops.flatMap (·.bytes)
      ∧ ∃ ks r r',
        M.runList (Res.doOut Stdout.writeRaw) ops (freshStdout cap writes) = (.ok ks, r)
        ∧ Res.flush Stdout.writeRaw r = (.ok (), r')
        ∧ r'.accepted = acceptedOf writes (batches cap none ops)
        ∧ (r'.accepted = ops.flatMap (·.bytes) ↔ AllAccepted writes (batches cap none ops)) := by
  have hall : (batches cap none ops).flatten = ops.flatMap (·.bytes) := by
    rw [Spec.batches_flatten _ _ _ (fun _ => rfl)]
    rfl
  obtain ⟨ks, r, r', x, x', h'⟩ := offering_run ops (cap := cap) (writes := writes) (done := [])
    (pending := none) (r := freshStdout cap writes)
    ⟨by simp [freshStdout, IoBuffer.make], by simp [freshStdout, IoBuffer.make], by simp,
      by simp [freshStdout, IoBuffer.make], by simp [freshStdout, IoBuffer.make], by simp [freshStdout],
      by cases writes <;> simp [freshStdout, Sys.output, acceptedOf]⟩ (fun _ => rfl)
  have hg := h'.got
  rw [List.nil_append] at hg
  refine ⟨hall, ks, r, r', x, x', hg, ?_⟩
  rw [← hall, ← (acceptedOf_sublist writes _).2, ← hg]
  rfl

/-- Five bytes through a buffer of four, with a system that accepts two bytes and then fails. -/
example : (M.runList (Res.doOut Stdout.writeRaw) [.write [1, 2, 3], .write [4, 5]]
      (freshStdout 4 [some 2, none])).1 = .ok [3, 2]
    ∧ acceptedOf [some 2, none] [[1, 2, 3], [4, 5]] = [1, 2]
    ∧ ¬ AllAccepted [some 2, none] [[1, 2, 3], [4, 5]] := by
  refine ⟨by decide +kernel, by decide, ?_⟩
  simp [AllAccepted]

/-! ### C41 -/

/-- What an operation on the standard streams means for standard output: reading flushes it. -/
def StdOp.toOut : StdOp → OutOp
  | .write bytes => .write bytes
  | .flush => .flush
  | .read _ => .flush

/-- Reading the input does nothing but ask. -/
def OnlyAsks (s s' : Sys) : Prop :=
  s'.writes = s.writes ∧ ∃ asks, s'.log = s.log ++ asks ∧ ∀ e ∈ asks, ∃ m given, e = .asked m given

theorem OnlyAsks.refl (s : Sys) : OnlyAsks s s := ⟨rfl, [], by simp, by simp⟩

theorem OnlyAsks.trans {s s' s'' : Sys} (h : OnlyAsks s s') (h' : OnlyAsks s' s'') : OnlyAsks s s'' := by
  obtain ⟨h1, as, h2, h3⟩ := h
  obtain ⟨g1, bs, g2, g3⟩ := h'
  refine ⟨g1.trans h1, as ++ bs, by rw [g2, h2, List.append_assoc], fun e he => ?_⟩
  rcases List.mem_append.mp he with he | he
  · exact h3 e he
  · exact g3 e he

/-- Whatever is true of a device and all its successors under `raw` is true after a read. -/
theorem read_related {δ : Type} {raw : Nat → ReadRequest → M δ ReadResult} {R : δ → δ → Prop}
    (hr : ∀ d, R d d) (ht : ∀ {a b c}, R a b → R b c → R a c) (hs : ∀ n rr d, R d (raw n rr d).2)
    (n : Nat) (r : Res δ) : R r.dev (Res.read raw n r).2.dev := by
  have hbind : ∀ {α β : Type} (x : M (Res δ) α) (f : α → M (Res δ) β),
      (∀ r, R r.dev (x r).2.dev) → (∀ a r, R r.dev (f a r).2.dev) → ∀ r, R r.dev ((x >>= f) r).2.dev := by
    intro α β x f hx hf r
    rw [M.bind_apply]
    have := hx r
    rcases hxr : x r with ⟨_ | _ | _ | _ | _, r'⟩ <;> rw [hxr] at this
    · exact ht this (hf _ _)
    all_goals exact this
  have honDev : ∀ {α : Type} (x : M δ α), (∀ d, R d (x d).2) → ∀ r : Res δ, R r.dev (Res.onDev x r).2.dev :=
    fun x hx r => hx r.dev
  have hbuf : ∀ k, ∀ r : Res δ, R r.dev (Res.bufRead k r).2.dev := by
    intro k r
    simp only [Res.bufRead]
    rcases r.buf.read k with _ | _ | _ | _ | _ <;> exact hr _
  have hfill : ∀ r : Res δ, R r.dev (Res.fill raw r).2.dev :=
    hbind _ _ (fun r => hr _) fun a => hbind _ _ (honDev _ (hs _ _)) fun g =>
      hbind _ _ (fun r => hr _) fun _ => hbind _ _ (fun r => hr _) fun _ =>
        hbind _ _ (fun r => hr _) fun _ r => hr _
  have hloaded : ∀ r : Res δ, R r.dev (Res.readLoaded raw n r).2.dev := by
    refine hbind _ _ (fun r => hr _) fun a => ?_
    split
    · split
      · exact fun r => hr _
      · refine hbind _ _ ?_ fun first => ?_
        · simp only [Res.drain]
          split
          · exact hbuf _
          · exact fun r => hr _
        · by_cases hbig : n - first.length > a.buf.capacity
          · simp only [if_pos hbig]
            exact hbind _ _ (honDev _ (hs _ _)) fun _ r => hr _
          · simp only [if_neg hbig]
            exact hbind _ _ hfill fun _ => hbind _ _ (hbuf _) fun _ r => hr _
    · exact hbind _ _ (hbuf _) fun _ r => hr _
  refine hbind _ _ (fun r => hr _) (fun a => ?_) r
  split
  · refine hbind _ _ (fun r => hr _) fun b => ?_
    split
    · exact hbind _ _ hfill fun _ => hloaded
    · exact hloaded
  · exact honDev _ (hs _ _)

theorem stdin_onlyAsks (n : Nat) (r : Res Sys) : OnlyAsks r.dev (Res.read Stdin.readRaw n r).2.dev := by
  refine read_related OnlyAsks.refl OnlyAsks.trans (fun k rr d => ?_) n r
  have : (Stdin.readRaw k rr d).2 = (Sys.read k d).2 := by
    simp only [Stdin.readRaw, M.bind_apply, Sys.read]
    cases Sys.transferred k d.reads <;> rfl
  rw [this]
  exact ⟨rfl, [.asked k (((Sys.transferred k d.reads).map d.supply.take).map List.length |>.getD 0)],
    rfl, by simp⟩

theorem Offering.asked {cap : Nat} {writes : List (Option Nat)} {done : List (List Byte)}
    {pending : Option (List Byte)} {b : IoBuffer} {s s' : Sys} (h : Offering cap writes done pending ⟨b, s⟩)
    (ha : OnlyAsks s s') : Offering cap writes done pending ⟨b, s'⟩ := by
  obtain ⟨h1, asks, h2, h3⟩ := ha
  refine ⟨h.length, h.position, h.fits, h.dirty, h.data, by rw [← h.left]; exact h1, ?_⟩
  rw [← h.got]
  have : Sys.output asks = [] := by
    rw [Sys.output, List.flatMap_eq_nil_iff]
    intro e he
    obtain ⟨m, g, rfl⟩ := h3 e he
    rfl
  have happ : Sys.output (s.log ++ asks) = Sys.output s.log ++ Sys.output asks := by
    simp [Sys.output]
  simp only [h2]
  rw [happ, this, List.append_nil]

/-- C41 for every behaviour of the system, also if calls fail: whenever a program has come to a read,
what is pending for the output is offered to the system, in one call and before anything is asked
for; so everything written has been accepted by then just if each call accepted all it was
offered. -/
theorem C41_exact (capIn capOut : Nat) (supply : List Byte) (reads writes : List (Option Nat))
    (ops : List StdOp) (n : Nat) (results : List Nat) (t : Tied Sys)
    (hrun : M.runList Tied.doStd ops
      ⟨IoBuffer.make capIn, IoBuffer.make capOut, ⟨supply, reads, writes, []⟩⟩ = (.ok results, t)) :
    ∃ flushed asks,
      (Tied.read Stdin.readRaw Stdout.writeRaw n t).2.world.log = t.world.log ++ flushed ++ asks
      ∧ flushed.length ≤ 1 ∧ (∀ e ∈ flushed, ∃ bytes, e = .wrote bytes)
      ∧ (∀ e ∈ asks, ∃ m given, e = .asked m given)
      ∧ Sys.output (t.world.log ++ flushed)
          = acceptedOf writes (batches capOut none (ops.map StdOp.toOut))
      ∧ (Sys.output (t.world.log ++ flushed) = ops.flatMap (·.bytes) ↔
          AllAccepted writes (batches capOut none (ops.map StdOp.toOut))) := by
  have hall : (batches capOut none (ops.map StdOp.toOut)).flatten = ops.flatMap (·.bytes) := by
    rw [Spec.batches_flatten _ _ _ (fun _ => rfl)]
    simp only [Option.getD_none, List.nil_append, List.flatMap_map]
    congr 1
    funext op
    cases op <;> rfl
  have flush : ∀ {done : List (List Byte)} {pending : Option (List Byte)} {t : Tied Sys},
      Offering capOut writes done pending ⟨t.out, t.world⟩ →
      ∃ t', Tied.flush Stdout.writeRaw t = (.ok (), t') ∧ t'.inp = t.inp
        ∧ Offering capOut writes (done ++ pending.toList) none ⟨t'.out, t'.world⟩ := by
    intro done pending t h
    obtain ⟨r', e, h'⟩ := offering_flush h
    refine ⟨{ t with out := r'.buf, world := r'.dev }, ?_, rfl, h'⟩
    simp only [Tied.flush, Tied.onOut, e]
  have run : ∀ (ops : List StdOp) (done : List (List Byte)) (pending : Option (List Byte))
      (t t' : Tied Sys) (results : List Nat), Offering capOut writes done pending ⟨t.out, t.world⟩ →
      (capOut = 0 → pending = none) → M.runList Tied.doStd ops t = (.ok results, t') →
      ∃ done' pending', Offering capOut writes done' pending' ⟨t'.out, t'.world⟩
        ∧ done ++ batches capOut pending (ops.map StdOp.toOut) = done' ++ pending'.toList := by
    intro ops
    induction ops with
    | nil =>
      intro done pending t t' results h hp e
      simp only [M.runList, M.pure_apply, Prod.mk.injEq] at e
      rw [← e.2]
      exact ⟨done, pending, h, rfl⟩
    | cons op ops ih =>
      intro done pending t t' results h hp e
      have step : ∃ n t1 more p1, Tied.doStd op t = (.ok n, t1)
          ∧ Offering capOut writes (done ++ more) p1 ⟨t1.out, t1.world⟩ ∧ (capOut = 0 → p1 = none)
          ∧ ∀ ops, batches capOut pending (op.toOut :: ops) = more ++ batches capOut p1 ops := by
        have hok : ∃ n t1, Tied.doStd op t = (.ok n, t1) := by
          simp only [M.runList, M.bind_apply] at e
          rcases hd : Tied.doStd op t with ⟨_ | _ | _ | _ | _, t1⟩ <;> rw [hd] at e <;>
            first | exact ⟨_, _, rfl⟩ | simp at e
        cases op with
        | write bytes =>
          obtain ⟨k, r', more, p', x, h', hp', hb⟩ := offering_step h (.write bytes) hp
          refine ⟨k, { t with out := r'.buf, world := r'.dev }, more, p', ?_, h', hp', hb⟩
          change Res.write Stdout.writeRaw bytes _ = _ at x
          simp only [Tied.doStd, Tied.write, Tied.onOut, x]
        | flush =>
          obtain ⟨t1, x, -, h'⟩ := flush h
          exact ⟨0, t1, _, none, by simp only [Tied.doStd]; rw [M.bind_ok x]; rfl, h', fun _ => rfl,
            fun ops => rfl⟩
        | read m =>
          obtain ⟨k, t2, hk⟩ := hok
          obtain ⟨t1, x, hi, h'⟩ := flush h
          refine ⟨k, t2, pending.toList, none, hk, ?_, fun _ => rfl, fun ops => rfl⟩
          have hx : Tied.onOut (Res.flush Stdout.writeRaw) t = (.ok (), t1) := x
          have e2 : t2 = (Tied.onIn (Res.read Stdin.readRaw m) t1).2 := by
            simp only [Tied.doStd, Tied.read] at hk
            rw [M.bind_apply, M.bind_ok hx] at hk
            rcases hd : Tied.onIn (Res.read Stdin.readRaw m) t1 with ⟨_ | _ | _ | _ | _, t3⟩ <;>
              rw [hd] at hk <;> simp at hk ⊢
            exact hk.2.symm
          rw [e2]
          exact h'.asked (stdin_onlyAsks m ⟨t1.inp, t1.world⟩)
      obtain ⟨k, t1, more, p1, x, h1, hp1, hb⟩ := step
      have e' : ∃ rs, M.runList Tied.doStd ops t1 = (.ok rs, t') := by
        simp only [M.runList, M.bind_apply, x] at e
        rcases hd : M.runList Tied.doStd ops t1 with ⟨_ | _ | _ | _ | _, t2⟩ <;> rw [hd] at e <;>
          simp at e
        exact ⟨_, by rw [e.2]⟩
      obtain ⟨rs, e'⟩ := e'
      obtain ⟨done', p', h', hd⟩ := ih _ _ _ _ _ h1 hp1 e'
      refine ⟨done', p', h', ?_⟩
      rw [List.map_cons, hb, ← List.append_assoc, hd]
  obtain ⟨done, pending, h, hd⟩ := run ops [] none _ t results
    ⟨by simp [IoBuffer.make], by simp [IoBuffer.make], by simp, by simp [IoBuffer.make],
      by simp [IoBuffer.make], by simp, by cases writes <;> simp [Sys.output, acceptedOf]⟩
    (fun _ => rfl) hrun
  obtain ⟨t1, x, hi, h1⟩ := flush h
  rw [List.nil_append] at hd
  rw [← hd] at h1
  have hlog : ∃ flushed, t1.world.log = t.world.log ++ flushed ∧ flushed.length ≤ 1
      ∧ ∀ e ∈ flushed, ∃ bytes, e = .wrote bytes := by
    have hx : Tied.onOut (Res.flush Stdout.writeRaw) t = (.ok (), t1) := x
    have : t1.world = (Res.flush Stdout.writeRaw ⟨t.out, t.world⟩).2.dev := by
      rw [← congrArg (fun y => y.2.world) hx]
      rfl
    rw [this]
    cases pending with
    | none =>
      rw [Res.flush_clean _ _ (by simpa using h.dirty)]
      exact ⟨[], by simp, by simp, by simp⟩
    | some p =>
      obtain ⟨n, d, e, -⟩ := offering_raw h p
      have hdat := h.data
      simp only [Option.getD_some] at hdat
      rw [Res.flush_dirty (by simpa using h.dirty) (by
        have := h.position; have := h.fits; have := h.length; omega) (by rw [hdat]; exact e)]
      have : d = (Stdout.writeRaw p t.world).2 := by rw [e]
      simp only [this]
      refine ⟨[.wrote (p.take ((Sys.transferred p.length t.world.writes).getD 0))], ?_, by simp, by simp⟩
      simp only [Stdout.writeRaw, M.bind_apply, Sys.write]
      cases Sys.transferred p.length t.world.writes <;> rfl
  obtain ⟨flushed, hf, hf1, hf2⟩ := hlog
  obtain ⟨-, asks, ha, ha'⟩ := stdin_onlyAsks n ⟨t1.inp, t1.world⟩
  have hout : Sys.output (t.world.log ++ flushed)
      = acceptedOf writes (batches capOut none (ops.map StdOp.toOut)) := by
    rw [← hf]
    exact h1.got
  refine ⟨flushed, asks, ?_, hf1, hf2, ha', hout, ?_⟩
  · have hx : Tied.onOut (Res.flush Stdout.writeRaw) t = (.ok (), t1) := x
    have e2 : Tied.read Stdin.readRaw Stdout.writeRaw n t = Tied.onIn (Res.read Stdin.readRaw n) t1 := by
      rw [Tied.read, M.bind_ok hx]
    rw [e2, ← hf]
    exact ha
  · rw [hout, ← hall]
    exact (acceptedOf_sublist writes _).2

/-- Two writes, a read that fails, another write; the system accepts less than it is offered. -/
example : ∃ results t, M.runList Tied.doStd [.write [1, 2, 3], .write [4, 5], .read 1, .write [6]]
      ⟨IoBuffer.make 4, IoBuffer.make 4, ⟨[9], [none], [some 2, some 1, none], []⟩⟩ = (.ok results, t)
    ∧ batches 4 none ([.write [1, 2, 3], .write [4, 5], .read 1, .write [6]].map StdOp.toOut)
      = [[1, 2, 3], [4, 5], [6]]
    ∧ acceptedOf [some 2, some 1, none] [[1, 2, 3], [4, 5], [6]] = [1, 2, 4] := by
  refine ⟨_, _, rfl, by decide, by decide⟩

/-! ### C72 -/

/-- C72 in full, for every state a standard input resource can be in before the first error.  If the
buffer has enough the system is not asked.  If the system reports no error, the bytes delivered
are those it gave, and are counted correctly.  If it reports one, a resource without a buffer
claims 2^64 - 1 bytes; one with a buffer appends whatever the memory of the buffer contains to
what it still had, and claims to have read everything, or reads outside of the buffer. -/
theorem C72_exact (cap n : Nat) (r : Res Sys) (h : Res.Fed cap (fun _ => True) r)
    (hcap : cap < 2 ^ 64 - 1) :
    (0 < cap → r.buf.readDirty = false → n ≤ r.held.length →
      ∃ r', Res.read Stdin.readRaw n r = (.ok ⟨r.held.take n, n⟩, r') ∧ r'.dev = r.dev)
    ∧ ((∀ e ∈ r.dev.reads, e ≠ none) →
      ∃ g r', Res.read Stdin.readRaw n r = (.ok ⟨g, g.length⟩, r') ∧ g.length ≤ n
        ∧ r.held ++ r.dev.supply = g ++ (r'.held ++ r'.dev.supply))
    ∧ (r.held.length < n → r.dev.reads.head? = some none →
      (cap = 0 → (Res.read Stdin.readRaw n r).1 = .ok ⟨[], 2 ^ 64 - 1⟩)
      ∧ (0 < cap → n ≤ r.held.length + cap → (Res.read Stdin.readRaw n r).1 =
          .ok ⟨r.held ++ r.buf.data.take (n - r.held.length), n⟩)
      ∧ (0 < cap → r.buf.readDirty = true → cap < n → n ≤ 2 ^ 64 - 1 →
          (Res.read Stdin.readRaw n r).1 = .ub)) := by
  obtain ⟨hl, -, hs⟩ := h
  have hraw : r.dev.reads.head? = some none → ∀ k rr, ∃ d,
      Stdin.readRaw k rr r.dev = (.ok ⟨[], 2 ^ 64 - 1⟩, d) := by
    intro herr k rr
    obtain ⟨w, hw⟩ : ∃ w, r.dev.reads = none :: w := by
      cases hr : r.dev.reads with
      | nil => rw [hr] at herr; cases herr
      | cons e w => rw [hr] at herr; simp at herr; exact ⟨w, by rw [herr]⟩
    exact ⟨(Sys.read k r.dev).2, by simp [Stdin.readRaw, M.bind_apply, Sys.read, hw, Sys.transferred]⟩
  refine ⟨fun hc hd hn => ?_, fun hok => ?_, fun hn herr => ⟨fun hc => ?_, fun hc hm => ?_,
    fun hc hd hm hm' => ?_⟩⟩
  · obtain ⟨hs, hp⟩ := hs hd
    have hh : r.held = r.buf.unread := by simp [Res.held, hd]
    rw [hh] at hn ⊢
    rw [r.buf.unread_length (by omega)] at hn
    have e := Res.readLoaded_within Stdin.readRaw r n (by omega) (by omega)
    rw [Res.read_buffered _ _ _ (by omega), Res.readBuffered_clean _ _ _ hd]
    exact ⟨_, e, rfl⟩
  · obtain ⟨g, r', e, h1, h2, -⟩ := Res.read_fed Stdin.feeds (cap := cap) (r := r)
      ⟨hl, hok, hs⟩ n
    exact ⟨g, r', e, h1, h2⟩
  · subst hc
    rw [Res.read_unbuffered _ _ _ hl]
    obtain ⟨d, hd⟩ := hraw herr n .leanRetrieval
    rw [Res.onDev_ok hd]
  · obtain ⟨d, hd⟩ := hraw herr r.buf.data.length .fillBuffer
    rw [Res.read_buffered _ _ _ (by omega)]
    generalize 2 ^ 64 - 1 = big at hcap hd
    have hfill : ∀ b : IoBuffer, b.data = r.buf.data → ∀ k ≤ cap, ∀ d',
        Res.bufRead k (⟨Res.filled b ⟨[], big⟩, d'⟩ : Res Sys)
          = (.ok (r.buf.data.take k), ⟨{ Res.filled b ⟨[], big⟩ with position := k }, d'⟩) := by
      intro b hb k hk d'
      have h1 : ¬ (k > big) := by omega
      have h2 : ¬ (k > r.buf.data.length) := by omega
      simp [Res.bufRead, IoBuffer.read, Res.filled, hb, h1, h2]
    cases hrd : r.buf.readDirty with
    | true =>
      have hh : r.held = [] := by simp [Res.held, hrd]
      rw [hh] at hm hn ⊢
      simp only [List.length_nil, Nat.zero_add, Nat.sub_zero, List.nil_append] at *
      rw [Res.readBuffered_dirty hrd hd]
      simp only [Res.readLoaded]
      rw [M.bind_ok (M.get_apply _), if_neg (by simp only [Res.filled]; omega),
        M.bind_ok (hfill r.buf rfl n hm d)]
      simp
      omega
    | false =>
      obtain ⟨hs, hp⟩ := hs hrd
      have hh : r.held = r.buf.unread := by simp [Res.held, hrd]
      have hul := r.buf.unread_length (by omega)
      rw [hh] at hm hn ⊢
      rw [Res.readBuffered_clean _ _ _ hrd]
      simp only [Res.readLoaded]
      rw [M.bind_ok (M.get_apply r), if_pos (by omega), if_neg (by omega),
        M.bind_ok (Res.first_ok r (by omega) hp), if_neg (by simp only [IoBuffer.capacity]; omega),
        M.bind_ok (Res.fill_ok (r := { r with buf := { r.buf with position := r.buf.size } }) hd),
        if_neg (by simp only; omega),
        M.bind_ok (hfill { r.buf with position := r.buf.size } rfl _ (by omega) d)]
      simp
      omega
  · obtain ⟨d, hd'⟩ := hraw herr r.buf.data.length .fillBuffer
    rw [Res.read_buffered _ _ _ (by omega), Res.readBuffered_dirty hd hd']
    generalize 2 ^ 64 - 1 = big at *
    have h1 : ¬ (n > big) := by omega
    have h2 : n > r.buf.data.length := by omega
    simp only [Res.readLoaded]
    rw [M.bind_ok (M.get_apply _), if_neg (by simp only [Res.filled]; omega)]
    simp [M.bind_apply, Res.bufRead, IoBuffer.read, Res.filled, h1, h2]

/-- A resource that holds two bytes when the system reports an error, after it was asked for three. -/
example : Res.Fed 4 (fun _ => True) (Res.read Stdin.readRaw 2 (freshStdin 4 [1, 2, 3, 4, 5] [some 4, none])).2
    ∧ (Res.read Stdin.readRaw 3
        (Res.read Stdin.readRaw 2 (freshStdin 4 [1, 2, 3, 4, 5] [some 4, none])).2).1
      = .ok ⟨[3, 4, 1], 3⟩ := by
  refine ⟨⟨by decide +kernel, trivial, fun _ => by decide +kernel⟩, by decide +kernel⟩

end Cmp
