import Verif.Model.QuillCopies
import Verif.Props.Quills

/-
Property C152: an output resource on a container can be copied while it is written to.  The
specification is one text that every up-to-date object continues.
-/

namespace Cmp

namespace Spec

/-- The objects that have everything that was written (`current`), the copies that were left behind when
another one was used (`stale`), the objects that were moved from (`husks`), and whether nothing was
written since the last flush. -/
structure Copies where
  current : List Nat
  stale : List Nat
  husks : List Nat
  clean : Bool
  deriving DecidableEq

/-- The objects that are alive. -/
def Copies.alive (s : Copies) (i : Nat) : Prop := i ∈ s.current ∨ i ∈ s.stale ∨ i ∈ s.husks

instance (s : Copies) (i : Nat) : Decidable (s.alive i) := by
  unfold Copies.alive
  infer_instance

/-- A list without an object. -/
def lacking (i : Nat) (l : List Nat) : List Nat := l.filter (· ≠ i)

/-- Only `i` is up to date from now on; a copy that is flushed although it was left behind changes
nothing. -/
def Copies.using (s : Copies) (i : Nat) : Copies :=
  if i ∈ s.current then { s with current := [i], stale := lacking i s.current ++ s.stale } else s

/-- The object `i` is gone. -/
def Copies.drop (s : Copies) (i : Nat) : Copies :=
  { s with current := lacking i s.current, stale := lacking i s.stale, husks := lacking i s.husks }

/-- The object `i` becomes what `j` is. -/
def Copies.like (s : Copies) (i j : Nat) : Copies :=
  if j ∈ s.current then { s.drop i with current := i :: lacking i s.current }
  else if j ∈ s.stale then { s.drop i with stale := i :: lacking i s.stale }
  else { s.drop i with husks := i :: lacking i s.husks }

/-- The object `i` takes over from `j`. -/
def Copies.over (s : Copies) (i j : Nat) : Copies :=
  { current := i :: lacking j (lacking i s.current), stale := lacking j (lacking i s.stale)
    husks := j :: lacking i s.husks, clean := s.clean }

/-- What the operations do. -/
def copiesStep (s : Copies) : CopyOp → Copies
  | .plain (.write i bytes) => { s.using i with clean := s.clean && bytes.isEmpty }
  | .plain (.flush i) => { s.using i with clean := s.clean || decide (i ∈ s.current) }
  | .plain (.moveConstruct i j) => s.over i j
  | .plain (.moveAssign i j _) => s.over i j
  | .plain (.destroy i) => s.drop i
  | .copyConstruct i j => s.like i j
  | .copyAssign i j => s.like i j

/-- What a program may do: write to and move from objects that are up to date; flush those, and copies;
copy and destroy everything. -/
def copiesLegal (s : Copies) : CopyOp → Bool
  | .plain (.write i _) => i ∈ s.current
  | .plain (.flush i) => i ∈ s.current || i ∈ s.stale
  | .plain (.moveConstruct i j) => j ∈ s.current && ¬ s.alive i
  | .plain (.moveAssign i j _) => j ∈ s.current && i ≠ j && s.alive i
  | .plain (.destroy i) => s.alive i
  | .copyConstruct i j => s.alive j && ¬ s.alive i
  | .copyAssign i j => s.alive i && s.alive j

/-- A careful program flushes copies that were left behind only when everything that was written has been
flushed, and it flushes before it assigns by moving, if the base class may be assigned more than once. -/
def copiesCareful (s : Copies) : CopyOp → Bool
  | .plain (.flush i) => i ∈ s.current || s.clean
  | .plain (.moveAssign _ _ again) => !again || s.clean
  | _ => true

/-- A condition at every step. -/
def copiesAll (P : Copies → CopyOp → Bool) : Copies → List CopyOp → Bool
  | _, [] => true
  | s, op :: ops => P s op && copiesAll P (copiesStep s op) ops

/-- Where the objects are in the end. -/
def copiesAfter : Copies → List CopyOp → Copies
  | s, [] => s
  | s, op :: ops => copiesAfter (copiesStep s op) ops

/-- The bytes an operation writes. -/
def copyBytes : CopyOp → List Byte
  | .plain op => quillBytes op
  | _ => []

/-- Everything that is written, in order. -/
def copyWritten : List CopyOp → List Byte
  | [] => []
  | op :: ops => copyBytes op ++ copyWritten ops

/-- At first there is object 0 and no other. -/
def copiesStart : Copies := ⟨[0], [], [], true⟩

end Spec

open Cmp.Spec

/-- The claim is false, even if nothing is moved: a copy that is flushed although it was left behind
makes the container longer, and when the object that was written to is flushed, the container grows by
the bytes of both. -/
theorem C152_violated :
    ¬ ∀ cap content ops, copiesAll copiesLegal copiesStart ops = true →
      (∀ i j, .plain (.moveConstruct i j) ∉ ops) → (∀ i j a, .plain (.moveAssign i j a) ∉ ops) →
      ∀ i ∈ (copiesAfter copiesStart ops).current,
        (M.runList Quills.copyStep (ops ++ [.plain (.flush i)]) (Quills.start cap content)).2.content =
          content ++ copyWritten ops := by
  intro h
  have := h 8 [5] [.plain (.write 0 [1, 2]), .copyConstruct 1 0, .plain (.write 0 [3]),
    .plain (.flush 1)] (by decide +kernel) (by simp) (by simp) 0 (by decide +kernel)
  revert this
  decide +kernel

namespace Quills

theorem mem_lacking {i k : Nat} {l : List Nat} : k ∈ lacking i l ↔ k ∈ l ∧ k ≠ i := by
  simp [lacking]

/-- An object that has taken `w`. -/
def UpToDate (content w : List Byte) (clean : Bool) (c : List Byte) (p : Quill) : Prop :=
  ∃ cap, Res.Writing cap (fun _ => True) (Res.Overwrote (Ctr.Idle 1) content content.length)
    (res c p) w ∧ (clean = true → p.buf.position = 0)

/-- The up-to-date objects have been given `w` beyond the initial content. -/
structure Copied (content w : List Byte) (s : Copies) (W : Quills) : Prop where
  current : ∀ i ∈ s.current, ∃ p, W.objs i = some p ∧ UpToDate content w s.clean W.content p
  alive : ∀ i, (W.objs i).isSome ↔ s.alive i

theorem copied_start (cap : Nat) (content : List Byte) :
    Copied content [] copiesStart (start cap content) := by
  obtain ⟨cap', p, hp, hw, hz⟩ := (held_start cap content).holder
  refine ⟨fun i hi => ?_, fun i => ?_⟩
  · obtain rfl : i = 0 := by simpa [copiesStart] using hi
    exact ⟨p, hp, cap', hw, hz⟩
  · by_cases h : i = 0 <;> simp [start, copiesStart, Copies.alive, h]

/-- Seen from one up-to-date object, all others are left behind. -/
theorem Copied.held {content w : List Byte} {s : Copies} {W : Quills} (h : Copied content w s W)
    {i : Nat} (hi : i ∈ s.current) :
    Held content w ⟨i, s.current ++ s.stale ++ s.husks, s.clean⟩ W := by
  obtain ⟨p, hp, cap, hw, hz⟩ := h.current i hi
  exact ⟨⟨cap, p, hp, hw, hz⟩, fun k _ => by rw [h.alive k]; simp [Copies.alive]⟩

theorem alive_using {s : Copies} {i : Nat} (hi : i ∈ s.current) (k : Nat) (c : Bool) :
    Copies.alive { s.using i with clean := c } k ↔ s.alive k := by
  simp only [Copies.alive, Copies.using, if_pos hi, List.mem_singleton, List.mem_append, mem_lacking]
  by_cases hk : k = i
  · subst hk; simp [hi]
  · simp [hk]; tauto

/-- Writing and flushing leave one object up to date. -/
theorem copied_used {content w' : List Byte} {s : Copies} {W' : Quills} {i : Nat}
    (hi : i ∈ s.current) {c : Bool}
    (h' : Held content w' ⟨i, s.current ++ s.stale ++ s.husks, c⟩ W') :
    Copied content w' { s.using i with clean := c } W' := by
  obtain ⟨cap, p, hp, hw, hz⟩ := h'.holder
  refine ⟨fun k hk => ?_, fun k => ?_⟩
  · obtain rfl : k = i := by simpa [Copies.using, hi] using hk
    exact ⟨p, hp, cap, hw, hz⟩
  · rw [alive_using hi]
    by_cases hk : k = i
    · subst hk
      simp only at hp
      simp [hp, Copies.alive, hi]
    · rw [h'.alive k hk]; simp [Copies.alive]

theorem alive_over {s : Copies} {i j k : Nat} :
    (s.over i j).alive k ↔ k = i ∨ k = j ∨ s.alive k := by
  simp only [Copies.alive, Copies.over, List.mem_cons, mem_lacking]
  by_cases h1 : k = i
  · simp [h1]
  · by_cases h2 : k = j
    · simp [h2]
    · simp [h1, h2]

theorem alive_like {s : Copies} {i j k : Nat} : (s.like i j).alive k ↔ k = i ∨ s.alive k := by
  simp only [Copies.alive, Copies.like]
  by_cases h1 : k = i
  · subst h1
    split_ifs <;> simp
  · split_ifs <;> simp [Copies.drop, mem_lacking, h1]

/-- One object takes over from another. -/
theorem copied_over {content w : List Byte} {s : Copies} {W : Quills} (h : Copied content w s W)
    {i j : Nat} {p q : Quill} (hq : UpToDate content w s.clean W.content q) :
    Copied content w (s.over i j) ((W.put j (some (emptied p))).put i (some q)) := by
  refine ⟨fun k hk => ?_, fun k => ?_⟩
  · simp only [Copies.over, List.mem_cons, mem_lacking] at hk
    rcases hk with rfl | ⟨⟨hk, h1⟩, h2⟩
    · exact ⟨q, by simp [put], hq⟩
    · obtain ⟨p', hp', hu⟩ := h.current k hk
      exact ⟨p', by simp [put, h1, h2, hp'], hu⟩
  · rw [alive_over]
    by_cases h1 : k = i
    · simp [put, h1]
    · by_cases h2 : k = j
      · subst h2; simp [put, h1]
      · simp [put, h1, h2, h.alive k]

/-- One object becomes what another is. -/
theorem copied_like {content w : List Byte} {s : Copies} {W : Quills} (h : Copied content w s W)
    {i j : Nat} {p : Quill} (hp : W.objs j = some p) :
    Copied content w (s.like i j) (W.put i (some p)) := by
  have hcl : (s.like i j).clean = s.clean := by
    simp only [Copies.like, Copies.drop]; split_ifs <;> rfl
  refine ⟨fun k hk => ?_, fun k => ?_⟩
  · rw [hcl]
    by_cases hki : k = i
    · subst hki
      refine ⟨p, by simp [put], ?_⟩
      have hj : j ∈ s.current := by
        by_contra hj
        simp only [Copies.like, if_neg hj, Copies.drop] at hk
        split_ifs at hk <;> simp [mem_lacking] at hk
      obtain ⟨p', hp', hu⟩ := h.current j hj
      obtain rfl := Option.some.inj (hp'.symm.trans hp)
      exact hu
    · have hk' : k ∈ s.current := by
        simp only [Copies.like, Copies.drop] at hk
        split_ifs at hk <;> simp [mem_lacking, hki] at hk <;> exact hk
      obtain ⟨p', hp', hu⟩ := h.current k hk'
      exact ⟨p', by simp [put, hki, hp'], hu⟩
  · rw [alive_like]
    by_cases hki : k = i
    · simp [put, hki]
    · simp [put, hki, h.alive k]

theorem Copied.absent {content w : List Byte} {s : Copies} {W : Quills} (h : Copied content w s W)
    {i : Nat} (hi : ¬ s.alive i) : W.objs i = none := by
  cases ho : W.objs i with
  | none => rfl
  | some o => exact absurd ((h.alive i).1 (by simp [ho])) hi

theorem Copied.present {content w : List Byte} {s : Copies} {W : Quills} (h : Copied content w s W)
    {i : Nat} (hi : s.alive i) : ∃ o, W.objs i = some o :=
  Option.isSome_iff_exists.1 ((h.alive i).2 hi)

theorem copied_step {content w : List Byte} {s : Copies} {W : Quills} (h : Copied content w s W)
    (op : CopyOp) (hl : copiesLegal s op = true) (hc : copiesCareful s op = true)
    (hf : ∀ i, op = .plain (.flush i) → i ∈ s.current) :
    ∃ W', copyStep op W = (.ok (copyBytes op).length, W') ∧
      Copied content (w ++ copyBytes op) (copiesStep s op) W' := by
  have hn : w ++ [] = w := List.append_nil w
  cases op with
  | plain op =>
    cases op with
    | write i bytes =>
      have hi : i ∈ s.current := by simpa [copiesLegal] using hl
      obtain ⟨W', e, h'⟩ := held_step (h.held hi) (.write i bytes) (by simp [handLegal]) rfl
      exact ⟨W', e, copied_used hi h'⟩
    | flush i =>
      have hi : i ∈ s.current := hf i rfl
      obtain ⟨W', e, h'⟩ := held_step (h.held hi) (.flush i) (by simp [handLegal]) rfl
      have := copied_used hi h'
      refine ⟨W', e, ?_⟩
      simpa [copiesStep, hi, copyBytes] using this
    | moveConstruct i j =>
      simp only [copiesLegal, Bool.and_eq_true, decide_eq_true_eq] at hl
      obtain ⟨hj, hi⟩ := hl
      obtain ⟨p, hp, hu⟩ := h.current j hj
      refine ⟨_, by simp only [copyStep, step, h.absent hi, hp]; rfl, ?_⟩
      rw [show copyBytes (.plain (.moveConstruct i j)) = [] from rfl, hn]
      exact copied_over h hu
    | moveAssign i j again =>
      simp only [copiesLegal, Bool.and_eq_true, decide_eq_true_eq] at hl
      obtain ⟨⟨hj, hij⟩, hi⟩ := hl
      obtain ⟨p, hp, cap, hw, hz⟩ := h.current j hj
      obtain ⟨o, ho⟩ := h.present hi
      refine ⟨_, by simp only [copyStep, step, hij, if_false, ho, hp]; rfl, ?_⟩
      rw [show copyBytes (.plain (.moveAssign i j again)) = [] from rfl, hn]
      refine copied_over h ?_
      cases again with
      | false => exact ⟨cap, hw, hz⟩
      | true =>
        have h0 := hz (by simpa [copiesCareful] using hc)
        exact ⟨0, writing_emptied hw h0, fun _ => h0⟩
    | destroy i =>
      simp only [copiesLegal, decide_eq_true_eq] at hl
      obtain ⟨o, ho⟩ := h.present hl
      refine ⟨_, by simp only [copyStep, step, ho]; rfl, ?_⟩
      rw [show copyBytes (.plain (.destroy i)) = [] from rfl, hn]
      refine ⟨fun k hk => ?_, fun k => ?_⟩
      · simp only [copiesStep, Copies.drop, mem_lacking] at hk
        obtain ⟨p', hp', hu⟩ := h.current k hk.1
        exact ⟨p', by simp [put, hk.2, hp'], hu⟩
      · by_cases hk : k = i
        · simp [put, hk, copiesStep, Copies.drop, Copies.alive, mem_lacking]
        · simp [put, hk, copiesStep, Copies.drop, Copies.alive, mem_lacking, h.alive k]
  | copyConstruct i j =>
    simp only [copiesLegal, Bool.and_eq_true, decide_eq_true_eq] at hl
    obtain ⟨p, hp⟩ := h.present hl.1
    refine ⟨_, by simp only [copyStep, h.absent hl.2, hp]; rfl, ?_⟩
    rw [show copyBytes (.copyConstruct i j) = [] from rfl, hn]
    exact copied_like h hp
  | copyAssign i j =>
    simp only [copiesLegal, Bool.and_eq_true, decide_eq_true_eq] at hl
    obtain ⟨o, ho⟩ := h.present hl.1
    obtain ⟨p, hp⟩ := h.present hl.2
    refine ⟨_, by simp only [copyStep, ho, hp]; rfl, ?_⟩
    rw [show copyBytes (.copyAssign i j) = [] from rfl, hn]
    exact copied_like h hp

/-- Flushing an object with bytes in its buffer, wherever it is positioned. -/
theorem flush_at {W : Quills} {i n : Nat} {p : Quill} (hp : W.objs i = some p)
    (hd : p.buf.writeDirty = true) (hl : p.buf.position ≤ p.buf.data.length) (hn : p.position = (n : Int))
    (hc : n ≤ W.content.length) {bytes c : List Byte} (hb : p.buf.data.take p.buf.position = bytes)
    (hg : c = W.content ++
      List.replicate (if n + bytes.length > W.content.length then bytes.length else 0) 0) :
    ∃ W', copyStep (.plain (.flush i)) W = (.ok 0, W') ∧
      W'.content = c.take n ++ bytes ++ c.drop (n + bytes.length) ∧
      ∀ k, k ≠ i → W'.objs k = W.objs k := by
  have hz : bytes.length / 1 * 1 = bytes.length := by omega
  have e : Ctr.writeRaw (p.buf.data.take p.buf.position) (res W.content p).dev =
      (.ok bytes.length, ⟨1, c.take n ++ bytes ++ c.drop (n + bytes.length),
        (n : Int) + bytes.length, p.lastFill⟩) := by
    rw [hb]
    simp only [Ctr.writeRaw, res, hn, Int.toNat_natCast, hz]
    rw [if_neg (show ¬ ((n : Int) < 0) by omega)]
    by_cases h : n + bytes.length > W.content.length
    · rw [if_pos h] at hg
      rw [if_pos h, ← hg, if_neg]
      rw [hg]; simp; omega
    · rw [if_neg h] at hg
      have hg' : c = W.content := by simpa using hg
      rw [if_neg h, ← hg', if_neg (by rw [hg']; exact h)]
  have e' := Res.flush_dirty (r := res W.content p) hd hl e
  refine ⟨_, use_ok hp (flush_zero e'), rfl, fun k hk => ?_⟩
  simp [hk]

/-- A copy that was left behind: the bytes that wait in it are in the text where it is positioned. -/
def LeftBehind (text : List Byte) (q : Quill) : Prop :=
  q.buf.position ≤ q.buf.data.length ∧
    ∃ a b, q.position = ((a.length : Nat) : Int) ∧ text = a ++ q.buf.pending ++ b

theorem LeftBehind.mono {text : List Byte} {q : Quill} (h : LeftBehind text q) (more : List Byte) :
    LeftBehind (text ++ more) q := by
  obtain ⟨h1, a, b, h2, h3⟩ := h
  exact ⟨h1, a, b ++ more, h2, by rw [h3, List.append_assoc]⟩

/-- Up-to-date objects, copies that were left behind, and the container. -/
structure Kept (content w : List Byte) (s : Copies) (W : Quills) : Prop extends
    Copied content w s W where
  stale : ∀ i ∈ s.stale, ∀ q, W.objs i = some q → LeftBehind (content ++ w) q
  whole : s.clean = true → W.content = content ++ w

theorem Copied.behind {content w : List Byte} {s : Copies} {W : Quills} (h : Copied content w s W)
    {i : Nat} (hi : i ∈ s.current) {q : Quill} (hq : W.objs i = some q) :
    LeftBehind (content ++ w) q := by
  obtain ⟨p, hp, hc, hl⟩ := (h.held hi).content_eq
  obtain rfl := Option.some.inj (hp.symm.trans hq)
  exact ⟨hl, W.content, [], (h.held hi).position_eq hp, by rw [hc, List.append_nil]⟩

theorem Copied.content_whole {content w : List Byte} {s : Copies} {W : Quills}
    (h : Copied content w s W) {i : Nat} (hi : i ∈ s.current) (hc : s.clean = true) :
    W.content = content ++ w := by
  obtain ⟨p, hp, e, -⟩ := (h.held hi).content_eq
  obtain ⟨p', hp', cap, -, hz⟩ := h.current i hi
  obtain rfl := Option.some.inj (hp.symm.trans hp')
  rw [← e, show p.buf.pending = [] by simp [IoBuffer.pending, hz hc], List.append_nil]

theorem kept_start (cap : Nat) (content : List Byte) :
    Kept content [] copiesStart (start cap content) :=
  ⟨copied_start cap content, fun i hi => by simp [copiesStart] at hi,
    fun _ => (List.append_nil content).symm⟩

theorem use_other {i k : Nat} (hk : k ≠ i) (x : M (Res Ctr) Nat) (W : Quills) :
    (use i x W).2.objs k = W.objs k := by
  unfold use
  cases W.objs i with
  | none => rfl
  | some p => simp [put, hk]

/-- Writing to and flushing an up-to-date object. -/
theorem kept_used {content w x : List Byte} {s : Copies} {W W' : Quills} (h : Kept content w s W)
    {i : Nat} (hi : i ∈ s.current) {c : Bool}
    (h' : Copied content (w ++ x) { s.using i with clean := c } W')
    (ho : ∀ k, k ≠ i → W'.objs k = W.objs k) :
    Kept content (w ++ x) { s.using i with clean := c } W' := by
  have hi' : i ∈ ({ s.using i with clean := c } : Copies).current := by simp [Copies.using, hi]
  refine ⟨h', fun k hk q hq => ?_, fun hc => h'.content_whole hi' hc⟩
  by_cases hki : k = i
  · subst hki
    exact h'.behind hi' hq
  · rw [ho k hki] at hq
    rw [← List.append_assoc]
    simp only [Copies.using, if_pos hi, List.mem_append, mem_lacking] at hk
    rcases hk with hk | hk
    · exact (h.toCopied.behind hk.1 hq).mono x
    · exact (h.stale k hk q hq).mono x

/-- Flushing a copy that was left behind, when everything else has been flushed. -/
theorem kept_stale {content w : List Byte} {s : Copies} {W : Quills} (h : Kept content w s W)
    {i : Nat} (hi : i ∈ s.stale) (hn : i ∉ s.current) (hc : s.clean = true) :
    ∃ W', copyStep (.plain (.flush i)) W = (.ok 0, W') ∧ Kept content w s W' := by
  obtain ⟨q, hq⟩ := h.toCopied.present (.inr (.inl hi))
  obtain ⟨hl, a, b, hp, ht⟩ := h.stale i hi q hq
  have hw := h.whole hc
  have key : ∃ q', copyStep (.plain (.flush i)) W =
      (.ok 0, ⟨W.content, fun k => if k = i then some q' else W.objs k⟩) ∧
      LeftBehind (content ++ w) q' := by
    cases hd : q.buf.writeDirty with
    | false =>
      refine ⟨q, ?_, hl, a, b, hp, ht⟩
      exact use_ok hq (flush_zero (Res.flush_clean Ctr.writeRaw (res W.content q) hd))
    | true =>
      have hb : q.buf.pending = q.buf.data.take q.buf.position := by simp [IoBuffer.pending, hd]
      have hct : W.content = a ++ q.buf.pending ++ b := hw.trans ht
      have e : Ctr.writeRaw (q.buf.data.take q.buf.position) (res W.content q).dev =
          (.ok q.buf.pending.length,
            ⟨1, W.content, (a.length : Int) + q.buf.pending.length, q.lastFill⟩) := by
        rw [← hb]
        simp only [Ctr.writeRaw, res, hp, Int.toNat_natCast]
        rw [if_neg (show ¬ ((a.length : Int) < 0) by omega),
          if_neg (show ¬ (a.length + q.buf.pending.length > W.content.length) by
            rw [hct]; simp),
          if_neg (show ¬ (a.length + q.buf.pending.length > W.content.length) by
            rw [hct]; simp)]
        congr 2
        rw [hct]
        simp [List.drop_append]
      have e' := Res.flush_dirty (r := res W.content q) hd hl e
      refine ⟨_, use_ok hq (flush_zero e'), Nat.zero_le _, a ++ q.buf.pending, b, ?_, ?_⟩
      · simp [pen]
      · rw [ht]; simp [pen, IoBuffer.pending]
  obtain ⟨q', e, hq'⟩ := key
  refine ⟨_, e, ⟨⟨fun k hk => ?_, fun k => ?_⟩, fun k hk r hr => ?_, fun _ => hw⟩⟩
  · obtain ⟨p, hp', hu⟩ := h.current k hk
    have hki : k ≠ i := fun e => hn (e ▸ hk)
    exact ⟨p, by simp [hki, hp'], hu⟩
  · by_cases hki : k = i
    · subst hki
      simp [Copies.alive, hi]
    · simp [hki, h.alive k]
  · by_cases hki : k = i
    · subst hki
      obtain rfl : q' = r := by simpa using hr
      exact hq'
    · exact h.stale k hk r (by simpa [hki] using hr)

/-- Copying. -/
theorem kept_like {content w : List Byte} {s : Copies} {W : Quills} (h : Kept content w s W)
    {i j : Nat} {p : Quill} (hp : W.objs j = some p)
    (h' : Copied content (w ++ []) (s.like i j) (W.put i (some p))) :
    Kept content (w ++ []) (s.like i j) (W.put i (some p)) := by
  have hcl : (s.like i j).clean = s.clean := by
    simp only [Copies.like, Copies.drop]; split_ifs <;> rfl
  refine ⟨h', fun k hk q hq => ?_, fun hc => ?_⟩
  · rw [List.append_nil]
    by_cases hki : k = i
    · subst hki
      obtain rfl : p = q := by simpa [put] using hq
      have hj : j ∈ s.stale := by
        by_contra hj
        simp only [Copies.like, if_neg hj, Copies.drop] at hk
        split_ifs at hk <;> simp [mem_lacking] at hk
      exact h.stale j hj p hp
    · have hk' : k ∈ s.stale := by
        simp only [Copies.like, Copies.drop] at hk
        split_ifs at hk <;> simp [mem_lacking, hki] at hk <;> exact hk
      exact h.stale k hk' q (by simpa [put, hki] using hq)
  · rw [List.append_nil]
    exact h.whole (hcl ▸ hc)

theorem kept_step {content w : List Byte} {s : Copies} {W : Quills} (h : Kept content w s W)
    (op : CopyOp) (hl : copiesLegal s op = true) (hc : copiesCareful s op = true) :
    ∃ W', copyStep op W = (.ok (copyBytes op).length, W') ∧
      Kept content (w ++ copyBytes op) (copiesStep s op) W' := by
  by_cases hf : ∀ i, op = .plain (.flush i) → i ∈ s.current
  · obtain ⟨W', e, h'⟩ := copied_step h.toCopied op hl hc hf
    refine ⟨W', e, ?_⟩
    have hn : w ++ [] = w := List.append_nil w
    cases op with
    | plain op =>
      cases op with
      | write i bytes =>
        have hi : i ∈ s.current := by simpa [copiesLegal] using hl
        refine kept_used h hi h' fun k hk => ?_
        have := use_other hk (Res.write Ctr.writeRaw bytes) W
        rw [show use i (Res.write Ctr.writeRaw bytes) W = _ from e] at this
        exact this
      | flush i =>
        have hi : i ∈ s.current := hf i rfl
        refine kept_used h hi h' fun k hk => ?_
        have := use_other hk (do Res.flush Ctr.writeRaw; pure 0) W
        rw [show use i (do Res.flush Ctr.writeRaw; pure 0) W = _ from e] at this
        exact this
      | moveConstruct i j =>
        simp only [copiesLegal, Bool.and_eq_true, decide_eq_true_eq] at hl
        obtain ⟨p, hp, -⟩ := h.current j hl.1
        simp only [copyStep, step, h.absent hl.2, hp] at e
        obtain rfl := (Prod.mk.inj e).2
        refine ⟨h', fun k hk q hq => ?_, fun hcl => ?_⟩
        · simp only [copiesStep, Copies.over, mem_lacking] at hk
          rw [show copyBytes (.plain (.moveConstruct i j)) = [] from rfl, hn]
          exact h.stale k hk.1.1 q (by simpa [put, hk.1.2, hk.2] using hq)
        · rw [show copyBytes (.plain (.moveConstruct i j)) = [] from rfl, hn]
          exact h.whole hcl
      | moveAssign i j again =>
        simp only [copiesLegal, Bool.and_eq_true, decide_eq_true_eq] at hl
        obtain ⟨p, hp, -⟩ := h.current j hl.1.1
        obtain ⟨o, ho⟩ := h.toCopied.present hl.2
        simp only [copyStep, step, hl.1.2, if_false, ho, hp] at e
        obtain rfl := (Prod.mk.inj e).2
        refine ⟨h', fun k hk q hq => ?_, fun hcl => ?_⟩
        · simp only [copiesStep, Copies.over, mem_lacking] at hk
          rw [show copyBytes (.plain (.moveAssign i j again)) = [] from rfl, hn]
          exact h.stale k hk.1.1 q (by simpa [put, hk.1.2, hk.2] using hq)
        · rw [show copyBytes (.plain (.moveAssign i j again)) = [] from rfl, hn]
          exact h.whole hcl
      | destroy i =>
        simp only [copiesLegal, decide_eq_true_eq] at hl
        obtain ⟨o, ho⟩ := h.toCopied.present hl
        simp only [copyStep, step, ho] at e
        obtain rfl := (Prod.mk.inj e).2
        refine ⟨h', fun k hk q hq => ?_, fun hcl => ?_⟩
        · simp only [copiesStep, Copies.drop, mem_lacking] at hk
          rw [show copyBytes (.plain (.destroy i)) = [] from rfl, hn]
          exact h.stale k hk.1 q (by simpa [put, hk.2] using hq)
        · rw [show copyBytes (.plain (.destroy i)) = [] from rfl, hn]
          exact h.whole hcl
    | copyConstruct i j =>
      simp only [copiesLegal, Bool.and_eq_true, decide_eq_true_eq] at hl
      obtain ⟨p, hp⟩ := h.toCopied.present hl.1
      simp only [copyStep, h.absent hl.2, hp] at e
      obtain rfl := (Prod.mk.inj e).2
      exact kept_like h hp h'
    | copyAssign i j =>
      simp only [copiesLegal, Bool.and_eq_true, decide_eq_true_eq] at hl
      obtain ⟨o, ho⟩ := h.toCopied.present hl.1
      obtain ⟨p, hp⟩ := h.toCopied.present hl.2
      simp only [copyStep, ho, hp] at e
      obtain rfl := (Prod.mk.inj e).2
      exact kept_like h hp h'
  · push Not at hf
    obtain ⟨i, rfl, hi⟩ := hf
    have hs : i ∈ s.stale := by simpa [copiesLegal, hi] using hl
    have hcl : s.clean = true := by simpa [copiesCareful, hi] using hc
    obtain ⟨W', e, h'⟩ := kept_stale h hs hi hcl
    refine ⟨W', e, ?_⟩
    have e1 : copiesStep s (.plain (.flush i)) = s := by
      obtain ⟨cur, st, hu, cl⟩ := s
      simp only at hcl hi
      simp [copiesStep, Copies.using, hi]
    rw [e1, show copyBytes (.plain (.flush i)) = [] from rfl, List.append_nil]
    exact h'

theorem kept_run {content w : List Byte} {s : Copies} {W : Quills} (h : Kept content w s W)
    (ops : List CopyOp) (hl : copiesAll copiesLegal s ops = true)
    (hc : copiesAll copiesCareful s ops = true) :
    ∃ W', M.runList copyStep ops W = (.ok (ops.map fun op => (copyBytes op).length), W') ∧
      Kept content (w ++ copyWritten ops) (copiesAfter s ops) W' := by
  induction ops generalizing w s W with
  | nil => exact ⟨W, rfl, by simpa [copyWritten, copiesAfter] using h⟩
  | cons op ops ih =>
    simp only [copiesAll, Bool.and_eq_true] at hl hc
    obtain ⟨W1, e1, h1⟩ := kept_step h op hl.1 hc.1
    obtain ⟨W2, e2, h2⟩ := ih h1 hl.2 hc.2
    refine ⟨W2, M.runList_cons e1 e2, ?_⟩
    rw [List.append_assoc] at h2
    exact h2

end Quills

/-- What is proved: every operation of a careful program succeeds, each `write` takes all bytes, and a
flush of any object that is up to date in the end gives the container its old content followed by
everything that was written through any of the objects, in order and once.  Missing: copies that are
flushed after another one was written to and before that one is flushed, see `C152_exact`, and moves by
assignment while bytes wait, see `C147_exact`. -/
theorem C152_partial (cap : Nat) (content : List Byte) (ops : List CopyOp)
    (hl : copiesAll copiesLegal copiesStart ops = true)
    (hc : copiesAll copiesCareful copiesStart ops = true) :
    (M.runList Quills.copyStep ops (Quills.start cap content)).1 =
        .ok (ops.map fun op => (copyBytes op).length) ∧
    ∀ i ∈ (copiesAfter copiesStart ops).current,
      (M.runList Quills.copyStep (ops ++ [.plain (.flush i)]) (Quills.start cap content)).1 =
          .ok ((ops.map fun op => (copyBytes op).length) ++ [0]) ∧
      (M.runList Quills.copyStep (ops ++ [.plain (.flush i)]) (Quills.start cap content)).2.content =
          content ++ copyWritten ops := by
  obtain ⟨W, e, h⟩ := Quills.kept_run (Quills.kept_start cap content) ops hl hc
  refine ⟨by rw [e], fun i hi => ?_⟩
  obtain ⟨W', e', h'⟩ := Quills.held_flush (h.toCopied.held hi)
  have e'' : Quills.copyStep (.plain (.flush i)) W = (.ok 0, W') := e'
  rw [M.runList_append e (M.runList_cons e'' (M.runList_nil _ _))]
  exact ⟨rfl, h'⟩

/-- Copies are made, used, assigned, moved from and destroyed, with bytes in the buffer. -/
example : ∃ ops, copiesAll copiesLegal copiesStart ops = true ∧
    copiesAll copiesCareful copiesStart ops = true ∧
    copyWritten ops = [1, 2, 3, 4, 5] ∧ (copiesAfter copiesStart ops).current = [3, 2] := by
  refine ⟨[.plain (.write 0 [1, 2]), .copyConstruct 1 0, .plain (.write 1 [3]), .copyAssign 0 1,
    .plain (.write 0 [4, 5]), .plain (.flush 0), .plain (.flush 1), .copyConstruct 2 0,
    .plain (.destroy 1), .plain (.moveConstruct 3 0)],
    ?_⟩
  decide +kernel

namespace Quills

/-- Writing to an object whose buffer has room. -/
theorem write_room {W : Quills} {i : Nat} {p : Quill} (hp : W.objs i = some p)
    {bytes : List Byte} (h0 : 0 < p.buf.data.length)
    (hl : p.buf.position + bytes.length ≤ p.buf.data.length) :
    copyStep (.plain (.write i bytes)) W = (.ok bytes.length, W.put i (some { p with buf := { p.buf with
      data := p.buf.data.take p.buf.position ++ bytes ++ p.buf.data.drop (p.buf.position + bytes.length)
      position := p.buf.position + bytes.length, writeDirty := true } })) := by
  have e : Res.write Ctr.writeRaw bytes (res W.content p) =
      (.ok bytes.length, res W.content { p with buf := { p.buf with
        data := p.buf.data.take p.buf.position ++ bytes ++ p.buf.data.drop (p.buf.position + bytes.length)
        position := p.buf.position + bytes.length, writeDirty := true } }) := by
    simp only [Res.write]
    rw [M.bind_ok (M.get_apply _), if_pos (by exact h0)]
    simp only [Res.writeBuffered]
    rw [M.bind_ok (M.get_apply _), if_neg (by simp only [res, IoBuffer.capacity]; omega)]
    exact Res.bufWrite_ok _ bytes hl
  have := use_ok hp e
  exact this

/-- A copy is made while `first` waits in the buffer. -/
theorem copied_first (cap : Nat) (content first : List Byte) (h0 : 0 < cap) (h : first.length ≤ cap) :
    ∃ q, M.runList copyStep [.plain (.write 0 first), .copyConstruct 1 0] (start cap content) =
        (.ok [first.length, 0], ((start cap content).put 0 (some q)).put 1 (some q)) ∧
      q.buf.data = first ++ List.replicate (cap - first.length) 0 ∧ q.buf.position = first.length ∧
      q.buf.writeDirty = true ∧ q.position = (content.length : Int) ∧ q.buf.data.length = cap := by
  have hs : (start cap content).objs 0 = some ⟨IoBuffer.make cap, content.length, 0⟩ := rfl
  have e1 := write_room hs (bytes := first) (by simpa [IoBuffer.make] using h0)
    (by simpa [IoBuffer.make] using h)
  generalize hq : (⟨{ IoBuffer.make cap with
      data := (IoBuffer.make cap).data.take (IoBuffer.make cap).position ++ first ++
        (IoBuffer.make cap).data.drop ((IoBuffer.make cap).position + first.length)
      position := (IoBuffer.make cap).position + first.length, writeDirty := true },
      content.length, 0⟩ : Quill) = q at e1
  have hd : q.buf.data = first ++ List.replicate (cap - first.length) 0 := by
    rw [← hq]; simp [IoBuffer.make]
  have e2 : copyStep (.copyConstruct 1 0) ((start cap content).put 0 (some q)) =
      (.ok 0, ((start cap content).put 0 (some q)).put 1 (some q)) := rfl
  exact ⟨q, M.runList_cons e1 (M.runList_cons e2 (M.runList_nil _ _)), hd, by rw [← hq]; simp [IoBuffer.make],
    by rw [← hq], by rw [← hq], by rw [hd]; simp; omega⟩

/-- A copy is made while `first` waits in the buffer, and the original takes `second`. -/
theorem left_behind (cap : Nat) (content first second : List Byte) (h0 : 0 < cap)
    (h : first.length + second.length ≤ cap) :
    ∃ W p q, M.runList copyStep
        [.plain (.write 0 first), .copyConstruct 1 0, .plain (.write 0 second)] (start cap content) =
          (.ok [first.length, 0, second.length], W) ∧
      W.content = content ∧ W.objs 0 = some p ∧ W.objs 1 = some q ∧
      p.buf.writeDirty = true ∧ q.buf.writeDirty = true ∧
      p.buf.position ≤ p.buf.data.length ∧ q.buf.position ≤ q.buf.data.length ∧
      p.position = (content.length : Int) ∧ q.position = (content.length : Int) ∧
      p.buf.data.take p.buf.position = first ++ second ∧ q.buf.data.take q.buf.position = first := by
  have hs : (start cap content).objs 0 = some ⟨IoBuffer.make cap, content.length, 0⟩ := rfl
  have e1 := write_room hs (bytes := first) (by simpa [IoBuffer.make] using h0)
    (by simp [IoBuffer.make]; omega)
  generalize hq : (⟨{ IoBuffer.make cap with
      data := (IoBuffer.make cap).data.take (IoBuffer.make cap).position ++ first ++
        (IoBuffer.make cap).data.drop ((IoBuffer.make cap).position + first.length)
      position := (IoBuffer.make cap).position + first.length, writeDirty := true },
      content.length, 0⟩ : Quill) = q at e1
  have hd : q.buf.data = first ++ List.replicate (cap - first.length) 0 := by
    rw [← hq]; simp [IoBuffer.make]
  have hp : q.buf.position = first.length := by rw [← hq]; simp [IoBuffer.make]
  have hw : q.buf.writeDirty = true := by rw [← hq]
  have hc : q.position = (content.length : Int) := by rw [← hq]
  have hl : q.buf.data.length = cap := by rw [hd]; simp; omega
  have e2 : copyStep (.copyConstruct 1 0) ((start cap content).put 0 (some q)) =
      (.ok 0, ((start cap content).put 0 (some q)).put 1 (some q)) := rfl
  have e3 := write_room (W := ((start cap content).put 0 (some q)).put 1 (some q)) (i := 0) (p := q)
    (bytes := second) rfl (by omega) (by omega)
  refine ⟨_, _, q, M.runList_cons e1 (M.runList_cons e2 (M.runList_cons e3 (M.runList_nil _ _))), rfl, rfl,
    rfl, rfl, hw, ?_, by omega, hc, hc, ?_, by rw [hd, hp]; simp⟩
  · simp only [hd, hp]; simp
  · simp only [hd, hp]
    simp [List.take_append]

end Quills

/-- What becomes of a copy that was left behind: if the object that was written to is flushed first, the
flush of the copy changes nothing; if the copy is flushed first, the container has as many surplus zero
bytes at the end as waited in the buffer when the copy was made, unless nothing was written since. -/
theorem C152_exact (cap : Nat) (content first second : List Byte) (h0 : 0 < cap)
    (h : first.length + second.length ≤ cap) :
    (M.runList Quills.copyStep ([.plain (.write 0 first), .copyConstruct 1 0, .plain (.write 0 second)] ++
        [.plain (.flush 0), .plain (.flush 1)]) (Quills.start cap content)).2.content =
      content ++ first ++ second ∧
    (M.runList Quills.copyStep ([.plain (.write 0 first), .copyConstruct 1 0, .plain (.write 0 second)] ++
        [.plain (.flush 1), .plain (.flush 0)]) (Quills.start cap content)).2.content =
      content ++ first ++ second ++ List.replicate (if second = [] then 0 else first.length) 0 := by
  obtain ⟨W, p, q, e, hc, hp, hq, dp, dq, lp, lq, np, nq, bp, bq⟩ :=
    Quills.left_behind cap content first second h0 h
  constructor
  · obtain ⟨W1, e1, c1, o1⟩ := Quills.flush_at hp dp lp np (by rw [hc]) bp rfl
    have hW1 : W1.content = content ++ first ++ second := by
      rw [c1, hc]
      cases first <;> cases second <;> simp [List.drop_append]
    obtain ⟨W2, e2, c2, o2⟩ := Quills.flush_at (W := W1) (i := 1) ((o1 1 (by omega)).trans hq) dq lq nq
      (by rw [hW1]; simp) bq rfl
    rw [M.runList_append e (M.runList_cons e1 (M.runList_cons e2 (M.runList_nil _ _)))]
    simp only [c2, hW1]
    rw [if_neg (by simp)]
    simp [List.drop_append]
  · obtain ⟨W1, e1, c1, o1⟩ := Quills.flush_at hq dq lq nq (by rw [hc]) bq rfl
    have hW1 : W1.content = content ++ first := by
      rw [c1, hc]
      cases first <;> simp [List.drop_append]
    obtain ⟨W2, e2, c2, o2⟩ := Quills.flush_at (W := W1) (i := 0) ((o1 0 (by omega)).trans hp) dp lp np
      (by rw [hW1]; simp) bp rfl
    rw [M.runList_append e (M.runList_cons e1 (M.runList_cons e2 (M.runList_nil _ _)))]
    simp only [c2, hW1]
    cases second with
    | nil => simp [List.drop_append]
    | cons b bs =>
      rw [if_pos (by simp), if_neg (by simp)]
      simp only [List.length_append, List.length_cons]
      have d1 : List.drop (content.length + (first.length + (bs.length + 1))) content = [] :=
        List.drop_eq_nil_of_le (by omega)
      have d2 : List.drop (first.length + (bs.length + 1)) first = [] :=
        List.drop_eq_nil_of_le (by omega)
      simp [List.drop_append, d1, d2]

namespace Quills

/-- After a write that does not fit the buffer no earlier bytes wait. -/
theorem write_over {r r' : Res Ctr} {bytes : List Byte} {n : Nat} {r1 : Res Ctr}
    (h0 : 0 < r.buf.data.length) (ho : r.buf.data.length < r.buf.position + bytes.length)
    (hf : Res.flush Ctr.writeRaw r = (.ok (), r1)) (hz : r1.buf.position = 0)
    (hl : r1.buf.data.length = r.buf.data.length)
    (e : Res.write Ctr.writeRaw bytes r = (.ok n, r')) : r'.buf.position ≤ bytes.length := by
  simp only [Res.write] at e
  rw [M.bind_ok (M.get_apply r), if_pos (by exact h0)] at e
  simp only [Res.writeBuffered] at e
  rw [M.bind_ok (M.get_apply r), if_pos (by exact ho), M.bind_ok hf] at e
  by_cases hb : bytes.length > r.buf.capacity
  · rw [if_pos hb] at e
    simp only [Res.onDev] at e
    have := congrArg (fun x => x.2.buf.position) e
    simp only [hz] at this
    omega
  · rw [if_neg hb, Res.bufWrite_ok r1 bytes (by
      simp only [IoBuffer.capacity] at hb
      omega)] at e
    cases e
    simp [hz]

end Quills

/-- If what was written since the copy was made did not fit the buffer, the copy is flushed without harm. -/
theorem C152_exact_over (cap : Nat) (content first second : List Byte) (h0 : 0 < cap)
    (h1 : first.length ≤ cap) (h2 : cap < first.length + second.length) :
    (M.runList Quills.copyStep ([.plain (.write 0 first), .copyConstruct 1 0, .plain (.write 0 second)] ++
        [.plain (.flush 1), .plain (.flush 0)]) (Quills.start cap content)).2.content =
      content ++ first ++ second := by
  obtain ⟨q, e, hd, hp, hw, hc, hl⟩ := Quills.copied_first cap content first h0 h1
  obtain ⟨W, e', hk⟩ := Quills.kept_run (Quills.kept_start cap content)
    [.plain (.write 0 first), .copyConstruct 1 0] rfl rfl
  rw [e] at e'
  obtain rfl := (Prod.mk.inj e').2
  have hh := hk.toCopied.held (i := 0) (by simp [copiesAfter, copiesStep, copiesStart, Copies.using,
    Copies.like, lacking])
  obtain ⟨cap', q', hq', hwr, -⟩ := hh.holder
  obtain rfl : q' = q := (Option.some.inj hq').symm
  obtain ⟨r', ew, hr', -⟩ := Res.write_writing (Quills.takes content) hwr trivial (bytes := second) trivial
  obtain ⟨d, ef, -⟩ := Res.flush_writing (Quills.takes content) hwr trivial
  have hpos : r'.buf.position ≤ second.length :=
    Quills.write_over (by simp only [Quills.res]; omega) (by simp only [Quills.res]; omega) ef rfl rfl ew
  have hW := Quills.held_used (clean := false) hh hr' (by simp)
  have e3 := Quills.use_ok hq' ew
  have hw2 : [] ++ copyWritten [.plain (.write 0 first), .copyConstruct 1 0] ++ second = first ++ second := by
    simp [copyWritten, copyBytes, quillBytes]
  rw [hw2] at hW
  have hV1 : (⟨r'.dev.content, fun k => if k = 0 then some (Quills.pen r') else
      (((Quills.start cap content).put 0 (some q')).put 1 (some q')).objs k⟩ : Quills).objs 1 = some q' := rfl
  have hV0 : (⟨r'.dev.content, fun k => if k = 0 then some (Quills.pen r') else
      (((Quills.start cap content).put 0 (some q')).put 1 (some q')).objs k⟩ : Quills).objs 0 =
      some (Quills.pen r') := rfl
  generalize hV : (⟨r'.dev.content, fun k => if k = 0 then some (Quills.pen r') else
      (((Quills.start cap content).put 0 (some q')).put 1 (some q')).objs k⟩ : Quills) = V at e3 hW hV1 hV0
  have hW' := hW
  obtain ⟨p, hp0, hct, -⟩ := hW'.content_eq
  obtain rfl : p = Quills.pen r' := Option.some.inj (hp0.symm.trans hV0)
  have hlen : (Quills.pen r').buf.pending.length ≤ second.length := by
    have : (Quills.pen r').buf.position = r'.buf.position := rfl
    unfold IoBuffer.pending
    by_cases hdirty : (Quills.pen r').buf.writeDirty = true
    · rw [if_pos hdirty, List.length_take]; omega
    · rw [if_neg hdirty]; simp
  obtain ⟨rest, hrest⟩ : ∃ rest, V.content = content ++ first ++ rest := by
    have hl2 := congrArg List.length hct
    simp only [List.length_append] at hl2
    rw [← List.append_assoc] at hct
    rcases List.append_eq_append_iff.mp hct with ⟨a, ha, -⟩ | ⟨a, ha, -⟩
    · have := congrArg List.length ha
      simp only [List.length_append] at this
      have ha0 : a = [] := List.eq_nil_of_length_eq_zero (by omega)
      exact ⟨[], by rw [ha, ha0]; simp⟩
    · exact ⟨a, ha⟩
  have bq : q'.buf.data.take q'.buf.position = first := by rw [hd, hp]; simp
  obtain ⟨W1, f1, c1, o1⟩ := Quills.flush_at hV1 hw (by omega) hc (by rw [hrest]; simp) bq rfl
  have hW1 : W1.content = V.content := by
    rw [c1, if_neg (by rw [hrest]; simp), hrest]
    simp [List.drop_append]
  obtain ⟨cap2, p2, hp2, hwr2, -⟩ := hW'.holder
  rw [← hW1] at hwr2
  obtain ⟨d2, ef2, -, hg2⟩ := Res.flush_writing (Quills.takes content) hwr2 trivial
  have f2 := Quills.use_ok ((o1 0 (by omega)).trans hp2) (Quills.flush_zero ef2)
  have c2 := hg2.content_eq
  rw [MCtr.overlay_end] at c2
  have f2' : Quills.copyStep (.plain (.flush 0)) W1 = (.ok 0, _) := f2
  have e3' : Quills.copyStep (.plain (.write 0 second))
      (((Quills.start cap content).put 0 (some q')).put 1 (some q')) = (.ok second.length, V) := e3
  have := M.runList_append e (M.runList_cons e3' (M.runList_cons f1 (M.runList_cons f2' (M.runList_nil _ _))))
  rw [show ([.plain (.write 0 first), .copyConstruct 1 0, .plain (.write 0 second)] ++
    [.plain (.flush 1), .plain (.flush 0)] : List CopyOp) = [.plain (.write 0 first), .copyConstruct 1 0] ++
    [.plain (.write 0 second), .plain (.flush 1), .plain (.flush 0)] from rfl, this]
  exact (show _ = _ from c2).trans (List.append_assoc _ _ _).symm

/-- A case with surplus bytes. -/
example : (M.runList Quills.copyStep [.plain (.write 0 [1, 2]), .copyConstruct 1 0, .plain (.write 0 [3]),
    .plain (.flush 1), .plain (.flush 0)] (Quills.start 8 [5])).2.content = [5, 1, 2, 3, 0, 0] := by
  decide +kernel

end Cmp
