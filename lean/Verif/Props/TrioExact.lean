import Verif.Props.Trio
import Verif.Proofs.Batches

/-
Property C113 in full: what a terminal that shows standard output and standard error has shown, and
what still waits.
-/

namespace Cmp

namespace Spec

/-- A screen and what has not reached it. -/
structure Screen where
  /-- what has been shown, and where it was sent -/
  shown : List (OutHandle × Byte)
  /-- what was sent and is still kept -/
  waiting : OutHandle → List Byte

/-- Everything that waits on one handle is shown. -/
def Screen.release (h : OutHandle) (s : Screen) : Screen :=
  ⟨s.shown ++ (s.waiting h).map (Prod.mk h), fun k => if k = h then [] else s.waiting k⟩

/-- Something is shown at once. -/
def Screen.show (h : OutHandle) (bytes : List Byte) (s : Screen) : Screen :=
  { s with shown := s.shown ++ bytes.map (Prod.mk h) }

/-- Something waits behind what waits already. -/
def Screen.keep (h : OutHandle) (bytes : List Byte) (s : Screen) : Screen :=
  { s with waiting := fun k => if k = h then s.waiting h ++ bytes else s.waiting k }

/-- What one operation does: what fits is kept, what does not fit sends away what was kept, and what
would never fit follows it.  Asking for input sends away what was kept for standard output. -/
def Screen.after (cap : OutHandle → Nat) (s : Screen) : TrioOp → Screen
  | .write h bytes =>
    if (s.waiting h).length + bytes.length ≤ cap h then s.keep h bytes
    else if bytes.length ≤ cap h then (s.release h).keep h bytes
    else (s.release h).show h bytes
  | .flush h => s.release h
  | .read _ => s.release .out

/-- The screen after some operations. -/
def screen (cap : OutHandle → Nat) (ops : List TrioOp) : Screen :=
  ops.foldl (Screen.after cap) ⟨[], fun _ => []⟩

/-- What a log shows. -/
def onScreen (log : List TermEvent) : List (OutHandle × Byte) := log.flatMap fun
  | .wrote k bytes => bytes.map (Prod.mk k)
  | _ => []

end Spec

open Cmp.Spec (sent arrived screen onScreen Screen)

namespace Res

variable {δ : Type} {raw : List Byte → M δ Nat} {cap : Nat}

/-- One call to write. -/
theorem gives_write {p : Option (List Byte)} {r : Res δ} (h : Keeps cap p r) (h0 : cap = 0 → p = none)
    (bs : List Byte) :
    Gives raw cap (write raw bs)
      (if cap = 0 then [bs] else if (p.getD []).length + bs.length ≤ cap then []
        else if bs.length ≤ cap then p.toList else p.toList ++ [bs])
      (if cap = 0 then none else if (p.getD []).length + bs.length ≤ cap then some (p.getD [] ++ bs)
        else if bs.length ≤ cap then some bs else none) r := by
  have hl := h.length
  have hp := h.position
  have congr : ∀ {x y : M (Res δ) Nat} {l p'}, x r = y r → Gives raw cap y l p' r →
      Gives raw cap x l p' r := by
    intro x y l p' e g
    exact ⟨by rw [e]; exact g.ending, by rw [e]; exact g.dev, by rw [e]; exact g.keeps⟩
  by_cases hc : cap = 0
  · rw [if_pos hc, if_pos hc]
    refine congr (y := onDev (raw bs)) ?_ (h0 hc ▸ gives_direct h bs)
    rw [write, M.bind_ok (M.get_apply r), if_neg (by simp only [IoBuffer.capacity]; omega)]
  · rw [if_neg hc, if_neg hc]
    have hw : write raw bs r = writeBuffered raw bs r := by
      rw [write, M.bind_ok (M.get_apply r), if_pos (by simp only [IoBuffer.capacity]; omega)]
    by_cases hfit : (p.getD []).length + bs.length ≤ cap
    · rw [if_pos hfit, if_pos hfit]
      refine congr ?_ (gives_keep h bs hfit)
      rw [hw, writeBuffered, M.bind_ok (M.get_apply r),
        if_neg (by simp only [IoBuffer.capacity]; omega)]
    · rw [if_neg hfit, if_neg hfit]
      by_cases hbs : bs.length ≤ cap
      · rw [if_pos hbs, if_pos hbs]
        have hx : Gives raw cap (do flush raw; bufWrite bs : M (Res δ) Nat)
            (p.toList ++ []) (some bs) r :=
          gives_bind (gives_flush h) fun a r' hk => by
            simpa using gives_keep hk bs (by simp; omega)
        rw [List.append_nil] at hx
        refine congr ?_ hx
        rw [hw, writeBuffered, M.bind_ok (M.get_apply r),
          if_pos (by simp only [IoBuffer.capacity]; omega),
          if_neg (by simp only [IoBuffer.capacity]; omega)]
      · rw [if_neg hbs, if_neg hbs]
        have hx : Gives raw cap (do flush raw; onDev (raw bs) : M (Res δ) Nat)
            (p.toList ++ [bs]) none r :=
          gives_bind (gives_flush h) fun a r' hk => gives_direct hk bs
        refine congr ?_ hx
        rw [hw, writeBuffered, M.bind_ok (M.get_apply r),
          if_pos (by simp only [IoBuffer.capacity]; omega),
          if_pos (by simp only [IoBuffer.capacity]; omega)]

end Res

namespace Trio

variable {p : StdPlatform} {capIn : Nat} {cap : OutHandle → Nat}

theorem onScreen_append (a b : List TermEvent) : onScreen (a ++ b) = onScreen a ++ onScreen b := by
  simp [onScreen]

theorem onScreen_tag (h : OutHandle) (l : List StdEvent) :
    onScreen (l.map (TermEvent.tag h)) = (Sys.output l).map (Prod.mk h) := by
  induction l with
  | nil => rfl
  | cons e l ih =>
    have e1 : onScreen ((e :: l).map (TermEvent.tag h)) =
        onScreen [TermEvent.tag h e] ++ onScreen (l.map (TermEvent.tag h)) := by simp [onScreen]
    have e2 : Sys.output (e :: l) = Sys.output [e] ++ Sys.output l := by simp [Sys.output]
    rw [e1, e2, ih, List.map_append]
    cases e <;> simp [onScreen, TermEvent.tag, Sys.output]

theorem onScreen_asks {d d' : Term} (ha : Asks d d') : onScreen d'.log = onScreen d.log := by
  obtain ⟨-, as, h1, h2⟩ := ha
  rw [h1, onScreen_append]
  have : onScreen as = [] := by
    simp only [onScreen, List.flatMap_eq_nil_iff]
    intro x hx
    obtain ⟨m, k, rfl⟩ := h2 x hx
    rfl
  rw [this, List.append_nil]

/-- The batches are shown. -/
theorem runList_shown (p : StdPlatform) (h : OutHandle) (bs : List (List Byte)) (t : Term)
    (hw : t.sys.writes = []) :
    ∃ ks t', M.runList (fun b => Term.call h (p.writeRaw b)) bs t = (.ok ks, t')
      ∧ onScreen t'.log = onScreen t.log ++ bs.flatten.map (Prod.mk h) := by
  induction bs generalizing t with
  | nil => exact ⟨[], t, rfl, by simp⟩
  | cons b bs ih =>
    obtain ⟨d, e, h1, h2⟩ := p.takes.take { t.sys with log := [] } [] b ⟨rfl, hw⟩ trivial trivial
    have e1 := call_ok (t := t) h e
    obtain ⟨ks, t', e2, h3⟩ := ih _ (show (⟨{ d with log := [] }, t.log ++ d.log.map (TermEvent.tag h)⟩ :
      Term).sys.writes = [] from h2)
    refine ⟨_, t', M.runList_cons e1 e2, ?_⟩
    rw [h3, onScreen_append, onScreen_tag, h1]
    simp

/-- The state of the resources and the screen belong together. -/
structure Seen (cap : OutHandle → Nat) (s : Screen) (t : Trio) : Prop where
  shown : onScreen t.term.log = s.shown
  keeps : ∀ h, ∃ q : Option (List Byte), Res.Keeps (cap h) q ⟨t.outs h, t.term⟩ ∧ q.getD [] = s.waiting h
    ∧ (cap h = 0 → q = none)

theorem Seen.gives {w : OutHandle → List Byte} {t t' : Trio} {s : Screen} (hs : Seen cap s t)
    (ht : Ready capIn cap w t) {h : OutHandle} {α : Type} {x : M (Res Term) α} {a : α}
    {bs : List (List Byte)} {q : Option (List Byte)}
    (e : Trio.onOut h x t = (.ok a, t'))
    (hg : Res.Gives (fun b => Term.call h (p.writeRaw b)) (cap h) x bs q ⟨t.outs h, t.term⟩)
    (h0 : cap h = 0 → q = none) :
    Seen cap ⟨s.shown ++ bs.flatten.map (Prod.mk h), fun k => if k = h then q.getD [] else s.waiting k⟩ t' := by
  simp only [Trio.onOut, Prod.mk.injEq] at e
  obtain ⟨e1, rfl⟩ := e
  obtain ⟨-, -, -, u, ⟨-, hw⟩, -⟩ := ht.outs h
  obtain ⟨ks, d, e2, h2⟩ := runList_shown p h bs t.term hw
  have hd := hg.dev
  rw [e2] at hd
  constructor
  · show onScreen (x ⟨t.outs h, t.term⟩).2.dev.log = _
    rw [hd, h2, hs.shown]
  · intro k
    by_cases hk : k = h
    · subst hk
      simp only [if_true]
      exact ⟨q, hg.keeps (by rw [e1]; rfl), rfl, h0⟩
    · simp only [if_neg hk]
      obtain ⟨q', g1, g2⟩ := hs.keeps k
      exact ⟨q', ⟨g1.length, g1.position, g1.fits, g1.dirty, g1.data⟩, g2⟩

theorem flatten_toList (q : Option (List Byte)) : q.toList.flatten = q.getD [] := by
  cases q <;> simp

theorem flush_seen {w : OutHandle → List Byte} {t t' : Trio} {s : Screen} (hs : Seen cap s t)
    (ht : Ready capIn cap w t) {h : OutHandle} (e : Trio.flush p h t = (.ok (), t')) :
    Seen cap (s.release h) t' := by
  obtain ⟨q, h1, h2, h3⟩ := hs.keeps h
  have := hs.gives ht e (Res.gives_flush h1) (fun _ => rfl)
  rwa [flatten_toList, h2] at this

theorem write_seen {w : OutHandle → List Byte} {t t' : Trio} {s : Screen} (hs : Seen cap s t)
    (ht : Ready capIn cap w t) {h : OutHandle} {bytes : List Byte} {k : Nat}
    (e : Trio.write p h bytes t = (.ok k, t')) :
    Seen cap (s.after cap (.write h bytes)) t' := by
  obtain ⟨q, h1, h2, h3⟩ := hs.keeps h
  have := hs.gives ht e (Res.gives_write h1 h3 bytes) (by intro hc; rw [if_pos hc])
  rw [h2] at this
  have hfix : (fun k => if k = h then s.waiting h else s.waiting k) = s.waiting := by
    funext k
    by_cases hk : k = h <;> simp [hk]
  unfold Screen.after
  dsimp only
  by_cases hc : cap h = 0
  · have hz : s.waiting h = [] := by rw [← h2, h3 hc]; rfl
    rw [if_pos hc, if_pos hc] at this
    have hwait : (fun k => if k = h then (none : Option (List Byte)).getD [] else s.waiting k) = s.waiting := by
      funext k
      by_cases hk : k = h
      · simp [hk, hz]
      · simp [hk]
    rw [hwait] at this
    by_cases hb : bytes = []
    · subst hb
      rw [if_pos (by simp [hz])]
      simpa [Screen.keep, hfix] using this
    · have hpos : 0 < bytes.length := List.length_pos_iff.mpr hb
      rw [if_neg (by omega), if_neg (by omega)]
      have hrel : s.release h = s := by
        obtain ⟨a, b⟩ := s
        simp only [Screen.release]
        simp only at hz hfix
        rw [hz] at hfix ⊢
        simp [hfix]
      rw [hrel]
      simpa [Screen.show] using this
  · rw [if_neg hc, if_neg hc] at this
    by_cases hfit : (s.waiting h).length + bytes.length ≤ cap h
    · rw [if_pos hfit, if_pos hfit] at this
      rw [if_pos hfit]
      simpa [Screen.keep] using this
    · rw [if_neg hfit, if_neg hfit] at this
      rw [if_neg hfit]
      by_cases hb : bytes.length ≤ cap h
      · rw [if_pos hb, if_pos hb, flatten_toList, h2] at this
        rw [if_pos hb]
        have he : (s.release h).keep h bytes = ⟨s.shown ++ (s.waiting h).map (Prod.mk h),
            fun k => if k = h then (some bytes).getD [] else s.waiting k⟩ := by
          simp only [Screen.keep, Screen.release, Screen.mk.injEq, true_and]
          funext k
          by_cases hk : k = h <;> simp [hk]
        rw [he]
        exact this
      · rw [if_neg hb, if_neg hb, List.flatten_append, flatten_toList, h2] at this
        rw [if_neg hb]
        simpa [Screen.show, Screen.release] using this

theorem read_seen {w : OutHandle → List Byte} {t t' : Trio} {s : Screen} (hs : Seen cap s t)
    (ht : Ready capIn cap w t) {n : Nat} {g : ReadResult} (e : Trio.read p n t = (.ok g, t')) :
    Seen cap (s.release .out) t' := by
  obtain ⟨t1, e1, h1, -, -⟩ := flush_ready (p := p) ht .out
  have h2 := flush_seen hs ht e1
  rw [Trio.read, M.bind_ok e1] at e
  have hm := Res.moves_read asks_refl asks_trans _ (call_asks p) n ⟨t1.inp, t1.term⟩
  simp only [Trio.onIn, Prod.mk.injEq] at e
  obtain ⟨-, rfl⟩ := e
  refine ⟨(onScreen_asks hm).trans h2.shown, fun h => ?_⟩
  obtain ⟨q', g1, g2⟩ := h2.keeps h
  exact ⟨q', ⟨g1.length, g1.position, g1.fits, g1.dirty, g1.data⟩, g2⟩

theorem step_seen {w : OutHandle → List Byte} {t t' : Trio} {s : Screen} (hs : Seen cap s t)
    (ht : Ready capIn cap w t) {op : TrioOp} {k : Nat} (e : Trio.step p op t = (.ok k, t')) :
    Seen cap (s.after cap op) t' := by
  cases op with
  | write h bytes => exact write_seen hs ht e
  | flush h =>
    obtain ⟨t1, e1, -⟩ := flush_ready (p := p) ht h
    rw [Trio.step, M.bind_ok e1] at e
    cases e
    exact flush_seen hs ht e1
  | read n =>
    obtain ⟨g, t1, -, e1, -⟩ := read_ready (p := p) ht n
    rw [Trio.step, M.bind_ok e1] at e
    cases e
    exact read_seen hs ht e1

theorem run_seen {w : OutHandle → List Byte} {t : Trio} {s : Screen} (hs : Seen cap s t)
    (ht : Ready capIn cap w t) (ops : List TrioOp) :
    ∃ ks t', M.runList (Trio.step p) ops t = (.ok ks, t')
      ∧ Ready capIn cap (fun h => w h ++ sent h ops) t' ∧ Seen cap (ops.foldl (Screen.after cap) s) t' := by
  induction ops generalizing t w s with
  | nil => exact ⟨[], t, rfl, by simpa [sent] using ht, hs⟩
  | cons op ops ih =>
    obtain ⟨k, t1, e1, h1⟩ := step_ready (p := p) ht op
    obtain ⟨ks, t2, e2, h2, h3⟩ := ih (step_seen hs ht e1) h1
    refine ⟨_, t2, M.runList_cons e1 e2, ?_, h3⟩
    have : (fun h => w h ++ sent h (op :: ops)) = fun h => w h ++ sent h [op] ++ sent h ops := by
      funext h
      rw [sent_cons, List.append_assoc]
    rw [this]
    exact h2

theorem make_seen (capIn : Nat) (cap : OutHandle → Nat) (supply : List Byte) (reads : List (Option Nat)) :
    Seen cap ⟨[], fun _ => []⟩ (make capIn cap supply reads []) :=
  ⟨rfl, fun _ => ⟨none, Res.keeps_make _ _, rfl, fun _ => rfl⟩⟩

end Trio

/-- C113 in full: what has been shown at any time, in which order, and what happens to the rest at the
end of the program; and what was sent to a handle has arrived when input is awaited exactly if the
handle is that of `uout` or nothing waits there. -/
theorem C113_exact (p : StdPlatform) (capIn : Nat) (cap : OutHandle → Nat) (supply : List Byte)
    (reads : List (Option Nat)) (hreads : ∀ e ∈ reads, e ≠ none) (ops : List TrioOp) :
    (∀ n h, ArrivesFirst p capIn cap supply reads ops n h ↔ h = .out ∨ (screen cap ops).waiting h = [])
    ∧ ∃ results t, M.runList (Trio.step p) ops (Trio.make capIn cap supply reads []) = (.ok results, t)
      ∧ onScreen t.term.log = (screen cap ops).shown
      ∧ (∀ h, arrived h t.term.log ++ (screen cap ops).waiting h = sent h ops)
      ∧ ∃ t', Trio.close p t = (.ok (), t')
        ∧ onScreen t'.term.log = (((screen cap ops).release .err).release .out).shown := by
  obtain ⟨ks, t, e, ht, hs⟩ := Trio.run_seen (p := p) (Trio.make_seen capIn cap supply reads)
    (Trio.make_ready capIn cap supply reads hreads) ops
  simp only [List.nil_append] at ht
  change Trio.Seen cap (screen cap ops) t at hs
  have hrest : ∀ h, arrived h t.term.log ++ (screen cap ops).waiting h = sent h ops := by
    intro h
    obtain ⟨h1, h2, -, w, ⟨h3, -⟩, -, h4⟩ := ht.outs h
    obtain ⟨q, g1, g2, -⟩ := hs.keeps h
    rw [← h4, ← h3, ← g2]
    congr 1
    have h5 := g1.dirty
    have h6 := g1.data
    unfold IoBuffer.pending
    simp only at h5 h6
    cases q with
    | none => simp [h5]
    | some l => simp only [h5, Option.isSome_some, if_true, h6]
  constructor
  · intro n h
    constructor
    · rintro ⟨ks', t0, g, t', ws, as, e0, e', hl, -, ha, hsent⟩
      rw [e] at e0
      cases e0
      by_cases ho : h = .out
      · exact .inl ho
      · right
        obtain ⟨g1, t1, s, e1, -, ⟨-, -, ws1, h1, h2⟩, -, h3⟩ := Trio.read_ready (p := p) ht n
        rw [e'] at e1
        cases e1
        have h4 : arrived h t'.term.log = arrived h t.term.log := by
          rw [Trio.arrived_of_asks h3, h1, Trio.arrived_append]
          have : arrived h ws1 = [] := by
            simp only [arrived, List.flatMap_eq_nil_iff]
            intro x hx
            obtain ⟨b, rfl⟩ := h2 x hx
            simp [Ne.symm ho]
          rw [this, List.append_nil]
        have h5 : arrived h t'.term.log = sent h ops := by
          rw [hl, Trio.arrived_append, hsent, Trio.arrived_asks _ ha, List.append_nil]
        have h6 := hrest h
        rw [← h4, h5] at h6
        simpa using h6
    · intro hh
      obtain ⟨g, t', s, e', -, ⟨-, -, ws, h1, h2⟩, h3, -, as, h4, h5⟩ := Trio.read_ready (p := p) ht n
      refine ⟨ks, t, g, t', ws, as, e, e', by rw [h4, h1], fun x hx => ⟨.out, h2 x hx⟩, h5, ?_⟩
      by_cases ho : h = .out
      · rw [← h1, ho]
        exact h3
      · have hw : arrived h ws = [] := by
          simp only [arrived, List.flatMap_eq_nil_iff]
          intro x hx
          obtain ⟨b, rfl⟩ := h2 x hx
          simp [Ne.symm ho]
        rw [Trio.arrived_append, hw, List.append_nil, ← hrest h, hh.resolve_left ho, List.append_nil]
  · refine ⟨ks, t, e, hs.shown, hrest, ?_⟩
    obtain ⟨t1, e1, h1, -⟩ := Trio.flush_ready (p := p) ht .err
    obtain ⟨t2, e2, h2, -⟩ := Trio.flush_ready (p := p) h1 .out
    exact ⟨t2, by rw [Trio.close, M.bind_ok e1, e2],
      (Trio.flush_seen (Trio.flush_seen hs ht e1) h1 e2).shown⟩

/-- Two that fit wait, the next sends them away, and a remark overtakes. -/
example : (screen (fun h => if h = .out then 4 else 2)
      [.write .out [1, 2], .write .out [3], .write .err [9, 8, 7], .write .out [4, 5], .write .err [6]]).shown
    = [(.err, 9), (.err, 8), (.err, 7), (.out, 1), (.out, 2), (.out, 3)]
    ∧ (screen (fun h => if h = .out then 4 else 2)
      [.write .out [1, 2], .write .out [3], .write .err [9, 8, 7], .write .out [4, 5],
        .write .err [6]]).waiting .err = [6] := by decide +kernel

end Cmp
