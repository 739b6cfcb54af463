import Verif.Model.GuiExample
import Verif.Spec.GuiExample
import Verif.Props.StdioExample
import Verif.Props.Desk

/-
The example program for windows.
-/

namespace Cmp

open OutStream
open _root_.Spec (Happening transcript counterOn counted plainTitle secondsTitle codes)

/-! ### Counter and title, step by step -/

/-- What the window remembers and shows. -/
structure Counter where
  on : Bool
  last : Int
  title : List Nat

namespace Counter

def start : Counter := ⟨false, -1, plainTitle⟩

def step (c : Counter) : Happening → Counter
  | .down _ true => if c.on then ⟨false, c.last, plainTitle⟩ else { c with on := true }
  | .update s => if c.on ∧ c.last < s then ⟨true, s, secondsTitle s.toNat⟩ else c
  | _ => c

def after (hs : List Happening) : Counter := hs.foldl step start

theorem after_append (hs : List Happening) (h : Happening) : after (hs ++ [h]) = (after hs).step h := by
  simp [after]

theorem counterOn_append (hs : List Happening) (h : Happening) :
    counterOn (hs ++ [h]) = if h.switches then !counterOn hs else counterOn hs := by
  unfold counterOn
  rw [List.countP_append]
  cases hh : h.switches with
  | false => simp [hh]
  | true =>
    simp only [List.countP_singleton, hh, if_true]
    by_cases h0 : hs.countP Happening.switches % 2 = 1
    · simp only [h0, decide_true, Bool.not_true, decide_eq_false_iff_not]; omega
    · simp only [h0, decide_false, Bool.not_false, decide_eq_true_eq]; omega

theorem counterOn_cons (h : Happening) (hs : List Happening) :
    counterOn (h :: hs) = if h.switches then !counterOn hs else counterOn hs := by
  unfold counterOn
  rw [List.countP_cons]
  cases hh : h.switches with
  | false => simp
  | true =>
    simp only [if_true]
    by_cases h0 : hs.countP Happening.switches % 2 = 1
    · simp only [h0, decide_true, Bool.not_true, decide_eq_false_iff_not]; omega
    · simp only [h0, decide_false, Bool.not_false, decide_eq_true_eq]; omega

theorem counted_append (hs : List Happening) (on : Bool) (h : Happening) :
    counted on (hs ++ [h]) = counted on hs ++
      (match h with
        | .update s => if counterOn hs = !on then [s] else []
        | _ => []) := by
  induction hs generalizing on with
  | nil => cases h <;> cases on <;> simp [counted, counterOn]
  | cons x hs ih =>
    rw [List.cons_append]
    cases x with
    | update s =>
      have h1 : counterOn (.update s :: hs) = counterOn hs := by
        rw [counterOn_cons]; rfl
      rw [h1]
      cases on <;> simp [counted, ih]
    | down n b =>
      have h1 : counterOn (.down n b :: hs) = if b then !counterOn hs else counterOn hs := by
        rw [counterOn_cons]; rfl
      rw [h1]
      cases b <;> cases on <;> cases h <;> simp [counted, ih, Happening.switches]
    | up n =>
      have h1 : counterOn (.up n :: hs) = counterOn hs := by
        rw [counterOn_cons]; rfl
      rw [h1]
      simp [counted, ih, Happening.switches]
    | resized =>
      have h1 : counterOn (.resized :: hs) = counterOn hs := by
        rw [counterOn_cons]; rfl
      rw [h1]
      simp [counted, ih, Happening.switches]
    | closing =>
      have h1 : counterOn (.closing :: hs) = counterOn hs := by
        rw [counterOn_cons]; rfl
      rw [h1]
      simp [counted, ih, Happening.switches]

theorem counted_prefix (a b : List Happening) (s : Int) (h : s ∈ counted false a) :
    s ∈ counted false (a ++ b) := by
  induction b using List.reverseRecOn with
  | nil => simpa using h
  | append_singleton b x ih =>
    rw [← List.append_assoc, counted_append]
    exact List.mem_append_left _ ih

/-- What the window remembers. -/
structure Keeps (hs : List Happening) (c : Counter) : Prop where
  on : c.on = counterOn hs
  plain : c.on = false → c.title = plainTitle
  low : -1 ≤ c.last
  seen : c.last = -1 ∨ c.last ∈ counted false hs
  most : ∀ x ∈ counted false hs, x ≤ c.last

theorem Keeps.step {hs : List Happening} {c : Counter} (k : Keeps hs c) (h : Happening) :
    Keeps (hs ++ [h]) (c.step h) := by
  have h1 := counterOn_append hs h
  have h2 := counted_append hs false h
  obtain ⟨k1, k2, k3, k4, k5⟩ := k
  cases h with
  | update s =>
    simp only [Happening.switches, Bool.false_eq_true, if_false, Bool.not_false] at h1 h2
    by_cases hs' : c.on = true ∧ c.last < s
    · simp only [Counter.step]
      rw [if_pos hs']
      rw [← k1, if_pos hs'.1] at h2
      refine ⟨by rw [h1, ← k1, hs'.1], by simp, by simp only; omega, .inr (by rw [h2]; simp), ?_⟩
      intro x hx
      rw [h2] at hx
      simp only
      rcases List.mem_append.mp hx with hx | hx
      · have := k5 x hx; omega
      · simp only [List.mem_singleton] at hx; omega
    · simp only [Counter.step]
      rw [if_neg hs']
      refine ⟨by rw [h1, k1], k2, k3, k4.imp id fun hm => by rw [h2]; simp [hm], ?_⟩
      intro x hx
      rw [h2] at hx
      rcases List.mem_append.mp hx with hx | hx
      · exact k5 x hx
      · rw [← k1] at hx
        cases hon : c.on with
        | false => rw [hon] at hx; simp at hx
        | true =>
          rw [hon] at hx
          simp only [if_true, List.mem_singleton] at hx
          have : ¬ c.last < s := fun hl => hs' ⟨hon, hl⟩
          omega
  | down n b =>
    simp only [Happening.switches, List.append_nil] at h1 h2
    cases b with
    | false =>
      simp only [Bool.false_eq_true, if_false] at h1
      exact ⟨by rw [h1]; exact k1, k2, k3, by rw [h2]; exact k4, by rw [h2]; exact k5⟩
    | true =>
      simp only [if_true] at h1
      simp only [Counter.step]
      cases hon : c.on with
      | true =>
        rw [if_pos rfl]
        exact ⟨by rw [h1, ← k1, hon]; rfl, fun _ => rfl, k3, by rw [h2]; exact k4,
          by rw [h2]; exact k5⟩
      | false =>
        rw [if_neg (by simp)]
        exact ⟨by rw [h1, ← k1, hon]; rfl, by simp, k3, by rw [h2]; exact k4, by rw [h2]; exact k5⟩
  | up n =>
    simp only [Happening.switches, Bool.false_eq_true, if_false, List.append_nil] at h1 h2
    exact ⟨by rw [h1]; exact k1, k2, k3, by rw [h2]; exact k4, by rw [h2]; exact k5⟩
  | resized =>
    simp only [Happening.switches, Bool.false_eq_true, if_false, List.append_nil] at h1 h2
    exact ⟨by rw [h1]; exact k1, k2, k3, by rw [h2]; exact k4, by rw [h2]; exact k5⟩
  | closing =>
    simp only [Happening.switches, Bool.false_eq_true, if_false, List.append_nil] at h1 h2
    exact ⟨by rw [h1]; exact k1, k2, k3, by rw [h2]; exact k4, by rw [h2]; exact k5⟩

theorem keeps_after (hs : List Happening) : Keeps hs (after hs) := by
  induction hs using List.reverseRecOn with
  | nil => exact ⟨rfl, fun _ => rfl, by decide, .inl rfl, by simp [counted]⟩
  | append_singleton hs h ih =>
    rw [after_append]
    exact ih.step h

/-- A counter that is on and not switched. -/
theorem running (b : List Happening) (hb : ∀ h ∈ b, h.switches = false) (c : Counter)
    (hc : c.on = true) :
    ((∀ s ∈ Spec.seconds b, s ≤ c.last) ∧ b.foldl step c = c) ∨
    (c.last < (b.foldl step c).last ∧ (b.foldl step c).last ∈ Spec.seconds b ∧
      (∀ s ∈ Spec.seconds b, s ≤ (b.foldl step c).last) ∧
      (b.foldl step c).title = secondsTitle (b.foldl step c).last.toNat) := by
  induction b generalizing c with
  | nil => exact .inl ⟨by simp [Spec.seconds], rfl⟩
  | cons h b ih =>
    have hsw := hb h (by simp)
    have hb' : ∀ h ∈ b, h.switches = false := fun x hx => hb x (by simp [hx])
    have same : c.step h = c → Spec.seconds (h :: b) = Spec.seconds b →
        ((∀ s ∈ Spec.seconds (h :: b), s ≤ c.last) ∧ (h :: b).foldl step c = c) ∨
        (c.last < ((h :: b).foldl step c).last ∧
          ((h :: b).foldl step c).last ∈ Spec.seconds (h :: b) ∧
          (∀ s ∈ Spec.seconds (h :: b), s ≤ ((h :: b).foldl step c).last) ∧
          ((h :: b).foldl step c).title =
            secondsTitle ((h :: b).foldl step c).last.toNat) := fun h1 h2 => by
      rw [List.foldl_cons, h1, h2]
      exact ih hb' c hc
    cases h with
    | update s =>
      have hsec : Spec.seconds (.update s :: b) = s :: Spec.seconds b := rfl
      rw [List.foldl_cons, hsec]
      by_cases hs : c.last < s
      · have h1 : c.step (.update s) = ⟨true, s, secondsTitle s.toNat⟩ := by
          simp only [step]; rw [if_pos ⟨hc, hs⟩]
        rw [h1]
        right
        rcases ih hb' ⟨true, s, secondsTitle s.toNat⟩ rfl with ⟨h2, h3⟩ | ⟨h2, h3, h4, h5⟩
        · rw [h3]
          refine ⟨hs, by simp, ?_, rfl⟩
          intro x hx
          rcases List.mem_cons.mp hx with hx | hx
          · simp only; omega
          · exact h2 x hx
        · simp only at h2
          refine ⟨by omega, by simp [h3], ?_, h5⟩
          intro x hx
          rcases List.mem_cons.mp hx with hx | hx
          · omega
          · exact h4 x hx
      · have h1 : c.step (.update s) = c := by
          simp only [step]; rw [if_neg (by simp [hs])]
        rw [h1]
        rcases ih hb' c hc with ⟨h2, h3⟩ | ⟨h2, h3, h4, h5⟩
        · refine .inl ⟨?_, h3⟩
          intro x hx
          rcases List.mem_cons.mp hx with hx | hx
          · omega
          · exact h2 x hx
        · refine .inr ⟨h2, by simp [h3], ?_, h5⟩
          intro x hx
          rcases List.mem_cons.mp hx with hx | hx
          · omega
          · exact h4 x hx
    | down n x =>
      have hx : x = false := hsw
      subst hx
      exact same rfl rfl
    | up n => exact same rfl rfl
    | resized => exact same rfl rfl
    | closing => exact same rfl rfl

end Counter

namespace Demo

variable {x : DemoHost} {capIn capOut total : Nat} {bs : List Byte}

/-! ### What is reported -/

theorem string_name (k : Key) : string k.name = encs .char8 (codes (Spec.keyName k)) := by
  have : ∀ k ∈ Key.all, string k.name = encs .char8 (codes (Spec.keyName k)) := by decide +kernel
  exact this k (Key.mem_all k)

theorem name_ascii (k : Key) : ∀ c ∈ codes (Spec.keyName k), c < 128 := by
  have : ∀ k ∈ Key.all, ∀ c ∈ codes (Spec.keyName k), c < 128 := by decide +kernel
  exact this k (Key.mem_all k)

theorem ascii_text {cs : List Nat} (h : ∀ c ∈ cs, c < 128) : Spec.IsText cs := by
  intro c hc
  have := h c hc
  exact ⟨by omega, by omega⟩

/-- All of `t` has been written and has arrived. -/
structure Told (x : DemoHost) (capIn capOut total : Nat) (bs : List Byte) (t : List Nat)
    (c : Console) : Prop where
  endian : c.outEndian = x.native
  form : c.outForm = .utf8
  talking : Talking x.std capIn capOut total (shownText t) bs c.res
  shown : Sys.output c.res.world.log = shownText t

theorem uout_flush {c : Console} {t : List Nat} (he : c.outEndian = x.native ∧ c.outForm = .utf8)
    (h : Talking x.std capIn capOut total (shownText t) bs c.res) :
    ∃ c', Console.uout (OutStream.flush x.std.stdout) c = (.ok (), c') ∧
      Told x capIn capOut total bs t c' := by
  obtain ⟨r, hr, ho, -, e, -⟩ := h.flushed
  refine ⟨{ c with res := r }, ?_, he.1, he.2, hr, ho⟩
  simp only [Console.uout, OutStream.flush, OutStream.onRes]
  rw [e]

theorem report_line {t : List Nat} {d : Demo} (h : Told x capIn capOut total bs t d.console)
    (text : String) (hl : literal .narrow text = encs .narrow (codes text) ++ [0])
    (h0 : 0 ∉ encs .narrow (codes text)) (ha : ∀ c ∈ codes text, c < 128) :
    ∃ c', report x (Console.uout (writeArray x.native x.std.stdout .narrow (literal .narrow text))) d =
        (.ok (), { d with console := c' }) ∧
      Told x capIn capOut total bs (t ++ codes text) c' := by
  obtain ⟨r1, e1, q1, -⟩ := uout_print x.std x.native capIn capOut total bs _ _ d.console
    ⟨h.endian, h.form⟩ (.array .narrow (literal .narrow text)) (codes text)
    (literal_means _ _ hl h0 (ascii_text ha) (fun _ => ha)) (.inl ⟨rfl, .inl rfl⟩) h.talking.start
  rw [← shownText_append] at q1
  obtain ⟨c', e2, q2⟩ := uout_flush (c := { d.console with res := r1 }) ⟨h.endian, h.form⟩ q1
  refine ⟨c', ?_, q2⟩
  have e : (do
      Console.uout (writeArray x.native x.std.stdout .narrow (literal .narrow text))
      Console.uout (OutStream.flush x.std.stdout)) d.console = (.ok (), c') := (M.bind_ok e1).trans e2
  simp only [report, onConsole]
  rw [e]

theorem report_key {t : List Nat} {d : Demo} (h : Told x capIn capOut total bs t d.console) (k : Key)
    (text : String) (hl : literal .narrow text = encs .narrow (codes text) ++ [0])
    (h0 : 0 ∉ encs .narrow (codes text)) (ha : ∀ c ∈ codes text, c < 128) :
    ∃ c', report x (do
        Console.uout (writeString x.native x.std.stdout .char8 (string k.name))
        Console.uout (writeArray x.native x.std.stdout .narrow (literal .narrow text))) d =
        (.ok (), { d with console := c' }) ∧
      Told x capIn capOut total bs (t ++ (codes (Spec.keyName k) ++ codes text)) c' := by
  obtain ⟨r0, e0, q0⟩ := uout_print x.std x.native capIn capOut total bs _ _ d.console
    ⟨h.endian, h.form⟩ (.view .char8 (string k.name)) (codes (Spec.keyName k))
    (by rw [string_name]; exact textOf_encs _ _ (ascii_text (name_ascii k)) (by simp))
    (.inl ⟨rfl, .inl rfl⟩) h.talking.start
  obtain ⟨r1, e1, q1, -⟩ := uout_print x.std x.native capIn capOut total bs _ _
    { d.console with res := r0 }
    ⟨h.endian, h.form⟩ (.array .narrow (literal .narrow text)) (codes text)
    (literal_means _ _ hl h0 (ascii_text ha) (fun _ => ha)) (.inl ⟨rfl, .inl rfl⟩) q0
  rw [← shownText_append, ← shownText_append, List.append_assoc] at q1
  obtain ⟨c', e2, q2⟩ := uout_flush (c := { d.console with res := r1 }) ⟨h.endian, h.form⟩ q1
  refine ⟨c', ?_, q2⟩
  have e : ((Console.uout (writeString x.native x.std.stdout .char8 (string k.name)) >>= fun _ =>
      Console.uout (writeArray x.native x.std.stdout .narrow (literal .narrow text))) >>= fun _ =>
      Console.uout (OutStream.flush x.std.stdout)) d.console = (.ok (), c') := by
    have e01 : (Console.uout (writeString x.native x.std.stdout .char8 (string k.name)) >>= fun _ =>
      Console.uout (writeArray x.native x.std.stdout .narrow (literal .narrow text))) d.console =
        (.ok (), { d.console with res := r1 }) := (M.bind_ok e0).trans e1
    rw [M.bind_ok e01, e2]
  simp only [report, onConsole]
  rw [e]

/-! ### What is seen -/

/-- The window object shows the window with the handle `h`, opened at `t0`, which is visible if `b`
and has a certain title. -/
structure Seen (h : Nat) (t0 : Int) (b : Bool) (title : List Nat) (k : Desk) : Prop where
  assoc : k.gui.assoc = [(h, 0)]
  obj : ∃ l, k.gui.objs 0 = some ⟨some h, t0, l⟩
  native : ∃ n, k.native h = some n ∧ Desk.fetch n.title = .ok (encs .char8 title) ∧ n.visible = b

theorem Seen.getTitle {h : Nat} {t0 : Int} {b : Bool} {title : List Nat} {k : Desk}
    (s : Seen h t0 b title k) : Desk.getTitle x.toolkit 0 k = (.ok (encs .char8 title), k) := by
  obtain ⟨l, hl⟩ := s.obj
  obtain ⟨n, hn, ht, -⟩ := s.native
  simp only [Desk.getTitle, hl, hn, ht]

theorem Seen.setTitle {h : Nat} {t0 : Int} {b : Bool} {title : List Nat} {k : Desk}
    (s : Seen h t0 b title k) {new : List Nat} (hk : Desk.Kept x.valid x.toolkit (encs .char8 new)) :
    ∃ k', Desk.setTitle x.valid x.toolkit 0 (encs .char8 new) k = (.ok (), k') ∧
      Seen h t0 b new k' := by
  obtain ⟨y, hy, hf⟩ := hk
  obtain ⟨l, hl⟩ := s.obj
  obtain ⟨n, hn, -, hv⟩ := s.native
  refine ⟨{ k with native := fun i => if i = h then some { n with title := y } else k.native i }, ?_,
    s.assoc, s.obj, { n with title := y }, by simp, hf, hv⟩
  rw [Desk.setTitle, hy]
  show Desk.onNative _ _ _ k = _
  simp only [Desk.onNative, hl, hn]

theorem Seen.show {h : Nat} {t0 : Int} {b : Bool} {title : List Nat} {k : Desk}
    (s : Seen h t0 b title k) :
    ∃ k', Desk.show x.toolkit 0 k = (.ok (), k') ∧ Seen h t0 true title k' := by
  obtain ⟨l, hl⟩ := s.obj
  obtain ⟨n, hn, ht, hv⟩ := s.native
  refine ⟨{ k with native := fun i => if i = h then some (Desk.appear x.toolkit n) else k.native i },
    ?_, s.assoc, s.obj, Desk.appear x.toolkit n, by simp, ?_, ?_⟩
  · simp only [Desk.show, Desk.onNative, hl, hn]
  · unfold Desk.appear
    split
    · exact ht
    · split <;> exact ht
  · unfold Desk.appear
    split
    · assumption
    · split <;> rfl

theorem Seen.call {h : Nat} {t0 : Int} {b : Bool} {title : List Nat} {k : Desk}
    (s : Seen h t0 b title k) (e : GuiEvent) :
    ∃ k', Desk.onlyGui (Gui.call 0 e) k = (.ok (), k') ∧ Seen h t0 b title k' := by
  obtain ⟨l, hl⟩ := s.obj
  refine ⟨{ k with gui := { k.gui with log := k.gui.log ++ [(0, e)] } }, ?_, s.assoc, s.obj, s.native⟩
  simp only [Desk.onlyGui, Gui.call, hl]

theorem Seen.update {h : Nat} {t0 : Int} {b : Bool} {title : List Nat} {k : Desk}
    (s : Seen h t0 b title k) (now : Int) :
    ∃ k', Desk.onlyGui (Gui.updateWindow x.sec 0 now) k = (.ok (), k') ∧ Seen h t0 b title k' := by
  obtain ⟨l, hl⟩ := s.obj
  refine ⟨{ k with gui := { k.gui.put 0 (some ⟨some h, t0, now⟩) with
    log := k.gui.log ++ [(0, .update (x.sec (now - l)) (x.sec (now - t0)))] } }, ?_,
    s.assoc, ⟨now, by simp [Gui.put]⟩, s.native⟩
  simp only [Desk.onlyGui, Gui.updateWindow, hl, Gui.call, Gui.put, if_true]

/-- Constructing the window. -/
theorem seen_construct (h : Nat) (now : Int) {title : List Nat} (mode : WindowMode)
    (hk : Desk.Kept x.valid x.toolkit (encs .char8 title)) :
    ∃ k', Desk.step x.valid x.toolkit x.sec (.gui (.construct 0 (some h) now) (encs .char8 title) mode)
        Desk.empty = (.ok (.opened none), k') ∧ Seen h now false title k' := by
  obtain ⟨y, hy, hf⟩ := hk
  have e1 : Gui.step x.toolkit x.sec (.construct 0 (some h) now) Gui.empty =
      (.ok none, { (Gui.empty.put 0 (some ⟨none, 0, 0⟩)).put 0 (some ⟨some h, now, now⟩) with
        assoc := [(h, 0)] }) := rfl
  refine ⟨⟨{ (Gui.empty.put 0 (some ⟨none, 0, 0⟩)).put 0 (some ⟨some h, now, now⟩) with
        assoc := [(h, 0)] }, fun i => if i = h then some (Desk.fresh x.toolkit y mode) else none⟩, ?_,
    rfl, ⟨now, rfl⟩, Desk.fresh x.toolkit y mode, by simp, hf, rfl⟩
  simp only [Desk.step, Desk.onGui, Desk.empty, e1]
  have e2 : Desk.settle x.valid x.toolkit (encs .char8 title) mode Gui.empty
      { (Gui.empty.put 0 (some ⟨none, 0, 0⟩)).put 0 (some ⟨some h, now, now⟩) with
        assoc := [(h, 0)] } (fun _ => none) =
      .ok (fun i => if i = h then some (Desk.fresh x.toolkit y mode) else none) := by
    have h1 : ∀ i, Desk.has Gui.empty i = false := fun _ => rfl
    have h2 : ∀ i, Desk.has { (Gui.empty.put 0 (some ⟨none, 0, 0⟩)).put 0 (some ⟨some h, now, now⟩) with
        assoc := [(h, 0)] } i = decide (h = i) := fun i => by simp [Desk.has]
    simp only [Desk.settle, h1, h2, List.all_cons, List.all_nil, Bool.false_and, Bool.false_eq_true,
      if_false, hy]
    show Outcome.ok _ = _
    congr 1
    funext i
    by_cases hi : i = h
    · simp [hi]
    · simp [hi, Ne.symm hi]
  rw [e2]

/-- The user closes the window. -/
theorem Seen.closed {h : Nat} {t0 : Int} {b : Bool} {title : List Nat} {k : Desk}
    (s : Seen h t0 b title k) :
    ∃ k', Desk.step x.valid x.toolkit x.sec (.gui (.closeRequest h { accept := true }) [] .standard) k =
        (.ok (.opened none), k') ∧ k'.gui.assoc = [] ∧ (∃ w, k'.gui.objs 0 = some w) ∧
      k'.native h = none := by
  obtain ⟨l, hl⟩ := s.obj
  have ha := s.assoc
  have e1 : Gui.step x.toolkit x.sec (.closeRequest h { accept := true }) k.gui =
      (.ok none, { k.gui with assoc := [], log := k.gui.log ++ [(0, .closeRequest)] }) := by
    simp [Gui.step, Gui.forwardClose, ha, Gui.closeHandler, Gui.call, hl, Gui.CloseReply.moved,
      Gui.eraseAt, M.bind_apply]
  refine ⟨⟨{ k.gui with assoc := [], log := k.gui.log ++ [(0, .closeRequest)] }, fun _ => none⟩, ?_,
    rfl, ⟨_, hl⟩, rfl⟩
  simp only [Desk.step, Desk.onGui, e1]
  simp [Desk.settle, Desk.has]

/-! ### Titles -/

/-- `NSString` accepts text. -/
def _root_.Cmp.DemoHost.Accepts (x : DemoHost) : Prop :=
  ∀ s, _root_.Spec.WellFormed .utf8 (units s) → x.valid s = true

theorem kept_of {cs : List Nat} (hv : x.Accepts) (ht : _root_.Spec.IsText cs)
    (hc : ∀ c ∈ cs, c ≠ 0 ∧ c < 0x10000) : Desk.Kept x.valid x.toolkit (encs .char8 cs) :=
  Desk.kept hv ⟨cs, (textOf_encs .char8 cs ht (by simp)).1, fun h => (hc 0 h).1 rfl,
    fun _ c h => (hc c h).2⟩

theorem decimal_range (n : Nat) : ∀ c ∈ _root_.Spec.decimalDigits n, 48 ≤ c ∧ c < 58 := by
  induction n using Nat.strongRecOn with
  | ind n ih =>
    intro c hc
    rw [_root_.Spec.decimalDigits] at hc
    split at hc
    · simp only [List.mem_singleton] at hc; omega
    · rcases List.mem_append.mp hc with hc | hc
      · exact ih _ (by omega) c hc
      · simp only [List.mem_singleton] at hc; omega

theorem secondsTitle_range (n : Nat) : ∀ c ∈ secondsTitle n, 44 ≤ c ∧ c < 128 := by
  intro c hc
  rcases List.mem_append.mp hc with hc | hc
  · rcases mem_group hc with hc | hc
    · have := decimal_range n c hc; omega
    · simp only [Option.some.injEq] at hc; omega
  · simp only [List.mem_singleton] at hc; omega

theorem kept_seconds (hv : x.Accepts) (n : Nat) :
    Desk.Kept x.valid x.toolkit (encs .char8 (secondsTitle n)) :=
  kept_of hv (ascii_text fun c hc => (secondsTitle_range n c hc).2) fun c hc => by
    have := secondsTitle_range n c hc; omega

theorem kept_plain (hv : x.Accepts) : Desk.Kept x.valid x.toolkit (encs .char8 plainTitle) :=
  kept_of hv (by unfold _root_.Spec.IsText; decide +kernel) (by decide +kernel)

theorem kept_first (hv : x.Accepts) :
    Desk.Kept x.valid x.toolkit (encs .char8 (codes "Demo Window")) :=
  kept_of hv (by unfold _root_.Spec.IsText; decide +kernel) (by decide +kernel)

/-- The text of a number of seconds. -/
theorem format_seconds {v : Int} (h0 : 0 ≤ v) (hv : IntTy.int.Has v) :
    ∃ s, formatInteger .char8 .int v ⟨10, .onlyWhenNegative, .comma⟩ = .ok s ∧
      s ++ [0x73#8] = encs .char8 (secondsTitle v.toNat) := by
  obtain ⟨ds, e, hp, hd, hne, hz⟩ := formatInteger_eq .char8 (T := .int) (by decide)
    (f := ⟨10, .onlyWhenNegative, .comma⟩) (by decide) (by decide) hv
    (fun _ => by have : IntTy.int.min < 0 := by decide
                 omega)
  refine ⟨_, e, ?_⟩
  have hs : signText .onlyWhenNegative v = [] := by
    unfold signText
    rw [if_neg (by omega), if_neg (by simp)]
  have hn : v.natAbs = v.toNat := by omega
  simp only at hp hd ⊢
  rw [hs, decimalDigits_eq ds hd hne hz, hp, hn, secondsTitle, List.nil_append, encs_append]
  rfl

/-! ### Turns -/

/-- The state after the happenings `hs`. -/
structure At (x : DemoHost) (capIn capOut total : Nat) (bs : List Byte) (h : Nat) (t0 : Int)
    (hs : List Happening) (d : Demo) : Prop where
  seen : Seen h t0 true (Counter.after hs).title d.desk
  counting : d.counting = (Counter.after hs).on
  last : d.last = (Counter.after hs).last
  told : Told x capIn capOut total bs (transcript hs) d.console

/-- What a turn is for the window `h`. -/
def happens (x : DemoHost) (h : Nat) (t0 : Int) : DemoTurn → List Happening
  | .keyDown h' code => if h' = h then
      [.down (codes (Spec.keyName (Spec.keyOf x.toolkit code)))
        (decide (Spec.keyOf x.toolkit code = .spaceBar))] else []
  | .keyUp h' code => if h' = h then [.up (codes (Spec.keyName (Spec.keyOf x.toolkit code)))] else []
  | .resize h' => if h' = h then [.resized] else []
  | .closeRequest h' => if h' = h then [.closing] else []
  | .idle now => [.update (x.sec (now - t0)).floor]

variable {h : Nat} {t0 : Int} {hs : List Happening} {d : Demo}

theorem transcript_append (hs : List Happening) (e : Happening) :
    transcript (hs ++ [e]) = transcript hs ++ e.line := by
  simp [transcript]

theorem forward_other (ha : d.desk.gui.assoc = [(h, 0)]) {h' : Nat} (hn : h' ≠ h) (e : GuiEvent)
    (f : M Demo Unit) : forward h' e f d = (.ok (), d) := by
  simp [forward, ha, Ne.symm hn]

theorem forward_own (a : Seen h t0 true t d.desk) (e : GuiEvent) (f : M Demo Unit) :
    ∃ k, forward h e f d = f { d with desk := k } ∧ Seen h t0 true t k := by
  obtain ⟨k, e1, hk⟩ := a.call e
  refine ⟨k, ?_, hk⟩
  have : onDesk (Desk.onlyGui (Gui.call 0 e)) d = (.ok (), { d with desk := k }) := by
    simp only [onDesk, e1]
  simp only [forward, a.assoc, List.find?_cons, decide_true]
  rw [M.bind_ok this]

theorem onDesk_ok {α : Type} {y : M Desk α} {v : α} {k : Desk} (e : y d.desk = (.ok v, k)) :
    onDesk y d = (.ok v, { d with desk := k }) := by
  simp only [onDesk, e]

theorem keyDown_at (hv : x.Accepts) (a : At x capIn capOut total bs h t0 hs d) (k : Key) :
    ∃ d', keyDown x k d = (.ok (), d') ∧
      At x capIn capOut total bs h t0
        (hs ++ [.down (codes (Spec.keyName k)) (decide (k = .spaceBar))]) d' := by
  obtain ⟨c, e1, hc⟩ := report_key a.told k " down.\n" (by decide +kernel) (by decide +kernel)
    (by decide +kernel)
  have hc' : Told x capIn capOut total bs
      (transcript (hs ++ [.down (codes (Spec.keyName k)) (decide (k = .spaceBar))])) c := by
    rw [transcript_append]; exact hc
  by_cases hk : k = .spaceBar
  · have hd : decide (k = .spaceBar) = true := by simp [hk]
    rw [hd] at hc' ⊢
    cases hon : d.counting with
    | true =>
      obtain ⟨k', e2, hk'⟩ := a.seen.setTitle (kept_plain hv)
      have hs' : string "Demo Window ¯\\_(ツ)_/¯" = encs .char8 plainTitle := by decide +kernel
      have hcnt : Counter.after (hs ++ [.down (codes (Spec.keyName k)) true]) =
          ⟨false, (Counter.after hs).last, plainTitle⟩ := by
        rw [Counter.after_append]
        simp only [Counter.step]
        rw [if_pos (by rw [← a.counting, hon])]
      refine ⟨⟨k', c, false, d.last⟩, ?_, ?_, ?_, ?_, hc'⟩
      · rw [keyDown, M.bind_ok e1]
        simp only [hk, if_true, M.bind_apply, M.get_apply, hon, M.modify_apply]
        rw [hs']
        have := onDesk_ok (d := { d with console := c, counting := false }) e2
        exact this
      · rw [hcnt]; exact hk'
      · rw [hcnt]
      · rw [hcnt]; exact a.last
    | false =>
      have hcnt : Counter.after (hs ++ [.down (codes (Spec.keyName k)) true]) =
          { Counter.after hs with on := true } := by
        rw [Counter.after_append]
        simp only [Counter.step]
        rw [if_neg (by rw [← a.counting, hon]; simp)]
      refine ⟨{ d with console := c, counting := true }, ?_, ?_, ?_, ?_, hc'⟩
      · rw [keyDown, M.bind_ok e1]
        simp only [hk, if_true, M.bind_apply, M.get_apply, hon]
        rfl
      · rw [hcnt]; exact a.seen
      · rw [hcnt]
      · rw [hcnt]; exact a.last
  · have hd : decide (k = .spaceBar) = false := by simp [hk]
    rw [hd] at hc' ⊢
    have hcnt : Counter.after (hs ++ [.down (codes (Spec.keyName k)) false]) = Counter.after hs := by
      rw [Counter.after_append]; rfl
    refine ⟨{ d with console := c }, ?_, ?_, ?_, ?_, hc'⟩
    · rw [keyDown, M.bind_ok e1, if_neg hk]
      rfl
    · rw [hcnt]; exact a.seen
    · rw [hcnt]; exact a.counting
    · rw [hcnt]; exact a.last

theorem At.reported (a : At x capIn capOut total bs h t0 hs d) {c : Console} {e : Happening}
    (hc : Told x capIn capOut total bs (transcript hs ++ e.line) c)
    (he : Counter.after (hs ++ [e]) = Counter.after hs) :
    At x capIn capOut total bs h t0 (hs ++ [e]) { d with console := c } := by
  refine ⟨?_, ?_, ?_, ?_⟩
  · rw [he]; exact a.seen
  · rw [he]; exact a.counting
  · rw [he]; exact a.last
  · rw [transcript_append]; exact hc

theorem keyUp_at (a : At x capIn capOut total bs h t0 hs d) (k : Key) :
    ∃ d', keyUp x k d = (.ok (), d') ∧
      At x capIn capOut total bs h t0 (hs ++ [.up (codes (Spec.keyName k))]) d' := by
  obtain ⟨c, e1, hc⟩ := report_key a.told k " up.\n" (by decide +kernel) (by decide +kernel)
    (by decide +kernel)
  exact ⟨_, e1, a.reported (e := .up (codes (Spec.keyName k))) hc
    (by rw [Counter.after_append]; rfl)⟩

theorem resize_at (a : At x capIn capOut total bs h t0 hs d) :
    ∃ d', resize x d = (.ok (), d') ∧ At x capIn capOut total bs h t0 (hs ++ [.resized]) d' := by
  obtain ⟨c, e1, hc⟩ := report_line a.told "Resized.\n" (by decide +kernel) (by decide +kernel)
    (by decide +kernel)
  exact ⟨_, e1, a.reported (e := .resized) hc (by rw [Counter.after_append]; rfl)⟩

theorem close_at (a : At x capIn capOut total bs h t0 hs d) :
    ∃ d', close x d = (.ok (), d') ∧ At x capIn capOut total bs h t0 (hs ++ [.closing]) d' := by
  obtain ⟨c, e1, hc⟩ := report_line a.told "Closing.\n" (by decide +kernel) (by decide +kernel)
    (by decide +kernel)
  exact ⟨_, e1, a.reported (e := .closing) hc (by rw [Counter.after_append]; rfl)⟩

theorem update_at (hv : x.Accepts) (a : At x capIn capOut total bs h t0 hs d) (q : ℚ)
    (hq : d.counting = true → IntTy.int.Has q.floor) :
    ∃ d', update x q d = (.ok (), d') ∧
      At x capIn capOut total bs h t0 (hs ++ [.update q.floor]) d' := by
  have hct : ∀ {d' : Demo}, d'.console = d.console →
      Told x capIn capOut total bs (transcript (hs ++ [.update q.floor])) d'.console := by
    intro d' hd
    rw [transcript_append, hd]
    simpa [Happening.line] using a.told
  by_cases hnew : d.counting = true ∧ d.last < q.floor
  · have hnew' : (Counter.after hs).on = true ∧ (Counter.after hs).last < q.floor := by
      rw [← a.counting, ← a.last]; exact hnew
    have hlow := (Counter.keeps_after hs).low
    have h0 : 0 ≤ q.floor := by omega
    have hhas := hq hnew.1
    obtain ⟨s, es, hs'⟩ := format_seconds h0 hhas
    obtain ⟨k', e2, hk'⟩ := a.seen.setTitle (kept_seconds hv q.floor.toNat)
    have hcnt : Counter.after (hs ++ [.update q.floor]) =
        ⟨true, q.floor, secondsTitle q.floor.toNat⟩ := by
      rw [Counter.after_append]
      simp only [Counter.step]
      rw [if_pos hnew']
    refine ⟨⟨k', d.console, d.counting, q.floor⟩, ?_, ?_, ?_, ?_, hct rfl⟩
    · have hm : IntegerFormat.make 10 .onlyWhenNegative .comma =
          .ok ⟨10, .onlyWhenNegative, .comma⟩ := rfl
      rw [update]
      simp only [M.bind_apply, M.get_apply, hnew.1, if_true, hhas, not_true_eq_false, if_false,
        gt_iff_lt, hnew.2, M.modify_apply, M.lift_apply, hm, es]
      rw [hs']
      have := onDesk_ok (d := { d with last := q.floor }) e2
      rw [hnew.1] at this
      exact this
    · rw [hcnt]; exact hk'
    · rw [hcnt]; exact hnew.1
    · rw [hcnt]
  · have hcnt : Counter.after (hs ++ [.update q.floor]) = Counter.after hs := by
      rw [Counter.after_append]
      simp only [Counter.step]
      rw [if_neg (by rw [← a.counting, ← a.last]; exact hnew)]
    refine ⟨d, ?_, ?_, ?_, ?_, hct rfl⟩
    · rw [update]
      cases hon : d.counting with
      | false => simp [M.bind_apply, hon]
      | true =>
        have hl : ¬ d.last < q.floor := fun hl => hnew ⟨hon, hl⟩
        have hhas := hq hon
        simp only [M.bind_apply, M.get_apply, hon, if_true, hhas, not_true_eq_false, if_false,
          gt_iff_lt, hl]
        rfl
    · rw [hcnt]; exact a.seen
    · rw [hcnt]; exact a.counting
    · rw [hcnt]; exact a.last

/-- One turn that is not a close request. -/
theorem turn_at (hv : x.Accepts) (a : At x capIn capOut total bs h t0 hs d) (y : DemoTurn)
    (hy : ∀ h', y ≠ .closeRequest h')
    (hr : ∀ s ∈ counted false (hs ++ happens x h t0 y), IntTy.int.Has s) :
    ∃ d', turn x y d = (.ok (), d') ∧
      At x capIn capOut total bs h t0 (hs ++ happens x h t0 y) d' := by
  cases y with
  | keyDown h' code =>
    by_cases hh : h' = h
    · subst hh
      obtain ⟨k, e, hk⟩ := forward_own a.seen (.keyDown (Gui.keyOf x.toolkit code))
        (keyDown x (Gui.keyOf x.toolkit code))
      obtain ⟨d', e', a'⟩ := keyDown_at hv (d := { d with desk := k })
        ⟨hk, a.counting, a.last, a.told⟩ (Gui.keyOf x.toolkit code)
      refine ⟨d', e.trans e', ?_⟩
      rw [Gui.keyOf_eq] at a'
      simpa [happens] using a'
    · exact ⟨d, forward_other a.seen.assoc hh _ _, by simpa [happens, hh] using a⟩
  | keyUp h' code =>
    by_cases hh : h' = h
    · subst hh
      obtain ⟨k, e, hk⟩ := forward_own a.seen (.keyUp (Gui.keyOf x.toolkit code))
        (keyUp x (Gui.keyOf x.toolkit code))
      obtain ⟨d', e', a'⟩ := keyUp_at (d := { d with desk := k })
        ⟨hk, a.counting, a.last, a.told⟩ (Gui.keyOf x.toolkit code)
      refine ⟨d', e.trans e', ?_⟩
      rw [Gui.keyOf_eq] at a'
      simpa [happens] using a'
    · exact ⟨d, forward_other a.seen.assoc hh _ _, by simpa [happens, hh] using a⟩
  | resize h' =>
    by_cases hh : h' = h
    · subst hh
      obtain ⟨k, e, hk⟩ := forward_own a.seen .resize (resize x)
      obtain ⟨d', e', a'⟩ := resize_at (d := { d with desk := k }) ⟨hk, a.counting, a.last, a.told⟩
      exact ⟨d', e.trans e', by simpa [happens] using a'⟩
    · exact ⟨d, forward_other a.seen.assoc hh _ _, by simpa [happens, hh] using a⟩
  | closeRequest h' => exact absurd rfl (hy h')
  | idle now =>
    obtain ⟨k, e1, hk⟩ := a.seen.update (x := x) now
    obtain ⟨l, hl⟩ := hk.obj
    have hcnt := Counter.counted_append hs false (.update (x.sec (now - t0)).floor)
    obtain ⟨d', e2, a'⟩ := update_at hv (d := { d with desk := k }) ⟨hk, a.counting, a.last, a.told⟩
      (x.sec (now - t0)) (fun hon => hr _ (by
        rw [happens, hcnt]
        have : counterOn hs = true := by
          rw [← (Counter.keeps_after hs).on, ← a.counting]; exact hon
        simp [this]))
    refine ⟨d', ?_, by simpa [happens] using a'⟩
    simp only [turn, a.seen.assoc, updateEach]
    rw [M.bind_ok (onDesk_ok e1)]
    simp only [M.bind_apply, M.get_apply, hl, e2]
    rfl

/-- Turns without a close request. -/
theorem run_at (hv : x.Accepts) (ys : List DemoTurn) (post : List DemoTurn) (hs : List Happening)
    (d : Demo) (a : At x capIn capOut total bs h t0 hs d) (hy : ∀ y ∈ ys, ∀ h', y ≠ .closeRequest h')
    (hr : ∀ s ∈ counted false (hs ++ ys.flatMap (happens x h t0)), IntTy.int.Has s) :
    ∃ d', run x (ys ++ post) d = run x post d' ∧
      At x capIn capOut total bs h t0 (hs ++ ys.flatMap (happens x h t0)) d' := by
  induction ys generalizing hs d with
  | nil => exact ⟨d, rfl, by simpa using a⟩
  | cons y ys ih =>
    rw [List.flatMap_cons, ← List.append_assoc] at hr
    have hr1 : ∀ s ∈ counted false (hs ++ happens x h t0 y), IntTy.int.Has s := by
      intro s hs'
      exact hr s (Counter.counted_prefix _ _ _ hs')
    obtain ⟨d1, e1, a1⟩ := turn_at hv a y (hy y (by simp)) hr1
    obtain ⟨d2, e2, a2⟩ := ih _ d1 a1 (fun z hz => hy z (by simp [hz])) hr
    refine ⟨d2, ?_, by rw [List.flatMap_cons, ← List.append_assoc]; exact a2⟩
    rw [List.cons_append, run]
    have : d.desk.gui.assoc.isEmpty = false := by rw [a.seen.assoc]; rfl
    simp only [this, Bool.false_eq_true, if_false]
    rw [M.bind_ok e1, e2]

/-- The beginning. -/
theorem begin_at (hv : x.Accepts) (h : Nat) (t0 : Int) (capIn capOut : Nat) (supply : List Byte)
    (reads : List (Option Nat)) (hreads : ∀ e ∈ reads, ∃ k, e = some (k + 1))
    (hu : x.std.unit ∣ supply.length) :
    ∃ d, begin x h t0 (before x capIn capOut ⟨supply, reads, [], []⟩) = (.ok (), d) ∧
      At x capIn capOut supply.length supply h t0 [] d := by
  have s1 : string "Demo Window" = encs .char8 (codes "Demo Window") := by decide +kernel
  obtain ⟨k1, e1, hk1⟩ := seen_construct (x := x) h t0 .standard (kept_first hv)
  have e2 := hk1.getTitle (x := x)
  obtain ⟨k3, e3, hk3⟩ := hk1.setTitle (kept_plain hv)
  obtain ⟨k4, e4, hk4⟩ := hk3.show (x := x)
  have s2 : encs .char8 (codes "Demo Window") ++ string " ¯\\_(ツ)_/¯" = encs .char8 plainTitle := by
    decide +kernel
  refine ⟨⟨k4, Console.make x.std x.native capIn capOut ⟨supply, reads, [], []⟩, false, -1⟩, ?_,
    hk4, rfl, rfl, rfl, rfl, talking_make _ _ _ _ _ _ hreads hu, rfl⟩
  have ec : construct x h t0 (before x capIn capOut ⟨supply, reads, [], []⟩) =
      (.ok (), ⟨k3, Console.make x.std x.native capIn capOut ⟨supply, reads, [], []⟩, false, -1⟩) := by
    rw [construct, s1, M.bind_ok (onDesk_ok e1)]
    simp only [M.bind_apply, M.modify_apply]
    rw [onDesk_ok e2]
    simp only
    rw [s2]
    exact onDesk_ok e3
  rw [begin, M.bind_ok ec]
  exact onDesk_ok e4

/-- The close request. -/
theorem run_close (a : At x capIn capOut total bs h t0 hs d) (post : List DemoTurn) :
    ∃ d', run x (.closeRequest h :: post) d = (.ok 0, d') ∧
      Told x capIn capOut total bs (transcript (hs ++ [.closing])) d'.console ∧
      (∃ w, d'.desk.gui.objs 0 = some w) ∧ d'.desk.gui.assoc = [] ∧ d'.desk.native h = none := by
  obtain ⟨d1, e1, a1⟩ := close_at a
  obtain ⟨k2, e2, ha, hw, hn⟩ := a1.seen.closed (x := x)
  refine ⟨{ d1 with desk := k2 }, ?_, a1.told, hw, ha, hn⟩
  have ef : forwardClose x h d = (.ok (), { d1 with desk := k2 }) := by
    simp only [forwardClose, a.seen.assoc, List.find?_cons, decide_true]
    rw [M.bind_ok e1, M.bind_ok (onDesk_ok e2)]
    rfl
  have hne : d.desk.gui.assoc.isEmpty = false := by rw [a.seen.assoc]; rfl
  rw [run]
  simp only [hne, Bool.false_eq_true, if_false, turn]
  rw [M.bind_ok ef]
  have he : k2.gui.assoc.isEmpty = true := by rw [ha]; rfl
  cases post with
  | nil => simp only [run, he, if_true]
  | cons y ys => simp only [run, he, if_true]

/-- The end of the process. -/
theorem end_at {w : Win} (ho : d.desk.gui.objs 0 = some w) (ha : d.desk.gui.assoc = [])
    {t : List Nat} (ht : Told x capIn capOut total bs t d.console) :
    ∃ d', (do
        let _ ← onDesk (Desk.step x.valid x.toolkit x.sec (.gui (.destroy 0) [] .standard))
        onConsole (M.noexcept (Console.uout (OutStream.flush x.std.stdout)))) d = (.ok (), d') ∧
      Sys.output d'.console.res.world.log = shownText t := by
  have e1 : Desk.step x.valid x.toolkit x.sec (.gui (.destroy 0) [] .standard) d.desk =
      (.ok (.opened none), ⟨d.desk.gui.put 0 none, fun _ => none⟩) := by
    have e0 : Gui.step x.toolkit x.sec (.destroy 0) d.desk.gui =
        (.ok none, d.desk.gui.put 0 none) := by
      simp [Gui.step, Gui.destroy, ho, M.bind_apply]
    simp only [Desk.step, Desk.onGui, e0]
    simp [Desk.settle, Desk.has, Gui.put, ha]
  obtain ⟨c', e2, hc⟩ := uout_flush ⟨ht.endian, ht.form⟩ ht.talking
  refine ⟨⟨⟨d.desk.gui.put 0 none, fun _ => none⟩, c', d.counting, d.last⟩, ?_, hc.shown⟩
  rw [M.bind_ok (onDesk_ok e1)]
  simp only [onConsole, M.noexcept_apply, e2]
  rfl

end Demo

end Cmp
