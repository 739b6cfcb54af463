import Verif.Proofs.GuiExample

/-
C130: the example program for windows.
-/

namespace Cmp

open Demo
open _root_.Spec (Happening transcript counterOn counted plainTitle secondsTitle codes)

/-- The program up to the loop and the turns `ys` of the loop. -/
def Demo.played (x : DemoHost) (capIn capOut h : Nat) (t0 : Int) (supply : List Byte)
    (reads : List (Option Nat)) (ys : List DemoTurn) : Outcome Int × Demo :=
  (do
    Demo.begin x h t0
    Demo.run x ys) (Demo.before x capIn capOut ⟨supply, reads, [], []⟩)

/-- What has arrived on the terminal. -/
def Demo.terminal (d : Demo) : List Byte := Sys.output d.console.res.world.log

/-- What `get_title` returns. -/
def Demo.titled (x : DemoHost) (d : Demo) : Outcome (Str .char8) := (Desk.getTitle x.toolkit 0 d.desk).1

/-- C130, for all turns of the loop before the window is closed, with what happens to the window in
them: the program is still in the loop, the window is visible, and the report of all that happened is
on the terminal.  The title is the plain one when the counter is off.  When it was switched on after
`a` and has been on during `b`, the title is the plain one as long as every update came in a second
that was already reached by the counter in `a`; otherwise it is the greatest second of the updates in
`b`.  The seconds that are counted must fit into `int`. -/
theorem C130_exact (x : DemoHost) (hv : x.Accepts) (capIn capOut h : Nat) (t0 : Int)
    (supply : List Byte) (hu : x.std = .windows → 2 ∣ supply.length) (reads : List (Option Nat))
    (hreads : ∀ e ∈ reads, ∃ k, e = some (k + 1)) (ys : List DemoTurn)
    (hy : ∀ y ∈ ys, ∀ h', y ≠ .closeRequest h')
    (hr : ∀ s ∈ counted false (ys.flatMap (happens x h t0)), IntTy.int.Has s) :
    let hs := ys.flatMap (happens x h t0)
    let c := Demo.played x capIn capOut h t0 supply reads ys
    c.1 = .hang ∧ Demo.terminal c.2 = shownText (transcript hs) ∧
    (∃ n, c.2.desk.native h = some n ∧ n.visible = true) ∧
    (counterOn hs = false → Demo.titled x c.2 = .ok (encs .char8 plainTitle)) ∧
    ∀ a name b, hs = a ++ .down name true :: b → counterOn a = false →
      (∀ e ∈ b, e.switches = false) →
      ((∀ s ∈ _root_.Spec.seconds b, s < 0 ∨ ∃ e ∈ counted false a, s ≤ e) →
        Demo.titled x c.2 = .ok (encs .char8 plainTitle)) ∧
      ∀ m ∈ _root_.Spec.seconds b, (∀ s ∈ _root_.Spec.seconds b, s ≤ m) → 0 ≤ m →
        (∀ e ∈ counted false a, e < m) →
        Demo.titled x c.2 = .ok (encs .char8 (secondsTitle m.toNat)) := by
  intro hs c
  have hu' : x.std.unit ∣ supply.length := by
    cases hx : x.std with
    | unix => exact Nat.one_dvd _
    | windows => exact hu hx
  obtain ⟨d0, e0, a0⟩ := begin_at hv h t0 capIn capOut supply reads hreads hu'
  obtain ⟨d, e, a⟩ := run_at hv ys [] [] d0 a0 hy (by simpa using hr)
  rw [List.append_nil] at e
  rw [List.nil_append] at a
  have hc : c = (.hang, d) := by
    show Demo.played x capIn capOut h t0 supply reads ys = _
    rw [Demo.played, M.bind_ok e0, e]
    have : d.desk.gui.assoc.isEmpty = false := by rw [a.seen.assoc]; rfl
    simp [Demo.run, this]
  rw [hc]
  have htitle : Demo.titled x d = .ok (encs .char8 (Counter.after hs).title) := by
    rw [Demo.titled, a.seen.getTitle]
  obtain ⟨n, hn, -, hvis⟩ := a.seen.native
  have hk := Counter.keeps_after hs
  refine ⟨rfl, a.told.shown, ⟨n, hn, hvis⟩, ?_, ?_⟩
  · intro hoff
    rw [htitle, hk.plain (by rw [hk.on, hoff])]
  · intro p name b hpb hp hb
    have kp := Counter.keeps_after p
    have hpon : (Counter.after p).on = false := by rw [kp.on, hp]
    have hfold : Counter.after hs = b.foldl Counter.step ⟨true, (Counter.after p).last, plainTitle⟩ := by
      rw [hpb, Counter.after, List.foldl_append, List.foldl_cons]
      congr 1
      show (Counter.after p).step (.down name true) = _
      simp only [Counter.step, hpon, Bool.false_eq_true, if_false]
      rw [kp.plain hpon]
    rw [htitle, hfold]
    rcases Counter.running b hb ⟨true, (Counter.after p).last, plainTitle⟩ rfl with
      ⟨h1, h2⟩ | ⟨h1, h2, h3, h4⟩
    · refine ⟨fun _ => by rw [h2], ?_⟩
      intro m hm hmax h0 hlt
      exfalso
      have := h1 m hm
      simp only at this
      rcases kp.seen with hl | hl
      · omega
      · have := hlt _ hl; omega
    · refine ⟨?_, ?_⟩
      · intro hall
        exfalso
        simp only at h1
        have hlow := kp.low
        rcases hall _ h2 with hx | ⟨y, hy, hx⟩
        · omega
        · have := kp.most y hy; omega
      · intro m hm hmax h0 hlt
        have h5 := h3 m hm
        have h6 := hmax _ h2
        have : m = (b.foldl Counter.step ⟨true, (Counter.after p).last, plainTitle⟩).last := by omega
        rw [h4, ← this]

/-- C130, the end: when the user closes the window, this is reported, the window is gone, and the
program returns 0, whatever else the system had in store. -/
theorem C130_exact_close (x : DemoHost) (hv : x.Accepts) (capIn capOut h : Nat) (t0 : Int)
    (supply : List Byte) (hu : x.std = .windows → 2 ∣ supply.length) (reads : List (Option Nat))
    (hreads : ∀ e ∈ reads, ∃ k, e = some (k + 1)) (ys post : List DemoTurn)
    (hy : ∀ y ∈ ys, ∀ h', y ≠ .closeRequest h')
    (hr : ∀ s ∈ counted false (ys.flatMap (happens x h t0)), IntTy.int.Has s) :
    let hs := ys.flatMap (happens x h t0)
    let c := Demo.played x capIn capOut h t0 supply reads (ys ++ .closeRequest h :: post)
    let m := Demo.main x h t0 (ys ++ .closeRequest h :: post)
      (Demo.before x capIn capOut ⟨supply, reads, [], []⟩)
    c.1 = .ok 0 ∧ c.2.desk.native h = none ∧
    Demo.terminal c.2 = shownText (transcript hs ++ codes "Closing.\n") ∧
    m.1 = .ok 0 ∧ Demo.terminal m.2 = shownText (transcript hs ++ codes "Closing.\n") := by
  intro hs c m
  have hu' : x.std.unit ∣ supply.length := by
    cases hx : x.std with
    | unix => exact Nat.one_dvd _
    | windows => exact hu hx
  obtain ⟨d0, e0, a0⟩ := begin_at hv h t0 capIn capOut supply reads hreads hu'
  obtain ⟨d, e, a⟩ := run_at hv ys (.closeRequest h :: post) [] d0 a0 hy (by simpa using hr)
  rw [List.nil_append] at a
  obtain ⟨d', e', ht, ⟨w, hw⟩, ha, hn⟩ := run_close a post
  obtain ⟨d2, e2, h2⟩ := end_at hw ha ht
  rw [transcript_append] at ht h2
  have hc : c = (.ok 0, d') := by
    show Demo.played x capIn capOut h t0 supply reads _ = _
    rw [Demo.played, M.bind_ok e0, e, e']
  have hm : m = (.ok 0, d2) := by
    show Demo.main x h t0 _ _ = _
    rw [Demo.main, M.bind_ok e0, M.bind_ok (e.trans e')]
    have : ((onDesk (Desk.step x.valid x.toolkit x.sec (.gui (.destroy 0) [] .standard)) >>= fun _ =>
        onConsole (M.noexcept (Console.uout (OutStream.flush x.std.stdout)))) >>= fun _ =>
        (pure 0 : M Demo Int)) d' = (.ok 0, d2) := by
      rw [M.bind_ok e2]; rfl
    rw [← this]
    simp only [M.bind_apply]
    rcases onDesk (Desk.step x.valid x.toolkit x.sec (.gui (.destroy 0) [] .standard)) d' with ⟨o, s⟩
    cases o <;> rfl
  rw [hc, hm]
  exact ⟨rfl, hn, ht.shown, rfl, h2⟩

/-- The seconds that are counted must indeed fit into `int`: at the first update that comes while the counter
is on in a second that does not, which is after 68 years, the program is undefined. -/
theorem C130_exact_range (x : DemoHost) (hv : x.Accepts) (capIn capOut h : Nat) (t0 now : Int)
    (supply : List Byte) (hu : x.std = .windows → 2 ∣ supply.length) (reads : List (Option Nat))
    (hreads : ∀ e ∈ reads, ∃ k, e = some (k + 1)) (ys post : List DemoTurn)
    (hy : ∀ y ∈ ys, ∀ h', y ≠ .closeRequest h')
    (hr : ∀ s ∈ counted false (ys.flatMap (happens x h t0)), IntTy.int.Has s)
    (hon : counterOn (ys.flatMap (happens x h t0)) = true)
    (hout : ¬ IntTy.int.Has (x.sec (now - t0)).floor) :
    (Demo.played x capIn capOut h t0 supply reads (ys ++ .idle now :: post)).1 = .ub := by
  have hu' : x.std.unit ∣ supply.length := by
    cases hx : x.std with
    | unix => exact Nat.one_dvd _
    | windows => exact hu hx
  obtain ⟨d0, e0, a0⟩ := begin_at hv h t0 capIn capOut supply reads hreads hu'
  obtain ⟨d, e, a⟩ := run_at hv ys (.idle now :: post) [] d0 a0 hy (by simpa using hr)
  rw [List.nil_append] at a
  have hc : d.counting = true := by rw [a.counting, (Counter.keeps_after _).on]; exact hon
  obtain ⟨k, e1, hk⟩ := a.seen.update (x := x) now
  obtain ⟨l, hl⟩ := hk.obj
  have eu : update x (x.sec (now - t0)) { d with desk := k } = (.ub, { d with desk := k }) := by
    rw [update]
    simp only [M.bind_apply, M.get_apply, hc, if_true, hout, not_false_eq_true]
    rfl
  have et : turn x (.idle now) d = (.ub, { d with desk := k }) := by
    simp only [turn, a.seen.assoc, updateEach]
    rw [M.bind_ok (onDesk_ok e1)]
    simp only [M.bind_apply, M.get_apply, hl, eu]
  have hne : d.desk.gui.assoc.isEmpty = false := by rw [a.seen.assoc]; rfl
  rw [Demo.played, M.bind_ok e0, e]
  simp only [Demo.run, hne, Bool.false_eq_true, if_false]
  rw [M.bind_apply, et]

/-- What is provable of the claim that the title shows the current second while the counter is on: the
last update came in the second `s`, the counter was switched on before, and `s` is later than every
second counted before it was switched on and not earlier than those counted since. -/
theorem C130_partial (x : DemoHost) (hv : x.Accepts) (capIn capOut h : Nat) (t0 : Int)
    (supply : List Byte) (hu : x.std = .windows → 2 ∣ supply.length) (reads : List (Option Nat))
    (hreads : ∀ e ∈ reads, ∃ k, e = some (k + 1)) (ys : List DemoTurn)
    (hy : ∀ y ∈ ys, ∀ h', y ≠ .closeRequest h')
    (hr : ∀ s ∈ counted false (ys.flatMap (happens x h t0)), IntTy.int.Has s)
    (a b quiet : List Happening) (name : List Nat) (s : Int) (h0 : 0 ≤ s)
    (hs : ys.flatMap (happens x h t0) = a ++ .down name true :: (b ++ .update s :: quiet))
    (ha : counterOn a = false) (hb : ∀ e ∈ b, e.switches = false)
    (hq : ∀ e ∈ quiet, e.switches = false ∧ ∀ s', e ≠ .update s')
    (hlater : ∀ e ∈ counted false a, e < s) (hmax : ∀ e ∈ _root_.Spec.seconds b, e ≤ s) :
    Demo.titled x (Demo.played x capIn capOut h t0 supply reads ys).2 =
      .ok (encs .char8 (secondsTitle s.toNat)) := by
  have hq' : _root_.Spec.seconds quiet = [] := by
    unfold _root_.Spec.seconds
    rw [List.filterMap_eq_nil_iff]
    intro e he
    cases e with
    | update s' => exact absurd rfl ((hq _ he).2 s')
    | _ => rfl
  have hsec : _root_.Spec.seconds (b ++ .update s :: quiet) = _root_.Spec.seconds b ++ [s] := by
    unfold _root_.Spec.seconds at hq' ⊢
    rw [List.filterMap_append, List.filterMap_cons, hq']
  refine ((C130_exact x hv capIn capOut h t0 supply hu reads hreads ys hy hr).2.2.2.2 a name _ hs ha
    ?_).2 s ?_ ?_ h0 hlater
  · intro e he
    rcases List.mem_append.mp he with he | he
    · exact hb e he
    · rcases List.mem_cons.mp he with he | he
      · rw [he]; rfl
      · exact (hq e he).1
  · rw [hsec]; simp
  · intro e he
    rw [hsec] at he
    rcases List.mem_append.mp he with he | he
    · exact hmax e he
    · simp only [List.mem_singleton] at he; omega

/-- The code of the space bar. -/
def spaceCode : Toolkit → Nat
  | .gtk | .windows => 32
  | .macos => 49

theorem space_key (t : Toolkit) : Spec.keyOf t (spaceCode t) = .spaceBar := by
  rw [← Gui.keyOf_eq]
  cases t <;> decide +kernel

/-- The claim fails on every platform: when the counter is switched off and on again within a second,
the title keeps the plain text although the counter is on and an update came. -/
theorem C130_violated (x : DemoHost) (hv : x.Accepts) (capIn capOut h : Nat) (t0 now : Int)
    (hnow : 0 ≤ (x.sec (now - t0)).floor ∧ IntTy.int.Has (x.sec (now - t0)).floor)
    (supply : List Byte) (hu : x.std = .windows → 2 ∣ supply.length) (reads : List (Option Nat))
    (hreads : ∀ e ∈ reads, ∃ k, e = some (k + 1)) :
    let s := (x.sec (now - t0)).floor
    ∃ ys hs, hs = ys.flatMap (happens x h t0) ∧ counterOn hs = true ∧
      hs.getLast? = some (.update s) ∧
      Demo.titled x (Demo.played x capIn capOut h t0 supply reads ys).2 =
        .ok (encs .char8 plainTitle) ∧
      encs .char8 plainTitle ≠ encs .char8 (secondsTitle s.toNat) := by
  intro s
  have hhap : happens x h t0 (.keyDown h (spaceCode x.toolkit)) = [.down (codes "Space Bar") true] := by
    simp only [happens, if_true, space_key]
    rfl
  have hhs : [DemoTurn.keyDown h (spaceCode x.toolkit), .idle now,
      .keyDown h (spaceCode x.toolkit), .keyDown h (spaceCode x.toolkit), .idle now].flatMap
      (happens x h t0) = [.down (codes "Space Bar") true, .update s, .down (codes "Space Bar") true,
        .down (codes "Space Bar") true, .update s] := by
    simp only [List.flatMap_cons, List.flatMap_nil, hhap]
    rfl
  refine ⟨[.keyDown h (spaceCode x.toolkit), .idle now, .keyDown h (spaceCode x.toolkit),
    .keyDown h (spaceCode x.toolkit), .idle now], _, hhs.symm,
    by simp [counterOn, List.countP_cons, Happening.switches], rfl, ?_, ?_⟩
  · refine ((C130_exact x hv capIn capOut h t0 supply hu reads hreads _ (by simp) ?_).2.2.2.2
      [.down (codes "Space Bar") true, .update s, .down (codes "Space Bar") true] (codes "Space Bar")
      [.update s] hhs (by simp [counterOn, List.countP_cons, Happening.switches]) ?_).1 ?_
    · rw [hhs]
      intro e he
      have : e = s := by simpa [counted, Happening.switches] using he
      rw [this]
      exact hnow.2
    · simp [Happening.switches]
    · intro e he
      have he' : e = s := by simpa [_root_.Spec.seconds] using he
      exact .inr ⟨s, by simp [counted, Happening.switches], by omega⟩
  · intro he
    have h1 : units (encs .char8 plainTitle) = units (encs .char8 (secondsTitle s.toNat)) := by rw [he]
    rw [(textOf_encs .char8 plainTitle (by unfold _root_.Spec.IsText; decide +kernel) (by simp)).1.2,
      (textOf_encs .char8 (secondsTitle s.toNat)
        (ascii_text fun c hc => (secondsTitle_range _ c hc).2) (by simp)).1.2] at h1
    have h2 : 0xC2 ∈ (secondsTitle s.toNat).flatMap (_root_.Spec.Form.encode1 .utf8) := by
      have h3 : (0xC2 : Nat) ∈ Enc.char8.form.encode plainTitle := by decide +kernel
      rw [h1] at h3
      exact h3
    obtain ⟨c, hc, hm⟩ := List.mem_flatMap.mp h2
    have := (secondsTitle_range _ c hc).2
    simp only [_root_.Spec.Form.encode1, _root_.Spec.utf8] at hm
    rw [if_pos (by omega)] at hm
    simp only [List.mem_singleton] at hm
    omega

/-! A program on Unix with GTK: the clock ticks in seconds. -/

/-- For the examples. -/
def exampleHost : DemoHost := ⟨.gtk, fun _ => true, fun n => n, .unix, .little⟩

/-- For the examples: some keys, the counter on, more than a thousand seconds. -/
def exampleTurns : List DemoTurn :=
  [.keyDown 7 97, .keyUp 7 97, .idle 3, .keyDown 7 32, .idle 5, .resize 7, .keyUp 7 32, .idle 1240]

example : exampleHost.Accepts := fun _ _ => rfl

example : (∀ y ∈ exampleTurns, ∀ h', y ≠ .closeRequest h') ∧
    exampleTurns.flatMap (happens exampleHost 7 0) =
      [.down (codes "A") false, .up (codes "A"), .update 3] ++ .down (codes "Space Bar") true ::
        ([.update 5, .resized, .up (codes "Space Bar")] ++ .update 1240 :: []) := by
  refine ⟨by simp [exampleTurns], by decide +kernel⟩

example : secondsTitle 1240 = codes "1,240s" := by decide +kernel

example : Demo.terminal (Demo.played exampleHost 16 16 7 0 [] [] exampleTurns).2 =
      shownText (codes "A down.\nA up.\nSpace Bar down.\nResized.\nSpace Bar up.\n") ∧
    Demo.titled exampleHost (Demo.played exampleHost 16 16 7 0 [] [] exampleTurns).2 =
      .ok (encs .char8 (codes "1,240s")) := by
  decide +kernel

/-- The conditions of `C130_exact_range` can be met: the counter is on, and the clock is far ahead. -/
example : counterOn (exampleTurns.flatMap (happens exampleHost 7 0)) = true ∧
    (∀ s ∈ counted false (exampleTurns.flatMap (happens exampleHost 7 0)), IntTy.int.Has s) ∧
    ∃ now, ¬ IntTy.int.Has (exampleHost.sec (now - 0)).floor := by
  refine ⟨by decide +kernel, by decide +kernel, 3000000000000, by decide +kernel⟩

end Cmp
