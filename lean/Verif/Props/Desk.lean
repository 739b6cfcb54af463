import Verif.Proofs.Desk
import Verif.Props.Gui
import Verif.Props.Unicode

/-
Properties C90 and C91: the titles of windows, and showing and hiding them.
-/

namespace Cmp

open Cmp.Spec (GuiWorld Shown DeskWorld Face)

namespace Spec

/-- A title: text without NUL, on Windows from the Basic Multilingual Plane. -/
def Title (t : Toolkit) (s : List (BitVec 8)) : Prop :=
  ∃ cs, _root_.Spec.Denotes .utf8 (units s) cs ∧ 0 ∉ cs ∧
    (t = .windows → ∀ c ∈ cs, _root_.Spec.IsBmp c)

end Spec

namespace Desk

theorem cString_eq {w : Nat} {s : List (BitVec w)} (h : 0 ∉ units s) : cString s = s := by
  induction s with
  | nil => rfl
  | cons u s ih =>
    have hu : u ≠ 0 := by
      rintro rfl
      exact h (by simp [units])
    have hs : 0 ∉ units s := fun hm => h (List.mem_cons_of_mem _ hm)
    have := ih hs
    unfold cString at this ⊢
    rw [List.takeWhile_cons_of_pos (by simpa using hu), this]

theorem zero_utf8 {s : List Nat} {cs : List Nat} (h : Spec.Denotes .utf8 s cs) (h0 : 0 ∉ cs) :
    0 ∉ s := by
  intro hm
  rw [h.2] at hm
  obtain ⟨c, hc, hm⟩ := List.mem_flatMap.mp hm
  have hne : c ≠ 0 := fun e => h0 (e ▸ hc)
  simp only [Spec.Form.encode1, Spec.utf8] at hm
  split_ifs at hm <;> simp at hm <;> omega

theorem zero_utf16 {s : List Nat} {cs : List Nat} (h : Spec.Denotes .utf16 s cs) (h0 : 0 ∉ cs) :
    0 ∉ s := by
  intro hm
  rw [h.2] at hm
  obtain ⟨c, hc, hm⟩ := List.mem_flatMap.mp hm
  have hne : c ≠ 0 := fun e => h0 (e ▸ hc)
  simp only [Spec.Form.encode1, Spec.utf16] at hm
  split_ifs at hm <;> simp at hm <;> omega

/-- The toolkits give back titles. -/
theorem kept {valid : Str .char8 → Bool}
    (hv : ∀ s, Spec.WellFormed .utf8 (units s) → valid s = true) {t : Toolkit} {s : List (BitVec 8)}
    (h : Spec.Title t s) : Kept valid t s := by
  obtain ⟨cs, hd, h0, hb⟩ := h
  have h8 : TextOf .char8 s cs := ⟨hd, by simp⟩
  have hc := cString_eq (zero_utf8 hd h0)
  cases t with
  | gtk => exact ⟨_, rfl, by rw [hc]; rfl⟩
  | macos =>
    refine ⟨.utf8 s, ?_, rfl⟩
    simp only [handOver]
    rw [hc, if_pos (hv s ⟨cs, hd⟩)]
  | windows =>
    obtain ⟨x, hx, h16⟩ := C11_partial .char8 .wide2 s cs h8 (by simp) (by simp [Enc.form]) (by simp)
    obtain ⟨y, hy, hy8⟩ := C11_partial .wide2 .char8 x cs h16 (by simp) (fun _ => hb rfl)
      (fun _ c hc => by
        have h1 : c < 0x10000 := hb rfl c hc
        have h2 := (hd.1 c hc).2
        unfold LowSurrogate
        omega)
    refine ⟨.utf16 x, ?_, ?_⟩
    · simp only [handOver, hx]
      show Outcome.ok (NativeTitle.utf16 (cString x)) = _
      rw [cString_eq (zero_utf16 h16.1 h0)]
    · simp only [fetch, hy]
      rw [hy8.eq, h8.eq]

theorem kept_legal {valid : Str .char8 → Bool}
    (hv : ∀ s, Spec.WellFormed .utf8 (units s) → valid s = true) {t : Toolkit} {keyOf : Nat → Key}
    {sec : Int → ℚ} {w : DeskWorld} {ops : List DeskOp}
    (hl : Spec.deskLegal t (Spec.Title t) keyOf sec w ops) :
    Spec.deskLegal t (Kept valid t) keyOf sec w ops := by
  induction ops generalizing w with
  | nil => trivial
  | cons op ops ih =>
    refine ⟨?_, ih hl.2⟩
    have ha := hl.1
    cases op with
    | gui op title mode => exact ⟨ha.1, fun hb => kept hv (ha.2 hb)⟩
    | setTitle i title => exact ⟨kept hv ha.1, ha.2⟩
    | getTitle i => exact ha
    | «show» i => exact ha
    | hide i => exact ha
    | user h mode => exact ha

end Desk

open Desk

/-- C90, what holds: for all texts without NUL, on Windows from the Basic Multilingual Plane, and all
histories as in C64, in which objects that never had a window are not asked for a title on macOS,
`get_title` returns the title given last to the window the object shows, wherever the object was
moved from; the title of an object that has no window is empty.  `valid` is what `NSString` accepts:
at least all well-formed UTF-8.  Missing: other characters on Windows, macOS objects without a
window. -/
theorem C90_partial (t : Toolkit) (valid : Str .char8 → Bool)
    (hv : ∀ s, Spec.WellFormed .utf8 (units s) → valid s = true) (sec : Int → ℚ) (ops : List DeskOp)
    (hl : Spec.deskLegal t (Spec.Title t) (Spec.keyOf t) sec .start ops) :
    ∃ d, M.runList (Desk.step valid t sec) ops Desk.empty =
      (.ok (Spec.deskResults (Spec.keyOf t) sec .start ops), d) := by
  rw [← Gui.keyOf_eq] at hl ⊢
  obtain ⟨d, e, -⟩ := run_spec (stands_start False t) sec ops (kept_legal hv hl) (fun h => h.elim)
  exact ⟨d, e⟩

/-- C90 for one title: whatever happened before, a title is returned as it was set. -/
theorem C90_partial_set (t : Toolkit) (valid : Str .char8 → Bool)
    (hv : ∀ s, Spec.WellFormed .utf8 (units s) → valid s = true) (sec : Int → ℚ) (ops : List DeskOp)
    (hl : Spec.deskLegal t (Spec.Title t) (Spec.keyOf t) sec .start ops) (i h : Nat) (r : List Int)
    (hi : (Spec.deskAfter (Spec.keyOf t) sec .start ops).gui.objs i = some (.showing h r))
    (title : List (BitVec 8)) (ht : Spec.Title t title) :
    ∃ rs d d', M.runList (Desk.step valid t sec) ops Desk.empty = (.ok rs, d) ∧
      M.runList (Desk.step valid t sec) [.setTitle i title, .getTitle i] d =
        (.ok [.nothing, .title title], d') := by
  rw [← Gui.keyOf_eq] at hl hi
  obtain ⟨d, e, hs⟩ := run_spec (stands_start False t) sec ops (kept_legal hv hl) (fun h => h.elim)
  obtain ⟨d1, e1, hs1⟩ := step_spec (valid := valid) hs sec (.setTitle i title)
    ⟨kept hv ht, .inr ⟨h, r, hi⟩⟩ (fun h => h.elim)
  have hi1 : (Spec.deskNext (Gui.keyOf t) sec (Spec.deskAfter (Gui.keyOf t) sec .start ops)
      (.setTitle i title)).gui.objs i = some (.showing h r) := by
    simp only [Spec.deskNext, DeskWorld.change, window_showing hi]
    exact hi
  obtain ⟨d2, e2, -⟩ := step_spec (valid := valid) hs1 sec (.getTitle i) (.inr ⟨h, r, hi1⟩)
    (fun h => h.elim)
  refine ⟨_, d, d2, e, ?_⟩
  rw [M.runList_cons e1 (M.runList_cons e2 (M.runList_nil _ _))]
  simp only [Spec.deskResult, window_showing hi1]
  simp [Spec.deskNext, DeskWorld.change, window_showing hi]

/-- C90 fails on Windows: a title with a character outside of the Basic Multilingual Plane cannot be
read back. -/
theorem C90_violated :
    ¬ ∀ (t : Toolkit) (valid : Str .char8 → Bool) (title : List (BitVec 8)) (cs : List Nat),
      (∀ s, Spec.WellFormed .utf8 (units s) → valid s = true) →
      Spec.Denotes .utf8 (units title) cs → 0 ∉ cs →
      ∃ d, M.runList (Desk.step valid t fun n => n)
        [.gui (.construct 0 (some 10) 0) title .standard, .getTitle 0] Desk.empty =
          (.ok [.opened none, .title title], d) := by
  intro h
  obtain ⟨d, hd⟩ := h .windows (fun _ => true) [0xF0#8, 0x9F#8, 0x98#8, 0x80#8] [0x1F600]
    (fun _ _ => rfl) ⟨by unfold Spec.IsText; decide, by decide⟩ (by decide)
  have h1 := congrArg Prod.fst hd
  have h2 : (M.runList (Desk.step (fun _ => true) .windows fun n => n)
      [.gui (.construct 0 (some 10) 0) [0xF0#8, 0x9F#8, 0x98#8, 0x80#8] .standard, .getTitle 0]
      Desk.empty).1 = .throw .invalidUnicodeEncoding := by
    decide +kernel
  rw [h2] at h1
  cases h1

/-- C90 fails on macOS: asking an object without a window for its title follows a null pointer. -/
theorem C90_violated_empty :
    ¬ ∀ (t : Toolkit) (valid : Str .char8 → Bool) (title : List (BitVec 8)),
      (∀ s, Spec.WellFormed .utf8 (units s) → valid s = true) → Spec.Title t title →
      (M.runList (Desk.step valid t fun n => n)
        [.gui (.construct 0 (some 10) 0) title .standard, .gui (.moveConstruct 1 0) [] .standard,
          .getTitle 0] Desk.empty).1 ≠ .ub := by
  intro h
  refine h .macos (fun _ => true) [] (fun _ _ => rfl)
    ⟨[], ⟨by unfold Spec.IsText; decide, rfl⟩, by simp, by simp⟩ ?_
  decide +kernel

/-- C91, what holds: after every such history exactly the windows are visible for which `show` was
the last call of `show` and `hide`.  On GTK and macOS they are in the mode given for them or the one
the user chose since; on Windows in programs that do not hide windows.  Missing: modes on Windows
after `hide`. -/
theorem C91_partial (t : Toolkit) (valid : Str .char8 → Bool)
    (hv : ∀ s, Spec.WellFormed .utf8 (units s) → valid s = true) (sec : Int → ℚ) (ops : List DeskOp)
    (hl : Spec.deskLegal t (Spec.Title t) (Spec.keyOf t) sec .start ops) :
    ∃ rs d, M.runList (Desk.step valid t sec) ops Desk.empty = (.ok rs, d) ∧
      ∀ h i, (Spec.deskAfter (Spec.keyOf t) sec .start ops).gui.shows h i = true →
        ∃ n, d.native h = some n ∧
          n.visible = ((Spec.deskAfter (Spec.keyOf t) sec .start ops).face h).visible ∧
          ((t ≠ .windows ∨ ∀ i, .hide i ∉ ops) → n.visible = true →
            n.mode = ((Spec.deskAfter (Spec.keyOf t) sec .start ops).face h).mode) := by
  rw [← Gui.keyOf_eq] at hl ⊢
  obtain ⟨d, e, hs⟩ := run_spec (stands_start (t ≠ .windows ∨ ∀ i, .hide i ∉ ops) t) sec ops
    (kept_legal hv hl) (fun h ht => h.resolve_left (fun hn => hn ht))
  refine ⟨_, d, e, fun h i hi => ?_⟩
  obtain ⟨n, hn, hl⟩ := hs.native h i hi
  refine ⟨n, hn, hl.visible, fun q hvis => ?_⟩
  have := hl.mode q
  rw [hl.visible] at hvis
  simpa [hvis] using this

/-- C91 fails on Windows: a maximized window that is hidden and shown again is not maximized. -/
theorem C91_violated :
    ¬ ∀ (t : Toolkit) (valid : Str .char8 → Bool) (ops : List DeskOp),
      Spec.deskLegal t (Spec.Title t) (Spec.keyOf t) (fun n => n) .start ops →
      ∀ h i, (Spec.deskAfter (Spec.keyOf t) (fun n => n) .start ops).gui.shows h i = true →
        ((M.runList (Desk.step valid t fun n => n) ops Desk.empty).2.native h).map (·.mode) =
          some ((Spec.deskAfter (Spec.keyOf t) (fun n => n) .start ops).face h).mode := by
  intro h
  have := h .windows (fun _ => true)
    [.gui (.construct 0 (some 10) 0) [] .maximized, .show 0, .hide 0, .show 0] ?_ 10 0 (by decide +kernel)
  · revert this
    decide +kernel
  · have ht : Spec.Title .windows [] := ⟨[], ⟨by unfold Spec.IsText; decide, rfl⟩, by simp, by simp⟩
    refine ⟨⟨⟨rfl, fun _ => rfl⟩, fun _ => ht⟩, .inr ⟨10, [0], rfl⟩, .inr ⟨10, [0], rfl⟩,
      .inr ⟨10, [0], rfl⟩, trivial⟩

/-- A program the theorems speak about: a window is constructed with a title in German, shown, moved
to another object, given a title of the example of the library, maximized by the user, hidden and
shown again; then both objects are asked for their titles, which gives the text and nothing. -/
example :
    let ops : List DeskOp :=
      [.gui (.construct 0 (some 10) 0) [0x46#8, 0xC3#8, 0xBC#8, 0x72#8] .minimized, .show 0,
        .getTitle 0, .gui (.moveConstruct 1 0) [] .standard,
        .setTitle 1 [0xE3#8, 0x83#8, 0x84#8], .user 10 .maximized, .hide 1, .show 1, .getTitle 1,
        .getTitle 0]
    Spec.deskLegal .gtk (Spec.Title .gtk) (Spec.keyOf .gtk) (fun n => n) .start ops ∧
    Spec.deskResults (Spec.keyOf .gtk) (fun n => n) .start ops =
      [.opened none, .nothing, .title [0x46#8, 0xC3#8, 0xBC#8, 0x72#8], .opened none, .nothing,
        .nothing, .nothing, .nothing, .title [0xE3#8, 0x83#8, 0x84#8], .title []] ∧
    (Spec.deskAfter (Spec.keyOf .gtk) (fun n => n) .start ops).face 10 =
      ⟨[0xE3#8, 0x83#8, 0x84#8], true, .maximized⟩ := by
  refine ⟨⟨⟨⟨rfl, fun _ => rfl⟩, fun _ => ⟨[0x46, 0xFC, 0x72], ⟨by unfold Spec.IsText; decide, rfl⟩,
    by decide, fun h => by cases h⟩⟩, .inr ⟨10, [0], rfl⟩, .inr ⟨10, [0], rfl⟩,
    ⟨⟨rfl, by decide +kernel, by decide +kernel⟩, fun h => absurd rfl h⟩,
    ⟨⟨[0x30C4], ⟨by unfold Spec.IsText; decide, rfl⟩, by decide, fun h => by cases h⟩,
      .inr ⟨10, [0], rfl⟩⟩, ⟨⟨1, rfl⟩, rfl⟩, .inr ⟨10, [0], rfl⟩, .inr ⟨10, [0], rfl⟩,
    .inr ⟨10, [0], rfl⟩, .inl ⟨by decide, rfl⟩, trivial⟩, ?_, ?_⟩
  · decide +kernel
  · decide +kernel

end Cmp
