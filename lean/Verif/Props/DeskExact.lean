import Verif.Spec.Sight
import Verif.Props.Desk
import Verif.Props.UnicodeExact
import Verif.Proofs.FileLife

/-
Properties C90 and C91 in full: titles of all texts, and modes on all toolkits.
-/

namespace Cmp

open Cmp.Spec (GuiWorld SightWorld Sight)

namespace Desk

variable {valid : Str .char8 → Bool} {t : Toolkit} {d : Desk}

/-- What the windows that are shown have in common. -/
structure Holds (L : Nat → Native → Prop) (w : GuiWorld) (d : Desk) : Prop where
  gui : Gui.Stands w d.gui
  native : ∀ h i, w.shows h i = true → ∃ n, d.native h = some n ∧ L h n
  gone : ∀ h, w.Fresh h → d.native h = none

theorem not_has {w : GuiWorld} {s : Gui} (hs : Gui.Stands w s) {h : Nat} (hf : w.Fresh h) : has s h = false := by
  rw [Bool.eq_false_iff]
  intro hh
  obtain ⟨i, hi⟩ := (has_iff hs h).mp hh
  rw [hf i] at hi
  cases hi

theorem gui_holds {w : GuiWorld} {L L' : Nat → Native → Prop} (hs : Holds L w d) (sec : Int → ℚ)
    (op : GuiOp) (title : Str .char8) (mode : WindowMode) (ha : Spec.guiAllowed t w op)
    (hk : ∀ h, Spec.born w op = some h → ∃ x, handOver valid t title = .ok x ∧ L' h (fresh t x mode))
    (hkeep : ∀ h n, Spec.born w op ≠ some h → L h n → L' h n) :
    ∃ d', onGui valid t sec op title mode d = (.ok (.opened (Spec.guiResult w op)), d') ∧
      Holds L' (Spec.guiNext (Gui.keyOf t) sec w op) d' := by
  obtain ⟨s', e, hs'⟩ := Gui.step_spec hs.gui sec op ha
  have hnew : ∀ h i, (Spec.guiNext (Gui.keyOf t) sec w op).shows h i = true →
      has d.gui h = false → Spec.born w op = some h := by
    intro h i hi hh
    rcases Spec.shows_next hi with hb | hb
    · exact hb
    · rw [(has_iff hs.gui h).mpr hb] at hh
      cases hh
  have hold : ∀ h, has d.gui h = true → Spec.born w op ≠ some h := by
    intro h hh hb
    obtain ⟨i, hi⟩ := (has_iff hs.gui h).mp hh
    rw [Spec.born_fresh ha hb i] at hi
    cases hi
  by_cases hall : (s'.assoc.all fun a => has d.gui a.1) = true
  · refine ⟨⟨s', fun h => if has s' h then d.native h else none⟩, ?_, hs', ?_,
      fun h hf => by simp [not_has hs' hf]⟩
    · simp only [onGui, e, settle]
      rw [if_pos hall]
    · intro h i hi
      have hh : has d.gui h = true := by
        obtain ⟨a, hm, ha⟩ := List.any_eq_true.mp ((has_iff hs' h).mpr ⟨i, hi⟩)
        simp only [decide_eq_true_eq] at ha
        rw [← ha]
        exact List.all_eq_true.mp hall a hm
      obtain ⟨j, hj⟩ := (has_iff hs.gui h).mp hh
      obtain ⟨n, hn, hl⟩ := hs.native h j hj
      refine ⟨n, ?_, hkeep h n (hold h hh) hl⟩
      simp only [(has_iff hs' h).mpr ⟨i, hi⟩, if_true, hn]
  · obtain ⟨h0, hb⟩ : ∃ h, Spec.born w op = some h := by
      simp only [List.all_eq_true, not_forall] at hall
      obtain ⟨⟨h, i⟩, hm, hh⟩ := hall
      exact ⟨h, hnew h i ((hs'.owned h i).mp hm) (by simpa using hh)⟩
    obtain ⟨x, hx, hf⟩ := hk h0 hb
    refine ⟨⟨s', fun h => if has s' h then
      (if has d.gui h then d.native h else some (fresh t x mode)) else none⟩, ?_, hs', ?_,
      fun h hf => by simp [not_has hs' hf]⟩
    · simp only [onGui, e, settle]
      rw [if_neg hall, hx]
      rfl
    · intro h i hi
      have h' := (has_iff hs' h).mpr ⟨i, hi⟩
      cases hh : has d.gui h with
      | true =>
        obtain ⟨j, hj⟩ := (has_iff hs.gui h).mp hh
        obtain ⟨n, hn, hl⟩ := hs.native h j hj
        exact ⟨n, by simp only [h', if_true, hh, hn], hkeep h n (hold h hh) hl⟩
      | false =>
        refine ⟨fresh t x mode, by simp [h', hh], ?_⟩
        have := hnew h i hi hh
        rw [hb] at this
        cases this
        exact hf

theorem native_holds {w : GuiWorld} {L L' : Nat → Native → Prop} (hs : Holds L w d) {i : Nat}
    (f : Native → Native) {h : Nat} {r : List Int} (ha : w.objs i = some (.showing h r))
    (hf : ∀ n, L h n → L' h (f n)) (hkeep : ∀ k n, k ≠ h → L k n → L' k n) :
    ∃ d', onNative t i f d = (.ok (), d') ∧ Holds L' w d' := by
  obtain ⟨x, hx, hh, -⟩ := hs.gui.showing ha
  have hsh : w.shows h i = true := Gui.shows_iff.mpr ⟨r, ha⟩
  obtain ⟨n, hn, hl⟩ := hs.native h i hsh
  refine ⟨{ d with native := fun k => if k = h then some (f n) else d.native k },
    by simp only [onNative, hx, hh, hn], hs.gui, fun k j hj => ?_,
    fun k hfr => ?_⟩
  rotate_left
  · have hk : k ≠ h := by
      rintro rfl
      rw [hfr i] at hsh
      cases hsh
    simp [hk, hs.gone k hfr]
  by_cases hk : k = h
  · subst hk
    exact ⟨f n, by simp, hf n hl⟩
  · obtain ⟨m, hm, hl'⟩ := hs.native k j hj
    exact ⟨m, by simp [hk, hm], hkeep k m hk hl'⟩

/-! ### Titles -/

theorem units_cString {w : Nat} (s : List (BitVec w)) :
    units (cString s) = (units s).takeWhile (· ≠ 0) := by
  induction s with
  | nil => rfl
  | cons b s ih =>
    unfold cString units at ih ⊢
    by_cases hb : b = 0
    · subst hb
      simp
    · have hb' : b.toNat ≠ 0 := fun h => hb (BitVec.eq_of_toNat_eq (by simpa using h))
      rw [List.takeWhile_cons_of_pos (by simpa using hb), List.map_cons, List.map_cons,
        List.takeWhile_cons_of_pos (by simpa using hb'), ih]

/-- The units of a text before the first NUL are the text before the first NUL. -/
theorem denotes_cString {F : Spec.Form} (hF : F ≠ .utf32) {w : Nat} {s : List (BitVec w)} {cs : List Nat}
    (h : Spec.Denotes F (units s) cs) :
    Spec.Denotes F (units (cString s)) (cs.takeWhile (· ≠ 0)) := by
  rw [units_cString, h.2]
  refine ⟨fun c hc => h.1 c ((List.takeWhile_sublist _).subset hc), ?_⟩
  clear h
  induction cs with
  | nil => rfl
  | cons c cs ih =>
    unfold Spec.Form.encode at ih ⊢
    rw [List.flatMap_cons]
    by_cases hc : c = 0
    · subst hc
      cases F <;> first | exact absurd rfl hF | simp [Spec.Form.encode1, Spec.utf8, Spec.utf16]
    · have hne : ∀ u ∈ F.encode1 c, u ≠ 0 := by
        intro u hu
        cases F with
        | utf8 =>
          simp only [Spec.Form.encode1, Spec.utf8] at hu
          split_ifs at hu <;> simp at hu <;> omega
        | utf16 =>
          simp only [Spec.Form.encode1, Spec.utf16] at hu
          split_ifs at hu <;> simp at hu <;> omega
        | utf32 => exact absurd rfl hF
      rw [List.takeWhile_append_of_pos (by simpa using hne), ih,
        List.takeWhile_cons_of_pos (by simpa using hc), List.flatMap_cons]

/-- What conversion from UTF-16 to UTF-8 does. -/
theorem convert_back (s : Str .wide2) (cs : List Nat) (h : TextOf .wide2 s cs) :
    convertString .wide2 .char8 s =
      match cs.find? (0x10000 ≤ ·) with
      | some c => if 0xD800 ≤ c % 0x10000 ∧ c % 0x10000 < 0xE000 then .throw .invalidCodePoint
        else .throw .invalidUnicodeEncoding
      | none => .ok (encs .char8 cs) := by
  have hnl : ∀ x ∈ cs, Spec.IsBmp x → ¬ LowSurrogate x := by
    intro x hx hb
    have h1 : x < 0x10000 := hb
    have h2 := (h.1.1 x hx).2
    unfold LowSurrogate
    omega
  rcases split_bmp cs with hb | ⟨as, c, bs, rfl, hb, hc⟩
  · have hf : cs.find? (0x10000 ≤ ·) = none := by
      rw [List.find?_eq_none]
      intro x hx
      have : x < 0x10000 := hb x hx
      simpa using this
    rw [hf]
    obtain ⟨y, hy, hy8⟩ := C11_partial .wide2 .char8 s cs h (by simp) (fun _ => hb)
      (fun _ c hc => hnl c hc (hb c hc))
    rw [hy, hy8.eq]
  · have hc' : 0x10000 ≤ c := not_lt.mp hc
    have hf : (as ++ c :: bs).find? (0x10000 ≤ ·) = some c := by
      rw [List.find?_append, List.find?_eq_none.mpr, Option.none_or, List.find?_cons_of_pos (by simpa using hc')]
      intro x hx
      have : x < 0x10000 := hb x hx
      simpa using this
    rw [hf]
    have key : convertString .wide2 .char8 s
        = ((as ++ [c]).foldlM (fun a c => appendCP .char8 a (BitVec.ofNat 32 c)) []
            >>= fun _ => .throw .invalidUnicodeEncoding) := by
      rw [h.eq, convertString]
      exact forEach_pair .wide2 rfl _ as c bs _ (fwd_of_bmp h (fun y hy => by simp [hy]) hb)
        (h.1.1 c (by simp)) hc
    rw [key]
    have hsub : ∀ y ∈ as ++ [c], y ∈ as ++ c :: bs := by
      intro y hy
      simp at hy ⊢
      rcases hy with hy | hy
      · exact .inl hy
      · exact .inr (.inl hy)
    by_cases hl : 0xD800 ≤ c % 0x10000 ∧ c % 0x10000 < 0xE000
    · have hl' : LowSurrogate c := ⟨hl.1, by omega⟩
      simp only
      rw [if_pos hl, foldlM_appendCP_refused (as ++ [c]) (fun x hx => h.1.1 x (hsub x hx))
        ⟨c, by simp, hl'⟩ []]
      rfl
    · simp only
      rw [if_neg hl, foldlM_appendCP .char8 (as ++ [c]) [] ?_]
      · rfl
      · intro x hx
        refine ⟨h.1.1 x (hsub x hx), ?_⟩
        rcases List.mem_append.mp hx with hx' | hx'
        · exact hnl x (hsub x hx) (hb x hx')
        · rw [List.mem_singleton] at hx'
          subst hx'
          omega

variable {text : List (BitVec 8) → List Nat}

/-- A title is handed over, and this is what comes back. -/
theorem handed (hv : ∀ s, Spec.WellFormed .utf8 (units s) → valid s = true) {s : List (BitVec 8)}
    (h : Spec.Denotes .utf8 (units s) (text s)) :
    ∃ x, handOver valid t s = .ok x ∧ fetch x = Spec.titleBack t text s := by
  have hc := denotes_cString (by decide) h
  have hne : t ≠ .windows → Spec.titleBack t text s = .ok (cString s) := by
    intro ht
    unfold Spec.titleBack
    split
    · rw [if_pos ht]; rfl
    · rfl
  cases t with
  | gtk => exact ⟨_, rfl, (hne (by decide)).symm⟩
  | macos =>
    refine ⟨.utf8 (cString s), ?_, (hne (by decide)).symm⟩
    simp only [handOver]
    rw [if_pos (hv _ ⟨_, hc⟩)]
  | windows =>
    obtain ⟨x, hx, h16⟩ := C11_partial .char8 .wide2 s (text s) ⟨h, by simp⟩ (by simp)
      (by simp [Enc.form]) (by simp)
    refine ⟨.utf16 (cString x), ?_, ?_⟩
    · simp only [handOver, hx]
      rfl
    · have h16' : TextOf .wide2 (cString x) ((text s).takeWhile (· ≠ 0)) :=
        ⟨denotes_cString (by decide) h16.1, by simp⟩
      have h8' : TextOf .char8 (cString s) ((text s).takeWhile (· ≠ 0)) := ⟨hc, by simp⟩
      show convertString .wide2 .char8 (cString x) = _
      rw [convert_back _ _ h16', ← h8'.eq]
      unfold Spec.titleBack
      generalize ((text s).takeWhile (· ≠ 0)).find? (0x10000 ≤ ·) = f
      cases f with
      | none => rfl
      | some c => simp only [ne_eq, not_true_eq_false, if_false]

/-! ### The simulation -/

/-- The window can be seen as it should. -/
structure Seen (t : Toolkit) (text : List (BitVec 8) → List Nat) (s : Sight) (n : Native) : Prop where
  title : fetch n.title = Spec.titleBack t text s.title
  visible : n.visible = s.visible
  shown : s.visible = true → s.shown = true
  later : t = .windows → s.shown = true → n.command = .standard
  first : t = .windows → s.shown = false → n.command = s.mode
  mode : t ≠ .windows ∨ s.visible = true → n.mode = s.mode

/-- The whole state. -/
abbrev Looking (t : Toolkit) (text : List (BitVec 8) → List Nat) (w : SightWorld) (d : Desk) : Prop :=
  Holds (fun h n => Seen t text (w.sight h) n) w.gui d

theorem looking_start : Looking t text .start empty :=
  ⟨Gui.stands_start, fun h i hi => by simp [SightWorld.start, GuiWorld.start, GuiWorld.shows] at hi,
    fun _ _ => rfl⟩

theorem change_empty {w : SightWorld} {i : Nat} (h : w.gui.objs i = some .empty) (f : Sight → Sight) :
    w.change i f = w := by simp [SightWorld.change, SightWorld.window, h]

theorem change_showing {w : SightWorld} {i h : Nat} {r : List Int}
    (ha : w.gui.objs i = some (.showing h r)) (f : Sight → Sight) :
    w.change i f = { w with sight := fun k => if k = h then f (w.sight k) else w.sight k } := by
  simp [SightWorld.change, SightWorld.window, ha]

theorem change_looking {w : SightWorld} (hs : Looking t text w d) {i : Nat} (f : Native → Native)
    (g : Sight → Sight)
    (ha : w.gui.objs i = some .empty ∨ ∃ h r, w.gui.objs i = some (.showing h r))
    (hfg : ∀ s n, Seen t text s n → Seen t text (g s) (f n)) :
    ∃ d', onNative t i f d = (.ok (), d') ∧ Looking t text (w.change i g) d' := by
  rcases ha with ha | ⟨h, r, ha⟩
  · obtain ⟨x, hx, hh⟩ := hs.gui.empty ha
    refine ⟨d, by simp only [onNative, hx, hh], ?_⟩
    rw [change_empty ha]
    exact hs
  · rw [change_showing ha]
    refine native_holds hs f ha ?_ ?_
    · intro n hn
      simpa using hfg _ n hn
    · intro k n hk hn
      simpa [hk] using hn

theorem step_looking {w : SightWorld} (hv : ∀ s, Spec.WellFormed .utf8 (units s) → valid s = true)
    (hs : Looking t text w d) (sec : Int → ℚ) (op : DeskOp)
    (ha : Spec.sightAllowed t (fun s => Spec.Denotes .utf8 (units s) (text s)) w op) :
    ∃ d', step valid t sec op d = (Spec.sightOutcome t text w op, d') ∧
      Looking t text (Spec.sightNext t (Gui.keyOf t) sec w op) d' := by
  cases op with
  | gui op title mode =>
    refine gui_holds (L' := fun h n => Seen t text
      ((Spec.sightNext t (Gui.keyOf t) sec w (.gui op title mode)).sight h) n) hs sec op title mode ha.1 ?_ ?_
    · intro h hb
      obtain ⟨x, hx, hf⟩ := handed (t := t) hv (ha.2 (by simp [hb]))
      refine ⟨x, hx, ?_⟩
      simp only [Spec.sightNext, hb, if_true]
      refine ⟨hf, rfl, by simp, by simp, fun _ _ => rfl, fun h => ?_⟩
      simp only [fresh]
      rw [if_neg (h.resolve_right (by simp))]
    · intro h n hb hn
      simp only [Spec.sightNext, if_neg hb]
      exact hn
  | setTitle i title =>
    obtain ⟨x, hx, hf⟩ := handed (t := t) hv ha.1
    obtain ⟨d', e, hs'⟩ := change_looking hs (fun n => { n with title := x })
      (fun s => { s with title := title }) ha.2
      (fun s n hl => ⟨hf, hl.visible, hl.shown, hl.later, hl.first, hl.mode⟩)
    refine ⟨d', ?_, hs'⟩
    have e' : setTitle valid t i title d = (.ok (), d') := by
      unfold setTitle
      rw [hx, M.bind_ok (M.lift_apply _ _)]
      exact e
    simp only [step]
    rw [M.bind_ok e']
    rfl
  | getTitle i =>
    rcases ha with ⟨ht, ha⟩ | ⟨h, r, ha⟩
    · obtain ⟨x, hx, hh⟩ := hs.gui.empty ha
      have e : getTitle t i d = (.ok [], d) := by simp only [getTitle, hx, hh, if_neg ht]
      refine ⟨d, ?_, hs⟩
      simp only [step]
      rw [M.bind_ok e]
      simp only [Spec.sightOutcome, SightWorld.window, ha]
      rfl
    · obtain ⟨x, hx, hh, -⟩ := hs.gui.showing ha
      obtain ⟨n, hn, hl⟩ := hs.native h i (Gui.shows_iff.mpr ⟨r, ha⟩)
      have e : getTitle t i d = (Spec.titleBack t text (w.sight h).title, d) := by
        simp only [getTitle, hx, hh, hn, hl.title]
      refine ⟨d, ?_, hs⟩
      simp only [step]
      rw [M.bind_apply, e]
      simp only [Spec.sightOutcome, SightWorld.window, ha]
      cases Spec.titleBack t text (w.sight h).title <;> rfl
  | «show» i =>
    obtain ⟨d', e, hs'⟩ := change_looking hs (appear t) (Sight.appear t) ha
      (fun s n hl => by
        obtain ⟨h1, h2, h3, h4, h5, h6⟩ := hl
        unfold appear Sight.appear
        rw [h2]
        by_cases hvis : s.visible = true
        · rw [if_pos hvis, if_pos hvis]
          exact ⟨h1, h2, h3, h4, h5, h6⟩
        · rw [if_neg hvis, if_neg hvis]
          by_cases ht : t = .windows
          · rw [if_pos ht]
            refine ⟨h1, rfl, fun _ => rfl, fun _ _ => rfl, by simp, fun _ => ?_⟩
            simp only [ht, true_and]
            by_cases hsh : s.shown = true
            · rw [if_pos hsh, h4 ht hsh]
            · rw [if_neg hsh, h5 ht (by simpa using hsh)]
          · rw [if_neg ht]
            refine ⟨h1, rfl, fun _ => rfl, fun h => absurd h ht, fun h => absurd h ht, fun _ => ?_⟩
            simp only [ht, false_and, if_false]
            exact h6 (.inl ht))
    refine ⟨d', ?_, hs'⟩
    simp only [step, «show»]
    rw [M.bind_ok e]
    rfl
  | hide i =>
    obtain ⟨d', e, hs'⟩ := change_looking hs (fun n => { n with visible := false })
      (fun s => { s with visible := false }) ha
      (fun s n hl => ⟨hl.title, rfl, by simp, hl.later, hl.first,
        fun h => hl.mode (.inl (h.resolve_right (by simp)))⟩)
    refine ⟨d', ?_, hs'⟩
    simp only [step, hide]
    rw [M.bind_ok e]
    rfl
  | user h mode =>
    obtain ⟨⟨i, hi⟩, hvis⟩ := ha
    refine ⟨_, rfl, hs.gui, fun k j hj => ?_, fun k hf => by simp [hs.gone k hf]⟩
    obtain ⟨n, hn, hl⟩ := hs.native k j hj
    by_cases hk : k = h
    · subst hk
      refine ⟨{ n with mode := mode }, by simp [hn], ?_⟩
      simp only [Spec.sightNext, if_true]
      have hsh := hl.shown hvis
      exact ⟨hl.title, hl.visible, hl.shown, hl.later, fun _ h => by simp [hsh] at h, fun _ => rfl⟩
    · refine ⟨n, by simp [hk, hn], ?_⟩
      simpa [Spec.sightNext, hk] using hl

theorem run_looking {w : SightWorld} (hv : ∀ s, Spec.WellFormed .utf8 (units s) → valid s = true)
    (hs : Looking t text w d) (sec : Int → ℚ) (ops : List DeskOp)
    (ha : Spec.sightLegal t (fun s => Spec.Denotes .utf8 (units s) (text s)) (Gui.keyOf t) sec w ops) :
    M.outcomes (step valid t sec) d ops = Spec.sightOutcomes t text (Gui.keyOf t) sec w ops
      ∧ Looking t text (Spec.sightAfter t (Gui.keyOf t) sec w ops)
          (M.stateAfter (step valid t sec) d ops) := by
  induction ops generalizing w d with
  | nil => exact ⟨rfl, hs⟩
  | cons op ops ih =>
    obtain ⟨d1, e1, hs1⟩ := step_looking hv hs sec op ha.1
    obtain ⟨h1, h2⟩ := ih hs1 ha.2
    constructor
    · simp only [M.outcomes, Spec.sightOutcomes]
      rw [e1]
      simp only [h1]
    · show Looking t text _ (M.stateAfter (step valid t sec) (step valid t sec op d).2 ops)
      rw [e1]
      exact h2

end Desk

open Desk

/-- C90 in full, for titles of all Unicode texts, which `text` gives: programs that catch exceptions
get back what stands before the first NUL, except on Windows if a character outside of the Basic
Multilingual Plane is in it, which gives an exception each time.  On macOS the title of an object that
has no window yet, or no more after a move, is undefined behaviour. -/
theorem C90_exact (t : Toolkit) (valid : Str .char8 → Bool) (text : List (BitVec 8) → List Nat)
    (hv : ∀ s, Spec.WellFormed .utf8 (units s) → valid s = true) (sec : Int → ℚ) (ops : List DeskOp)
    (hl : Spec.sightLegal t (fun s => Spec.Denotes .utf8 (units s) (text s)) (Spec.keyOf t) sec .start ops) :
    M.outcomes (Desk.step valid t sec) Desk.empty ops =
        Spec.sightOutcomes t text (Spec.keyOf t) sec .start ops
    ∧ (t = .macos → ∀ i, (Spec.sightAfter t (Spec.keyOf t) sec .start ops).gui.objs i = some .empty →
        (Desk.step valid t sec (.getTitle i) (M.stateAfter (Desk.step valid t sec) Desk.empty ops)).1 = .ub) := by
  rw [← Gui.keyOf_eq] at hl ⊢
  obtain ⟨h1, h2⟩ := run_looking hv looking_start sec ops hl
  refine ⟨h1, fun ht i hi => ?_⟩
  obtain ⟨x, hx, hh⟩ := h2.gui.empty hi
  have e : getTitle t i (M.stateAfter (Desk.step valid t sec) Desk.empty ops) =
      (.ub, M.stateAfter (Desk.step valid t sec) Desk.empty ops) := by
    simp only [getTitle, hx, hh, if_pos ht]
  simp only [step]
  rw [M.bind_apply, e]

/-- C90 for objects whose window has been closed, while no window is open: on Windows their title is
empty and whatever is done to their window has no effect; on GTK and macOS all of it is undefined
behaviour, as the handle is left dangling. -/
theorem C90_exact_closed (t : Toolkit) (valid : Str .char8 → Bool) (text : List (BitVec 8) → List Nat)
    (hv : ∀ s, Spec.WellFormed .utf8 (units s) → valid s = true) (sec : Int → ℚ) (ops : List DeskOp)
    (hl : Spec.sightLegal t (fun s => Spec.Denotes .utf8 (units s) (text s)) (Spec.keyOf t) sec .start ops)
    (hall : ∀ h, (Spec.sightAfter t (Spec.keyOf t) sec .start ops).gui.Fresh h) (i : Nat)
    (hi : (Spec.sightAfter t (Spec.keyOf t) sec .start ops).gui.objs i = some .closed)
    (title : Str .char8) (ht : Spec.WellFormed .utf8 (units title)) :
    let d := M.stateAfter (Desk.step valid t sec) Desk.empty ops
    let told (r : DeskResult) : Outcome DeskResult × Desk := if t = .windows then (.ok r, d) else (.ub, d)
    Desk.step valid t sec (.getTitle i) d = told (.title [])
      ∧ Desk.step valid t sec (.setTitle i title) d = told .nothing
      ∧ Desk.step valid t sec (.show i) d = told .nothing
      ∧ Desk.step valid t sec (.hide i) d = told .nothing := by
  rw [← Gui.keyOf_eq] at hl hi hall
  obtain ⟨-, h2⟩ := run_looking hv looking_start sec ops hl
  intro d told
  change Looking t text _ d at h2
  clear_value d
  obtain ⟨x, hx, h, hh⟩ : ∃ x, d.gui.objs i = some x ∧ ∃ h, x.handle = some h := by
    have hf := h2.gui.objs i
    rw [hi] at hf
    cases hx : d.gui.objs i with
    | none => rw [hx] at hf; exact absurd hf id
    | some x => rw [hx] at hf; exact ⟨x, rfl, hf⟩
  have hn := h2.gone h (hall h)
  have hN : ∀ f, onNative t i f d = if t = .windows then (.ok (), d) else (.ub, d) := by
    intro f
    simp only [onNative, hx, hh, hn]
  have hg : getTitle t i d = if t = .windows then (.ok [], d) else (.ub, d) := by
    simp only [getTitle, hx, hh, hn]
  obtain ⟨cs, hcs⟩ := ht
  obtain ⟨y, hy, -⟩ := handed (valid := valid) (t := t) (text := fun _ => cs) hv hcs
  have hset : setTitle valid t i title d = if t = .windows then (.ok (), d) else (.ub, d) := by
    unfold setTitle
    rw [hy, M.bind_ok (M.lift_apply _ _)]
    exact hN _
  refine ⟨?_, ?_, ?_, ?_⟩ <;> simp only [step, «show», hide, M.bind_apply, hg, hset, hN] <;>
    by_cases htw : t = .windows <;> simp only [htw, told, if_true, if_false] <;> rfl

/-- C91 in full: after every such history the windows are visible as they were told last, and those
that are visible are in the mode of the abstract world, in which on Windows a window that is shown
again after it was hidden is a standard window. -/
theorem C91_exact (t : Toolkit) (valid : Str .char8 → Bool) (text : List (BitVec 8) → List Nat)
    (hv : ∀ s, Spec.WellFormed .utf8 (units s) → valid s = true) (sec : Int → ℚ) (ops : List DeskOp)
    (hl : Spec.sightLegal t (fun s => Spec.Denotes .utf8 (units s) (text s)) (Spec.keyOf t) sec .start ops)
    (h i : Nat) (hi : (Spec.sightAfter t (Spec.keyOf t) sec .start ops).gui.shows h i = true) :
    ∃ n, (M.stateAfter (Desk.step valid t sec) Desk.empty ops).native h = some n
      ∧ n.visible = ((Spec.sightAfter t (Spec.keyOf t) sec .start ops).sight h).visible
      ∧ (n.visible = true → n.mode = ((Spec.sightAfter t (Spec.keyOf t) sec .start ops).sight h).mode) := by
  rw [← Gui.keyOf_eq] at hl hi ⊢
  obtain ⟨-, h2⟩ := run_looking hv looking_start sec ops hl
  obtain ⟨n, hn, hs⟩ := h2.native h i hi
  exact ⟨n, hn, hs.visible, fun hvis => hs.mode (.inr (by rw [← hs.visible]; exact hvis))⟩

/-- The case is real: on Windows a title with a musical note cannot be read back, one with a NUL comes
back in part, and a maximized window that was hidden is a standard window afterwards. -/
example :
    let text : List (BitVec 8) → List Nat := fun s =>
      if s = [0x46#8, 0xC3#8, 0xBC#8, 0#8, 0x72#8] then [0x46, 0xFC, 0, 0x72] else
      if s = [0xF0#8, 0x9D#8, 0x84#8, 0x9E#8] then [0x1D11E] else []
    let ops : List DeskOp :=
      [.gui (.construct 0 (some 10) 0) [0x46#8, 0xC3#8, 0xBC#8, 0#8, 0x72#8] .maximized, .show 0,
        .getTitle 0, .setTitle 0 [0xF0#8, 0x9D#8, 0x84#8, 0x9E#8], .hide 0, .show 0, .getTitle 0]
    Spec.sightLegal .windows (fun s => Spec.Denotes .utf8 (units s) (text s)) (Spec.keyOf .windows)
      (fun n => n) .start ops ∧
    Spec.sightOutcomes .windows text (Spec.keyOf .windows) (fun n => n) .start ops =
      [.ok (.opened none), .ok .nothing, .ok (.title [0x46#8, 0xC3#8, 0xBC#8]), .ok .nothing,
        .ok .nothing, .ok .nothing, .throw .invalidUnicodeEncoding] ∧
    ((Spec.sightAfter .windows (Spec.keyOf .windows) (fun n => n) .start ops).sight 10).mode = .standard := by
  refine ⟨⟨⟨⟨rfl, fun _ => rfl⟩, fun _ => ⟨by unfold Spec.IsText; decide, rfl⟩⟩,
    .inr ⟨10, [0], rfl⟩, .inr ⟨10, [0], rfl⟩,
    ⟨⟨by unfold Spec.IsText; decide, rfl⟩, .inr ⟨10, [0], rfl⟩⟩,
    .inr ⟨10, [0], rfl⟩, .inr ⟨10, [0], rfl⟩, .inr ⟨10, [0], rfl⟩, trivial⟩, ?_, ?_⟩
  · rfl
  · rfl

/-- The case is real: a window that was closed. -/
example :
    let text : List (BitVec 8) → List Nat := fun _ => []
    let ops : List DeskOp :=
      [.gui (.construct 0 (some 10) 0) [] .standard, .gui (.close 0 ⟨true, none⟩) [] .standard]
    Spec.sightLegal .gtk (fun s => Spec.Denotes .utf8 (units s) (text s)) (Spec.keyOf .gtk)
      (fun n => n) .start ops ∧
    (Spec.sightAfter .gtk (Spec.keyOf .gtk) (fun n => n) .start ops).gui.objs 0 = some .closed := by
  refine ⟨⟨⟨⟨rfl, fun _ => rfl⟩, fun _ => ⟨by unfold Spec.IsText; decide, rfl⟩⟩,
    ⟨trivial, fun h => absurd rfl h⟩, trivial⟩, ?_⟩
  decide +kernel

end Cmp
