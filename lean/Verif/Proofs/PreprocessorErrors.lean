/-
Translation units that are in error, and the headers of the desktop_gui package.
-/
import Verif.Proofs.PreprocessorDefinitions

namespace Cmp.Headers

open Cmp.Spec

/-- `ds` end in an error, whatever follows. -/
def Fails (k : Nat) (ds : List Directive) (u : TranslationUnit) : Prop :=
  ∀ f rest, preprocess contents (f + k) (ds ++ rest) u = .error

theorem Fails.more {k l ds u} (h : Fails k ds u) (hl : k ≤ l) : Fails l ds u := by
  intro f rest
  rw [← h (f + (l - k)) rest]
  congr 1
  omega

theorem Fails.then {k ds u} (h : Fails k ds u) (es : List Directive) : Fails k (ds ++ es) u := by
  intro f rest
  rw [List.append_assoc]
  exact h f _

theorem Runs.fails {k l as bs u v} (h : Runs k as u v) (h' : Fails l bs v) : Fails (k + l) (as ++ bs) u := by
  intro f rest
  obtain ⟨f1, h1, h2⟩ := h (f + l) (bs ++ rest)
  rw [List.append_assoc, show f + (k + l) = f + l + k by omega, h2, ← h' (f + (f1 - (f + l))) rest]
  congr 1
  omega

theorem fails_assert {a b : PpToken} {u : TranslationUnit}
    (hb : ∀ x, u.macros.constant a = some x → u.macros.constant b ≠ some x) : Fails 1 [.assert a b] u :=
  fun f rest => preprocess_error (ds := []) (Runs.nil u) hb f rest

theorem fails_include {k n ds u} (hn : contents n = ds)
    (h : Fails k ds { u with files := u.files ++ [n] }) : Fails (k + 1) [.include n] u := by
  intro f rest
  subst hn
  exact h f rest

theorem fails_choose {k bs o ds u} (hb : Directive.branch u.macros bs o = some ds)
    (h : Fails k ds u) : Fails (k + 1) [.choose bs o] u := by
  intro f rest
  have := h f rest
  simp only [← Nat.add_assoc, List.cons_append, List.nil_append, preprocess, hb]
  exact this

theorem fails_guarded {k g ds} {u : TranslationUnit} (h : u.macros g = none)
    (hr : Fails k ds { u with macros := u.macros.set g none }) : Fails (k + 2) (guarded g ds) u := by
  refine (fails_choose (k := 1 + k) (ds := [.define g none] ++ ds) ?_
    ((runs_define _ _ _).fails hr)).more (by omega)
  simp [Directive.branch, PpCond.holds, h]

theorem Fails.translate {k ds m} (h : Fails k ds ⟨m, [], []⟩) (hk : k ≤ 1000) : translate m ds = .error := by
  have := (h.more hk) 0 []
  rw [List.append_nil, Nat.zero_add] at this
  exact this

/-- `io/inclusion_assert.hpp` after `core/platform.hpp` when the package is excluded. -/
theorem fails_ioAssert_ready {p c used} (hb : Before p c) (ha : ¬ IoAllowed c) {u : TranslationUnit}
    (h : Ready p c used u.macros) (hu : ioGuard ∉ used) :
    Fails 6 [.include "cmp/io/inclusion_assert.hpp"] u := by
  have hg : u.macros ioGuard = none :=
    h.conf.fresh hb (by decide) (by simp [Settings.given, ioGuard]) (by decide) hu
  have h' := h.set (n := ioGuard) (by decide) (by decide) (by decide)
  have r1 := runs_config_again (u := ⟨u.macros.set ioGuard none,
    u.files ++ ["cmp/io/inclusion_assert.hpp"], u.objects⟩) h'.conf
  have r2 := fails_assert (u := ⟨u.macros.set ioGuard none,
      u.files ++ ["cmp/io/inclusion_assert.hpp"] ++ ["cmp/core/config.hpp"], u.objects⟩)
    (a := .name "CMP_CONFIG_IO_PACKAGE_EXCLUDED") (b := .name "false") (by
      intro x hx hf
      have e := h'.conf.constant_false hb
      rw [e] at hf
      cases hf
      exact ha ((h'.conf.constant_of hb (given_io c) h'.conf.io).1 hx))
  exact (fails_include (ds := ioAssert) rfl (fails_guarded hg (r1.fails r2))).more (by omega)

/-- `io/definitions.cpp` when the setting that excludes the package says neither yes nor no: no in the
conditions and yes in the assertions. -/
theorem fails_ioDefinitions {p c} (hb : Before p c) (hi : IoBuilt c) (ha : ¬ IoAllowed c) :
    Fails 100 ioDefinitions ⟨p, [], []⟩ := by
  obtain ⟨m0, r0, c0⟩ := runs_library hb
  let u0 : TranslationUnit := ⟨m0, ["cmp/core/config.hpp", "cmp/core/platform.hpp", "cmp/core/config.hpp",
    "cmp/core/compiler.hpp", "cmp/core/operating_system.hpp"], []⟩
  have g0 : m0 "CMP_IO_COMMON_UIO_HPP_INCLUDED" = none :=
    c0.conf.fresh hb (by decide) (by simp [Settings.given]) (by decide) (by decide)
  have h1 := c0.set (n := "CMP_IO_COMMON_UIO_HPP_INCLUDED") (by decide) (by decide) (by decide)
  have r1 := fails_ioAssert_ready hb ha (u := ⟨m0.set "CMP_IO_COMMON_UIO_HPP_INCLUDED" none,
    u0.files ++ ["cmp/io/impl/common/common_uio.cpp"] ++ ["cmp/io/impl/common/common_uio.hpp"], []⟩) h1
    (by decide)
  have r2 := fails_include (n := "cmp/io/impl/common/common_uio.cpp")
      (ds := [.include "cmp/io/impl/common/common_uio.hpp"]) (u := u0) rfl
      (fails_include (n := "cmp/io/impl/common/common_uio.hpp") (ds := commonUio)
        (u := ⟨m0, u0.files ++ ["cmp/io/impl/common/common_uio.cpp"], []⟩) rfl
        (fails_guarded (u := ⟨m0, u0.files ++ ["cmp/io/impl/common/common_uio.cpp"] ++
          ["cmp/io/impl/common/common_uio.hpp"], []⟩) g0 (r1.then _)))
  refine (r0.fails (bs := [_]) (fails_choose (u := u0) ?_ (r2.then ioDefinitionsTail))).more (by omega)
  simp only [Directive.branch, PpCond.holds, u0, c0.conf.holds_false hb, c0.conf.holds_io hb, hi.1, hi.2]
  rfl

/-- `io/definitions.cpp` when the io package is not built. -/
theorem runs_ioDefinitions_empty {p c} (hb : Before p c) (hi : ¬ IoBuilt c) :
    ∃ m, Runs 100 ioDefinitions ⟨p, [], []⟩ ⟨m, ["cmp/core/config.hpp", "cmp/core/platform.hpp",
      "cmp/core/config.hpp", "cmp/core/compiler.hpp", "cmp/core/operating_system.hpp"], []⟩ := by
  obtain ⟨m0, r0, c0⟩ := runs_library hb
  refine ⟨m0, (r0.append (bs := [_]) (runs_choose (ds := []) ?_ (Runs.nil _))).more (by omega)⟩
  have : (decide (headerOnlyNumber c = 0) &&
      decide (number (c.ioExcluded.getD (.name "false")) = 0)) = false := by
    by_cases h1 : headerOnlyNumber c = 0
    · have h2 : ¬ number (c.ioExcluded.getD (.name "false")) = 0 := fun h2 => hi ⟨h1, h2⟩
      simp [h2]
    · simp [h1]
  simp only [Directive.branch, PpCond.holds, c0.conf.holds_false hb, c0.conf.holds_io hb, this]

/-- `desktop_gui/inclusion_assert.hpp` as the first header that includes `core/config.hpp`. -/
theorem runs_guiAssert {p c used} (hb : Before p c) (ha : GuiAllowed c) {u : TranslationUnit}
    (h : Pre p used u.macros) (hu : guiGuard ∉ used) :
    ∃ m, Runs 50 [.include "cmp/desktop_gui/inclusion_assert.hpp"] u
      ⟨m, u.files ++ ["cmp/desktop_gui/inclusion_assert.hpp", "cmp/core/config.hpp"], u.objects⟩ ∧
      Conf p c (configNames ++ guiGuard :: used) m := by
  have hg : u.macros guiGuard = none :=
    h.fresh hb (by decide) (by simp [Settings.given, guiGuard]) (by decide) hu
  obtain ⟨m, r, hm, ho⟩ := runs_config hb (u := ⟨u.macros.set guiGuard none,
    u.files ++ ["cmp/desktop_gui/inclusion_assert.hpp"], u.objects⟩)
    (h.set (n := guiGuard) (by decide) (by decide) none)
  let v : TranslationUnit := ⟨m, u.files ++ ["cmp/desktop_gui/inclusion_assert.hpp"] ++
    ["cmp/core/config.hpp"], u.objects⟩
  refine ⟨m, ?_, hm⟩
  have r2 := runs_assert (u := v) ((hm.constant_of hb (given_gui c) hm.gui).2 ha.1) (hm.constant_false hb)
  have r3 := runs_assert (u := v) ((hm.constant_of hb (given_head c) hm.headerOnly).2 ha.2) (hm.constant_false hb)
  have := (runs_include (ds := guiAssert) rfl (runs_guarded hg (r.cons (r2.cons r3)))).more (l := 50)
    (by omega)
  simpa only [v, List.append_assoc, List.cons_append, List.nil_append] using this

/-- The same when the package cannot be used. -/
theorem fails_guiAssert {p c used} (hb : Before p c) (ha : ¬ GuiAllowed c) {u : TranslationUnit}
    (h : Pre p used u.macros) (hu : guiGuard ∉ used) :
    Fails 50 [.include "cmp/desktop_gui/inclusion_assert.hpp"] u := by
  have hg : u.macros guiGuard = none :=
    h.fresh hb (by decide) (by simp [Settings.given, guiGuard]) (by decide) hu
  obtain ⟨m, r, hm, ho⟩ := runs_config hb (u := ⟨u.macros.set guiGuard none,
    u.files ++ ["cmp/desktop_gui/inclusion_assert.hpp"], u.objects⟩)
    (h.set (n := guiGuard) (by decide) (by decide) none)
  let v : TranslationUnit := ⟨m, u.files ++ ["cmp/desktop_gui/inclusion_assert.hpp"] ++
    ["cmp/core/config.hpp"], u.objects⟩
  have e := hm.constant_false hb
  have two : Fails 2 [.assert (.name "CMP_CONFIG_DESKTOP_GUI_PACKAGE_EXCLUDED") (.name "false"),
      .assert (.name "CMP_CONFIG_HEADER_ONLY") (.name "false")] v := by
    by_cases h1 : IsNo (c.guiExcluded.getD (.name "false"))
    · have r2 := runs_assert (u := v) ((hm.constant_of hb (given_gui c) hm.gui).2 h1) e
      refine r2.fails (bs := [_]) (fails_assert (u := v) ?_)
      intro x hx hf
      change m.constant _ = _ at hf
      rw [e] at hf
      cases hf
      exact ha ⟨h1, (hm.constant_of hb (given_head c) hm.headerOnly).1 hx⟩
    · refine (Fails.then (fails_assert (u := v) (a := .name "CMP_CONFIG_DESKTOP_GUI_PACKAGE_EXCLUDED")
        (b := .name "false") ?_) [_]).more (by omega)
      intro x hx hf
      change m.constant _ = _ at hf
      rw [e] at hf
      cases hf
      exact h1 ((hm.constant_of hb (given_gui c) hm.gui).1 hx)
  exact (fails_include (ds := guiAssert) rfl (fails_guarded hg (r.fails (bs := [_, _]) two))).more (by omega)

/-- What is needed of the name of the guard of a header of the desktop_gui package. -/
def GuiName (c : Settings) (g : String) : Prop :=
  Reserved g ∧ g ∉ c.given.map Prod.fst ∧ g ∉ configNames ∧ g ∉ platformNames ∧ g ≠ guiGuard

theorem GuiName.unrelated {c g} (h : GuiName c g) : g ∉ unrelated := fun h' => h.2.2.1 (by
  simp only [configNames, List.mem_append]; exact .inl (.inr h'))

/-- A header of the desktop_gui package when it cannot be used. -/
theorem fails_gui {p c} (hb : Before p c) (ha : ¬ GuiAllowed c) {n g : String} {ds : List Directive}
    (hn : contents n = guarded g (.include "cmp/desktop_gui/inclusion_assert.hpp" :: ds))
    (hg : GuiName c g) : translate p [.include n] = .error := by
  have h0 : p g = none := (Pre.start p).fresh hb hg.1 hg.2.1 hg.unrelated (by simp)
  have hp := (Pre.start p).set hg.1 hg.2.2.1 none
  have r := fails_guiAssert hb ha (u := ⟨p.set g none, [n], []⟩) hp (by simpa using Ne.symm hg.2.2.2.2)
  exact Fails.translate (fails_include hn (fails_guarded (u := ⟨p, [n], []⟩) h0 (r.then ds))) (by omega)

/-- A header of the desktop_gui package that chooses itself. -/
theorem runs_gui_direct {p c} (hb : Before p c) (ha : GuiAllowed c) {n g : String} {w x y : List String}
    (hn : contents n = guarded g [.include "cmp/desktop_gui/inclusion_assert.hpp",
      .include "cmp/core/platform.hpp", guiChoice w x y])
    (hg : GuiName c g) (hl : ∀ n ∈ w ++ x ++ y, contents n = [])
    (hs : w.length ≤ 2 ∧ x.length ≤ 2 ∧ y.length ≤ 2) :
    ∃ m used, Runs 200 [.include n] ⟨p, [], []⟩ ⟨m, [n, "cmp/desktop_gui/inclusion_assert.hpp",
      "cmp/core/config.hpp", "cmp/core/platform.hpp", "cmp/core/config.hpp", "cmp/core/compiler.hpp",
      "cmp/core/operating_system.hpp"] ++ guiPart (chosen p) w x y, []⟩ ∧ Ready p c used m := by
  have h0 : p g = none := (Pre.start p).fresh hb hg.1 hg.2.1 hg.unrelated (by simp)
  have hp := (Pre.start p).set hg.1 hg.2.2.1 none
  obtain ⟨m1, r1, c1⟩ := runs_guiAssert hb ha (u := ⟨p.set g none, [n], []⟩) hp
    (by simpa using Ne.symm hg.2.2.2.2)
  obtain ⟨m2, r2, c2, o2⟩ := runs_platform hb (u := ⟨m1, [n, "cmp/desktop_gui/inclusion_assert.hpp",
    "cmp/core/config.hpp"], []⟩) c1 (by
      intro k hk hm
      simp only [List.mem_append, List.mem_cons, List.not_mem_nil, or_false] at hm
      rcases hm with hm | hm | hm
      · exact absurd hm ((show ∀ k ∈ platformNames, k ∉ configNames by decide) k hk)
      · exact absurd hm ((show ∀ k ∈ platformNames, k ≠ guiGuard by decide) k hk)
      · exact hg.2.2.2.1 (hm ▸ hk))
  have r3 := runs_guiChoice (u := ⟨m2, [n, "cmp/desktop_gui/inclusion_assert.hpp", "cmp/core/config.hpp",
    "cmp/core/platform.hpp", "cmp/core/config.hpp", "cmp/core/compiler.hpp",
    "cmp/core/operating_system.hpp"], []⟩) c2.sys w x y hl hs
  exact ⟨m2, _, (runs_include hn (runs_guarded (u := ⟨p, [n], []⟩) h0 (r1.cons (r2.cons r3)))).more
    (by omega), c2⟩

/-- A header of the desktop_gui package that includes the one that chooses. -/
theorem runs_gui_common {p c} (hb : Before p c) (ha : GuiAllowed c) {n n' g g' : String} {w x y : List String}
    (hn : contents n = guarded g [.include "cmp/desktop_gui/inclusion_assert.hpp", .include n'])
    (hn' : contents n' = guarded g' [.include "cmp/core/platform.hpp", guiChoice w x y])
    (hg : GuiName c g) (hg' : GuiName c g') (hne : g' ≠ g) (hl : ∀ n ∈ w ++ x ++ y, contents n = [])
    (hs : w.length ≤ 2 ∧ x.length ≤ 2 ∧ y.length ≤ 2) :
    ∃ m used, Runs 200 [.include n] ⟨p, [], []⟩ ⟨m, [n, "cmp/desktop_gui/inclusion_assert.hpp",
      "cmp/core/config.hpp", n', "cmp/core/platform.hpp", "cmp/core/config.hpp", "cmp/core/compiler.hpp",
      "cmp/core/operating_system.hpp"] ++ guiPart (chosen p) w x y, []⟩ ∧ Ready p c used m := by
  have h0 : p g = none := (Pre.start p).fresh hb hg.1 hg.2.1 hg.unrelated (by simp)
  have hp := (Pre.start p).set hg.1 hg.2.2.1 none
  obtain ⟨m1, r1, c1⟩ := runs_guiAssert hb ha (u := ⟨p.set g none, [n], []⟩) hp
    (by simpa using Ne.symm hg.2.2.2.2)
  have h1 : m1 g' = none := c1.fresh hb hg'.1 hg'.2.1 hg'.unrelated (by
    simp only [List.mem_append, List.mem_cons, List.not_mem_nil, or_false, not_or]
    exact ⟨hg'.2.2.1, hg'.2.2.2.2, hne⟩)
  have c1' := c1.set hg'.1 (fun h => hg'.2.2.1 (by
    simp only [configNames, List.mem_append]; exact .inl (.inl h))) none
  obtain ⟨m2, r2, c2, o2⟩ := runs_platform hb (u := ⟨m1.set g' none, [n,
    "cmp/desktop_gui/inclusion_assert.hpp", "cmp/core/config.hpp", n'], []⟩) c1' (by
      intro k hk hm
      simp only [List.mem_append, List.mem_cons, List.not_mem_nil, or_false] at hm
      rcases hm with hm | hm | hm | hm
      · exact hg'.2.2.2.1 (hm ▸ hk)
      · exact absurd hm ((show ∀ k ∈ platformNames, k ∉ configNames by decide) k hk)
      · exact absurd hm ((show ∀ k ∈ platformNames, k ≠ guiGuard by decide) k hk)
      · exact hg.2.2.2.1 (hm ▸ hk))
  have r3 := runs_guiChoice (u := ⟨m2, [n, "cmp/desktop_gui/inclusion_assert.hpp", "cmp/core/config.hpp",
    n', "cmp/core/platform.hpp", "cmp/core/config.hpp", "cmp/core/compiler.hpp",
    "cmp/core/operating_system.hpp"], []⟩) c2.sys w x y hl hs
  exact ⟨m2, _, (runs_include hn (runs_guarded (u := ⟨p, [n], []⟩) h0 (r1.cons
    (runs_include hn' (runs_guarded (u := ⟨m1, [n, "cmp/desktop_gui/inclusion_assert.hpp",
      "cmp/core/config.hpp", n'], []⟩) h1 (r2.cons r3)))))).more (by omega), c2⟩

/-- `core/platform.hpp` as the first header of the library. -/
theorem runs_platform_first {p c} (hb : Before p c) {u : TranslationUnit} (hu : u.macros = p) :
    ∃ m fs, Runs 70 [.include "cmp/core/platform.hpp"] u ⟨m, fs, u.objects⟩ ∧ Sys (chosen p) m ∧
      m "CMP_COMPILER_NAME" = some (some (.text (compilerTitle p))) := by
  have hpre : Pre p [] u.macros := hu ▸ Pre.start p
  have hg : u.macros "CMP_CORE_PLATFORM_HPP_INCLUDED" = none :=
    hpre.fresh hb (by decide) (by simp [Settings.given]) (by decide) (by decide)
  obtain ⟨m1, r1, c1, o1⟩ := runs_config hb (u := ⟨u.macros.set "CMP_CORE_PLATFORM_HPP_INCLUDED" none,
    u.files ++ ["cmp/core/platform.hpp"], u.objects⟩)
    (hpre.set (n := "CMP_CORE_PLATFORM_HPP_INCLUDED") (by decide) (by decide) none)
  obtain ⟨m2, r2, c2, n2, o2⟩ := runs_compiler hb (u := ⟨m1, _, u.objects⟩) c1 (by decide)
  obtain ⟨m3, r3, c3, s3, o3⟩ := runs_system hb (u := ⟨m2, _, u.objects⟩) c2 (by decide)
  exact ⟨m3, _, (runs_include (ds := platform) rfl (runs_guarded hg (r1.cons (r2.cons r3)))).more (by omega),
    s3, (o3 _ (by decide)).trans n2⟩

theorem chosen_of {p : Macros} {s : System} (h : Targets p s) : chosen p = some s := by
  obtain ⟨⟨n, hn, hd⟩, ho⟩ := h
  have yes : (s.marks.any fun n => (p n).isSome) = true := by
    rw [List.any_eq_true]
    refine ⟨n, hn, ?_⟩
    cases e : p n with
    | none => exact absurd e hd
    | some _ => rfl
  have no : ∀ t, t ≠ s → (t.marks.any fun n => (p n).isSome) = false := by
    intro t ht
    rw [List.any_eq_false]
    intro n hn
    rw [ho t ht n hn]
    simp
  have hp : ∀ {l}, List.find? (fun s : System => s.marks.any fun n => (p n).isSome) (s :: l) = some s :=
    List.find?_cons_of_pos yes
  have hq : ∀ {t l}, t ≠ s → List.find? (fun s : System => s.marks.any fun n => (p n).isSome) (t :: l) =
      List.find? (fun s : System => s.marks.any fun n => (p n).isSome) l := fun ht =>
    List.find?_cons_of_neg (by rw [no _ ht]; decide)
  unfold chosen
  cases s
  · exact hp
  · rw [hq (by decide)]; exact hp
  · rw [hq (by decide), hq (by decide)]; exact hp
  · rw [hq (by decide), hq (by decide), hq (by decide)]; exact hp

theorem chosen_none {p : Macros} (h : TargetsNone p) : chosen p = none := by
  unfold chosen
  rw [List.find?_eq_none]
  intro s _
  rw [Bool.not_eq_true, List.any_eq_false]
  intro n hn
  rw [h s n hn]
  simp

end Cmp.Headers
