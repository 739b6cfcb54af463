/-
Preprocessing whole translation units.
-/
import Verif.Proofs.Preprocessor

namespace Cmp.Headers

open Cmp.Spec

/-- The guard of `io/inclusion_assert.hpp`. -/
def ioGuard : String := "CMP_IO_INCLUSION_ASSERT_HPP_INCLUDED"

/-- The guard of `desktop_gui/inclusion_assert.hpp`. -/
def guiGuard : String := "CMP_DESKTOP_GUI_INCLUSION_ASSERT_HPP_INCLUDED"

theorem given_head (c : Settings) : ("CMP_CONFIG_HEADER_ONLY", c.headerOnly) ∈ c.given := by
  simp [Settings.given]

theorem given_io (c : Settings) : ("CMP_CONFIG_IO_PACKAGE_EXCLUDED", c.ioExcluded) ∈ c.given := by
  simp [Settings.given]

theorem given_gui (c : Settings) :
    ("CMP_CONFIG_DESKTOP_GUI_PACKAGE_EXCLUDED", c.guiExcluded) ∈ c.given := by
  simp [Settings.given]

/-- The io package is not excluded. -/
def IoAllowed (c : Settings) : Prop := IsNo (c.ioExcluded.getD (.name "false"))

/-- Nor is the desktop_gui package, and the library is not header-only. -/
def GuiAllowed (c : Settings) : Prop :=
  IsNo (c.guiExcluded.getD (.name "false")) ∧ IsNo (c.headerOnly.getD (.name "false"))

/-- `io/inclusion_assert.hpp` as the first header that includes `core/config.hpp`. -/
theorem runs_ioAssert {p c used} (hb : Before p c) (ha : IoAllowed c) {u : TranslationUnit}
    (h : Pre p used u.macros) (hu : ioGuard ∉ used) :
    ∃ m, Runs 50 [.include "cmp/io/inclusion_assert.hpp"] u
      ⟨m, u.files ++ ["cmp/io/inclusion_assert.hpp", "cmp/core/config.hpp"], u.objects⟩ ∧
      Conf p c (configNames ++ ioGuard :: used) m ∧ m ioGuard ≠ none ∧
      ∀ n, n ∉ configNames → n ≠ ioGuard → m n = u.macros n := by
  have hg : u.macros ioGuard = none :=
    h.fresh hb (by decide) (by simp [Settings.given, ioGuard]) (by decide) hu
  obtain ⟨m, r, hm, ho⟩ := runs_config hb (u := ⟨u.macros.set ioGuard none,
    u.files ++ ["cmp/io/inclusion_assert.hpp"], u.objects⟩) (h.set (n := ioGuard) (by decide) (by decide) none)
  refine ⟨m, ?_, hm, ?_, fun n hn hne => (ho n hn).trans (set_other _ _ hne)⟩
  · have r2 := runs_assert (u := ⟨m, u.files ++ ["cmp/io/inclusion_assert.hpp"] ++ ["cmp/core/config.hpp"],
      u.objects⟩) ((hm.constant_of hb (given_io c) hm.io).2 ha) (hm.constant_false hb)
    have := (runs_include (ds := ioAssert) rfl (runs_guarded hg (r.cons r2))).more (l := 50) (by omega)
    simpa only [List.append_assoc, List.cons_append, List.nil_append] using this
  · have e := ho ioGuard (by decide)
    rw [e]
    simp [set_self]

/-- The same when the package is excluded. -/
theorem preprocess_ioAssert {p c used} (hb : Before p c) (ha : ¬ IoAllowed c) {u : TranslationUnit}
    (h : Pre p used u.macros) (hu : ioGuard ∉ used) (f rest) :
    preprocess contents (f + 50) (.include "cmp/io/inclusion_assert.hpp" :: rest) u = .error := by
  have hg : u.macros ioGuard = none :=
    h.fresh hb (by decide) (by simp [Settings.given, ioGuard]) (by decide) hu
  obtain ⟨m, r, hm, -⟩ := runs_config hb (u := ⟨u.macros.set ioGuard none,
    u.files ++ ["cmp/io/inclusion_assert.hpp"], u.objects⟩) (h.set (n := ioGuard) (by decide) (by decide) none)
  have hbad : ∀ x, m.constant (.name "CMP_CONFIG_IO_PACKAGE_EXCLUDED") = some x →
      m.constant (.name "false") ≠ some x := by
    intro x hx hf
    rw [hm.constant_false hb] at hf
    cases hf
    exact ha ((hm.constant_of hb (given_io c) hm.io).1 hx)
  have := preprocess_error (a := .name "CMP_CONFIG_IO_PACKAGE_EXCLUDED") (b := .name "false") r hbad
    (f + 6) rest
  rw [← this]
  have hn : (u.macros ioGuard).isNone = true := by rw [hg]; rfl
  have hc : contents "cmp/io/inclusion_assert.hpp" = ioAssert := rfl
  simp only [preprocess, hc, ioAssert, guarded,
    List.cons_append, List.nil_append, Directive.branch, PpCond.holds]
  have hn' : (u.macros "CMP_IO_INCLUSION_ASSERT_HPP_INCLUDED").isNone = true := hn
  simp only [hn', preprocess, ioGuard, List.cons_append, List.nil_append]

/-- `io/inclusion_assert.hpp` for the first time after `core/platform.hpp`. -/
theorem runs_ioAssert_ready {p c used} (hb : Before p c) (ha : IoAllowed c) {u : TranslationUnit}
    (h : Ready p c used u.macros) (hu : ioGuard ∉ used) :
    Runs 6 [.include "cmp/io/inclusion_assert.hpp"] u ⟨u.macros.set ioGuard none,
      u.files ++ ["cmp/io/inclusion_assert.hpp", "cmp/core/config.hpp"], u.objects⟩ := by
  have hg : u.macros ioGuard = none :=
    h.conf.fresh hb (by decide) (by simp [Settings.given, ioGuard]) (by decide) hu
  have h' := h.set (n := ioGuard) (by decide) (by decide) (by decide)
  have r1 := runs_config_again (u := ⟨u.macros.set ioGuard none,
    u.files ++ ["cmp/io/inclusion_assert.hpp"], u.objects⟩) h'.conf
  have r2 := runs_assert (u := ⟨u.macros.set ioGuard none,
      u.files ++ ["cmp/io/inclusion_assert.hpp"] ++ ["cmp/core/config.hpp"], u.objects⟩)
    ((h'.conf.constant_of hb (given_io c) h'.conf.io).2 ha) (h'.conf.constant_false hb)
  have := (runs_include (ds := ioAssert) rfl (runs_guarded hg (r1.cons r2))).more (l := 6) (by omega)
  simpa only [List.append_assoc, List.cons_append, List.nil_append] using this

theorem runs_ioAssert_again {u : TranslationUnit} (h : u.macros ioGuard ≠ none) :
    Runs 2 [.include "cmp/io/inclusion_assert.hpp"] u
      ⟨u.macros, u.files ++ ["cmp/io/inclusion_assert.hpp"], u.objects⟩ :=
  runs_again (g := ioGuard) rfl h

/-- The library is header-only. -/
def HeaderOnly (c : Settings) : Prop := headerOnlyNumber c = 1

instance (c : Settings) : Decidable (HeaderOnly c) := by unfold HeaderOnly; infer_instance

/-- A part for header-only use. -/
theorem runs_if_headerOnly {p c used k ds} (hb : Before p c) {u u' : TranslationUnit}
    (h : Conf p c used u.macros) (hy : HeaderOnly c → Runs k ds u u') (hn : ¬ HeaderOnly c → u' = u) :
    Runs (k + 1) [.choose [(equalsTrue "CMP_CONFIG_HEADER_ONLY", ds)] []] u u' := by
  by_cases ho : HeaderOnly c
  · refine runs_choose (ds := ds) ?_ (hy ho)
    simp [Directive.branch, h.holds_true hb, show headerOnlyNumber c = 1 from ho]
  · rw [hn ho]
    refine (runs_choose (ds := []) ?_ (Runs.nil u)).more (by omega)
    simp [Directive.branch, h.holds_true hb, show ¬ headerOnlyNumber c = 1 from ho]

/-- A part for the compiled library. -/
theorem runs_if_compiled {p c used k ds} (hb : Before p c) {u u' : TranslationUnit}
    (h : Conf p c used u.macros) (hy : headerOnlyNumber c = 0 → Runs k ds u u')
    (hn : ¬ headerOnlyNumber c = 0 → u' = u) :
    Runs (k + 1) [.choose [(equalsFalse "CMP_CONFIG_HEADER_ONLY", ds)] []] u u' := by
  by_cases ho : headerOnlyNumber c = 0
  · refine runs_choose (ds := ds) ?_ (hy ho)
    simp [Directive.branch, h.holds_false hb, ho]
  · rw [hn ho]
    refine (runs_choose (ds := []) ?_ (Runs.nil u)).more (by omega)
    simp [Directive.branch, h.holds_false hb, ho]

/-- What there is for Windows, for the other systems, or neither. -/
def part {α : Type} (s : Option System) (w x : List α) : List α :=
  match s with
  | none => []
  | some .windows => w
  | some _ => x

/-- What there is in header-only use. -/
def ifHeaderOnly {α : Type} (c : Settings) (l : List α) : List α := if HeaderOnly c then l else []

theorem three_ways (o : Option System) : o = none ∨ o = some .windows ∨
    ∃ s, o = some s ∧ s ≠ .windows ∧ ∀ (α : Type) (w x : List α), part (some s) w x = x := by
  rcases o with _ | s
  · exact .inl rfl
  · cases s
    · exact .inr (.inl rfl)
    all_goals exact .inr (.inr ⟨_, rfl, by decide, fun _ _ _ => rfl⟩)

theorem branch_io {s m} (h : Sys s m) (w x : List Directive) :
    Directive.branch m [(.defined "CMP_OS_WINDOWS", w), (.defined "CMP_OS_UNIX_LIKE", x)] [] =
      some (part s w x) := by
  have h1 := h.own .windows
  have h2 := h.unixLike
  simp only [systemMacro] at h1
  rcases s with _ | s
  · simp [Directive.branch, PpCond.holds, h1, h2, part]
  · cases s <;> simp [Directive.branch, PpCond.holds, h1, h2, part]

/-- `windows_file.hpp` or `unix_like_file.hpp`, included by `file.hpp`. -/
theorem runs_systemFile {p c used header guard own} (hb : Before p c)
    (hh : contents header = systemFile guard own) (ho : contents own = [.include header])
    {u : TranslationUnit} (h : Ready p c used u.macros) (hi : u.macros ioGuard ≠ none)
    (hf : u.macros "CMP_IO_FILE_HPP_INCLUDED" ≠ none) (hg : u.macros guard = none)
    (hr : Reserved guard) (hs : guard ∉ settled) (hp : guard ∉ platformNames) :
    Runs 12 [.include header] u ⟨u.macros.set guard none,
      u.files ++ [header, "cmp/io/inclusion_assert.hpp", "cmp/io/file.hpp"] ++
        ifHeaderOnly c [own, header], u.objects⟩ := by
  have h' := h.set hr hs hp
  have ne1 : ioGuard ≠ guard := fun e => hi (e ▸ hg)
  have ne2 : "CMP_IO_FILE_HPP_INCLUDED" ≠ guard := fun e => hf (e ▸ hg)
  let v : TranslationUnit := ⟨u.macros.set guard none, u.files ++ [header], u.objects⟩
  let v2 : TranslationUnit := ⟨v.macros, v.files ++ ["cmp/io/inclusion_assert.hpp"], v.objects⟩
  let v3 : TranslationUnit := ⟨v.macros, v2.files ++ ["cmp/io/file.hpp"], v.objects⟩
  have r1 : Runs 2 [.include "cmp/io/inclusion_assert.hpp"] v v2 := runs_ioAssert_again (u := v)
    (by rw [show v.macros = u.macros.set guard none from rfl, set_other _ _ ne1]; exact hi)
  have r2 : Runs 2 [.include "cmp/io/file.hpp"] v2 v3 :=
    runs_again (u := v2) (g := "CMP_IO_FILE_HPP_INCLUDED") rfl
      (by rw [show v2.macros = u.macros.set guard none from rfl, set_other _ _ ne2]; exact hf)
  have r3 : Runs 4 [source own] v3 ⟨v.macros, v3.files ++ ifHeaderOnly c [own, header], v.objects⟩ := by
    refine runs_if_headerOnly hb (u := v3) h'.conf (fun hy => ?_) (fun hn => ?_)
    · refine runs_include ho ?_
      have := runs_again (u := ⟨v3.macros, v3.files ++ [own], v3.objects⟩) (n := header) (g := guard)
        (by rw [hh]; rfl) (by simp [v3, v, set_self])
      simpa [ifHeaderOnly, hy] using this
    · simp [ifHeaderOnly, hn, v3, v2, v]
  have := (runs_include hh (runs_guarded (u := ⟨u.macros, u.files ++ [header], u.objects⟩) hg
    (r1.cons (r2.cons r3)))).more (l := 12) (by omega)
  simpa only [v, v2, v3, List.append_assoc, List.cons_append, List.nil_append] using this

/-- The files of `io/file.hpp`. -/
def fileUnit (c : Settings) (s : Option System) : List String :=
  ["cmp/io/file.hpp", "cmp/io/inclusion_assert.hpp", "cmp/core/config.hpp", "cmp/core/platform.hpp",
    "cmp/core/config.hpp", "cmp/core/compiler.hpp", "cmp/core/operating_system.hpp"] ++
  ifHeaderOnly c ["cmp/io/file.cpp", "cmp/io/file.hpp"] ++
  part s
    (["cmp/io/impl/windows/windows_file.hpp", "cmp/io/inclusion_assert.hpp", "cmp/io/file.hpp"] ++
      ifHeaderOnly c ["cmp/io/impl/windows/windows_file.cpp", "cmp/io/impl/windows/windows_file.hpp"])
    (["cmp/io/impl/unix_like/unix_like_file.hpp", "cmp/io/inclusion_assert.hpp", "cmp/io/file.hpp"] ++
      ifHeaderOnly c
        ["cmp/io/impl/unix_like/unix_like_file.cpp", "cmp/io/impl/unix_like/unix_like_file.hpp"])

/-- A translation unit that includes `io/file.hpp`. -/
theorem runs_file {p c} (hb : Before p c) (ha : IoAllowed c) :
    ∃ m used, Runs 120 [.include "cmp/io/file.hpp"] ⟨p, [], []⟩ ⟨m, fileUnit c (chosen p), []⟩ ∧
      Ready p c used m := by
  have hp := (Pre.start p).set (n := "CMP_IO_FILE_HPP_INCLUDED") (by decide) (by decide) none
  have hg : p "CMP_IO_FILE_HPP_INCLUDED" = none :=
    (Pre.start p).fresh hb (by decide) (by simp [Settings.given]) (by decide) (by decide)
  obtain ⟨m1, r1, c1, i1, o1⟩ := runs_ioAssert hb ha
    (u := ⟨p.set "CMP_IO_FILE_HPP_INCLUDED" none, ["cmp/io/file.hpp"], []⟩) hp (by decide)
  obtain ⟨m2, r2, c2, o2⟩ := runs_platform hb (u := ⟨m1, ["cmp/io/file.hpp",
    "cmp/io/inclusion_assert.hpp", "cmp/core/config.hpp"], []⟩) c1 (by decide)
  let u2 : TranslationUnit := ⟨m2, ["cmp/io/file.hpp", "cmp/io/inclusion_assert.hpp",
    "cmp/core/config.hpp", "cmp/core/platform.hpp",
    "cmp/core/config.hpp", "cmp/core/compiler.hpp", "cmp/core/operating_system.hpp"], []⟩
  have f2 : m2 "CMP_IO_FILE_HPP_INCLUDED" ≠ none := by
    have e := (o2 "CMP_IO_FILE_HPP_INCLUDED" (by decide)).trans
      (o1 "CMP_IO_FILE_HPP_INCLUDED" (by decide) (by decide))
    rw [e]
    simp [set_self]
  have i2 : m2 ioGuard ≠ none := by rw [o2 ioGuard (by decide)]; exact i1
  let u3 : TranslationUnit := ⟨m2, u2.files ++ ifHeaderOnly c ["cmp/io/file.cpp", "cmp/io/file.hpp"], []⟩
  have r3 : Runs 4 [source "cmp/io/file.cpp"] u2 u3 := by
    refine runs_if_headerOnly hb (u := u2) c2.conf (fun hy => ?_) (fun hn => ?_)
    · refine runs_include (ds := [.include "cmp/io/file.hpp"]) rfl ?_
      have := runs_again (u := ⟨m2, u2.files ++ ["cmp/io/file.cpp"], []⟩) (n := "cmp/io/file.hpp")
        (g := "CMP_IO_FILE_HPP_INCLUDED") rfl f2
      simpa [ifHeaderOnly, hy, u2, u3] using this
    · simp [ifHeaderOnly, hn, u3, u2]
  have fr : ∀ n, Reserved n → n ∉ c.given.map Prod.fst → n ∉ unrelated →
      n ∉ platformNames ++ (configNames ++ [ioGuard, "CMP_IO_FILE_HPP_INCLUDED"]) → m2 n = none :=
    fun n h1 h2 h3 h4 => c2.conf.fresh hb h1 h2 h3 h4
  have r4 : ∃ m, (∃ used, Ready p c used m) ∧ Runs 14 [ioChoice "cmp/io/impl/windows/windows_file.hpp"
      "cmp/io/impl/unix_like/unix_like_file.hpp"] u3 ⟨m, fileUnit c (chosen p), []⟩ := by
    have hbr := branch_io (m := u3.macros) c2.sys [.include "cmp/io/impl/windows/windows_file.hpp"]
      [.include "cmp/io/impl/unix_like/unix_like_file.hpp"]
    have win := runs_systemFile (header := "cmp/io/impl/windows/windows_file.hpp") hb (u := u3) rfl rfl c2 i2 f2
      (fr "CMP_IO_WINDOWS_FILE_HPP_INCLUDED" (by decide) (by simp [Settings.given]) (by decide) (by decide))
      (by decide) (by decide) (by decide)
    have unx := runs_systemFile (header := "cmp/io/impl/unix_like/unix_like_file.hpp") hb (u := u3) rfl rfl
      c2 i2 f2 (fr "CMP_IO_UNIX_LIKE_FILE_HPP_INCLUDED" (by decide) (by simp [Settings.given]) (by decide)
        (by decide)) (by decide) (by decide) (by decide)
    have rw' := c2.set (n := "CMP_IO_WINDOWS_FILE_HPP_INCLUDED") (by decide) (by decide) (by decide)
    have ru' := c2.set (n := "CMP_IO_UNIX_LIKE_FILE_HPP_INCLUDED") (by decide) (by decide) (by decide)
    rcases three_ways (chosen p) with hs | hs | ⟨s, hs, -, hpt⟩
    · rw [hs] at hbr ⊢
      have h := (runs_choose hbr (Runs.nil _)).more (l := 14) (by omega)
      refine ⟨m2, ⟨_, c2⟩, ?_⟩
      simpa only [ioChoice, fileUnit, part, u3, u2, List.append_nil] using h
    · rw [hs] at hbr ⊢
      have h := (runs_choose hbr win).more (l := 14) (by omega)
      refine ⟨_, ⟨_, rw'⟩, ?_⟩
      simpa only [ioChoice, fileUnit, part, u3, u2, List.append_assoc, List.cons_append, List.nil_append] using h
    · rw [hs] at hbr ⊢
      rw [hpt] at hbr
      have h := (runs_choose hbr unx).more (l := 14) (by omega)
      refine ⟨_, ⟨_, ru'⟩, ?_⟩
      simpa only [ioChoice, fileUnit, hpt, u3, u2, List.append_assoc, List.cons_append, List.nil_append] using h
  obtain ⟨m, ⟨used, hm⟩, r4⟩ := r4
  refine ⟨m, used, ?_, hm⟩
  exact (runs_include (ds := file) rfl (runs_guarded (u := ⟨p, ["cmp/io/file.hpp"], []⟩) hg
    (r1.cons (r2.cons (r3.cons r4))))).more (by omega)

end Cmp.Headers
