/-
Preprocessing `io/uio.hpp`, the translation units of the library, and the headers of the desktop_gui
package.
-/
import Verif.Proofs.PreprocessorUio

namespace Cmp.Headers

open Cmp.Spec

/-- The files of `io/uio.hpp`. -/
def uioUnit (c : Settings) (s : Option System) : List String :=
  ["cmp/io/uio.hpp", "cmp/io/inclusion_assert.hpp", "cmp/core/config.hpp",
    "cmp/io/impl/common/common_uio.hpp", "cmp/io/inclusion_assert.hpp", "cmp/core/platform.hpp",
    "cmp/core/config.hpp", "cmp/core/compiler.hpp", "cmp/core/operating_system.hpp"] ++ commonFiles c s

/-- A translation unit that includes `io/uio.hpp`. -/
theorem runs_uio {p c} (hb : Before p c) (ha : IoAllowed c) :
    ∃ m used, Runs 200 [.include "cmp/io/uio.hpp"] ⟨p, [], []⟩ ⟨m, uioUnit c (chosen p),
      commonObjects c (chosen p) ++ ifHeaderOnly c (streamObjects true)⟩ ∧ Ready p c used m := by
  have hp := (Pre.start p).set (n := "CMP_IO_UIO_HPP_INCLUDED") (by decide) (by decide) none
  have hg : p "CMP_IO_UIO_HPP_INCLUDED" = none :=
    (Pre.start p).fresh hb (by decide) (by simp [Settings.given]) (by decide) (by decide)
  obtain ⟨m1, r1, c1, i1, o1⟩ := runs_ioAssert hb ha
    (u := ⟨p.set "CMP_IO_UIO_HPP_INCLUDED" none, ["cmp/io/uio.hpp"], []⟩) hp (by decide)
  let f1 : List String := ["cmp/io/uio.hpp", "cmp/io/inclusion_assert.hpp", "cmp/core/config.hpp"]
  have g1 : m1 "CMP_IO_COMMON_UIO_HPP_INCLUDED" = none :=
    c1.fresh hb (by decide) (by simp [Settings.given]) (by decide) (by decide)
  let m2 := m1.set "CMP_IO_COMMON_UIO_HPP_INCLUDED" none
  have c2 := c1.set (n := "CMP_IO_COMMON_UIO_HPP_INCLUDED") (by decide) (by decide) none
  have i2 : m2 ioGuard ≠ none := by
    change m1.set "CMP_IO_COMMON_UIO_HPP_INCLUDED" none ioGuard ≠ none
    rw [set_other _ _ (by decide)]; exact i1
  have r2 := runs_ioAssert_again (u := ⟨m2, f1 ++ ["cmp/io/impl/common/common_uio.hpp"], []⟩) i2
  obtain ⟨m3, r3, c3, o3⟩ := runs_platform hb (u := ⟨m2, f1 ++ ["cmp/io/impl/common/common_uio.hpp"] ++
    ["cmp/io/inclusion_assert.hpp"], []⟩) c2 (by decide)
  have i3 : m3 ioGuard ≠ none := by rw [o3 ioGuard (by decide)]; exact i2
  have k3 : m3 "CMP_IO_COMMON_UIO_HPP_INCLUDED" ≠ none := by
    rw [o3 _ (by decide)]; simp [m2, set_self]
  obtain ⟨m4, used, r4, c4, -, -⟩ := runs_common hb (u := ⟨m3, _, []⟩) c3 i3 k3 (by
    intro g hgm
    refine c3.conf.fresh hb ((show ∀ g ∈ uioGuards, Reserved g by decide) g hgm) ?_
      ((show ∀ g ∈ uioGuards, g ∉ unrelated by decide) g hgm) ?_
    · simp only [Settings.given, List.map_cons, List.map_nil]
      exact (show ∀ g ∈ uioGuards, g ∉ _ by decide) g hgm
    · exact (show ∀ g ∈ uioGuards, g ∉ _ by decide) g hgm)
  have rc := runs_include (n := "cmp/io/impl/common/common_uio.hpp") (ds := commonUio)
    (u := ⟨m1, f1, []⟩) rfl (runs_guarded g1 (r2.cons (r3.cons r4)))
  have r5 : ∀ fs, Runs 4 [.choose [(equalsTrue "CMP_CONFIG_HEADER_ONLY", standardStreams true)] []]
      ⟨m4, fs, [] ++ commonObjects c (chosen p)⟩
      ⟨m4, fs, commonObjects c (chosen p) ++ ifHeaderOnly c (streamObjects true)⟩ := by
    intro fs
    refine runs_if_headerOnly hb (u := ⟨m4, fs, _⟩) c4.conf (fun hy => ?_) (fun hn => ?_)
    · rw [ifHeaderOnly_yes hy]
      exact runs_standardStreams true ⟨m4, fs, commonObjects c (chosen p)⟩
    · rw [ifHeaderOnly_no hn, List.append_nil, List.nil_append]
  refine ⟨m4, used, ?_, c4⟩
  have := (runs_include (n := "cmp/io/uio.hpp") (ds := uio) (u := ⟨p, [], []⟩) rfl
    (runs_guarded (u := ⟨p, ["cmp/io/uio.hpp"], []⟩) hg (r1.cons (rc.cons (r5 _))))).more (l := 200)
      (by omega)
  simpa only [f1, uioUnit, List.append_assoc, List.cons_append, List.nil_append] using this

/-- When the io package is excluded, a translation unit that includes one of its headers is in error. -/
theorem error_of_io {p c} (hb : Before p c) (ha : ¬ IoAllowed c) {n g : String} {ds : List Directive}
    (hn : contents n = guarded g (.include "cmp/io/inclusion_assert.hpp" :: ds))
    (hr : Reserved g) (hg : g ∉ c.given.map Prod.fst) (hs : g ∉ configNames) (hi : g ≠ ioGuard) :
    translate p [.include n] = .error := by
  have hu : g ∉ unrelated := fun h => hs (by
    simp only [configNames, List.mem_append]; exact .inl (.inr h))
  have h0 : p g = none := (Pre.start p).fresh hb hr hg hu (by simp)
  have hp := (Pre.start p).set hr hs none
  have := preprocess_ioAssert hb ha (u := ⟨p.set g none, [n], []⟩) hp
    (by simpa using Ne.symm hi) 947 ds
  have h1 : (p g).isNone = true := by rw [h0]; rfl
  rw [← this]
  simp only [translate, preprocess, hn, guarded, List.cons_append, List.nil_append, List.append_nil,
    Directive.branch, PpCond.holds, h1]

/-- The files of the sources that `io/definitions.cpp` includes. -/
def ioSources (s : Option System) : List String :=
  ["cmp/io/impl/common/common_uio.cpp"] ++
  part s
    ["cmp/io/impl/windows/windows_file.cpp", "cmp/io/impl/windows/windows_uin.cpp",
      "cmp/io/impl/windows/windows_uout.cpp"]
    ["cmp/io/impl/unix_like/unix_like_file.cpp", "cmp/io/impl/unix_like/unix_like_uin.cpp",
      "cmp/io/impl/unix_like/unix_like_uout.cpp"] ++
  ["cmp/io/exceptions.cpp", "cmp/io/file.cpp", "cmp/io/general.cpp", "cmp/io/input_resource.cpp",
    "cmp/io/io_buffer.cpp", "cmp/io/io_resource.cpp", "cmp/io/output_resource.cpp",
    "cmp/io/transfer_resource.cpp", "cmp/io/uio.cpp"]

/-- The settings and the platform at the beginning of a translation unit of the library. -/
theorem runs_library {p c} (hb : Before p c) :
    ∃ m, Runs 70 [.include "cmp/core/config.hpp", .include "cmp/core/platform.hpp"] ⟨p, [], []⟩
      ⟨m, ["cmp/core/config.hpp", "cmp/core/platform.hpp", "cmp/core/config.hpp", "cmp/core/compiler.hpp",
        "cmp/core/operating_system.hpp"], []⟩ ∧ Ready p c (platformNames ++ (configNames ++ [])) m := by
  obtain ⟨m1, r1, c1, -⟩ := runs_config hb (u := ⟨p, [], []⟩) (Pre.start p)
  obtain ⟨m2, r2, c2, -⟩ := runs_platform hb (u := ⟨m1, ["cmp/core/config.hpp"], []⟩) c1 (by decide)
  exact ⟨m2, r1.cons r2, c2⟩

theorem branch_gui {s m} (h : Sys s m) (w x g : List Directive) :
    Directive.branch m [(.defined "CMP_OS_WINDOWS", w), (.defined "CMP_OS_MACOS", x),
      (.or (.defined "CMP_OS_LINUX_BASED") (.defined "CMP_OS_FREEBSD"), g)] [] =
      some (match s with
        | none => []
        | some .windows => w
        | some .macos => x
        | some _ => g) := by
  have h1 := h.own .windows
  have h2 := h.own .macos
  have h3 := h.own .linuxBased
  have h4 := h.own .freebsd
  simp only [systemMacro] at h1 h2 h3 h4
  rcases s with _ | s
  · simp [Directive.branch, PpCond.holds, h1, h2, h3, h4]
  · cases s <;> simp [Directive.branch, PpCond.holds, h1, h2, h3, h4]

/-- What there is for each system in the desktop_gui package. -/
def guiPart (s : Option System) (w x g : List String) : List String :=
  match s with
  | none => []
  | some .windows => w
  | some .macos => x
  | some _ => g

theorem runs_leaves {u : TranslationUnit} (ns : List String) (hn : ∀ n ∈ ns, contents n = []) :
    Runs ns.length (ns.map .include) u ⟨u.macros, u.files ++ ns, u.objects⟩ := by
  induction ns generalizing u with
  | nil => simpa using Runs.nil u
  | cons n ns ih =>
    have r1 := runs_leaf (u := u) (hn n (by simp))
    have r2 := ih (u := ⟨u.macros, u.files ++ [n], u.objects⟩) fun k hk => hn k (by simp [hk])
    have := (r1.cons r2).more (l := (n :: ns).length) (by simp; omega)
    simpa only [List.map_cons, List.append_assoc, List.cons_append, List.nil_append] using this

theorem runs_guiChoice {s} {u : TranslationUnit} (h : Sys s u.macros) (w x g : List String)
    (hn : ∀ n ∈ w ++ x ++ g, contents n = []) (hl : w.length ≤ 2 ∧ x.length ≤ 2 ∧ g.length ≤ 2) :
    Runs 3 [guiChoice w x g] u ⟨u.macros, u.files ++ guiPart s w x g, u.objects⟩ := by
  have hb := branch_gui h (w.map .include) (x.map .include) (g.map .include)
  have hw := runs_leaves (u := u) w fun n hm => hn n (by simp [hm])
  have hx := runs_leaves (u := u) x fun n hm => hn n (by simp [hm])
  have hg := runs_leaves (u := u) g fun n hm => hn n (by simp [hm])
  obtain ⟨l1, l2, l3⟩ := hl
  rcases s with _ | s
  · have := (runs_choose hb (Runs.nil u)).more (l := 3) (by omega)
    simpa only [guiChoice, guiPart, List.append_nil] using this
  · cases s
    · exact (runs_choose hb hw).more (by omega)
    · exact (runs_choose hb hx).more (by omega)
    · exact (runs_choose hb hg).more (by omega)
    · exact (runs_choose hb hg).more (by omega)

/-- The sources that `desktop_gui/definitions.cpp` includes. -/
def guiSources (s : Option System) : List String :=
  ["cmp/desktop_gui/impl/common/common_desktop_gui_application.cpp",
    "cmp/desktop_gui/impl/common/common_window.cpp"] ++
  guiPart s
    ["cmp/desktop_gui/impl/windows/windows_desktop_gui_application.cpp",
      "cmp/desktop_gui/impl/windows/windows_window.cpp"]
    ["cmp/desktop_gui/impl/macos/macos_desktop_gui_application.mm",
      "cmp/desktop_gui/impl/macos/macos_window.mm"]
    ["cmp/desktop_gui/impl/gtk/gtk_desktop_gui_application.cpp",
      "cmp/desktop_gui/impl/gtk/gtk_window.cpp"] ++
  ["cmp/desktop_gui/close_event.cpp", "cmp/desktop_gui/event.cpp", "cmp/desktop_gui/general.cpp",
    "cmp/desktop_gui/key_event.cpp"]

/-- Whether the library contains the desktop_gui package. -/
def GuiBuilt (c : Settings) : Prop :=
  headerOnlyNumber c = 0 ∧ number (c.guiExcluded.getD (.name "false")) = 0

instance (c : Settings) : Decidable (GuiBuilt c) := by unfold GuiBuilt; infer_instance

/-- `desktop_gui/definitions.cpp`. -/
theorem runs_guiDefinitions {p c} (hb : Before p c) :
    ∃ m, Runs 100 guiDefinitions ⟨p, [], []⟩ ⟨m, ["cmp/core/config.hpp", "cmp/core/platform.hpp",
      "cmp/core/config.hpp", "cmp/core/compiler.hpp", "cmp/core/operating_system.hpp"] ++
      (if GuiBuilt c then guiSources (chosen p) else []), []⟩ := by
  obtain ⟨m, r, h⟩ := runs_library hb
  refine ⟨m, (r.append (l := 20) ?_).more (by omega)⟩
  let u : TranslationUnit := ⟨m, ["cmp/core/config.hpp", "cmp/core/platform.hpp", "cmp/core/config.hpp",
    "cmp/core/compiler.hpp", "cmp/core/operating_system.hpp"], []⟩
  by_cases hg : GuiBuilt c
  · rw [if_pos hg]
    have a1 := runs_leaves (u := u) ["cmp/desktop_gui/impl/common/common_desktop_gui_application.cpp",
      "cmp/desktop_gui/impl/common/common_window.cpp"] (by decide)
    have a2 := runs_guiChoice (u := ⟨m, u.files ++
      ["cmp/desktop_gui/impl/common/common_desktop_gui_application.cpp",
      "cmp/desktop_gui/impl/common/common_window.cpp"], []⟩) h.sys
      ["cmp/desktop_gui/impl/windows/windows_desktop_gui_application.cpp",
        "cmp/desktop_gui/impl/windows/windows_window.cpp"]
      ["cmp/desktop_gui/impl/macos/macos_desktop_gui_application.mm",
        "cmp/desktop_gui/impl/macos/macos_window.mm"]
      ["cmp/desktop_gui/impl/gtk/gtk_desktop_gui_application.cpp",
        "cmp/desktop_gui/impl/gtk/gtk_window.cpp"] (by decide) (by decide)
    have a3 := runs_leaves (u := ⟨m, u.files ++
      ["cmp/desktop_gui/impl/common/common_desktop_gui_application.cpp",
      "cmp/desktop_gui/impl/common/common_window.cpp"] ++ guiPart (chosen p)
      ["cmp/desktop_gui/impl/windows/windows_desktop_gui_application.cpp",
        "cmp/desktop_gui/impl/windows/windows_window.cpp"]
      ["cmp/desktop_gui/impl/macos/macos_desktop_gui_application.mm",
        "cmp/desktop_gui/impl/macos/macos_window.mm"]
      ["cmp/desktop_gui/impl/gtk/gtk_desktop_gui_application.cpp",
        "cmp/desktop_gui/impl/gtk/gtk_window.cpp"], []⟩)
      ["cmp/desktop_gui/close_event.cpp", "cmp/desktop_gui/event.cpp", "cmp/desktop_gui/general.cpp",
        "cmp/desktop_gui/key_event.cpp"] (by decide)
    have := (runs_choose (u := u) (bs := [(.and (equalsFalse "CMP_CONFIG_HEADER_ONLY")
      (equalsFalse "CMP_CONFIG_DESKTOP_GUI_PACKAGE_EXCLUDED"), _)]) (o := [])
      (by
        simp only [Directive.branch, PpCond.holds, u, h.conf.holds_false hb, h.conf.holds_gui hb, hg.1, hg.2]
        rfl) (a1.append (a2.cons a3))).more (l := 20) (by simp)
    simpa only [u, guiSources, List.append_assoc, List.map_cons, List.map_nil, List.cons_append,
      List.nil_append] using this
  · rw [if_neg hg, List.append_nil]
    refine (runs_choose (u := u) (ds := []) ?_ (Runs.nil u)).more (by omega)
    have : (decide (headerOnlyNumber c = 0) &&
        decide (number (c.guiExcluded.getD (.name "false")) = 0)) = false := by
      by_cases h1 : headerOnlyNumber c = 0
      · have h2 : ¬ number (c.guiExcluded.getD (.name "false")) = 0 := fun h2 => hg ⟨h1, h2⟩
        simp [h2]
      · simp [h1]
    simp only [Directive.branch, PpCond.holds, u, h.conf.holds_false hb, h.conf.holds_gui hb, this]

/-- Whether the library contains the io package. -/
def IoBuilt (c : Settings) : Prop :=
  headerOnlyNumber c = 0 ∧ number (c.ioExcluded.getD (.name "false")) = 0

instance (c : Settings) : Decidable (IoBuilt c) := by unfold IoBuilt; infer_instance

/-- `windows_file.cpp` or `unix_like_file.cpp` in the library. -/
theorem runs_fileSource {p c used header guard own} (hb : Before p c) (h0 : headerOnlyNumber c = 0)
    (hh : contents header = systemFile guard own) (ho : contents own = [.include header])
    {u : TranslationUnit} (h : Ready p c used u.macros) (hi : u.macros ioGuard ≠ none)
    (hg : Guard guard u.macros) (fg : Guard "CMP_IO_FILE_HPP_INCLUDED" u.macros)
    (hne : guard ≠ "CMP_IO_FILE_HPP_INCLUDED")
    (hpart : part (chosen p) [.include "cmp/io/impl/windows/windows_file.hpp"]
      [.include "cmp/io/impl/unix_like/unix_like_file.hpp"] = [Directive.include header]) :
    Runs 24 [.include own] u
      ⟨(u.macros.set guard none).set "CMP_IO_FILE_HPP_INCLUDED" none, u.files ++ [own, header,
        "cmp/io/inclusion_assert.hpp", "cmp/io/file.hpp", "cmp/io/inclusion_assert.hpp",
        "cmp/core/platform.hpp", header], u.objects⟩ := by
  have hno : ¬ HeaderOnly c := fun hy => absurd (h0.symm.trans hy) (by decide)
  have h1 := h.set hg.reserved hg.unsettled hg.elsewhere
  have h2 := h1.set fg.reserved fg.unsettled fg.elsewhere
  have ne1 : ioGuard ≠ guard := fun e => hi (e ▸ hg.fresh)
  let m := u.macros.set guard none
  let M := m.set "CMP_IO_FILE_HPP_INCLUDED" none
  have i1 : m ioGuard ≠ none := by
    change u.macros.set guard none ioGuard ≠ none
    rw [set_other _ _ ne1]; exact hi
  have i2 : M ioGuard ≠ none := by
    change m.set "CMP_IO_FILE_HPP_INCLUDED" none ioGuard ≠ none
    rw [set_other _ _ (by decide)]; exact i1
  have f1 : m "CMP_IO_FILE_HPP_INCLUDED" = none := by
    change u.macros.set guard none "CMP_IO_FILE_HPP_INCLUDED" = none
    rw [set_other _ _ (Ne.symm hne)]; exact fg.fresh
  have g2 : M guard ≠ none := by
    change m.set "CMP_IO_FILE_HPP_INCLUDED" none guard ≠ none
    rw [set_other _ _ hne]; simp [m, set_self]
  let F := u.files ++ [own] ++ [header]
  have a1 := runs_ioAssert_again (u := ⟨m, F, u.objects⟩) i1
  let F2 := F ++ ["cmp/io/inclusion_assert.hpp"] ++ ["cmp/io/file.hpp"]
  have b1 := runs_ioAssert_again (u := ⟨M, F2, u.objects⟩) i2
  have b2 := runs_platform_again (u := ⟨M, F2 ++ ["cmp/io/inclusion_assert.hpp"], u.objects⟩) h2
  let F3 := F2 ++ ["cmp/io/inclusion_assert.hpp"] ++ ["cmp/core/platform.hpp"]
  have b3 : Runs 1 [source "cmp/io/file.cpp"] ⟨M, F3, u.objects⟩ ⟨M, F3, u.objects⟩ :=
    runs_if_headerOnly (k := 0) hb (u := ⟨M, F3, u.objects⟩) h2.conf (fun hy => absurd hy hno) fun _ => rfl
  have hbr := branch_io (m := M) h2.sys [.include "cmp/io/impl/windows/windows_file.hpp"]
    [.include "cmp/io/impl/unix_like/unix_like_file.hpp"]
  rw [hpart] at hbr
  have b4 := runs_choose (u := ⟨M, F3, u.objects⟩) hbr
    (runs_again (u := ⟨M, F3, u.objects⟩) (n := header) (g := guard) (by rw [hh]; rfl) g2)
  have a2 := runs_include (n := "cmp/io/file.hpp") (ds := file)
    (u := ⟨m, F ++ ["cmp/io/inclusion_assert.hpp"], u.objects⟩) rfl
    (runs_guarded f1 (b1.cons (b2.cons (b3.cons b4))))
  have a3 : Runs 1 [source own] ⟨M, F3 ++ [header], u.objects⟩ ⟨M, F3 ++ [header], u.objects⟩ :=
    runs_if_headerOnly (k := 0) hb (u := ⟨M, F3 ++ [header], u.objects⟩) h2.conf
      (fun hy => absurd hy hno) fun _ => rfl
  have := (runs_include ho (runs_include (u := ⟨u.macros, u.files ++ [own], u.objects⟩) hh
    (runs_guarded (u := ⟨u.macros, F, u.objects⟩) hg.fresh (a1.cons (a2.cons a3))))).more
      (l := 24) (by omega)
  simpa only [m, M, F, F2, F3, List.append_assoc, List.cons_append, List.nil_append] using this

/-- `windows_uin.cpp` or `unix_like_uin.cpp` in the library. -/
theorem runs_uinSource {p c used header guard own} {ds : List Directive} (hb : Before p c)
    (h0 : headerOnlyNumber c = 0)
    (hh : contents header = guarded guard ds) (ho : contents own = systemUinSource header)
    {u : TranslationUnit} (h : Ready p c used u.macros) (hg : u.macros guard ≠ none) :
    Runs 6 [.include own] u ⟨u.macros, u.files ++ [own, header], u.objects ++ inObjects c false⟩ := by
  have a1 := runs_again (u := ⟨u.macros, u.files ++ [own], u.objects⟩) hh hg
  have a2 : Runs 2 [.choose [(equalsFalse "CMP_CONFIG_HEADER_ONLY", inputResource false)] []]
      ⟨u.macros, u.files ++ [own] ++ [header], u.objects⟩
      ⟨u.macros, u.files ++ [own] ++ [header], u.objects ++ inObjects c false⟩ :=
    runs_if_compiled hb (u := ⟨u.macros, _, _⟩) h.conf
      (fun _ => runs_inputResource hb false (u := ⟨u.macros, _, _⟩) h.conf) (fun hn => absurd h0 hn)
  have := (runs_include ho (a1.cons a2)).more (l := 6) (by omega)
  simpa only [List.append_assoc, List.cons_append, List.nil_append] using this

/-- `windows_uout.cpp` or `unix_like_uout.cpp` in the library. -/
theorem runs_uoutSource {p c used header guard own} {ds : List Directive} (hb : Before p c)
    (h0 : headerOnlyNumber c = 0)
    (hh : contents header = guarded guard ds) (ho : contents own = systemUoutSource header)
    {u : TranslationUnit} (h : Ready p c used u.macros) (hg : u.macros guard ≠ none) :
    Runs 6 [.include own] u ⟨u.macros, u.files ++ [own, header], u.objects ++ outObjects c false⟩ := by
  have a1 := runs_again (u := ⟨u.macros, u.files ++ [own], u.objects⟩) hh hg
  have a2 : Runs 3 [.choose [(equalsFalse "CMP_CONFIG_HEADER_ONLY", outputResources false)] []]
      ⟨u.macros, u.files ++ [own] ++ [header], u.objects⟩
      ⟨u.macros, u.files ++ [own] ++ [header], u.objects ++ outObjects c false⟩ :=
    runs_if_compiled hb (u := ⟨u.macros, _, _⟩) h.conf
      (fun _ => runs_outputResources hb false (u := ⟨u.macros, _, _⟩) h.conf) (fun hn => absurd h0 hn)
  have := (runs_include ho (a1.cons a2)).more (l := 6) (by omega)
  simpa only [List.append_assoc, List.cons_append, List.nil_append] using this

end Cmp.Headers
