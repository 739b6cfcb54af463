/-
C134, C135: the platform and the configuration that the preprocessor chooses.
-/
import Mathlib.Tactic.ByContra
import Verif.Proofs.PreprocessorErrors

namespace Cmp

open Spec Headers

/-! ### Examples of what a compiler defines -/

/-- The macros `marks`, defined as 1, and the settings. -/
def sampleMacros (marks : List String) (c : Settings) : Macros := fun n =>
  match c.given.lookup n with
  | some o => o.map some
  | none => if n ∈ marks then some (some (.int 1)) else none

theorem sampleMacros_before {marks : List String} {c : Settings}
    (h : ∀ n ∈ marks, ¬ Reserved n ∧ n ≠ "true" ∧ n ≠ "false")
    (hc : ∀ p ∈ c.given, ∀ n, p.2 = some (.name n) → n ∉ marks ∧ ¬ Reserved n)
    (ht : ∀ p ∈ c.given, ∀ x, p.2 ≠ some (.text x)) : Before (sampleMacros marks c) c := by
  have look : ∀ p ∈ c.given, c.given.lookup p.1 = some p.2 := by
    intro p hp
    simp only [Settings.given, List.mem_cons, List.not_mem_nil, or_false] at hp
    rcases hp with rfl | rfl | rfl | rfl | rfl | rfl | rfl <;> rfl
  have names : ∀ n, c.given.lookup n ≠ none → ∃ p ∈ c.given, n = p.1 := by
    intro n hn
    by_contra hno
    apply hn
    rw [List.lookup_eq_none_iff]
    intro p hp
    have : n ≠ p.1 := fun e => hno ⟨p, hp, e⟩
    simpa using this
  have res : ∀ p ∈ c.given, Reserved p.1 := by
    intro p hp
    simp only [Settings.given, List.mem_cons, List.not_mem_nil, or_false] at hp
    rcases hp with rfl | rfl | rfl | rfl | rfl | rfl | rfl <;> dsimp only <;> decide
  have other : ∀ n, ¬ Reserved n → c.given.lookup n = none := by
    intro n hn
    by_contra he
    obtain ⟨p, hp, e⟩ := names n he
    exact hn (e ▸ res p hp)
  refine ⟨?_, ?_, ?_, ?_, ?_⟩
  · intro p hp
    simp [sampleMacros, look p hp]
  · intro p hp t e
    cases t with
    | int n => trivial
    | text x => exact absurd e (ht p hp x)
    | name n =>
      obtain ⟨h1, h2⟩ := hc p hp n e
      exact ⟨by simp [sampleMacros, other n h2, h1], h2⟩
  · intro n hn hp hu
    have h1 : c.given.lookup n = none := by
      by_contra he
      obtain ⟨p, hm, e⟩ := names n he
      exact hp p hm e
    have h2 : n ∉ marks := fun hm => (h n hm).1 hn
    simp [sampleMacros, h1, h2]
  · have h1 := other "true" (by decide)
    have h2 : "true" ∉ marks := fun hm => (h _ hm).2.1 rfl
    simp [sampleMacros, h1, h2]
  · have h1 := other "false" (by decide)
    have h2 : "false" ∉ marks := fun hm => (h _ hm).2.2 rfl
    simp [sampleMacros, h1, h2]

/-- GCC on a Linux-based system. -/
def linuxMarks : List String := ["__GNUC__", "__linux__", "linux", "__linux", "__unix__"]

/-- Clang on Windows. -/
def windowsMarks : List String := ["__clang__", "_MSC_VER", "_WIN32", "_WIN64"]

/-- Clang on OpenBSD. -/
def openBsdMarks : List String := ["__clang__", "__GNUC__", "__OpenBSD__", "__unix__"]

/-- GCC on GNU/Hurd, whose kernel is Mach. -/
def hurdMarks : List String := ["__GNUC__", "__gnu_hurd__", "__GNU__", "__MACH__", "__unix__"]

theorem plainSettings (marks : List String) :
    (∀ p ∈ ({} : Settings).given, ∀ n, p.2 = some (.name n) → n ∉ marks ∧ ¬ Reserved n) ∧
      ∀ p ∈ ({} : Settings).given, ∀ x, p.2 ≠ some (.text x) := by
  constructor <;> intro p hp <;>
    simp only [Settings.given, List.mem_cons, List.not_mem_nil, or_false] at hp <;>
    rcases hp with rfl | rfl | rfl | rfl | rfl | rfl | rfl <;> simp

example : Before (sampleMacros linuxMarks {}) {} ∧ Targets (sampleMacros linuxMarks {}) .linuxBased ∧
    ({} : Settings).UsesIo ∧ ({} : Settings).UsesGui :=
  ⟨sampleMacros_before (by decide) (plainSettings linuxMarks).1 (plainSettings linuxMarks).2, by
    constructor
    · exact ⟨"__linux__", by decide, by decide⟩
    · intro t ht n hn
      cases t with
      | linuxBased => exact absurd rfl ht
      | windows => exact (show ∀ n ∈ System.windows.marks, sampleMacros linuxMarks {} n = none by decide) n hn
      | macos => exact (show ∀ n ∈ System.macos.marks, sampleMacros linuxMarks {} n = none by decide) n hn
      | freebsd => exact (show ∀ n ∈ System.freebsd.marks, sampleMacros linuxMarks {} n = none by decide) n hn,
    .inr rfl, .inr rfl, .inr rfl⟩

/-! ### C134 -/

/-- The files of the io package are those for `s`, the headers `names` among them; with `none`, there are
none of any system. -/
def IoFiles (s : Option System) (names files : List String) : Prop :=
  match s with
  | none => NoneOf ioDirectories files
  | some s => (∀ n ∈ names, s.io ++ s.ioStem ++ n ∈ files) ∧ Only ioDirectories s.io files

instance (s n f) : Decidable (IoFiles s n f) := by unfold IoFiles; split <;> infer_instance

/-- The same for the desktop_gui package. -/
def GuiFiles (s : Option System) (name : String) (files : List String) : Prop :=
  match s with
  | none => NoneOf guiDirectories files
  | some s => s.gui ++ s.guiStem ++ name ∈ files ∧ Only guiDirectories s.gui files

instance (s n f) : Decidable (GuiFiles s n f) := by unfold GuiFiles; split <;> infer_instance

/-- What the program can ask about the platform. -/
def Named (m : Macros) (s : Option System) (u : TranslationUnit) : Prop :=
  u.macros "CMP_OS_NAME" = s.map (fun s => some (.text s.title)) ∧
  u.macros "CMP_COMPILER_NAME" = some (some (.text (compilerTitle m)))

theorem chosen_eq (m : Macros) : chosen m = firstMarked m := by
  have e : ∀ s : System, (s.marks.any fun n => (m n).isSome) = decide (∃ n ∈ s.marks, m n ≠ none) := by
    intro s
    rw [Bool.eq_iff_iff, List.any_eq_true, decide_eq_true_iff]
    simp [Option.isSome_iff_ne_none]
  simp only [chosen, List.find?, e, firstMarked]
  repeat' split
  all_goals simp_all

theorem file_unit {m c} (hb : Before m c) (hu : c.UsesIo) :
    ∃ u, translate m [.include "cmp/io/file.hpp"] = .done u ∧
      IoFiles (firstMarked m) ["file.hpp"] u.files ∧ Named m (firstMarked m) u := by
  obtain ⟨m', used, r, h⟩ := runs_file hb hu
  rw [← chosen_eq]
  refine ⟨_, r.translate (by omega), ?_, h.sys.name, h.compilerName⟩
  by_cases ho : HeaderOnly c
  all_goals
    simp only [fileUnit, ifHeaderOnly, ho, if_true, if_false]
    rcases chosen m with _ | _ | _ | _ | _ <;> decide +kernel

theorem uio_unit {m c} (hb : Before m c) (hu : c.UsesIo) :
    ∃ u, translate m [.include "cmp/io/uio.hpp"] = .done u ∧
      IoFiles (firstMarked m) ["uin.hpp", "uout.hpp"] u.files ∧ Named m (firstMarked m) u ∧
      u.objects = commonObjects c (chosen m) ++ ifHeaderOnly c (streamObjects true) := by
  obtain ⟨m', used, r, h⟩ := runs_uio hb hu
  rw [← chosen_eq]
  refine ⟨_, r.translate (by omega), ?_, ⟨h.sys.name, h.compilerName⟩, rfl⟩
  by_cases ho : HeaderOnly c
  all_goals
    simp only [uioUnit, commonFiles, uinFiles, ifHeaderOnly, ho, if_true, if_false]
    rcases chosen m with _ | _ | _ | _ | _ <;> decide +kernel

theorem C134_exact (m : Macros) (c : Settings) (hb : Before m c) :
    (c.UsesIo →
      (∃ u, translate m [.include "cmp/io/file.hpp"] = .done u ∧
        IoFiles (firstMarked m) ["file.hpp"] u.files ∧ Named m (firstMarked m) u) ∧
      ∃ u, translate m [.include "cmp/io/uio.hpp"] = .done u ∧
        IoFiles (firstMarked m) ["uin.hpp", "uout.hpp"] u.files ∧ Named m (firstMarked m) u) ∧
    (c.UsesGui →
      (∃ u, translate m [.include "cmp/desktop_gui/window.hpp"] = .done u ∧
        GuiFiles (firstMarked m) "window.hpp" u.files ∧ Named m (firstMarked m) u) ∧
      (∃ u, translate m [.include "cmp/desktop_gui/desktop_gui_application.hpp"] = .done u ∧
        GuiFiles (firstMarked m) "desktop_gui_application.hpp" u.files ∧ Named m (firstMarked m) u) ∧
      ∃ u, translate m [.include "cmp/desktop_gui/window_native_handle.hpp"] = .done u ∧
        GuiFiles (firstMarked m) "window_native_handle.hpp" u.files ∧ Named m (firstMarked m) u) := by
  refine ⟨fun hu => ⟨file_unit hb hu, (uio_unit hb hu).imp fun u h => ⟨h.1, h.2.1, h.2.2.1⟩⟩, fun hu => ⟨?_, ?_, ?_⟩⟩
  · rw [← chosen_eq]
    obtain ⟨m', used, r, h⟩ := runs_gui_common hb hu (n := "cmp/desktop_gui/window.hpp")
      (n' := "cmp/desktop_gui/impl/common/common_window.hpp") (g := "CMP_DESKTOP_GUI_WINDOW_HPP_INCLUDED")
      (g' := "CMP_DESKTOP_GUI_COMMON_WINDOW_HPP_INCLUDED") rfl rfl
      ⟨by decide, by simp [Settings.given], by decide, by decide, by decide⟩
      ⟨by decide, by simp [Settings.given], by decide, by decide, by decide⟩ (by decide) (by decide) (by decide)
    refine ⟨_, r.translate (by omega), ?_, h.sys.name, h.compilerName⟩
    rcases chosen m with _ | _ | _ | _ | _ <;> dsimp only <;> decide +kernel
  · rw [← chosen_eq]
    obtain ⟨m', used, r, h⟩ := runs_gui_common hb hu (n := "cmp/desktop_gui/desktop_gui_application.hpp")
      (n' := "cmp/desktop_gui/impl/common/common_desktop_gui_application.hpp")
      (g := "CMP_DESKTOP_GUI_DESKTOP_GUI_APPLICATION_HPP_INCLUDED")
      (g' := "CMP_DESKTOP_GUI_COMMON_DESKTOP_GUI_APPLICATION_HPP_INCLUDED") rfl rfl
      ⟨by decide, by simp [Settings.given], by decide, by decide, by decide⟩
      ⟨by decide, by simp [Settings.given], by decide, by decide, by decide⟩ (by decide) (by decide) (by decide)
    refine ⟨_, r.translate (by omega), ?_, h.sys.name, h.compilerName⟩
    rcases chosen m with _ | _ | _ | _ | _ <;> dsimp only <;> decide +kernel
  · rw [← chosen_eq]
    obtain ⟨m', used, r, h⟩ := runs_gui_direct hb hu (n := "cmp/desktop_gui/window_native_handle.hpp")
      (g := "CMP_DESKTOP_GUI_WINDOW_NATIVE_HANDLE_HPP_INCLUDED") rfl
      ⟨by decide, by simp [Settings.given], by decide, by decide, by decide⟩ (by decide) (by decide)
    refine ⟨_, r.translate (by omega), ?_, h.sys.name, h.compilerName⟩
    rcases chosen m with _ | _ | _ | _ | _ <;> dsimp only <;> decide +kernel

theorem firstMarked_of {m : Macros} {s : System} (h : Targets m s) : firstMarked m = some s := by
  rw [← chosen_eq, chosen_of h]

theorem C134_partial (m : Macros) (c : Settings) (s : System) (hb : Before m c) (hs : Targets m s) :
    (c.UsesIo →
      (∃ u, translate m [.include "cmp/io/file.hpp"] = .done u ∧
        s.io ++ s.ioStem ++ "file.hpp" ∈ u.files ∧ Only ioDirectories s.io u.files ∧
        u.macros "CMP_OS_NAME" = some (some (.text s.title)) ∧
        u.macros "CMP_COMPILER_NAME" = some (some (.text (compilerTitle m)))) ∧
      ∃ u, translate m [.include "cmp/io/uio.hpp"] = .done u ∧
        s.io ++ s.ioStem ++ "uin.hpp" ∈ u.files ∧ s.io ++ s.ioStem ++ "uout.hpp" ∈ u.files ∧
        Only ioDirectories s.io u.files) ∧
    (c.UsesGui →
      (∃ u, translate m [.include "cmp/desktop_gui/window.hpp"] = .done u ∧
        s.gui ++ s.guiStem ++ "window.hpp" ∈ u.files ∧ Only guiDirectories s.gui u.files) ∧
      (∃ u, translate m [.include "cmp/desktop_gui/desktop_gui_application.hpp"] = .done u ∧
        s.gui ++ s.guiStem ++ "desktop_gui_application.hpp" ∈ u.files ∧
        Only guiDirectories s.gui u.files) ∧
      ∃ u, translate m [.include "cmp/desktop_gui/window_native_handle.hpp"] = .done u ∧
        s.gui ++ s.guiStem ++ "window_native_handle.hpp" ∈ u.files ∧ Only guiDirectories s.gui u.files) := by
  obtain ⟨h1, h2⟩ := C134_exact m c hb
  rw [firstMarked_of hs] at h1 h2
  refine ⟨fun hu => ?_, fun hu => ?_⟩
  · obtain ⟨⟨u, a1, ⟨a2, a3⟩, a4, a5⟩, ⟨v, b1, ⟨b2, b3⟩, -⟩⟩ := h1 hu
    exact ⟨⟨u, a1, a2 _ (by simp), a3, a4, a5⟩, v, b1, b2 _ (by simp), b2 _ (by simp), b3⟩
  · obtain ⟨⟨u, a1, ⟨a2, a3⟩, -⟩, ⟨v, b1, ⟨b2, b3⟩, -⟩, ⟨w, c1, ⟨c2, c3⟩, -⟩⟩ := h2 hu
    exact ⟨⟨u, a1, a2, a3⟩, ⟨v, b1, b2, b3⟩, w, c1, c2, c3⟩

/-- The compiled library has the sources of the same system. -/
theorem C134_partial_library (m : Macros) (c : Settings) (s : System) (hb : Before m c) (hs : Targets m s)
    (hc : c.mode = 0) :
    (c.UsesIo → ∃ u, translate m ioDefinitions = .done u ∧
      s.io ++ s.ioStem ++ "file.cpp" ∈ u.files ∧ s.io ++ s.ioStem ++ "uin.cpp" ∈ u.files ∧
      s.io ++ s.ioStem ++ "uout.cpp" ∈ u.files ∧ Only ioDirectories s.io (sourcesOf u.files)) ∧
    (number (c.guiExcluded.getD (.name "false")) = 0 → ∃ u, translate m guiDefinitions = .done u ∧
      s.gui ++ s.guiStem ++ "desktop_gui_application" ++ s.guiSuffix ∈ u.files ∧
      s.gui ++ s.guiStem ++ "window" ++ s.guiSuffix ∈ u.files ∧ Only guiDirectories s.gui u.files) := by
  have hch := chosen_of hs
  constructor
  · intro hu
    obtain ⟨m', fs, r, hf⟩ := runs_ioDefinitions hb hu hc
    rw [hch] at hf
    have mem : ∀ n ∈ ioSources (some s), n ∈ fs := fun n hn => by
      rw [← hf] at hn; exact (List.mem_filter.1 hn).1
    refine ⟨_, r.translate (by omega), mem _ ?_, mem _ ?_, mem _ ?_, ?_⟩
    · cases s <;> decide +kernel
    · cases s <;> decide +kernel
    · cases s <;> decide +kernel
    · change Only _ _ (sourcesOf fs)
      rw [hf]
      cases s <;> decide +kernel
  · intro hu
    obtain ⟨m', r⟩ := runs_guiDefinitions hb
    rw [if_pos ⟨hc, hu⟩, hch] at r
    refine ⟨_, r.translate (by omega), ?_, ?_, ?_⟩
    all_goals cases s <;> dsimp only <;> decide +kernel

/-- The manual test of the platform: it compiles exactly on a system that is known, and says which. -/
theorem C134_exact_test (m : Macros) (c : Settings) (hb : Before m c) :
    platformTest m = (firstMarked m).map fun s =>
      ["This target was compiled by " ++ compilerTitle m ++ ".",
        "This machine's operating system is " ++ s.title ++ "."] := by
  obtain ⟨m', fs, r, h1, h2⟩ := runs_platform_first hb
    (u := ⟨m, ["cmp/core/test_module.hpp"], []⟩) rfl
  have r0 := (runs_leaf (n := "cmp/core/test_module.hpp") (u := ⟨m, [], []⟩) (by decide)).cons r
  have h3 := h1.name
  rw [chosen_eq] at h3
  have e1 : m'.expand 4 (.name "CMP_COMPILER_NAME") = some (.text (compilerTitle m)) := by
    simp [Macros.expand, h2]
  simp only [platformTest, r0.translate (by omega), e1]
  cases hf : firstMarked m with
  | none =>
    rw [hf] at h3
    have e2 : m'.expand 4 (.name "CMP_OS_NAME") = some (.name "CMP_OS_NAME") := by
      have h3' : m' "CMP_OS_NAME" = none := h3
      simp [Macros.expand, h3']
    simp [e2]
  | some s =>
    rw [hf] at h3
    have e2 : m'.expand 4 (.name "CMP_OS_NAME") = some (.text s.title) := by
      have h3' : m' "CMP_OS_NAME" = some (some (.text s.title)) := h3
      simp [Macros.expand, h3']
    simp [e2]

/-- Violated: a system that is not supported is not refused.  The header of a file is accepted and has no
class in it, and `CMP_OS_NAME` is not a macro. -/
theorem C134_violated : ∃ (m : Macros) (c : Settings), Before m c ∧ c.UsesIo ∧ TargetsNone m ∧
    ∃ u, translate m [.include "cmp/io/file.hpp"] = .done u ∧ NoneOf ioDirectories u.files ∧
      u.macros "CMP_OS_NAME" = none := by
  have hb : Before (sampleMacros openBsdMarks {}) {} :=
    sampleMacros_before (by decide) (plainSettings openBsdMarks).1 (plainSettings openBsdMarks).2
  have ht : TargetsNone (sampleMacros openBsdMarks {}) := by
    intro s
    cases s <;> decide
  obtain ⟨u, h1, h2, h3, -⟩ := file_unit hb (.inr rfl)
  rw [← chosen_eq, chosen_none ht] at h2 h3
  exact ⟨_, _, hb, .inr rfl, ht, u, h1, h2, h3⟩

/-- Violated: of a system that shares its kernel with macOS the library takes the target for macOS. -/
theorem C134_violated_mach : ∃ (m : Macros) (c : Settings), Before m c ∧ c.UsesGui ∧
    m "__gnu_hurd__" ≠ none ∧ m "__APPLE__" = none ∧
    ∃ u, translate m [.include "cmp/desktop_gui/window.hpp"] = .done u ∧
      "cmp/desktop_gui/impl/macos/macos_window.hpp" ∈ u.files ∧
      u.macros "CMP_OS_NAME" = some (some (.text "macOS")) := by
  have hb : Before (sampleMacros hurdMarks {}) {} :=
    sampleMacros_before (by decide) (plainSettings hurdMarks).1 (plainSettings hurdMarks).2
  have hf : firstMarked (sampleMacros hurdMarks {}) = some .macos := by decide +kernel
  obtain ⟨⟨u, h1, h2, h3, -⟩, -⟩ := (C134_exact _ _ hb).2 ⟨.inr rfl, .inr rfl⟩
  rw [hf] at h2 h3
  exact ⟨_, _, hb, ⟨.inr rfl, .inr rfl⟩, by decide, by decide, u, h1, h2.1, h3⟩

/-! ### C135 -/

theorem six_user {c : Settings} {s : System} (h : HeaderOnly c) :
    Six c true (commonObjects c (some s) ++ ifHeaderOnly c (streamObjects true)) := by
  have e : commonObjects c (some s) ++ ifHeaderOnly c (streamObjects true) =
      outObjects c true ++ inObjects c true ++ streamObjects true := by
    simp only [commonObjects, ifHeaderOnly_yes h]
    cases s <;> rfl
  rw [e]
  simp only [outObjects, inObjects, streamObjects, List.cons_append, List.nil_append]
  refine ⟨?_, ?_, ?_, ?_⟩
  · exact ((List.Perm.swap _ _ _).cons _).trans (List.Perm.swap _ _ _)
  all_goals simp only [List.map_cons, List.map_nil]; decide

theorem six_library {c : Settings} {s : System} : Six c false (ioObjects c (some s)) := by
  have e : ioObjects c (some s) = inObjects c false ++ outObjects c false ++ streamObjects false := by
    cases s <;> rfl
  rw [e]
  simp only [outObjects, inObjects, streamObjects, List.cons_append, List.nil_append]
  refine ⟨List.Perm.refl _, ?_, ?_, ?_⟩
  all_goals simp only [List.map_cons, List.map_nil]; decide

/-- The standard streams are defined once: by the translation units of the user, as inline objects, when
the library is header-only, and otherwise by the library.  Their buffers have the capacities that were
asked for. -/
theorem C135_partial (m : Macros) (c : Settings) (s : System) (hb : Before m c) (hs : Targets m s)
    (hu : c.UsesIo) :
    ∃ user library, translate m [.include "cmp/io/uio.hpp"] = .done user ∧
      translate m ioDefinitions = .done library ∧
      (c.mode = 1 → Six c true user.objects ∧ library.objects = [] ∧ sourcesOf library.files = []) ∧
      (c.mode = 0 → user.objects = [] ∧ Six c false library.objects) := by
  have hch := chosen_of hs
  obtain ⟨user, h1, -, -, h2⟩ := uio_unit hb hu
  rw [hch] at h2
  have hio : number (c.ioExcluded.getD (.name "false")) = 0 := by
    rcases hu with e | e <;> rw [e] <;> decide
  have none_of : c.mode ≠ 1 → user.objects = [] := by
    intro h
    have hn : ¬ HeaderOnly c := h
    rw [h2]
    simp only [commonObjects, ifHeaderOnly_no hn]
    cases s <;> rfl
  by_cases h0 : c.mode = 0
  · obtain ⟨m', fs, r, -⟩ := runs_ioDefinitions hb hu h0
    rw [hch] at r
    refine ⟨user, _, h1, r.translate (by omega), fun h => ?_, fun _ => ⟨none_of ?_, six_library⟩⟩
    · rw [h0] at h; exact absurd h (by decide)
    · rw [h0]; decide
  · obtain ⟨m', r⟩ := runs_ioDefinitions_empty hb (c := c) fun h => h0 h.1
    refine ⟨user, _, h1, r.translate (by omega), fun h => ⟨?_, rfl, by dsimp only; decide +kernel⟩,
      fun h => absurd h h0⟩
    rw [h2]
    exact six_user h

/-- Any other number for the setting leaves the streams undefined on both sides. -/
theorem C135_exact (m : Macros) (c : Settings) (s : System) (hb : Before m c) (hs : Targets m s)
    (hu : c.UsesIo) :
    ∃ user library, translate m [.include "cmp/io/uio.hpp"] = .done user ∧
      translate m ioDefinitions = .done library ∧
      (user.objects ≠ [] ↔ c.mode = 1) ∧ (library.objects ≠ [] ↔ c.mode = 0) := by
  have hch := chosen_of hs
  obtain ⟨user, library, h1, h2, h3, h4⟩ := C135_partial m c s hb hs hu
  refine ⟨user, library, h1, h2, ⟨fun h => ?_, fun h e => ?_⟩, ⟨fun h => ?_, fun h e => ?_⟩⟩
  · by_contra hn
    obtain ⟨user', e1, -, -, e2⟩ := uio_unit hb hu
    rw [h1] at e1
    cases e1
    apply h
    rw [e2, hch]
    have hn' : ¬ HeaderOnly c := hn
    simp only [commonObjects, ifHeaderOnly_no hn']
    cases s <;> rfl
  · have := (h3 h).1.1.length_eq
    rw [e] at this
    cases this
  · by_contra hn
    obtain ⟨m', r⟩ := runs_ioDefinitions_empty hb (c := c) fun h => hn h.1
    have e1 := r.translate (by omega)
    rw [h2] at e1
    cases e1
    exact h rfl
  · have := (h4 h).2.1.length_eq
    rw [e] at this
    cases this

/-- A package that is excluded cannot be used, nor is it in the library. -/
theorem C135_partial_excluded (m : Macros) (c : Settings) (hb : Before m c) :
    (¬ c.UsesIo → translate m [.include "cmp/io/file.hpp"] = .error ∧
      translate m [.include "cmp/io/uio.hpp"] = .error) ∧
    (number (c.ioExcluded.getD (.name "false")) ≠ 0 → ∃ u, translate m ioDefinitions = .done u ∧
      sourcesOf u.files = [] ∧ u.objects = []) ∧
    (¬ c.UsesGui → translate m [.include "cmp/desktop_gui/window.hpp"] = .error ∧
      translate m [.include "cmp/desktop_gui/desktop_gui_application.hpp"] = .error ∧
      translate m [.include "cmp/desktop_gui/window_native_handle.hpp"] = .error) ∧
    (number (c.guiExcluded.getD (.name "false")) ≠ 0 → ∃ u, translate m guiDefinitions = .done u ∧
      sourcesOf u.files = []) := by
  refine ⟨fun h => ⟨?_, ?_⟩, fun h => ?_, fun h => ⟨?_, ?_, ?_⟩, fun h => ?_⟩
  · exact error_of_io hb h (n := "cmp/io/file.hpp") (g := "CMP_IO_FILE_HPP_INCLUDED") rfl (by decide)
      (by simp [Settings.given]) (by decide) (by decide)
  · exact error_of_io hb h (n := "cmp/io/uio.hpp") (g := "CMP_IO_UIO_HPP_INCLUDED") rfl (by decide)
      (by simp [Settings.given]) (by decide) (by decide)
  · obtain ⟨m', r⟩ := runs_ioDefinitions_empty hb (c := c) fun h' => h h'.2
    exact ⟨_, r.translate (by omega), by dsimp only; decide +kernel, rfl⟩
  · exact fails_gui hb h (n := "cmp/desktop_gui/window.hpp") (g := "CMP_DESKTOP_GUI_WINDOW_HPP_INCLUDED")
      rfl ⟨by decide, by simp [Settings.given], by decide, by decide, by decide⟩
  · exact fails_gui hb h (n := "cmp/desktop_gui/desktop_gui_application.hpp")
      (g := "CMP_DESKTOP_GUI_DESKTOP_GUI_APPLICATION_HPP_INCLUDED")
      rfl ⟨by decide, by simp [Settings.given], by decide, by decide, by decide⟩
  · exact fails_gui hb h (n := "cmp/desktop_gui/window_native_handle.hpp")
      (g := "CMP_DESKTOP_GUI_WINDOW_NATIVE_HANDLE_HPP_INCLUDED")
      rfl ⟨by decide, by simp [Settings.given], by decide, by decide, by decide⟩
  · obtain ⟨m', r⟩ := runs_guiDefinitions hb
    rw [if_neg fun h' => h h'.2] at r
    exact ⟨_, r.translate (by omega), by dsimp only; decide +kernel⟩

/-- When the setting that excludes the io package reads as 0 in a condition without being a no, the library
itself does not compile. -/
theorem C135_exact_excluded (m : Macros) (c : Settings) (hb : Before m c) (h0 : c.mode = 0)
    (hn : ¬ c.UsesIo) : translate m ioDefinitions = .error ↔
      number (c.ioExcluded.getD (.name "false")) = 0 := by
  refine ⟨fun h => ?_, fun h => (fails_ioDefinitions hb ⟨h0, h⟩ hn).translate (by omega)⟩
  by_contra hne
  obtain ⟨u, e, -⟩ := (C135_partial_excluded m c hb).2.1 hne
  rw [h] at e
  cases e

/-- Violated: with the setting for header-only use at 2 nothing defines the streams. -/
theorem C135_violated : ∃ (m : Macros) (c : Settings), Before m c ∧ c.UsesIo ∧
    Targets m .windows ∧ c.headerOnly = some (.int 2) ∧
    ∃ user library, translate m [.include "cmp/io/uio.hpp"] = .done user ∧
      translate m ioDefinitions = .done library ∧ user.objects = [] ∧ library.objects = [] := by
  let c : Settings := { headerOnly := some (.int 2) }
  have hb : Before (sampleMacros windowsMarks c) c := sampleMacros_before (by decide)
    (by
      intro p hp
      simp only [Settings.given, c, List.mem_cons, List.not_mem_nil, or_false] at hp
      rcases hp with rfl | rfl | rfl | rfl | rfl | rfl | rfl <;> simp)
    (by
      intro p hp
      simp only [Settings.given, c, List.mem_cons, List.not_mem_nil, or_false] at hp
      rcases hp with rfl | rfl | rfl | rfl | rfl | rfl | rfl <;> simp)
  have ht : Targets (sampleMacros windowsMarks c) .windows := by
    refine ⟨⟨"_WIN32", by decide, by decide⟩, fun t ht => ?_⟩
    cases t
    · exact absurd rfl ht
    all_goals decide
  obtain ⟨user, library, h1, h2, h3, h4⟩ := C135_exact _ _ _ hb ht (.inr rfl)
  refine ⟨_, c, hb, .inr rfl, ht, rfl, user, library, h1, h2, ?_, ?_⟩
  · by_contra h; exact absurd (h3.1 h) (by decide)
  · by_contra h; exact absurd (h4.1 h) (by decide)

/-- Violated: `ON` does not exclude the package but breaks the library; and for header-only use it is a
no. -/
theorem C135_violated_on : ∃ (m : Macros) (c : Settings), Before m c ∧ Targets m .linuxBased ∧
    c.ioExcluded = some (.name "ON") ∧ c.headerOnly = some (.name "OFF") ∧
    translate m ioDefinitions = .error := by
  let c : Settings := { headerOnly := some (.name "OFF"), ioExcluded := some (.name "ON") }
  have hb : Before (sampleMacros linuxMarks c) c := sampleMacros_before (by decide)
    (by
      intro p hp n hn
      simp only [Settings.given, c, List.mem_cons, List.not_mem_nil, or_false] at hp
      rcases hp with rfl | rfl | rfl | rfl | rfl | rfl | rfl <;> simp at hn <;> subst hn <;> decide)
    (by
      intro p hp
      simp only [Settings.given, c, List.mem_cons, List.not_mem_nil, or_false] at hp
      rcases hp with rfl | rfl | rfl | rfl | rfl | rfl | rfl <;> simp)
  have ht : Targets (sampleMacros linuxMarks c) .linuxBased := by
    refine ⟨⟨"__linux__", by decide, by decide⟩, fun t ht => ?_⟩
    cases t
    case linuxBased => exact absurd rfl ht
    all_goals decide
  refine ⟨_, c, hb, ht, rfl, rfl, (C135_exact_excluded _ c hb (by decide) ?_).2 (by decide)⟩
  unfold Settings.UsesIo IsNo
  decide

/-- Header-only use with capacities. -/
def exampleSettings : Settings where
  headerOnly := some (.name "true")
  capacity := some (.int 4096)
  stderrCapacity := some (.int 1)

example : Before (sampleMacros linuxMarks exampleSettings) exampleSettings ∧ exampleSettings.mode = 1 ∧
    asked exampleSettings.stdoutCapacity exampleSettings.capacity = .int 4096 ∧
    asked exampleSettings.stderrCapacity exampleSettings.capacity = .int 1 ∧
    asked none none = .int 1024 := by
  refine ⟨sampleMacros_before (by decide) ?_ ?_, by decide, rfl, rfl, rfl⟩
  · intro p hp n hn
    simp only [Settings.given, exampleSettings, List.mem_cons, List.not_mem_nil, or_false] at hp
    rcases hp with rfl | rfl | rfl | rfl | rfl | rfl | rfl <;> simp at hn <;> subst hn <;> decide
  · intro p hp
    simp only [Settings.given, exampleSettings, List.mem_cons, List.not_mem_nil, or_false] at hp
    rcases hp with rfl | rfl | rfl | rfl | rfl | rfl | rfl <;> simp

end Cmp
