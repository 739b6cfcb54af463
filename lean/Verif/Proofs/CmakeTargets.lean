/-
Lemmas about the targets of the project.
-/
import Verif.Proofs.CmakeMacros
import Verif.Props.Preprocessor

namespace Cmp.Cmake

open Cmp.Spec

/-- The names of the programs that link with the library. -/
def linkedNames (v : Variables) : List String :=
  automatedTests.map (fun t => "test_" ++ t.2) ++ ["test_platform", "test_uio"] ++
    if (v "CMP_DEV").isSome then ["desktop_gui_example", "unicode_stdio_example"] else []

/-- The names of the programs that use the headers only. -/
def headerNames : List String :=
  automatedTests.map (fun t => "ho_test_" ++ t.2) ++ ["ho_test_platform", "ho_test_uio"]

theorem mem_allTargets {e : Machine} {v : Variables} {sys : String} {t : Target}
    (h : t ∈ allTargets e v sys) : t = libraryOf e v sys ∨
      (∃ n f, n ∈ linkedNames v ∧ t = programOf (initially v || linkTimeOn e v) n f) ∨
      (headerTestsOn v = true ∧ ∃ n f, n ∈ headerNames ∧
        t = headerProgramOf (isMsvc v) (initially v || linkTimeOn e v) n f) := by
  unfold allTargets allTests at h
  simp only [List.mem_append] at h
  rcases h with (h | (h | h) | (h | h)) | h
  · exact .inl (List.mem_singleton.1 h)
  · obtain ⟨a, ha, rfl⟩ := List.mem_map.1 h
    exact .inr (.inl ⟨_, _, by
      unfold linkedNames
      exact List.mem_append_left _ (List.mem_append_left _ (List.mem_map.2 ⟨a, ha, rfl⟩)), rfl⟩)
  · cases hh : headerTestsOn v with
    | false => rw [hh] at h; exact absurd h List.not_mem_nil
    | true =>
      rw [hh] at h
      obtain ⟨a, ha, rfl⟩ := List.mem_map.1 h
      exact .inr (.inr ⟨rfl, _, _, List.mem_append_left _ (List.mem_map.2 ⟨a, ha, rfl⟩), rfl⟩)
  · refine .inr (.inl ?_)
    simp only [manualPrograms, List.mem_cons, List.not_mem_nil, or_false] at h
    rcases h with rfl | rfl
    · exact ⟨_, _, by unfold linkedNames; simp, rfl⟩
    · exact ⟨_, _, by unfold linkedNames; simp, rfl⟩
  · cases hh : headerTestsOn v with
    | false => rw [hh] at h; exact absurd h List.not_mem_nil
    | true =>
      rw [hh] at h
      refine .inr (.inr ⟨rfl, ?_⟩)
      simp only [headerManualPrograms, if_true, List.mem_cons, List.not_mem_nil, or_false] at h
      rcases h with rfl | rfl
      · exact ⟨_, _, by unfold headerNames; simp, rfl⟩
      · exact ⟨_, _, by unfold headerNames; simp, rfl⟩
  · cases hd : v "CMP_DEV" with
    | none => rw [hd] at h; exact absurd h List.not_mem_nil
    | some x =>
      rw [hd] at h
      refine .inr (.inl ?_)
      simp only [examplePrograms, Option.isSome_some, if_true, List.mem_cons, List.not_mem_nil,
        or_false] at h
      rcases h with rfl | rfl
      · exact ⟨_, _, by unfold linkedNames; simp [hd], rfl⟩
      · exact ⟨_, _, by unfold linkedNames; simp [hd], rfl⟩

theorem names_linked (v : Variables) : ∀ n ∈ linkedNames v, n ∈ linkedNames fun _ => some "" := by
  intro n hn
  unfold linkedNames at *
  rcases List.mem_append.1 hn with h | h
  · exact List.mem_append_left _ h
  · refine List.mem_append_right _ ?_
    split at h
    · exact h
    · exact absurd h List.not_mem_nil

theorem filter_library (e : Machine) (v : Variables) (sys : String) :
    (allTargets e v sys).filter (·.name = "cmp") = [libraryOf e v sys] := by
  have no : ∀ t ∈ allTests e v ++ (if (v "CMP_DEV").isSome then
      examplePrograms (initially v || linkTimeOn e v) else []), ¬ t.name = "cmp" := by
    have n1 : ∀ n ∈ automatedNames ++ ["test_platform", "test_uio", "ho_test_platform", "ho_test_uio"],
        n ≠ "cmp" := by decide +kernel
    intro t ht
    rcases List.mem_append.1 ht with ht | ht
    · exact n1 _ (name_of_test ht)
    · split at ht
      · simp only [examplePrograms, List.mem_cons, List.not_mem_nil, or_false] at ht
        rcases ht with rfl | rfl <;> simp [programOf]
      · exact absurd ht List.not_mem_nil
  have e1 : (allTests e v ++ (if (v "CMP_DEV").isSome then
      examplePrograms (initially v || linkTimeOn e v) else [])).filter (·.name = "cmp") = [] := by
    rw [List.filter_eq_nil_iff]
    intro t ht
    simpa using no t ht
  unfold allTargets
  rw [List.append_assoc, List.filter_append, e1]
  simp [libraryOf]

theorem definitions_program {e : Machine} {v v' : Variables} {sys : String} {ts l n f} :
    (⟨v', allTargets e v sys, ts⟩ : State).definitionsOf (programOf l n f) =
      (libraryOf e v sys).definitions := by
  simp [State.definitionsOf, programOf, filter_library]

theorem definitions_header {e : Machine} {v v' : Variables} {sys : String} {ts m l n f} :
    (⟨v', allTargets e v sys, ts⟩ : State).definitionsOf (headerProgramOf m l n f) =
      [("CMP_CONFIG_HEADER_ONLY", "true")] := by
  simp [State.definitionsOf, headerProgramOf]

theorem options_program {e : Machine} {v v' : Variables} {sys : String} {ts l n f} :
    (⟨v', allTargets e v sys, ts⟩ : State).optionsOf (programOf l n f) = (libraryOf e v sys).options := by
  simp [State.optionsOf, programOf, filter_library]

theorem options_header {e : Machine} {v v' : Variables} {sys : String} {ts m l n f} :
    (⟨v', allTargets e v sys, ts⟩ : State).optionsOf (headerProgramOf m l n f) =
      if m then ["/utf-8"] else [] := by
  simp [State.optionsOf, headerProgramOf]

theorem isMsvc_iff (v : Variables) : isMsvc v = true ↔ v "CMAKE_CXX_COMPILER_ID" = some "MSVC" := by
  unfold isMsvc
  cases v "CMAKE_CXX_COMPILER_ID" <;> simp

theorem utf8_library (e : Machine) (v : Variables) (sys : String) :
    "/utf-8" ∈ (libraryOf e v sys).options ↔ isMsvc v = true := by
  have h : (libraryOf e v sys).options = optionsFor v ++
      if matchesPart "Darwin".toList sys.toList && matchesPart "false".toList
        ((v "CMP_CONFIG_DESKTOP_GUI_PACKAGE_EXCLUDED").getD "false").toList then ["-ObjC++"] else [] := rfl
  have h2 : optionsFor v = (if isMsvc v then ["/utf-8"] else []) ++
      if (v "CMP_DEV").isSome then if isMsvc v then ["/W4"] else ["-Wall", "-Wextra", "-pedantic"]
      else [] := rfl
  rw [h, h2]
  generalize (matchesPart "Darwin".toList sys.toList && matchesPart "false".toList
    ((v "CMP_CONFIG_DESKTOP_GUI_PACKAGE_EXCLUDED").getD "false").toList) = D
  cases D <;> cases isMsvc v <;> cases (v "CMP_DEV").isSome <;> decide

theorem library_kind (e : Machine) (v : Variables) (sys : String) : (libraryOf e v sys).kind =
    if matchesPart "true".toList ((v "CMP_BUILD_STATIC").getD "false").toList then .staticLibrary
    else .sharedLibrary := rfl

theorem library_copies (e : Machine) (v : Variables) (sys : String) : (libraryOf e v sys).copies =
    copiesOf v ((v "CMP_BUILD_STATIC").getD "false") := rfl

theorem library_links (e : Machine) (v : Variables) (sys : String) : (libraryOf e v sys).links =
    linksOf sys ((v "CMP_CONFIG_DESKTOP_GUI_PACKAGE_EXCLUDED").getD "false") := rfl

theorem library_linkTime (e : Machine) (v : Variables) (sys : String) :
    (libraryOf e v sys).linkTime = (initially v || linkTimeOn e v) := rfl

theorem links_toolkits {sys g k : String} (h : k ∈ linksOf sys g) : k ∈ toolkits := by
  unfold linksOf at h
  rcases List.mem_append.1 h with h | h
  · split at h
    · rw [List.mem_singleton.1 h]; decide
    · exact absurd h List.not_mem_nil
  · split at h
    · rw [List.mem_singleton.1 h]; decide
    · exact absurd h List.not_mem_nil

theorem names_toolkits : ∀ j ∈ "cmp" :: linkedNames (fun _ => some "") ++ headerNames, j ∉ toolkits := by
  decide +kernel

theorem wanted_iff {e : Machine} {v : Variables} {sys : String} : lacksGtk e v sys = true ↔
    (Occurs "Linux" sys ∨ Occurs "FreeBSD" sys) ∧
      Occurs "false" ((v "CMP_CONFIG_DESKTOP_GUI_PACKAGE_EXCLUDED").getD "false") ∧ ¬ HasGtk e := by
  unfold lacksGtk wantsGtk HasGtk
  rw [Bool.and_eq_true, Bool.and_eq_true, Bool.or_eq_true, matches_iff, matches_iff, matches_iff, and_assoc]
  simp only [Bool.not_eq_true', Bool.and_eq_false_iff, decide_eq_false_iff_not, not_and_or,
    List.contains_eq_mem]

/-- The headers that can always be included. -/
def freeHeaders : List String := ["cmp/core/general.hpp", "cmp/unicode/algorithms.hpp",
  "cmp/unicode/by_code_point.hpp", "cmp/unicode/examiners.hpp", "cmp/unicode/formatters.hpp",
  "cmp/unicode/parsers.hpp", "cmp/unicode/type_traits.hpp", "cmp/core/platform.hpp"]

theorem usable_free {m : Macros} {c : Settings} (hb : Before m c) :
    ∀ h ∈ freeHeaders, ∃ u, Headers.translate m [.include h] = .done u := by
  intro h hh
  by_cases hp : h = "cmp/core/platform.hpp"
  · subst hp
    obtain ⟨m', fs, r, -⟩ := Headers.runs_platform_first hb (u := ⟨m, [], []⟩) rfl
    exact ⟨_, r.translate (by omega)⟩
  · have leaf : ∀ h ∈ freeHeaders, h ≠ "cmp/core/platform.hpp" → Headers.files.lookup h = none := by
      decide +kernel
    have e : Headers.contents h = [] := by
      unfold Headers.contents
      rw [leaf h hh hp]
      rfl
    exact ⟨_, (Headers.runs_leaf e).translate (by omega)⟩

theorem usable_io {m : Macros} {c : Settings} (hb : Before m c) :
    ∀ h ∈ ["cmp/io/inclusion_assert.hpp", "cmp/io/file.hpp", "cmp/io/uio.hpp"],
      (∃ u, Headers.translate m [.include h] = .done u) ↔ c.UsesIo := by
  intro h hh
  simp only [List.mem_cons, List.not_mem_nil, or_false] at hh
  have err : ∀ {x : String}, Headers.translate m [.include x] = .error →
      ¬ ∃ u, Headers.translate m [.include x] = .done u := by
    rintro x h1 ⟨u, h2⟩
    rw [h1] at h2
    cases h2
  rcases hh with rfl | rfl | rfl
  · constructor
    · intro hu
      by_contra hn
      refine err ?_ hu
      exact Headers.preprocess_ioAssert hb hn (u := ⟨m, [], []⟩) (Headers.Pre.start m) (by simp) 950 []
    · intro hu
      obtain ⟨m', r, -⟩ := Headers.runs_ioAssert hb hu (u := ⟨m, [], []⟩) (Headers.Pre.start m) (by simp)
      exact ⟨_, r.translate (by omega)⟩
  · refine ⟨fun hu => ?_, fun hu => ?_⟩
    · by_contra hn
      exact err ((C135_partial_excluded m c hb).1 hn).1 hu
    · obtain ⟨⟨u, h, -⟩, -⟩ := (C134_exact m c hb).1 hu
      exact ⟨u, h⟩
  · refine ⟨fun hu => ?_, fun hu => ?_⟩
    · by_contra hn
      exact err ((C135_partial_excluded m c hb).1 hn).2 hu
    · obtain ⟨-, ⟨u, h, -⟩⟩ := (C134_exact m c hb).1 hu
      exact ⟨u, h⟩

theorem usable_gui {m : Macros} {c : Settings} (hb : Before m c) :
    ∀ h ∈ ["cmp/desktop_gui/desktop_gui_application.hpp", "cmp/desktop_gui/window.hpp"],
      (∃ u, Headers.translate m [.include h] = .done u) ↔ c.UsesGui := by
  intro h hh
  simp only [List.mem_cons, List.not_mem_nil, or_false] at hh
  have err : ∀ {x : String}, Headers.translate m [.include x] = .error →
      ¬ ∃ u, Headers.translate m [.include x] = .done u := by
    rintro x h1 ⟨u, h2⟩
    rw [h1] at h2
    cases h2
  rcases hh with rfl | rfl
  · refine ⟨fun hu => ?_, fun hu => ?_⟩
    · by_contra hn
      exact err ((C135_partial_excluded m c hb).2.2.1 hn).2.1 hu
    · obtain ⟨-, ⟨u, h, -⟩, -⟩ := (C134_exact m c hb).2 hu
      exact ⟨u, h⟩
  · refine ⟨fun hu => ?_, fun hu => ?_⟩
    · by_contra hn
      exact err ((C135_partial_excluded m c hb).2.2.1 hn).1 hu
    · obtain ⟨⟨u, h, -⟩, -⟩ := (C134_exact m c hb).2 hu
      exact ⟨u, h⟩

/-- The headers of the io package. -/
def ioHeaders : List String := ["cmp/io/inclusion_assert.hpp", "cmp/io/file.hpp", "cmp/io/uio.hpp"]

/-- The headers of the desktop_gui package. -/
def guiHeaders : List String := ["cmp/desktop_gui/desktop_gui_application.hpp", "cmp/desktop_gui/window.hpp"]

theorem headers_of_tests : ∀ n ∈ linkedNames (fun _ => none) ++ headerNames, ∀ h ∈ headersOf n,
    h ∈ freeHeaders ++ ioHeaders := by decide +kernel

theorem headers_of_examples : ∀ n ∈ ["desktop_gui_example", "unicode_stdio_example"],
    ∀ h ∈ headersOf n, h ∈ ioHeaders ++ guiHeaders := by decide +kernel

theorem usable_test {m : Macros} {c : Settings} (hb : Before m c) (hu : c.UsesIo) {n : String}
    (hn : n ∈ linkedNames (fun _ => none) ++ headerNames) : Usable m (headersOf n) := by
  intro h hh
  rcases List.mem_append.1 (headers_of_tests n hn h hh) with h1 | h1
  · exact usable_free hb h h1
  · exact (usable_io hb h h1).2 hu

theorem usable_example {m : Macros} {c : Settings} (hb : Before m c) (hu : c.UsesIo) (hg : c.UsesGui)
    {n : String} (hn : n ∈ ["desktop_gui_example", "unicode_stdio_example"]) : Usable m (headersOf n) := by
  intro h hh
  rcases List.mem_append.1 (headers_of_examples n hn h hh) with h1 | h1
  · exact (usable_io hb h h1).2 hu
  · exact (usable_gui hb h h1).2 hg

theorem mem_file {e : Machine} {v : Variables} {sys : String} : ∃ f,
    programOf (initially v || linkTimeOn e v) "test_file" f ∈ allTargets e v sys := by
  refine ⟨sourceOf ("io", "file"), ?_⟩
  unfold allTargets allTests testPrograms
  simp only [List.mem_append, List.mem_map]
  refine .inl (.inr (.inl (.inl ⟨("io", "file"), by decide, ?_⟩)))
  rfl

theorem mem_desktop {e : Machine} {v : Variables} {sys : String} (hd : (v "CMP_DEV").isSome) : ∃ f,
    programOf (initially v || linkTimeOn e v) "desktop_gui_example" f ∈ allTargets e v sys := by
  refine ⟨"src/main.cpp", List.mem_append_right _ ?_⟩
  rw [if_pos hd]
  exact List.mem_cons_self

theorem library_of_api {e : Machine} {v : Variables} {sys : String} (h : On v sys) {st : State}
    (hst : configure e api v = some st) : st.targets = [libraryOf e v sys] := by
  obtain ⟨v', hc⟩ := configure_api (e := e) h
  rw [hc] at hst
  cases hl : lacksGtk e v sys <;> rw [hl] at hst
  · rw [← Option.some.inj hst]
  · cases hst

theorem api_of_library {e : Machine} {v : Variables} {sys : String} (h : On v sys)
    (hl : lacksGtk e v sys = false) : ∃ st, configure e api v = some st ∧
      st.targets = [libraryOf e v sys] := by
  obtain ⟨v', hc⟩ := configure_api (e := e) h
  rw [hc, hl]
  exact ⟨_, rfl, rfl⟩

theorem all_of_project {e : Machine} {v : Variables} {sys : String} (h : On v sys) {st : State}
    (hst : configure e project v = some st) : st = ⟨v, allTargets e v sys, allTestNames v⟩ := by
  rw [configure_project h] at hst
  cases hl : lacksGtk e v sys <;> rw [hl] at hst
  · rw [← Option.some.inj hst]
  · cases hst

theorem compilesGui_iff {m : Macros} {c : Settings} {s : System} (hb : Before m c) (hs : Targets m s) :
    CompilesGui m s ↔ c.mode = 0 ∧ number (c.guiExcluded.getD (.name "false")) = 0 := by
  obtain ⟨m', r⟩ := Headers.runs_guiDefinitions hb
  have e := r.translate (by omega)
  rw [Headers.chosen_of hs] at e
  have hg : Headers.GuiBuilt c ↔ c.mode = 0 ∧ number (c.guiExcluded.getD (.name "false")) = 0 := Iff.rfl
  rw [← hg]
  constructor
  · rintro ⟨u, h1, h2⟩
    rw [e] at h1
    cases h1
    by_contra hn
    rw [if_neg hn] at h2
    revert h2
    dsimp only
    cases s <;> decide +kernel
  · intro hb
    rw [if_pos hb] at e
    refine ⟨_, e, ?_⟩
    dsimp only
    cases s <;> decide +kernel

theorem compilesIo_of {m : Macros} {c : Settings} {s : System} (hb : Before m c) (hs : Targets m s)
    (h0 : c.mode = 0) : (c.UsesIo → CompilesIo m s) ∧
      (number (c.ioExcluded.getD (.name "false")) ≠ 0 → ¬ CompilesIo m s) := by
  constructor
  · intro hu
    obtain ⟨u, h1, h2, -⟩ := (C134_partial_library m c s hb hs h0).1 hu
    exact ⟨u, h1, h2⟩
  · rintro hn ⟨u, h1, h2⟩
    obtain ⟨u', e1, e2, -⟩ := (C135_partial_excluded m c hb).2.1 hn
    rw [h1] at e1
    cases e1
    have : s.io ++ s.ioStem ++ "file.cpp" ∈ sourcesOf u.files := by
      refine List.mem_filter.2 ⟨h2, ?_⟩
      cases s <;> decide +kernel
    rw [e2] at this
    exact absurd this List.not_mem_nil

theorem plain_answer {v : Variables} {n : String} {d a : Bool} (hp : Plainly v n)
    (ha : Answered v n d a) :
    (v n).getD (if d then "true" else "false") = if a then "true" else "false" := by
  have h1 : ∀ a, ("true".map Char.toUpper ∈ answers a) → a = true := by decide +kernel
  have h2 : ∀ a, ("false".map Char.toUpper ∈ answers a) → a = false := by decide +kernel
  unfold Answered at ha
  rcases hp with h | h | h <;> rw [h] at ha ⊢
  · rw [show a = d from ha]; rfl
  · rw [h1 a ha]; rfl
  · rw [h2 a ha]; rfl

theorem system_names (s : System) : (Occurs "Darwin" s.cmakeName ↔ s = .macos) ∧
    (Occurs "Linux" s.cmakeName ∨ Occurs "FreeBSD" s.cmakeName ↔ s = .linuxBased ∨ s = .freebsd) := by
  rw [← matches_iff, ← matches_iff, ← matches_iff]
  cases s <;> decide +kernel

theorem occurs_answer (a : Bool) : (Occurs "true" (if a then "true" else "false") ↔ a = true) ∧
    (Occurs "false" (if a then "true" else "false") ↔ a = false) := by
  rw [← matches_iff, ← matches_iff]
  cases a <;> decide +kernel

end Cmp.Cmake
