/-
C136, C137, C138: what is built when the project is configured.
-/
import Verif.Proofs.CmakeTargets

namespace Cmp

open Spec Cmake

/-! ### Examples of what a user asks for -/

/-- The variables that were given. -/
def givenVariables (l : List (String × String)) : Variables := fun n => l.lookup n

/-- A machine with GTK whose compiler can optimise when it links. -/
def fullMachine : Machine := ⟨true, ["PkgConfig", "gtk4"]⟩

/-- A machine without GTK. -/
def bareMachine : Machine := ⟨true, []⟩

/-- GCC for a Linux-based system. -/
def linuxCompiler : Macros := sampleMacros linuxMarks {}

theorem linuxCompiler_for : CompilerFor .linuxBased linuxCompiler := by
  have hb : Before linuxCompiler {} :=
    sampleMacros_before (by decide) (plainSettings linuxMarks).1 (plainSettings linuxMarks).2
  have marks : ∀ n, linuxCompiler n ≠ none → n ∈ linuxMarks := by
    intro n hn
    by_contra h
    apply hn
    unfold linuxCompiler sampleMacros
    cases hl : ({} : Settings).given.lookup n with
    | none => simp [h]
    | some o =>
      obtain ⟨k, hk⟩ : ∃ k, (k, o) ∈ ({} : Settings).given := by
        obtain ⟨l1, k, hm⟩ := List.lookup_eq_some_iff.1 hl
        exact ⟨n, by rw [hm.1]; simp⟩
      have : ∀ q ∈ ({} : Settings).given, q.2 = none := by decide
      have ho := this _ hk
      dsimp only at ho
      simp [ho]
  refine ⟨⟨⟨"__linux__", by decide, by decide⟩, ?_⟩, ?_, hb.words⟩
  · intro t ht n hn
    cases t with
    | linuxBased => exact absurd rfl ht
    | windows => exact (show ∀ n ∈ System.windows.marks, linuxCompiler n = none by decide) n hn
    | macos => exact (show ∀ n ∈ System.macos.marks, linuxCompiler n = none by decide) n hn
    | freebsd => exact (show ∀ n ∈ System.freebsd.marks, linuxCompiler n = none by decide) n hn
  · intro n hn
    by_contra h
    exact (show ∀ n ∈ linuxMarks, ¬ Reserved n by decide) n (marks n h) hn

/-! ### C136 -/

/-- What becomes of the library, exactly: each question is decided by a part of the text of its answer. -/
theorem C136_exact (e : Machine) (v : Variables) (sys : String) (h : On v sys) :
    (configure e api v = none ↔ (Occurs "Linux" sys ∨ Occurs "FreeBSD" sys) ∧
      Occurs "false" ((v "CMP_CONFIG_DESKTOP_GUI_PACKAGE_EXCLUDED").getD "false") ∧ ¬ HasGtk e) ∧
    ∀ st, configure e api v = some st → ∃ t, st.targets = [t] ∧ t.name = "cmp" ∧
      t.sources = ["src/cmp/core/definitions.cpp", "src/cmp/desktop_gui/definitions.cpp",
        "src/cmp/io/definitions.cpp", "src/cmp/unicode/definitions.cpp"] ∧
      (t.kind = .staticLibrary ↔ Occurs "true" ((v "CMP_BUILD_STATIC").getD "false")) ∧
      (t.kind = .sharedLibrary ↔ ¬ Occurs "true" ((v "CMP_BUILD_STATIC").getD "false")) ∧
      (t.copies ≠ [] ↔ Occurs "false" ((v "CMP_BUILD_STATIC").getD "false")) ∧
      ("PkgConfig::GTK4" ∈ t.links ↔ (Occurs "Linux" sys ∨ Occurs "FreeBSD" sys) ∧
        Occurs "false" ((v "CMP_CONFIG_DESKTOP_GUI_PACKAGE_EXCLUDED").getD "false")) ∧
      ("-framework AppKit" ∈ t.links ↔ Occurs "Darwin" sys ∧
        Occurs "false" ((v "CMP_CONFIG_DESKTOP_GUI_PACKAGE_EXCLUDED").getD "false")) ∧
      (t.linkTime = true ↔ (v "CMAKE_INTERPROCEDURAL_OPTIMIZATION").getD "" ∉ falseValues ∨
        Occurs "true" ((v "CMP_CONFIG_LTO_REQUESTED").getD "true") ∧ e.linkTime = true) := by
  obtain ⟨v', hc⟩ := configure_api (e := e) h
  rw [hc]
  constructor
  · rw [← wanted_iff]
    cases lacksGtk e v sys <;> simp
  · intro st hst
    have hst' : st = ⟨v', [libraryOf e v sys], []⟩ := by
      cases hl : lacksGtk e v sys <;> rw [hl] at hst
      · exact (Option.some.inj hst).symm
      · cases hst
    subst hst'
    refine ⟨libraryOf e v sys, rfl, rfl, rfl, ?_, ?_, ?_, ?_, ?_, ?_⟩
    · rw [← matches_iff]
      rw [library_kind]
      cases matchesPart "true".toList ((v "CMP_BUILD_STATIC").getD "false").toList <;> simp
    · rw [← matches_iff]
      rw [library_kind]
      cases matchesPart "true".toList ((v "CMP_BUILD_STATIC").getD "false").toList <;> simp
    · rw [← matches_iff]
      rw [library_copies, copiesOf]
      cases matchesPart "false".toList ((v "CMP_BUILD_STATIC").getD "false").toList <;> simp
    · rw [← matches_iff, ← matches_iff, ← matches_iff]
      rw [library_links, linksOf]
      cases matchesPart "Linux".toList sys.toList <;> cases matchesPart "FreeBSD".toList sys.toList <;>
        cases matchesPart "Darwin".toList sys.toList <;>
        cases matchesPart "false".toList
          ((v "CMP_CONFIG_DESKTOP_GUI_PACKAGE_EXCLUDED").getD "false").toList <;> simp
    · rw [← matches_iff, ← matches_iff]
      rw [library_links, linksOf]
      cases matchesPart "Linux".toList sys.toList <;> cases matchesPart "FreeBSD".toList sys.toList <;>
        cases matchesPart "Darwin".toList sys.toList <;>
        cases matchesPart "false".toList
          ((v "CMP_CONFIG_DESKTOP_GUI_PACKAGE_EXCLUDED").getD "false").toList <;> simp
    · rw [← matches_iff]
      simp only [library_linkTime, initially, linkTimeOn, Bool.or_eq_true, Bool.and_eq_true,
        Bool.not_eq_true', List.contains_eq_mem, decide_eq_false_iff_not]

/-- The macros that the library is compiled with, exactly: the settings that were given, and no others. -/
theorem C136_exact_settings (e : Machine) (v : Variables) (sys : String) (h : On v sys) (st : State)
    (hst : configure e api v = some st) : ∃ t, st.targets = [t] ∧
      (t.definitions.map Prod.fst).Nodup ∧
      (∀ n ∈ ["CMP_CONFIG_HEADER_ONLY", "CMP_CONFIG_DEFAULT_BUFFER_CAPACITY",
        "CMP_CONFIG_DEFAULT_STDOUT_BUFFER_CAPACITY", "CMP_CONFIG_DEFAULT_STDERR_BUFFER_CAPACITY",
        "CMP_CONFIG_DEFAULT_STDIN_BUFFER_CAPACITY"], t.definitions.lookup n = v n) ∧
      (∀ n ∈ ["CMP_CONFIG_DESKTOP_GUI_PACKAGE_EXCLUDED", "CMP_CONFIG_IO_PACKAGE_EXCLUDED"],
        t.definitions.lookup n = some ((v n).getD "false")) ∧
      t.definitions.lookup "CMP_CONFIG_LTO_REQUESTED" =
        some ((v "CMP_CONFIG_LTO_REQUESTED").getD "true") ∧
      (t.definitions.lookup "CMP_CONFIG_LTO_ENABLED" = some "true" ↔
        Occurs "true" ((v "CMP_CONFIG_LTO_REQUESTED").getD "true") ∧ e.linkTime = true) ∧
      (t.definitions.lookup "CMP_CONFIG_IS_STATIC" = some "true" ↔ t.kind = .staticLibrary) ∧
      (t.definitions.lookup "CMP_CONFIG_IS_DYNAMIC" = some "true" ↔ t.kind = .sharedLibrary) ∧
      ∀ n, n ∉ passedOn → n ∉ ["CMP_CONFIG_LTO_ENABLED", "CMP_CONFIG_IS_STATIC", "CMP_CONFIG_IS_DYNAMIC"] →
        t.definitions.lookup n = none := by
  obtain ⟨v', hc⟩ := configure_api (e := e) h
  rw [hc] at hst
  have hst' : st = ⟨v', [libraryOf e v sys], []⟩ := by
    cases hl : lacksGtk e v sys <;> rw [hl] at hst
    · exact (Option.some.inj hst).symm
    · cases hst
  subst hst'
  obtain ⟨l1, l2, l3, l4, l5, l6, l7, l8, l9, l10, l11⟩ := lookup_settings e v sys
  refine ⟨libraryOf e v sys, rfl, names_nodup e v sys, ?_, ?_, l10, ?_, ?_, ?_, ?_⟩
  · intro n hn
    simp only [List.mem_cons, List.not_mem_nil, or_false] at hn
    rcases hn with rfl | rfl | rfl | rfl | rfl <;> assumption
  · intro n hn
    simp only [List.mem_cons, List.not_mem_nil, or_false] at hn
    rcases hn with rfl | rfl <;> assumption
  · rw [l11, ← matches_iff, linkTimeOn]
    cases matchesPart "true".toList ((v "CMP_CONFIG_LTO_REQUESTED").getD "true").toList <;>
      cases e.linkTime <;> simp
  · rw [l1]
    rw [library_kind]
    cases matchesPart "true".toList ((v "CMP_BUILD_STATIC").getD "false").toList <;> simp
  · rw [l2]
    rw [library_kind]
    cases matchesPart "true".toList ((v "CMP_BUILD_STATIC").getD "false").toList <;> simp
  · intro n h1 h2
    apply lookup_other
    intro hm
    have : ∀ n ∈ macroNames, n ∈ passedOn ∨
        n ∈ ["CMP_CONFIG_LTO_ENABLED", "CMP_CONFIG_IS_STATIC", "CMP_CONFIG_IS_DYNAMIC"] := by
      decide +kernel
    rcases this n hm with h | h
    · exact h1 h
    · exact h2 h

/-- Where a shared library is copied to, exactly: to the directory of every program that may need it, unless
`false` is not part of the answer. -/
theorem C136_exact_copies (e : Machine) (v : Variables) (sys : String) (h : On v sys) (st : State)
    (hst : configure e api v = some st) : ∃ t, st.targets = [t] ∧ ∀ d, d ∈ t.copies ↔
      Occurs "false" ((v "CMP_BUILD_STATIC").getD "false") ∧
        (d ∈ ["tests/automated", "tests/manual", "."] ∨ v "CMP_DEV" ≠ none ∧
          d ∈ ["examples/unicode_stdio_example", "examples/desktop_gui_example", "../[unreleased]/lib",
            "../[unreleased]/app"]) := by
  refine ⟨_, library_of_api h hst, fun d => ?_⟩
  rw [library_copies, copiesOf, ← matches_iff]
  cases matchesPart "false".toList ((v "CMP_BUILD_STATIC").getD "false").toList <;>
    cases v "CMP_DEV" <;> simp [or_assoc]

/-- Which code of the desktop_gui package is compiled, and whether the toolkit that it needs is linked,
exactly: the preprocessor decides the one by the number that the answer stands for, and CMake the other by
whether `false` is part of its text, whatever was answered about header-only use. -/
theorem C136_exact_toolkit (e : Machine) (v : Variables) (s : System) (p : Macros)
    (h : On v s.cmakeName) (hp : CompilerFor s p) (hs : Simple v p) (st : State)
    (hst : configure e api v = some st) : ∃ t m, st.targets = [t] ∧
      commandLine p t.definitions = some m ∧
      (CompilesGui m s ↔ (settings v).mode = 0 ∧
        number ((settings v).guiExcluded.getD (.name "false")) = 0) ∧
      ∀ k ∈ toolkits, k ∈ t.links ↔ s.toolkit = some k ∧
        Occurs "false" ((v "CMP_CONFIG_DESKTOP_GUI_PACKAGE_EXCLUDED").getD "false") := by
  obtain ⟨m, hm, hb, ht⟩ := before_library (e := e) (sys := s.cmakeName) hp hs
  obtain ⟨t, h1, -, -, -, -, -, h2, h3, -⟩ := (C136_exact e v _ h).2 st hst
  have hl := library_of_api h hst
  rw [h1] at hl
  cases hl
  refine ⟨_, m, h1, hm, compilesGui_iff hb ht, ?_⟩
  intro k hk
  obtain ⟨n1, n2⟩ := system_names s
  rw [n2] at h2
  rw [n1] at h3
  simp only [toolkits, List.mem_cons, List.not_mem_nil, or_false] at hk
  rcases hk with rfl | rfl
  · rw [h3]
    cases s <;> simp [System.toolkit]
  · rw [h2]
    cases s <;> simp [System.toolkit]

/-- When every answer is `true` or `false`, or none was given, and the library is not header-only, it is
built as it was asked for, and what is compiled and what it is linked with fit.  Missing: other ways to
answer, and header-only use. -/
theorem C136_partial (e : Machine) (v : Variables) (s : System) (p : Macros)
    (h : On v s.cmakeName) (hp : CompilerFor s p) (hs : Simple v p)
    (plain : ∀ n ∈ ["CMP_BUILD_STATIC", "CMP_CONFIG_DESKTOP_GUI_PACKAGE_EXCLUDED",
      "CMP_CONFIG_IO_PACKAGE_EXCLUDED", "CMP_CONFIG_LTO_REQUESTED"], Plainly v n)
    (hh : v "CMP_CONFIG_HEADER_ONLY" = none ∨ v "CMP_CONFIG_HEADER_ONLY" = some "false")
    (hi : v "CMAKE_INTERPROCEDURAL_OPTIMIZATION" = none) (isStatic noGui noIo linkTime : Bool)
    (a1 : Answered v "CMP_BUILD_STATIC" false isStatic)
    (a2 : Answered v "CMP_CONFIG_DESKTOP_GUI_PACKAGE_EXCLUDED" false noGui)
    (a3 : Answered v "CMP_CONFIG_IO_PACKAGE_EXCLUDED" false noIo)
    (a4 : Answered v "CMP_CONFIG_LTO_REQUESTED" true linkTime) :
    (configure e api v = none ↔ s.toolkit = some "PkgConfig::GTK4" ∧ noGui = false ∧ ¬ HasGtk e) ∧
    ∀ st, configure e api v = some st → ∃ t m, st.targets = [t] ∧
      commandLine p t.definitions = some m ∧
      t.kind = (if isStatic then .staticLibrary else .sharedLibrary) ∧
      (t.copies = [] ↔ isStatic = true) ∧
      (t.linkTime = true ↔ linkTime = true ∧ e.linkTime = true) ∧
      (CompilesIo m s ↔ noIo = false) ∧ (CompilesGui m s ↔ noGui = false) ∧
      ∀ k ∈ toolkits, k ∈ t.links ↔ s.toolkit = some k ∧ CompilesGui m s := by
  have g1 : (v "CMP_BUILD_STATIC").getD "false" = _ := plain_answer (plain _ (by simp)) a1
  have g2 : (v "CMP_CONFIG_DESKTOP_GUI_PACKAGE_EXCLUDED").getD "false" = _ :=
    plain_answer (plain _ (by simp)) a2
  have g3 : (v "CMP_CONFIG_IO_PACKAGE_EXCLUDED").getD "false" = _ := plain_answer (plain _ (by simp)) a3
  have g4 : (v "CMP_CONFIG_LTO_REQUESTED").getD "true" = _ := plain_answer (plain _ (by simp)) a4
  obtain ⟨x1, x2⟩ := C136_exact e v _ h
  rw [g2, (occurs_answer noGui).2, (system_names s).2] at x1
  constructor
  · rw [x1]
    cases s <;> simp [System.toolkit]
  · intro st hst
    obtain ⟨t, h1, -, -, h2, h3, h4, -, -, h5⟩ := x2 st hst
    obtain ⟨t', m, h1', hm, hg, hk⟩ := C136_exact_toolkit e v s p h hp hs st hst
    obtain rfl : t = t' := by
      rw [h1] at h1'
      exact (List.cons.inj h1').1
    obtain ⟨m', hm', hb, ht⟩ := before_library (e := e) (sys := s.cmakeName) hp hs
    have hl := library_of_api h hst
    rw [h1] at hl
    obtain rfl : t = libraryOf e v s.cmakeName := (List.cons.inj hl).1
    rw [hm] at hm'
    obtain rfl : m = m' := Option.some.inj hm'
    rw [g1, (occurs_answer isStatic).1] at h2 h3
    rw [g1, (occurs_answer isStatic).2] at h4
    rw [g4, (occurs_answer linkTime).1, hi] at h5
    have hmode : (settings v).mode = 0 := by
      unfold Settings.mode settings
      rcases hh with e' | e' <;> simp only [e']
      · rfl
      · rw [Option.bind_some, token_false]; rfl
    have tok : ∀ a : Bool, token (if a then "true" else "false") =
        some (.name (if a then "true" else "false")) := by
      intro a
      cases a
      · exact token_false
      · exact token_true
    have hgui : number ((settings v).guiExcluded.getD (.name "false")) = 0 ↔ noGui = false := by
      have : (settings v).guiExcluded = some (.name (if noGui then "true" else "false")) := by
        simp only [settings]
        rw [g2, tok]
      rw [this]
      cases noGui <;> decide
    have hio : (settings v).ioExcluded = some (.name (if noIo then "true" else "false")) := by
      simp only [settings]
      rw [g3, tok]
    have hgui' : CompilesGui m s ↔ noGui = false := by
      rw [hg, hgui]
      simp [hmode]
    refine ⟨_, m, h1, hm, ?_, ?_, ?_, ?_, hgui', ?_⟩
    · cases isStatic
      · exact h3.2 (by simp)
      · exact h2.2 rfl
    · cases isStatic
      · simpa using h4
      · simpa using h4
    · rw [h5]
      simp [falseValues]
    · obtain ⟨i1, i2⟩ := compilesIo_of hb ht hmode
      cases noIo
      · have : CompilesIo m s := i1 (by unfold Settings.UsesIo; rw [hio]; exact .inr rfl)
        simpa using this
      · have : ¬ CompilesIo m s := i2 (by rw [hio]; decide)
        simpa using this
    · intro k hk'
      rw [hk k hk', g2, (occurs_answer noGui).2, hgui']

/-- A static library without the desktop_gui package and with a capacity. -/
def sampleStatic : Variables := givenVariables [("CMAKE_SYSTEM_NAME", "Linux"),
  ("CMP_BUILD_STATIC", "true"), ("CMP_CONFIG_DESKTOP_GUI_PACKAGE_EXCLUDED", "true"),
  ("CMP_CONFIG_DEFAULT_BUFFER_CAPACITY", "4096")]

theorem simple_of {l : List (String × String)} {p : Macros}
    (h : ∀ q ∈ l, q.1 ∈ passedOn → ∃ t, token q.2 = some t ∧ Plain p t) : Simple (givenVariables l) p := by
  intro n hn x hx
  obtain ⟨l1, l2, hm, -⟩ := List.lookup_eq_some_iff.1 hx
  exact h (n, x) (by rw [hm]; simp) hn

example : On sampleStatic System.linuxBased.cmakeName ∧ Simple sampleStatic linuxCompiler ∧
    (∀ n ∈ ["CMP_BUILD_STATIC", "CMP_CONFIG_DESKTOP_GUI_PACKAGE_EXCLUDED",
      "CMP_CONFIG_IO_PACKAGE_EXCLUDED", "CMP_CONFIG_LTO_REQUESTED"], Plainly sampleStatic n) ∧
    sampleStatic "CMP_CONFIG_HEADER_ONLY" = none ∧
    sampleStatic "CMAKE_INTERPROCEDURAL_OPTIMIZATION" = none ∧
    Answered sampleStatic "CMP_BUILD_STATIC" false true ∧
    Answered sampleStatic "CMP_CONFIG_DESKTOP_GUI_PACKAGE_EXCLUDED" false true ∧
    Answered sampleStatic "CMP_CONFIG_IO_PACKAGE_EXCLUDED" false false ∧
    Answered sampleStatic "CMP_CONFIG_LTO_REQUESTED" true true ∧
    ∃ st, configure bareMachine api sampleStatic = some st := by
  have on : On sampleStatic System.linuxBased.cmakeName := ⟨by decide, by decide, by decide⟩
  obtain ⟨st, hst, -⟩ := api_of_library (e := bareMachine) on (by decide +kernel)
  refine ⟨on, simple_of ?_, ?_, rfl, rfl, ?_, ?_, rfl, rfl, st, hst⟩
  · intro q hq
    simp only [List.mem_cons, List.not_mem_nil, or_false] at hq
    rcases hq with rfl | rfl | rfl | rfl <;> dsimp only <;> intro hn
    · exact absurd hn (by decide)
    · exact absurd hn (by decide)
    · exact ⟨.name "true", by decide +kernel, by decide, by decide⟩
    · exact ⟨.int 4096, by decide +kernel, trivial⟩
  · unfold Plainly
    decide
  · decide +kernel
  · decide +kernel

/-- Violated: asked for a static library with `ON`, the build makes a shared one, and copies it to none of
the directories of the programs that need it. -/
theorem C136_violated : ∃ (e : Machine) (v : Variables) (st : State) (t : Target), On v "Linux" ∧
    Answered v "CMP_BUILD_STATIC" false true ∧ configure e api v = some st ∧ st.targets = [t] ∧
    t.kind = .sharedLibrary ∧ t.copies = [] := by
  let v := givenVariables [("CMAKE_SYSTEM_NAME", "Linux"), ("CMP_BUILD_STATIC", "ON")]
  have on : On v "Linux" := ⟨by decide, by decide, by decide⟩
  obtain ⟨st, hst, ht⟩ := api_of_library (e := fullMachine) on (by decide +kernel)
  refine ⟨fullMachine, v, st, _, on, ?_, hst, ht, by decide +kernel, by decide +kernel⟩
  decide +kernel

theorem gui_with (x : String) (hx : x ∈ ["ON", "OFF"]) : ∃ (st : State) (t : Target) (m : Macros),
    let v := givenVariables [("CMAKE_SYSTEM_NAME", "Linux"), ("CMP_CONFIG_DESKTOP_GUI_PACKAGE_EXCLUDED", x)]
    On v System.linuxBased.cmakeName ∧ configure bareMachine api v = some st ∧ st.targets = [t] ∧
    commandLine linuxCompiler t.definitions = some m ∧ CompilesGui m .linuxBased ∧
    ∀ k ∈ toolkits, k ∉ t.links := by
  let v := givenVariables [("CMAKE_SYSTEM_NAME", "Linux"), ("CMP_CONFIG_DESKTOP_GUI_PACKAGE_EXCLUDED", x)]
  have hv : ∀ n, v n = if n = "CMAKE_SYSTEM_NAME" then some "Linux" else
      if n = "CMP_CONFIG_DESKTOP_GUI_PACKAGE_EXCLUDED" then some x else none := by
    intro n
    simp only [v, givenVariables, List.lookup]
    by_cases h1 : n = "CMAKE_SYSTEM_NAME"
    · simp [h1]
    · by_cases h2 : n = "CMP_CONFIG_DESKTOP_GUI_PACKAGE_EXCLUDED"
      · simp [h2]
      · have e1 : (n == "CMAKE_SYSTEM_NAME") = false := by simpa using h1
        have e2 : (n == "CMP_CONFIG_DESKTOP_GUI_PACKAGE_EXCLUDED") = false := by simpa using h2
        simp [e1, e2, h1, h2]
  have on : On v System.linuxBased.cmakeName := by
    refine ⟨?_, ?_, ?_⟩
    · rw [hv]; rfl
    · rw [hv]; rfl
    · decide
  have simple : Simple v linuxCompiler := by
    refine simple_of ?_
    intro q hq
    simp only [List.mem_cons, List.not_mem_nil, or_false] at hq hx
    rcases hq with rfl | rfl <;> dsimp only <;> intro hn
    · exact absurd hn (by decide)
    · rcases hx with rfl | rfl
      · exact ⟨.name "ON", by decide +kernel, by decide, by decide⟩
      · exact ⟨.name "OFF", by decide +kernel, by decide, by decide⟩
  have lack : lacksGtk bareMachine v System.linuxBased.cmakeName = false := by
    simp only [List.mem_cons, List.not_mem_nil, or_false] at hx
    rcases hx with rfl | rfl <;> decide +kernel
  obtain ⟨st, hst, -⟩ := api_of_library on lack
  obtain ⟨t, m, h1, h2, h3, h4⟩ :=
    C136_exact_toolkit bareMachine v .linuxBased linuxCompiler on linuxCompiler_for simple st hst
  refine ⟨st, t, m, on, hst, h1, h2, h3.2 ?_, ?_⟩
  · simp only [List.mem_cons, List.not_mem_nil, or_false] at hx
    rcases hx with rfl | rfl <;> decide +kernel
  · intro k hk hc
    have := ((h4 k hk).1 hc).2
    rw [← matches_iff] at this
    simp only [List.mem_cons, List.not_mem_nil, or_false] at hx
    rcases hx with rfl | rfl <;> revert this <;> decide +kernel

/-- Violated: when the question whether to exclude the desktop_gui package is answered with `OFF`, its code
is compiled but GTK neither looked for nor linked. -/
theorem C136_violated_off : ∃ (e : Machine) (v : Variables) (st : State) (t : Target) (m : Macros),
    On v System.linuxBased.cmakeName ∧
    Answered v "CMP_CONFIG_DESKTOP_GUI_PACKAGE_EXCLUDED" false false ∧ ¬ HasGtk e ∧
    configure e api v = some st ∧ st.targets = [t] ∧
    commandLine linuxCompiler t.definitions = some m ∧ CompilesGui m .linuxBased ∧
    ∀ k ∈ toolkits, k ∉ t.links := by
  obtain ⟨st, t, m, h1, h2⟩ := gui_with "OFF" (by simp)
  refine ⟨bareMachine, _, st, t, m, h1, ?_, ?_, h2⟩
  · decide +kernel
  · unfold HasGtk
    decide

/-- Violated: when it is answered with `ON`, the package is compiled nevertheless. -/
theorem C136_violated_on : ∃ (e : Machine) (v : Variables) (st : State) (t : Target) (m : Macros),
    On v System.linuxBased.cmakeName ∧
    Answered v "CMP_CONFIG_DESKTOP_GUI_PACKAGE_EXCLUDED" false true ∧
    configure e api v = some st ∧ st.targets = [t] ∧
    commandLine linuxCompiler t.definitions = some m ∧ CompilesGui m .linuxBased := by
  obtain ⟨st, t, m, h1, h2, h3, h4, h5, -⟩ := gui_with "ON" (by simp)
  refine ⟨bareMachine, _, st, t, m, h1, ?_, h2, h3, h4, h5⟩
  decide +kernel

/-- Violated: a header-only library, which has no desktop_gui package, cannot be configured on a machine
without GTK. -/
theorem C136_violated_header_only : ∃ (e : Machine) (v : Variables),
    On v System.linuxBased.cmakeName ∧ v "CMP_CONFIG_HEADER_ONLY" = some "true" ∧
    ¬ (settings v).UsesGui ∧ configure e api v = none ∧
    ∃ m, commandLine linuxCompiler (libraryOf e v System.linuxBased.cmakeName).definitions = some m ∧
      ¬ CompilesGui m .linuxBased := by
  let l := [("CMAKE_SYSTEM_NAME", "Linux"), ("CMP_CONFIG_HEADER_ONLY", "true")]
  let v := givenVariables l
  have on : On v System.linuxBased.cmakeName := ⟨by decide, by decide, by decide⟩
  have simple : Simple v linuxCompiler := by
    refine simple_of (l := l) ?_
    intro q hq
    simp only [l, List.mem_cons, List.not_mem_nil, or_false] at hq
    rcases hq with rfl | rfl <;> dsimp only <;> intro hn
    · exact absurd hn (by decide)
    · exact ⟨.name "true", by decide +kernel, by decide, by decide⟩
  obtain ⟨m, hm, hb, ht⟩ := before_library (e := bareMachine) (sys := System.linuxBased.cmakeName)
    linuxCompiler_for simple
  refine ⟨bareMachine, v, on, by decide, ?_, ?_, m, hm, ?_⟩
  · unfold Settings.UsesGui IsNo
    decide +kernel
  · exact (C136_exact bareMachine v _ on).1.2 (by
      unfold HasGtk
      rw [← matches_iff, ← matches_iff, ← matches_iff]
      decide +kernel)
  · rw [compilesGui_iff hb ht]
    decide +kernel

/-- Violated: a user who answers the question whether they develop the library with `false` gets the
examples and the tests of the headers that only its developers build. -/
theorem C136_violated_dev : ∃ (e : Machine) (v : Variables) (st : State), On v "Linux" ∧
    Answered v "CMP_DEV" false false ∧ configure e project v = some st ∧
    (∃ t ∈ st.targets, t.name = "desktop_gui_example") ∧ ∃ t ∈ st.targets, t.name = "ho_test_file" := by
  let v := givenVariables [("CMAKE_SYSTEM_NAME", "Linux"), ("CMP_DEV", "false")]
  have on : On v "Linux" := ⟨by decide, by decide, by decide⟩
  have lack : lacksGtk fullMachine v "Linux" = false := by decide +kernel
  refine ⟨fullMachine, v, _, on, ?_, by rw [configure_project on, lack]; rfl, ?_⟩
  · decide +kernel
  · dsimp only
    decide +kernel

/-! ### C137 -/

/-- Every program of the project can be compiled exactly when the io package is there and, with `CMP_DEV`,
the desktop_gui package too. -/
theorem C137_exact (e : Machine) (v : Variables) (s : System) (p : Macros)
    (h : On v s.cmakeName) (hp : CompilerFor s p) (hs : Simple v p) (st : State)
    (hst : configure e project v = some st) :
    (∀ t ∈ st.targets, t.kind = .program → Compiles p st t) ↔
      (settings v).UsesIo ∧ (v "CMP_DEV" ≠ none → (settings v).UsesGui) := by
  obtain ⟨m, hm, hb, ht⟩ := before_library (e := e) (sys := s.cmakeName) hp hs
  obtain rfl := all_of_project h hst
  constructor
  · intro hall
    constructor
    · obtain ⟨f, hf⟩ := mem_file (e := e) (v := v) (sys := s.cmakeName)
      obtain ⟨m', hm', hu⟩ := hall _ hf rfl
      rw [definitions_program, hm] at hm'
      obtain rfl : m = m' := Option.some.inj hm'
      exact (usable_io hb "cmp/io/file.hpp" (by decide)).1 (hu _ (by
        show "cmp/io/file.hpp" ∈ headersOf "test_file"
        decide +kernel))
    · intro hd
      obtain ⟨f, hf⟩ := mem_desktop (e := e) (v := v) (sys := s.cmakeName)
        (Option.isSome_iff_ne_none.2 hd)
      obtain ⟨m', hm', hu⟩ := hall _ hf rfl
      rw [definitions_program, hm] at hm'
      obtain rfl : m = m' := Option.some.inj hm'
      exact (usable_gui hb "cmp/desktop_gui/window.hpp" (by decide)).1 (hu _ (by
        show "cmp/desktop_gui/window.hpp" ∈ headersOf "desktop_gui_example"
        decide +kernel))
  · rintro ⟨hio, hgui⟩ t ht' hk
    rcases mem_allTargets ht' with rfl | ⟨n, f, hn, rfl⟩ | ⟨-, n, f, hn, rfl⟩
    · exfalso
      rw [library_kind] at hk
      split at hk <;> cases hk
    · refine ⟨m, by rw [definitions_program, hm], ?_⟩
      show Usable m (headersOf n)
      unfold linkedNames at hn
      rcases List.mem_append.1 hn with hn | hn
      · exact usable_test hb hio (List.mem_append_left _ (List.mem_append_left _ hn))
      · cases hd : v "CMP_DEV" with
        | none => rw [hd] at hn; exact absurd hn List.not_mem_nil
        | some x =>
          rw [hd] at hn
          exact usable_example hb hio (hgui (by rw [hd]; simp)) hn
    · obtain ⟨m', hm', hb', -⟩ := before_header hp
      refine ⟨m', by rw [definitions_header, hm'], ?_⟩
      show Usable m' (headersOf n)
      exact usable_test hb' (.inr rfl) (List.mem_append_right _ hn)

/-- With both packages, or without the desktop_gui package and without `CMP_DEV`, every program can be
compiled, and the programs that use the headers only always can.  Missing: a project without a package that
one of its programs uses. -/
theorem C137_partial (e : Machine) (v : Variables) (s : System) (p : Macros)
    (h : On v s.cmakeName) (hp : CompilerFor s p) (hs : Simple v p) (st : State)
    (hst : configure e project v = some st) :
    ((settings v).UsesIo → (settings v).UsesGui ∨ v "CMP_DEV" = none →
      ∀ t ∈ st.targets, t.kind = .program → Compiles p st t) ∧
    ∀ t ∈ st.targets, t.kind = .program → t.links = [] → Compiles p st t := by
  refine ⟨fun h1 h2 => (C137_exact e v s p h hp hs st hst).2 ⟨h1, fun hd => h2.resolve_right hd⟩, ?_⟩
  obtain rfl := all_of_project h hst
  intro t ht hk hl
  rcases mem_allTargets ht with rfl | ⟨n, f, hn, rfl⟩ | ⟨-, n, f, hn, rfl⟩
  · exfalso
    rw [library_kind] at hk
    split at hk <;> cases hk
  · cases hl
  · obtain ⟨m', hm', hb', -⟩ := before_header hp
    refine ⟨m', by rw [definitions_header, hm'], ?_⟩
    show Usable m' (headersOf n)
    exact usable_test hb' (.inr rfl) (List.mem_append_right _ hn)

example : On sampleStatic System.linuxBased.cmakeName ∧ (settings sampleStatic).UsesIo ∧
    sampleStatic "CMP_DEV" = none ∧ ∃ st, configure bareMachine project sampleStatic = some st := by
  have on : On sampleStatic System.linuxBased.cmakeName := ⟨by decide, by decide, by decide⟩
  have lack : lacksGtk bareMachine sampleStatic System.linuxBased.cmakeName = false := by decide +kernel
  refine ⟨on, ?_, rfl, _, by rw [configure_project on, lack]; rfl⟩
  unfold Settings.UsesIo IsNo
  decide +kernel

/-- A project without the io package. -/
def sampleWithoutIo : Variables := givenVariables [("CMAKE_SYSTEM_NAME", "Linux"),
  ("CMP_CONFIG_IO_PACKAGE_EXCLUDED", "true")]

/-- Violated: in a project that is configured without the io package there are tests that need it. -/
theorem C137_violated : ∃ (e : Machine) (v : Variables) (st : State),
    On v System.linuxBased.cmakeName ∧ Simple v linuxCompiler ∧
    Answered v "CMP_CONFIG_IO_PACKAGE_EXCLUDED" false true ∧ configure e project v = some st ∧
    ∃ t ∈ st.targets, t.kind = .program ∧ ¬ Compiles linuxCompiler st t := by
  have on : On sampleWithoutIo System.linuxBased.cmakeName := ⟨by decide, by decide, by decide⟩
  have simple : Simple sampleWithoutIo linuxCompiler := by
    refine simple_of ?_
    intro q hq
    simp only [List.mem_cons, List.not_mem_nil, or_false] at hq
    rcases hq with rfl | rfl <;> dsimp only <;> intro hn
    · exact absurd hn (by decide)
    · exact ⟨.name "true", by decide +kernel, by decide, by decide⟩
  have lack : lacksGtk fullMachine sampleWithoutIo System.linuxBased.cmakeName = false := by decide +kernel
  obtain ⟨st, hst⟩ : ∃ st, configure fullMachine project sampleWithoutIo = some st :=
    ⟨_, by rw [configure_project on, lack]; rfl⟩
  refine ⟨fullMachine, sampleWithoutIo, st, on, simple, ?_, hst, ?_⟩
  · decide +kernel
  · by_contra hno
    have := (C137_exact _ _ _ _ on linuxCompiler_for simple st hst).1 fun t ht hk => by
      by_contra hc
      exact hno ⟨t, ht, hk, hc⟩
    have hn : ¬ (settings sampleWithoutIo).UsesIo := by
      unfold Settings.UsesIo IsNo
      decide +kernel
    exact hn this.1

/-! ### C138 -/

/-- Every program is compiled either with exactly the macros that the library was compiled with, or with
none but the one that asks for header-only use and without the library, and is optimised like it. -/
theorem C138 (e : Machine) (v : Variables) (sys : String) (h : On v sys) (st : State)
    (hst : configure e project v = some st) : ∃ library ∈ st.targets, library.name = "cmp" ∧
      (st.targets.map Target.name).Nodup ∧
      ∀ t ∈ st.targets, t ≠ library → t.kind = .program ∧ t.linkTime = library.linkTime ∧
        ((t.links = ["cmp"] ∧ st.definitionsOf t = library.definitions) ∨
          t.links = [] ∧ st.definitionsOf t = [("CMP_CONFIG_HEADER_ONLY", "true")]) := by
  obtain rfl := all_of_project h hst
  refine ⟨libraryOf e v sys, List.mem_append_left _ (List.mem_append_left _ List.mem_cons_self), rfl, ?_, ?_⟩
  · have names : (allTargets e v sys).map Target.name = ["cmp"] ++
        ((automatedTests.map (fun t => "test_" ++ t.2) ++
          if headerTestsOn v then automatedTests.map (fun t => "ho_test_" ++ t.2) else []) ++
        (["test_platform", "test_uio"] ++
          if headerTestsOn v then ["ho_test_platform", "ho_test_uio"] else [])) ++
        if (v "CMP_DEV").isSome then ["desktop_gui_example", "unicode_stdio_example"] else [] := by
      unfold allTargets allTests
      cases headerTestsOn v <;> cases (v "CMP_DEV").isSome <;> rfl
    show ((allTargets e v sys).map Target.name).Nodup
    rw [names]
    cases headerTestsOn v <;> cases (v "CMP_DEV").isSome <;> decide +kernel
  · intro t ht hne
    rcases mem_allTargets ht with rfl | ⟨n, f, hn, rfl⟩ | ⟨-, n, f, hn, rfl⟩
    · exact absurd rfl hne
    · exact ⟨rfl, rfl, .inl ⟨rfl, definitions_program⟩⟩
    · exact ⟨rfl, rfl, .inr ⟨rfl, definitions_header⟩⟩

/-- What a developer of the library configures. -/
def sampleDeveloper : Variables := givenVariables [("CMAKE_SYSTEM_NAME", "FreeBSD"), ("CMP_DEV", "1"),
  ("CMP_CONFIG_DEFAULT_BUFFER_CAPACITY", "16")]

example : On sampleDeveloper "FreeBSD" ∧
    ∃ st, configure fullMachine project sampleDeveloper = some st ∧ st.targets.length = 39 ∧
      st.tests.length = 32 := by
  have on : On sampleDeveloper "FreeBSD" := ⟨by decide, by decide, by decide⟩
  have lack : lacksGtk fullMachine sampleDeveloper "FreeBSD" = false := by decide +kernel
  refine ⟨on, _, by rw [configure_project on, lack]; rfl, ?_, ?_⟩
  · show (allTargets fullMachine sampleDeveloper "FreeBSD").length = 39
    decide +kernel
  · show (allTestNames sampleDeveloper).length = 32
    decide +kernel

/-- Every source of an automated test is built into a program that uses the library, which is carried out as
a test; into one that uses the headers only, which is carried out too, exactly when `CMP_DEV` is defined or
the tests of the headers are asked for; and nothing else is carried out. -/
theorem C138_tests (e : Machine) (v : Variables) (sys : String) (h : On v sys) (st : State)
    (hst : configure e project v = some st) :
    (st.tests.map Prod.fst).Nodup ∧ (st.tests.map Prod.snd).Nodup ∧
    (∀ f ∈ testSources, ∃ q ∈ st.tests, ∃ t ∈ st.targets, t.name = q.2 ∧ t.sources = [f] ∧
      t.links = ["cmp"]) ∧
    (∀ f ∈ testSources, (∃ q ∈ st.tests, ∃ t ∈ st.targets, t.name = q.2 ∧ t.sources = [f] ∧
        t.links = []) ↔
      v "CMP_DEV" ≠ none ∨ Occurs "true" ((v "CMP_BUILD_HO_TESTS").getD "false")) ∧
    ∀ q ∈ st.tests, ∃ t ∈ st.targets, t.name = q.2 ∧ t.kind = .program ∧
      ∃ f ∈ testSources, t.sources = [f] := by
  obtain rfl := all_of_project h hst
  have on : headerTestsOn v = true ↔
      v "CMP_DEV" ≠ none ∨ Occurs "true" ((v "CMP_BUILD_HO_TESTS").getD "false") := by
    rw [headerTestsOn, Bool.or_eq_true, matches_iff, Option.isSome_iff_ne_none]
  have mem1 : ∀ a ∈ automatedTests, programOf (initially v || linkTimeOn e v) ("test_" ++ a.2)
      (sourceOf a) ∈ allTargets e v sys := fun a ha => by
    unfold allTargets allTests testPrograms
    simp only [List.mem_append, List.mem_map]
    exact .inl (.inr (.inl (.inl ⟨a, ha, rfl⟩)))
  have mem2 : headerTestsOn v = true → ∀ a ∈ automatedTests, headerProgramOf (isMsvc v)
      (initially v || linkTimeOn e v) ("ho_test_" ++ a.2) (sourceOf a) ∈ allTargets e v sys := by
    intro hh a ha
    unfold allTargets allTests headerTestPrograms
    simp only [List.mem_append, hh, if_true, List.mem_map]
    exact .inl (.inr (.inl (.inr ⟨a, ha, rfl⟩)))
  have sources : automatedTests.map sourceOf = testSources := by decide +kernel
  have named1 : ∀ a ∈ automatedTests, (a.2 ++ "_test", "test_" ++ a.2) ∈ allTestNames v := fun a ha =>
    List.mem_append_left _ (List.mem_map.2 ⟨a, ha, rfl⟩)
  have named2 : headerTestsOn v = true → ∀ a ∈ automatedTests,
      ("ho_" ++ a.2 ++ "_test", "ho_test_" ++ a.2) ∈ allTestNames v := fun hh a ha =>
    List.mem_append_right _ (by rw [if_pos hh]; exact List.mem_map.2 ⟨a, ha, rfl⟩)
  refine ⟨?_, ?_, ?_, ?_, ?_⟩
  · show ((allTestNames v).map Prod.fst).Nodup
    unfold allTestNames
    cases headerTestsOn v <;> decide +kernel
  · show ((allTestNames v).map Prod.snd).Nodup
    unfold allTestNames
    cases headerTestsOn v <;> decide +kernel
  · intro f hf
    rw [← sources] at hf
    obtain ⟨a, ha, rfl⟩ := List.mem_map.1 hf
    exact ⟨_, named1 a ha, _, mem1 a ha, rfl, rfl, rfl⟩
  · intro f hf
    rw [← on]
    constructor
    · rintro ⟨q, hq, t, ht, h1, h2, h3⟩
      rcases mem_allTargets ht with rfl | ⟨n, f, hn, rfl⟩ | ⟨hh, -⟩
      · exfalso
        have : ∀ q ∈ testNames ++ headerTestNames, "cmp" ≠ q.2 := by decide +kernel
        refine this q ?_ h1
        rcases List.mem_append.1 hq with hq | hq
        · exact List.mem_append_left _ hq
        · split at hq
          · exact List.mem_append_right _ hq
          · exact absurd hq List.not_mem_nil
      · cases h3
      · exact hh
    · intro hh
      rw [← sources] at hf
      obtain ⟨a, ha, rfl⟩ := List.mem_map.1 hf
      exact ⟨_, named2 hh a ha, _, mem2 hh a ha, rfl, rfl, rfl⟩
  · intro q hq
    have src : ∀ a ∈ automatedTests, sourceOf a ∈ testSources := fun a ha => by
      rw [← sources]
      exact List.mem_map.2 ⟨a, ha, rfl⟩
    rcases List.mem_append.1 hq with hq | hq
    · obtain ⟨a, ha, rfl⟩ := List.mem_map.1 hq
      exact ⟨_, mem1 a ha, rfl, rfl, _, src a ha, rfl⟩
    · split at hq
      next hh =>
        obtain ⟨a, ha, rfl⟩ := List.mem_map.1 hq
        exact ⟨_, mem2 hh a ha, rfl, rfl, _, src a ha, rfl⟩
      next => exact absurd hq List.not_mem_nil

/-- The manual tests are built, with the headers only too when these are asked for, and not carried out; the
examples exactly for those who define `CMP_DEV`. -/
theorem C138_others (e : Machine) (v : Variables) (sys : String) (h : On v sys) (st : State)
    (hst : configure e project v = some st) :
    (∀ n ∈ ["platform", "uio"],
      (∃ t ∈ st.targets, t.name = "test_" ++ n ∧ t.sources = ["test_" ++ n ++ ".cpp"] ∧ t.links = ["cmp"]) ∧
      ((∃ t ∈ st.targets, t.name = "ho_test_" ++ n ∧ t.sources = ["test_" ++ n ++ ".cpp"] ∧ t.links = []) ↔
        v "CMP_DEV" ≠ none ∨ Occurs "true" ((v "CMP_BUILD_HO_TESTS").getD "false")) ∧
      ∀ q ∈ st.tests, q.2 ≠ "test_" ++ n ∧ q.2 ≠ "ho_test_" ++ n) ∧
    ∀ n ∈ ["desktop_gui_example", "unicode_stdio_example"],
      (∃ t ∈ st.targets, t.name = n ∧ t.sources = ["src/main.cpp"] ∧ t.links = ["cmp"]) ↔
        v "CMP_DEV" ≠ none := by
  obtain rfl := all_of_project h hst
  have on : headerTestsOn v = true ↔
      v "CMP_DEV" ≠ none ∨ Occurs "true" ((v "CMP_BUILD_HO_TESTS").getD "false") := by
    rw [headerTestsOn, Bool.or_eq_true, matches_iff, Option.isSome_iff_ne_none]
  have inTests : ∀ t ∈ manualPrograms (initially v || linkTimeOn e v), t ∈ allTargets e v sys := by
    intro t ht
    unfold allTargets allTests
    simp only [List.mem_append]
    exact .inl (.inr (.inr (.inl ht)))
  have inHeaders : headerTestsOn v = true → ∀ t ∈ headerManualPrograms (isMsvc v)
      (initially v || linkTimeOn e v), t ∈ allTargets e v sys := by
    intro hh t ht
    unfold allTargets allTests
    simp only [List.mem_append, hh, if_true]
    exact .inl (.inr (.inr (.inr ht)))
  have fewer : ∀ q ∈ allTestNames v, q ∈ testNames ++ headerTestNames := by
    intro q hq
    rcases List.mem_append.1 hq with hq | hq
    · exact List.mem_append_left _ hq
    · split at hq
      · exact List.mem_append_right _ hq
      · exact absurd hq List.not_mem_nil
  have notRun : ∀ q ∈ testNames ++ headerTestNames, ∀ n ∈ ["platform", "uio"],
      q.2 ≠ "test_" ++ n ∧ q.2 ≠ "ho_test_" ++ n := by decide +kernel
  constructor
  · intro n hn
    refine ⟨?_, ?_, fun q hq => notRun q (fewer q hq) n hn⟩
    · refine ⟨programOf (initially v || linkTimeOn e v) ("test_" ++ n) ("test_" ++ n ++ ".cpp"),
        inTests _ ?_, rfl, rfl, rfl⟩
      simp only [List.mem_cons, List.not_mem_nil, or_false] at hn
      rcases hn with rfl | rfl
      · exact List.mem_cons_self
      · exact List.mem_cons_of_mem _ List.mem_cons_self
    · rw [← on]
      constructor
      · rintro ⟨t, ht, h1, -, h3⟩
        rcases mem_allTargets ht with rfl | ⟨k, f, hk, rfl⟩ | ⟨hh, -⟩
        · exfalso
          have : ∀ n ∈ ["platform", "uio"], "cmp" ≠ "ho_test_" ++ n := by decide
          exact this n hn h1
        · cases h3
        · exact hh
      · intro hh
        refine ⟨headerProgramOf (isMsvc v) (initially v || linkTimeOn e v) ("ho_test_" ++ n)
          ("test_" ++ n ++ ".cpp"), inHeaders hh _ ?_, rfl, rfl, rfl⟩
        simp only [List.mem_cons, List.not_mem_nil, or_false] at hn
        rcases hn with rfl | rfl
        · exact List.mem_cons_self
        · exact List.mem_cons_of_mem _ List.mem_cons_self
  · intro n hn
    constructor
    · rintro ⟨t, ht, h1, -, -⟩ hd
      have no : ∀ k ∈ "cmp" :: linkedNames (fun _ => none) ++ headerNames,
          ∀ n ∈ ["desktop_gui_example", "unicode_stdio_example"], k ≠ n := by decide +kernel
      rcases mem_allTargets ht with rfl | ⟨k, f, hk, rfl⟩ | ⟨-, k, f, hk, rfl⟩
      · exact no "cmp" (by simp) n hn h1
      · have hk' : k ∈ linkedNames fun _ => none := by
          unfold linkedNames at hk ⊢
          rw [hd] at hk
          exact hk
        exact no k (List.mem_append_left _ (List.mem_cons_of_mem _ hk')) n hn h1
      · exact no k (List.mem_append_right _ hk) n hn h1
    · intro hd
      refine ⟨programOf (initially v || linkTimeOn e v) n "src/main.cpp", ?_, rfl, rfl, rfl⟩
      unfold allTargets
      rw [if_pos (Option.isSome_iff_ne_none.2 hd)]
      refine List.mem_append_right _ ?_
      simp only [List.mem_cons, List.not_mem_nil, or_false] at hn
      rcases hn with rfl | rfl
      · exact List.mem_cons_self
      · exact List.mem_cons_of_mem _ List.mem_cons_self

/-- The library and every program are compiled with their sources taken for UTF-8 by Visual C++, which has to
be told. -/
theorem C138_utf8 (e : Machine) (v : Variables) (sys : String) (h : On v sys) (st : State)
    (hst : configure e project v = some st) : ∀ t ∈ st.targets,
      "/utf-8" ∈ st.optionsOf t ↔ v "CMAKE_CXX_COMPILER_ID" = some "MSVC" := by
  obtain rfl := all_of_project h hst
  intro t ht
  rw [← isMsvc_iff]
  rcases mem_allTargets ht with rfl | ⟨n, f, hn, rfl⟩ | ⟨-, n, f, hn, rfl⟩
  · rw [← utf8_library e v sys]
    unfold State.optionsOf
    have none : ∀ k ∈ (libraryOf e v sys).links, (allTargets e v sys).filter (·.name = k) = [] := by
      intro k hk
      rw [List.filter_eq_nil_iff]
      intro u hu hc
      have hk' : k ∈ toolkits := links_toolkits hk
      have hc' : u.name = k := by simpa using hc
      rw [← hc'] at hk'
      rcases mem_allTargets hu with rfl | ⟨n, f, hn, rfl⟩ | ⟨-, n, f, hn, rfl⟩
      · exact names_toolkits "cmp" (List.mem_append_left _ List.mem_cons_self) hk'
      · exact names_toolkits n
          (List.mem_append_left _ (List.mem_cons_of_mem _ (names_linked v n hn))) hk'
      · exact names_toolkits n (List.mem_append_right _ hn) hk'
    rw [List.mem_append, or_iff_left]
    intro hm
    obtain ⟨k, hk, hm⟩ := List.mem_flatMap.1 hm
    have := none k hk
    dsimp only at hm
    rw [this] at hm
    exact absurd hm List.not_mem_nil
  · rw [options_program, utf8_library]
  · rw [options_header]
    cases isMsvc v <;> simp

end Cmp
