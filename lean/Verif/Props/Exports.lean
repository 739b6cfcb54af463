/-
C139: how the declarations of the library are marked for the linker.
-/
import Verif.Spec.Exports
import Verif.Proofs.Exports
import Verif.Props.Cmake

namespace Cmp

open Spec Cmake Headers

theorem mark_configured (marks : Marks) (found : Bool) {m : Macros} {dyn only} (fs os) :
    markIn ⟨configured marks found dyn only m, fs, os⟩ =
      if found ∧ given dyn = 1 then
        some (.text (if (m "cmp_EXPORTS").isSome then marks.exported else marks.imported)) else none := by
  have hx : defaulted m "cmp_EXPORTS" = m "cmp_EXPORTS" := defaulted_other (by decide)
  unfold markIn configured beforeInline
  split
  · simp [Macros.expand, marked, Macros.set, hx]
  · simp [Macros.expand, Macros.set]

theorem result (marks : Marks) (found : Bool) {m : Macros} {dyn only} (h : Fresh m dyn only) :
    ∃ u, readConfig marks found m = .done u ∧
      configRedefinitions marks found m = (if found ∧ given dyn = 1 then ["CMP_LIBRARY_NAME"] else []) ∧
      u.macros = configured marks found dyn only m ∧
      markIn u = if found ∧ given dyn = 1 then
        some (.text (if (m "cmp_EXPORTS").isSome then marks.exported else marks.imported)) else none := by
  obtain ⟨fs, hl⟩ := logs_wholeConfig marks found h
  obtain ⟨h1, h2⟩ := hl.done (f := 100) (by omega)
  exact ⟨_, h1, h2, rfl, mark_configured marks found fs []⟩

/-- What CMake defines on the command line leaves the names that matter here alone. -/
theorem fresh_of {m p : Macros} {defs : List (String × String)} {s : System} {dyn only : Option PpToken}
    (hp : CompilerFor s p)
    (hl : ∀ n, m n = match defs.lookup n with | some x => some (token x) | none => p n)
    (hn : ∀ d ∈ defs, d.1 ∈ macroNames)
    (hd : m "CMP_CONFIG_IS_DYNAMIC" = dyn.map some) (hd' : ∀ t, dyn = some t → Plain p t)
    (ho : m "CMP_CONFIG_HEADER_ONLY" = only.map some) (ho' : ∀ t, only = some t → Plain p t) :
    Fresh m dyn only := by
  have other : ∀ n, n ∉ macroNames → m n = p n := by
    intro n h
    rw [hl n]
    have : defs.lookup n = none := by
      rw [List.lookup_eq_none_iff]
      intro q hq
      have : n ≠ q.1 := fun e => h (e ▸ hn q hq)
      simpa using this
    rw [this]
  have foreign : ∀ n, ¬ Reserved n → m n = p n := fun n h => other n fun hm => h (names_reserved n hm)
  refine ⟨hd, fun t ht => Fresh.plain_mono (hd' t ht) foreign, ho,
    fun t ht => Fresh.plain_mono (ho' t ht) foreign, ?_, ?_⟩
  · intro n hm
    have : n ∉ macroNames ∧ Reserved n := (show ∀ n ∈ ["CMP_CORE_CONFIG_HPP_INCLUDED",
      "CMP_CONDITIONAL_INLINE", "CMP_STATIC_DEFINE"] ++ markNames, n ∉ macroNames ∧ Reserved n by
        decide +kernel) n hm
    rw [other n this.1, hp.free n this.2]
  · exact ⟨(foreign _ (by decide)).trans hp.words.1, (foreign _ (by decide)).trans hp.words.2⟩

/-- The compiler while it compiles the shared library. -/
theorem exporting_for {p : Macros} {s : System} (hp : CompilerFor s p) (b) :
    CompilerFor s (p.set "cmp_EXPORTS" b) := by
  have keep : ∀ n, n ≠ "cmp_EXPORTS" → p.set "cmp_EXPORTS" b n = p n := fun n h => set_other _ _ h
  have marks : ∀ (t : System), ∀ n ∈ t.marks, n ≠ "cmp_EXPORTS" := by
    intro t
    cases t <;> decide +kernel
  refine ⟨⟨?_, ?_⟩, ?_, ?_⟩
  · obtain ⟨n, hn, h⟩ := hp.targets.1
    exact ⟨n, hn, by rw [keep n (marks s n hn)]; exact h⟩
  · intro t ht n hn
    rw [keep n (marks t n hn)]
    exact hp.targets.2 t ht n hn
  · intro n hn
    rw [keep n fun e => absurd (e ▸ hn) (by decide)]
    exact hp.free n hn
  · exact ⟨(keep _ (by decide)).trans hp.words.1, (keep _ (by decide)).trans hp.words.2⟩

/-- The macros that the library and what links with it are compiled with. -/
theorem fresh_library {e : Machine} {v : Variables} {sys : String} {p : Macros} {s : System}
    (hp : CompilerFor s p) (h : Simple v p) :
    ∃ m only, commandLine p (libraryOf e v sys).definitions = some m ∧
      m "cmp_EXPORTS" = p "cmp_EXPORTS" ∧
      Fresh m (some (.name (if (libraryOf e v sys).kind = .sharedLibrary then "true" else "false"))) only := by
  obtain ⟨m, hm, hl⟩ := commandLine_spec (libraryOf e v sys).definitions p (tokens h) (names_nodup e v sys)
  obtain ⟨-, s2, s3, -⟩ := lookup_settings e v sys
  refine ⟨m, (v "CMP_CONFIG_HEADER_ONLY").bind token, hm, ?_, fresh_of hp hl ?_ ?_ ?_ ?_ ?_⟩
  · rw [hl, lookup_other (by decide +kernel)]
  · intro d hd
    exact (names_sublist e v sys).subset (List.mem_map.2 ⟨d, hd, rfl⟩)
  · rw [hl, s2, library_kind]
    cases matchesPart "true".toList ((v "CMP_BUILD_STATIC").getD "false").toList
    · simp [token_true]
    · simp [token_false]
  · intro t ht
    obtain rfl := Option.some.inj ht
    split
    · exact ⟨hp.words.1, by decide⟩
    · exact ⟨hp.words.2, by decide⟩
  · rw [hl, s3]
    cases hx : v "CMP_CONFIG_HEADER_ONLY" with
    | none => exact hp.free _ (by decide)
    | some x =>
      obtain ⟨t, ht, -⟩ := h _ (by decide) x hx
      simp [ht]
  · intro t ht
    cases hx : v "CMP_CONFIG_HEADER_ONLY" with
    | none => rw [hx] at ht; cases ht
    | some x =>
      obtain ⟨t', ht', hp'⟩ := h _ (by decide) x hx
      rw [hx, Option.bind_some, ht'] at ht
      exact Option.some.inj ht ▸ hp'

/-- The macros that a program which uses the headers only is compiled with. -/
theorem fresh_header {p : Macros} {s : System} (hp : CompilerFor s p) :
    ∃ m, commandLine p [("CMP_CONFIG_HEADER_ONLY", "true")] = some m ∧
      Fresh m none (some (.name "true")) := by
  obtain ⟨m, hm, hl⟩ := commandLine_spec [("CMP_CONFIG_HEADER_ONLY", "true")] p
    (by simp [token_true]) (by simp)
  refine ⟨m, hm, fresh_of hp hl ?_ ?_ ?_ ?_ ?_⟩
  · intro d hd
    rw [List.mem_singleton.1 hd]
    decide
  · rw [hl]
    exact hp.free _ (by decide)
  · intro t ht
    cases ht
  · rw [hl]
    simp [token_true]
  · intro t ht
    obtain rfl := Option.some.inj ht
    exact ⟨hp.words.1, by decide⟩

theorem definitions_library {e : Machine} {v v' : Variables} {sys : String} {ts} :
    (⟨v', allTargets e v sys, ts⟩ : State).definitionsOf (libraryOf e v sys) =
      (libraryOf e v sys).definitions := by
  have none : ∀ k ∈ (libraryOf e v sys).links, (allTargets e v sys).filter (·.name = k) = [] := by
    intro k hk
    rw [List.filter_eq_nil_iff]
    intro u hu hc
    have hk' : k ∈ toolkits := links_toolkits hk
    have hc' : u.name = k := by simpa using hc
    rw [← hc'] at hk'
    rcases mem_allTargets hu with rfl | ⟨n, f, hn, rfl⟩ | ⟨-, n, f, hn, rfl⟩
    · exact names_toolkits "cmp" (List.mem_append_left _ List.mem_cons_self) hk'
    · exact names_toolkits n
        (List.mem_append_left _ (List.mem_cons_of_mem _ (names_linked v n hn))) hk'
    · exact names_toolkits n (List.mem_append_right _ hn) hk'
  unfold State.definitionsOf
  rw [List.flatMap_eq_nil_iff.2, List.append_nil]
  intro k hk
  rw [none k hk]
  rfl

theorem simple_less {v : Variables} {p : Macros} {b} (hx : p "cmp_EXPORTS" = none)
    (h : Simple v (p.set "cmp_EXPORTS" b)) : Simple v p := by
  intro n hn x hv
  obtain ⟨t, ht, hp⟩ := h n hn x hv
  refine ⟨t, ht, ?_⟩
  cases t with
  | int _ => trivial
  | text _ => exact hp
  | name k =>
    refine ⟨?_, hp.2⟩
    by_cases hk : k = "cmp_EXPORTS"
    · rw [hk, hx]
    · rw [← hp.1, set_other _ _ hk]

theorem given_word (b : Prop) [Decidable b] :
    given (some (.name (if b then "true" else "false"))) = 1 ↔ b := by
  by_cases h : b <;> simp [given, number, h]

/-- How the declarations of the library are marked, and which macros `core/config.hpp` defines twice in two
ways, exactly, for the library and every program and whatever is asked of the build. -/
theorem C139_exact (e : Machine) (v : Variables) (sys : String) (s : System) (p : Macros) (marks : Marks)
    (h : On v sys) (hp : CompilerFor s p) (hx : p "cmp_EXPORTS" = none)
    (hs : Simple v (p.set "cmp_EXPORTS" (some (.int 1)))) (st : State)
    (hst : configure e project v = some st) : ∃ library ∈ st.targets, library.name = "cmp" ∧
      ∀ t ∈ st.targets, ∃ m u, st.macrosOf t p = some m ∧
        readConfig marks (findsExports t) m = .done u ∧
        markIn u = markFor marks library t ∧
        configRedefinitions marks (findsExports t) m =
          if library.kind = .sharedLibrary ∧ (t = library ∨ "cmp" ∈ t.links) then ["CMP_LIBRARY_NAME"]
          else [] := by
  obtain rfl := all_of_project h hst
  refine ⟨libraryOf e v sys, List.mem_append_left _ (List.mem_append_left _ List.mem_cons_self), rfl, ?_⟩
  intro t ht
  rcases mem_allTargets ht with rfl | ⟨n, f, hn, rfl⟩ | ⟨-, n, f, hn, rfl⟩
  · by_cases hk : (libraryOf e v sys).kind = .sharedLibrary
    · obtain ⟨m, only, hm, hm', hf⟩ := fresh_library (e := e) (sys := sys) (exporting_for hp _) hs
      obtain ⟨u, r1, r2, -, r3⟩ := result marks (findsExports (libraryOf e v sys)) hf
      refine ⟨m, u, ?_, r1, ?_, ?_⟩
      · unfold State.macrosOf exporting
        rw [if_pos hk, definitions_library]
        exact hm
      · simp only [r3, given_word, hm', Headers.set_self]
        simp [findsExports, markFor, libraryOf]
      · simp only [r2, given_word]
        simp [findsExports, libraryOf]
    · obtain ⟨m, only, hm, hm', hf⟩ := fresh_library (e := e) (sys := sys) hp (simple_less hx hs)
      obtain ⟨u, r1, r2, -, r3⟩ := result marks (findsExports (libraryOf e v sys)) hf
      refine ⟨m, u, ?_, r1, ?_, ?_⟩
      · unfold State.macrosOf exporting
        rw [if_neg hk, definitions_library]
        exact hm
      · simp only [r3, given_word]
        simp [markFor, hk]
      · simp only [r2, given_word]
        simp [hk]
  · obtain ⟨m, only, hm, hm', hf⟩ := fresh_library (e := e) (sys := sys) hp (simple_less hx hs)
    obtain ⟨u, r1, r2, -, r3⟩ := result marks (findsExports (programOf (initially v || linkTimeOn e v) n f)) hf
    have hne : ¬ n = "cmp" := by
      intro hc
      have := (show ∀ n ∈ linkedNames fun _ => some "", n ≠ "cmp" by decide +kernel) n (names_linked v n hn)
      exact this hc
    refine ⟨m, u, ?_, r1, ?_, ?_⟩
    · unfold State.macrosOf
      rw [definitions_program]
      exact hm
    · simp only [r3, given_word, hm', hx]
      simp [findsExports, markFor, programOf, hne, show (libraryOf e v sys).name = "cmp" from rfl]
    · simp only [r2, given_word]
      simp [findsExports, programOf]
  · obtain ⟨m, hm, hf⟩ := fresh_header hp
    obtain ⟨u, r1, r2, -, r3⟩ := result marks
      (findsExports (headerProgramOf (isMsvc v) (initially v || linkTimeOn e v) n f)) hf
    have hne : ¬ n = "cmp" := by
      intro hc
      have := (show ∀ n ∈ headerNames, n ≠ "cmp" by decide +kernel) n hn
      exact this hc
    have h0 : ¬ given none = 1 := by decide
    refine ⟨m, u, ?_, r1, ?_, ?_⟩
    · unfold State.macrosOf
      rw [definitions_header]
      exact hm
    · rw [r3]
      simp [h0, markFor, headerProgramOf, hne, show (libraryOf e v sys).name = "cmp" from rfl]
    · have hl : ¬ headerProgramOf (isMsvc v) (initially v || linkTimeOn e v) n f = libraryOf e v sys :=
        fun he => hne (congrArg Target.name he)
      rw [r2, if_neg (by simp [h0]), if_neg]
      rintro ⟨-, h | h⟩
      · exact hl h
      · exact absurd h List.not_mem_nil

/-- The settings by themselves, for a Linux-based system. -/
def samplePlain : Variables := givenVariables [("CMAKE_SYSTEM_NAME", "Linux")]

theorem samplePlain_fits : On samplePlain "Linux" ∧ linuxCompiler "cmp_EXPORTS" = none ∧
    Simple samplePlain (linuxCompiler.set "cmp_EXPORTS" (some (.int 1))) ∧
    ∃ st, configure fullMachine project samplePlain = some st := by
  have on : On samplePlain "Linux" := ⟨by decide, by decide, by decide⟩
  have lack : lacksGtk fullMachine samplePlain "Linux" = false := by decide +kernel
  refine ⟨on, by decide +kernel, simple_of ?_, _, by rw [configure_project on, lack]; rfl⟩
  intro q hq
  simp only [List.mem_cons, List.not_mem_nil, or_false] at hq
  obtain rfl := hq
  exact fun hn => absurd hn (by decide)

/-- Whatever is asked of the build, the library marks what it offers, programs that link with it mark the same
as taken from it, and nothing is marked where there is no shared library; and if the library is static, no
macro is defined in two ways. -/
theorem C139_partial (e : Machine) (v : Variables) (sys : String) (s : System) (p : Macros) (marks : Marks)
    (h : On v sys) (hp : CompilerFor s p) (hx : p "cmp_EXPORTS" = none)
    (hs : Simple v (p.set "cmp_EXPORTS" (some (.int 1)))) (st : State)
    (hst : configure e project v = some st) : ∃ library ∈ st.targets, library.name = "cmp" ∧
      ∀ t ∈ st.targets, ∃ m u, st.macrosOf t p = some m ∧
        readConfig marks (findsExports t) m = .done u ∧ markIn u = markFor marks library t ∧
        (library.kind = .staticLibrary → configRedefinitions marks (findsExports t) m = []) := by
  obtain ⟨l, hl, hn, H⟩ := C139_exact e v sys s p marks h hp hx hs st hst
  refine ⟨l, hl, hn, fun t ht => ?_⟩
  obtain ⟨m, u, h1, h2, h3, h4⟩ := H t ht
  refine ⟨m, u, h1, h2, h3, fun hk => ?_⟩
  rw [h4, hk]
  simp

example : On samplePlain "Linux" ∧ CompilerFor .linuxBased linuxCompiler ∧
    linuxCompiler "cmp_EXPORTS" = none ∧ Simple samplePlain (linuxCompiler.set "cmp_EXPORTS" (some (.int 1))) ∧
    ∃ st, configure fullMachine project samplePlain = some st :=
  ⟨samplePlain_fits.1, linuxCompiler_for, samplePlain_fits.2⟩

/-- If nothing is asked of the build, `CMP_LIBRARY_NAME` is defined twice in two ways wherever the library's
configuration is read in the library or in a program that links with it, which C++ does not allow. -/
theorem C139_violated : ∃ (e : Machine) (v : Variables) (sys : String) (s : System) (p : Macros) (st : State),
    On v sys ∧ CompilerFor s p ∧ (∀ n ∈ passedOn, v n = none) ∧ v "CMP_BUILD_STATIC" = none ∧
    configure e project v = some st ∧ (∃ t ∈ st.targets, "cmp" ∈ t.links) ∧
    ∀ marks, ∀ t ∈ st.targets, (t.name = "cmp" ∨ "cmp" ∈ t.links) →
      ∃ m, st.macrosOf t p = some m ∧
        configRedefinitions marks (findsExports t) m = ["CMP_LIBRARY_NAME"] := by
  obtain ⟨on, hx, hs, st, hst⟩ := samplePlain_fits
  refine ⟨fullMachine, samplePlain, "Linux", .linuxBased, linuxCompiler, st, on, linuxCompiler_for,
    by decide, rfl, hst, ?_, ?_⟩
  · obtain ⟨⟨⟨t, ht, -, -, hl⟩, -⟩, -⟩ :=
      (C138_others _ _ _ on st hst).1 "platform" List.mem_cons_self |>.imp_left (fun h => And.intro h trivial)
    exact ⟨t, ht, hl ▸ List.mem_cons_self⟩
  · intro marks t ht htl
    obtain ⟨l, hl, hn, H⟩ :=
      C139_exact fullMachine samplePlain "Linux" .linuxBased linuxCompiler marks on linuxCompiler_for hx hs st hst
    obtain ⟨m, u, h1, -, -, h4⟩ := H t ht
    refine ⟨m, h1, ?_⟩
    obtain rfl := all_of_project on hst
    have only : ∀ r ∈ allTargets fullMachine samplePlain "Linux", r.name = "cmp" →
        r = libraryOf fullMachine samplePlain "Linux" := by
      intro r hr hc
      have : r ∈ (allTargets fullMachine samplePlain "Linux").filter (·.name = "cmp") :=
        List.mem_filter.2 ⟨hr, by simpa using hc⟩
      rw [filter_library] at this
      exact List.mem_singleton.1 this
    have el := only l hl hn
    have hk : l.kind = .sharedLibrary := by rw [el]; decide +kernel
    rw [h4, hk, if_pos]
    refine ⟨rfl, ?_⟩
    rcases htl with hc | hc
    · exact .inl ((only t ht hc).trans el.symm)
    · exact .inr hc

/-- How functions are declared, and that nothing but the marks depends on the kind of library: after the
whole of `core/config.hpp` every other macro is as after the part of it that the other properties are about. -/
theorem C139_exact_rest (marks : Marks) (found : Bool) (m : Macros) (c : Settings) (dyn : Option PpToken)
    (hb : Before m c) (hd : m "CMP_CONFIG_IS_DYNAMIC" = dyn.map some) (hd' : ∀ t, dyn = some t → Plain m t) :
    ∃ u u', readConfig marks found m = .done u ∧
      Headers.translate m [.include "cmp/core/config.hpp"] = .done u' ∧
      (∀ n, n ∉ namesForMarks → u.macros n = u'.macros n) ∧
      u.macros "CMP_CONDITIONAL_INLINE" = some (if c.mode = 1 then some (.name "inline") else none) := by
  have none : ∀ n ∈ ["CMP_CORE_CONFIG_HPP_INCLUDED", "CMP_CONDITIONAL_INLINE", "CMP_STATIC_DEFINE"] ++ markNames,
      m n = none := by
    intro n hn
    simp only [markNames, List.cons_append, List.nil_append, List.mem_cons, List.not_mem_nil, or_false] at hn
    rcases hn with rfl | rfl | rfl | rfl | rfl | rfl | rfl <;>
      exact hb.others _ (by decide) (by simp [Settings.given]) (by decide)
  have hg := hb.given ("CMP_CONFIG_HEADER_ONLY", c.headerOnly) (by simp [Settings.given])
  have hf : Fresh m dyn c.headerOnly := ⟨hd, hd', hg,
    fun t ht => hb.plain ("CMP_CONFIG_HEADER_ONLY", c.headerOnly) (by simp [Settings.given]) t ht, none, hb.words⟩
  obtain ⟨u, h1, -, h2, -⟩ := result marks found hf
  have hc := logs_config marks hf
  refine ⟨u, _, h1, (hc.done (f := 1000) (by omega)).1, ?_, ?_⟩
  · intro n hn
    simp only [namesForMarks, List.mem_cons, List.not_mem_nil, or_false, not_or] at hn
    rw [h2]
    unfold configured beforeInline marked
    by_cases hi : n = "CMP_CONDITIONAL_INLINE"
    · simp [hi, Macros.set]
    · rw [set_other _ _ hi]
      dsimp only
      rw [set_other _ _ hi]
      simp only [Bool.false_eq_true, false_and, if_false]
      split
      · rw [set_other _ _ hn.1, set_other _ _ hn.2.2.1, set_other _ _ hn.2.1, set_other _ _ hn.2.2.2]
      · rfl
  · rw [h2]
    unfold configured
    rw [Headers.set_self]
    rfl

/-- Where the whole of it makes a difference: the library is shared and Visual C++ compiles a program. -/
example : ∃ m c dyn, Before m c ∧ m "CMP_CONFIG_IS_DYNAMIC" = dyn.map some ∧ (∀ t, dyn = some t → Plain m t) ∧
    ∃ u, readConfig ⟨"__declspec(dllexport)", "__declspec(dllimport)", ""⟩ true m = .done u ∧
      markIn u = some (.text "__declspec(dllimport)") := by
  have hb : Before linuxCompiler {} :=
    sampleMacros_before (by decide) (plainSettings linuxMarks).1 (plainSettings linuxMarks).2
  have keep : ∀ n, n ≠ "CMP_CONFIG_IS_DYNAMIC" →
      linuxCompiler.set "CMP_CONFIG_IS_DYNAMIC" (some (.name "true")) n = linuxCompiler n :=
    fun n h => set_other _ _ h
  have hb' : Before (linuxCompiler.set "CMP_CONFIG_IS_DYNAMIC" (some (.name "true"))) {} := by
    refine ⟨?_, ?_, ?_, ?_⟩
    · intro q hq
      rw [keep q.1 ((show ∀ q ∈ ({} : Settings).given, q.1 ≠ "CMP_CONFIG_IS_DYNAMIC" by decide) q hq)]
      exact hb.given q hq
    · intro q hq t ht
      have := (show ∀ q ∈ ({} : Settings).given, q.2 = none by decide) q hq
      rw [this] at ht
      cases ht
    · intro n hn hg hu
      rw [keep n fun e => hu (e ▸ by decide)]
      exact hb.others n hn hg hu
    · exact ⟨(keep _ (by decide)).trans hb.words.1, (keep _ (by decide)).trans hb.words.2⟩
  have hd : Plain (linuxCompiler.set "CMP_CONFIG_IS_DYNAMIC" (some (.name "true"))) (.name "true") :=
    ⟨hb'.words.1, by decide⟩
  refine ⟨_, {}, some (.name "true"), hb', by simp [Macros.set], fun t ht => Option.some.inj ht ▸ hd, ?_⟩
  have none : ∀ n ∈ ["CMP_CORE_CONFIG_HPP_INCLUDED", "CMP_CONDITIONAL_INLINE", "CMP_STATIC_DEFINE"] ++ markNames,
      linuxCompiler.set "CMP_CONFIG_IS_DYNAMIC" (some (.name "true")) n = none := by decide +kernel
  obtain ⟨u, h1, -, -, h3⟩ := result ⟨"__declspec(dllexport)", "__declspec(dllimport)", ""⟩ true
    (only := Option.none) (dyn := some (.name "true"))
    ⟨by simp [Macros.set], fun t ht => Option.some.inj ht ▸ hd,
      hb'.given ("CMP_CONFIG_HEADER_ONLY", Option.none) (by simp [Settings.given]), (fun t ht => nomatch ht),
      none, hb'.words⟩
  refine ⟨u, h1, ?_⟩
  rw [h3, if_pos (by decide), show linuxCompiler.set "CMP_CONFIG_IS_DYNAMIC" (some (.name "true")) "cmp_EXPORTS" =
    Option.none by decide +kernel]
  rfl

end Cmp
