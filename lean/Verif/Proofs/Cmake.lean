/-
Lemmas about configuring: what each part of the scripts does to the variables and the targets.
-/
import Verif.Spec.Cmake

namespace Cmp.Cmake

open Cmp.Spec

/-! ### Variables and conditions -/

theorem matchesPart_iff (p : List Char) : ∀ s, matchesPart p s = true ↔ ∃ a b, s = a ++ p ++ b
  | [] => by
    simp only [matchesPart, List.isEmpty_iff]
    constructor
    · rintro rfl; exact ⟨[], [], rfl⟩
    · rintro ⟨a, b, h⟩
      have := congrArg List.length h
      simp only [List.length_nil, List.length_append] at this
      exact List.length_eq_zero_iff.1 (by omega)
  | c :: cs => by
    simp only [matchesPart, Bool.or_eq_true, List.isPrefixOf_iff_prefix, matchesPart_iff p cs]
    constructor
    · rintro (⟨b, h⟩ | ⟨a, b, h⟩)
      · exact ⟨[], b, h.symm⟩
      · exact ⟨c :: a, b, by rw [h]; rfl⟩
    · rintro ⟨a, b, h⟩
      cases a with
      | nil => exact .inl ⟨b, h.symm⟩
      | cons x a => cases h; exact .inr ⟨a, b, rfl⟩

theorem matches_iff (p s : String) : matchesPart p.toList s.toList = true ↔ Occurs p s :=
  matchesPart_iff _ _

/-- Set a variable unless it is defined. -/
def orElse (v : Variables) (n x : String) : Variables := if (v n).isNone then v.set n x else v

theorem set_self (v : Variables) (n x : String) : v.set n x n = some x := by simp [Variables.set]

theorem set_other {v : Variables} {n k x : String} (h : k ≠ n) : v.set n x k = v k := by
  simp [Variables.set, h]

theorem orElse_self (v : Variables) (n x : String) : orElse v n x n = some ((v n).getD x) := by
  unfold orElse
  cases h : v n <;> simp [h, set_self]

theorem orElse_other {v : Variables} {n k x : String} (h : k ≠ n) : orElse v n x k = v k := by
  unfold orElse
  split
  · exact set_other h
  · rfl

theorem run_byDefault (e : Machine) (n x : String) (s : State) :
    (byDefault n x).run e s = some { s with variables := orElse s.variables n x } := by
  unfold byDefault orElse
  cases h : s.variables n <;> simp [Command.run, Condition.holds, h, runAll]

theorem runAll_nil (e : Machine) (s : State) : runAll e [] s = some s := by simp [runAll]

theorem runAll_cons (e : Machine) (c : Command) (cs : List Command) (s : State) :
    runAll e (c :: cs) s = (c.run e s).bind (runAll e cs) := by
  rw [runAll]
  cases c.run e s <;> rfl

theorem runAll_append (e : Machine) (b : List Command) : ∀ (a : List Command) (s : State),
    runAll e (a ++ b) s = (runAll e a s).bind (runAll e b)
  | [], s => by simp [runAll_nil]
  | c :: a, s => by
    rw [List.cons_append, runAll_cons, runAll_cons]
    cases c.run e s with
    | none => rfl
    | some s' => exact runAll_append e b a s'

theorem bind_some_of {α : Type} (o : Option α) : o.bind some = o := by cases o <;> rfl

theorem run_matches {e : Machine} {n p x : String} {yes no : List Command} {s : State}
    (hn : n ≠ "") (h : s.variables n = some x) :
    (ifMatches n p yes no).run e s =
      if matchesPart p.toList x.toList then runAll e yes s else runAll e no s := by
  unfold ifMatches
  simp only [Command.run, Condition.holds, Argument.text, operand, h, hn, if_false, Option.getD_some]
  cases matchesPart p.toList x.toList <;> rfl

theorem modify_one {v : Variables} {t : Target} {ts : List (String × String)} {n : String}
    (h : t.name = n) (f : Target → Target) :
    (⟨v, [t], ts⟩ : State).modify n f = some ⟨v, [f t], ts⟩ := by
  simp [State.modify, h]

/-! ### The library -/

/-- Whether targets are optimised when they are linked because a variable says so. -/
def initially (v : Variables) : Bool :=
  !(falseValues.contains ((v "CMAKE_INTERPROCEDURAL_OPTIMIZATION").getD ""))

theorem run_defaults (e : Machine) (v : Variables) (T ts) : ∃ v',
    runAll e defaults ⟨v, T, ts⟩ = some ⟨v', T, ts⟩ ∧
    v' "CMP_CONFIG_DESKTOP_GUI_PACKAGE_EXCLUDED" =
      some ((v "CMP_CONFIG_DESKTOP_GUI_PACKAGE_EXCLUDED").getD "false") ∧
    v' "CMP_CONFIG_IO_PACKAGE_EXCLUDED" = some ((v "CMP_CONFIG_IO_PACKAGE_EXCLUDED").getD "false") ∧
    v' "CMP_BUILD_STATIC" = some ((v "CMP_BUILD_STATIC").getD "false") ∧
    ∀ n, n ≠ "CMP_CONFIG_DESKTOP_GUI_PACKAGE_EXCLUDED" → n ≠ "CMP_CONFIG_IO_PACKAGE_EXCLUDED" →
      n ≠ "CMP_BUILD_STATIC" → v' n = v n := by
  refine ⟨orElse (orElse (orElse v "CMP_CONFIG_DESKTOP_GUI_PACKAGE_EXCLUDED" "false")
    "CMP_CONFIG_IO_PACKAGE_EXCLUDED" "false") "CMP_BUILD_STATIC" "false", ?_, ?_, ?_, ?_, ?_⟩
  · simp only [defaults, runAll_cons, run_byDefault, Option.bind_some, runAll_nil]
  · rw [orElse_other (by decide), orElse_other (by decide), orElse_self]
  · rw [orElse_other (by decide), orElse_self, orElse_other (by decide)]
  · rw [orElse_self, orElse_other (by decide), orElse_other (by decide)]
  · intro n h1 h2 h3
    rw [orElse_other h3, orElse_other h2, orElse_other h1]

/-- What the two settings about the kind of library are. -/
def kindDefinitions (isStatic : Bool) : List (String × String) :=
  [("CMP_CONFIG_IS_STATIC", if isStatic then "true" else "false"),
    ("CMP_CONFIG_IS_DYNAMIC", if isStatic then "false" else "true")]

/-- The library as it is added. -/
def bareLibrary (isStatic : Bool) (v : Variables) : Target where
  name := "cmp"
  kind := if isStatic then .staticLibrary else .sharedLibrary
  sources := librarySources
  definitions := kindDefinitions isStatic
  linkTime := initially v

theorem run_library {e : Machine} {v : Variables} {ts} {b : String} (h : v "CMP_BUILD_STATIC" = some b) :
    runAll e library ⟨v, [], ts⟩ =
      some ⟨v, [bareLibrary (matchesPart "true".toList b.toList) v], ts⟩ := by
  simp only [library, runAll_cons]
  rw [run_matches (by decide) h]
  cases matchesPart "true".toList b.toList <;>
    simp [runAll, Command.run, State.add, State.modify, Argument.text, bareLibrary,
      kindDefinitions, initially]

/-- Whether link-time optimisation is wanted and can be had. -/
def linkTimeOn (e : Machine) (v : Variables) : Bool :=
  matchesPart "true".toList ((v "CMP_CONFIG_LTO_REQUESTED").getD "true").toList && e.linkTime

theorem run_linkTime (e : Machine) (enable : Command) (v : Variables) (T ts) {T' : List Target}
    {w : Variables → Variables} {x : Option String}
    (he : ∀ v1 : Variables, enable.run e ⟨v1, T, ts⟩ = some ⟨w v1, T', ts⟩)
    (hw : ∀ (v1 : Variables) n, n ≠ "CMAKE_INTERPROCEDURAL_OPTIMIZATION" → w v1 n = v1 n)
    (hx : ∀ v1 : Variables, v1 "CMAKE_INTERPROCEDURAL_OPTIMIZATION" =
      v "CMAKE_INTERPROCEDURAL_OPTIMIZATION" → w v1 "CMAKE_INTERPROCEDURAL_OPTIMIZATION" = x) :
    ∃ v', runAll e (linkTimeOptimisation enable) ⟨v, T, ts⟩ =
      some ⟨v', if linkTimeOn e v then T' else T, ts⟩ ∧
    v' "CMP_CONFIG_LTO_REQUESTED" = some ((v "CMP_CONFIG_LTO_REQUESTED").getD "true") ∧
    v' "CMP_CONFIG_LTO_ENABLED" = some (if linkTimeOn e v then "true" else "false") ∧
    v' "CMAKE_INTERPROCEDURAL_OPTIMIZATION" =
      (if linkTimeOn e v then x else v "CMAKE_INTERPROCEDURAL_OPTIMIZATION") ∧
    ∀ n, n ≠ "CMP_CONFIG_LTO_REQUESTED" → n ≠ "CMP_CONFIG_LTO_ENABLED" → n ≠ "lto_supported" →
      n ≠ "CMAKE_INTERPROCEDURAL_OPTIMIZATION" → v' n = v n := by
  obtain ⟨v1, hv1⟩ : ∃ v1, v1 = (orElse v "CMP_CONFIG_LTO_REQUESTED" "true").set
    "CMP_CONFIG_LTO_ENABLED" "false" := ⟨_, rfl⟩
  have hreq : v1 "CMP_CONFIG_LTO_REQUESTED" = some ((v "CMP_CONFIG_LTO_REQUESTED").getD "true") := by
    rw [hv1, set_other (by decide), orElse_self]
  have hen : v1 "CMP_CONFIG_LTO_ENABLED" = some "false" := by rw [hv1, set_self]
  have hoth : ∀ n, n ≠ "CMP_CONFIG_LTO_REQUESTED" → n ≠ "CMP_CONFIG_LTO_ENABLED" → v1 n = v n :=
    fun n a b => by rw [hv1, set_other b, orElse_other a]
  have start : runAll e (linkTimeOptimisation enable) ⟨v, T, ts⟩ =
      if matchesPart "true".toList ((v "CMP_CONFIG_LTO_REQUESTED").getD "true").toList then
        runAll e [.checkLinkTime "lto_supported", .choose (.truth "lto_supported")
          [enable, .set "CMP_CONFIG_LTO_ENABLED" "true"] []] ⟨v1, T, ts⟩
      else some ⟨v1, T, ts⟩ := by
    have nil : runAll e [] = some := funext (runAll_nil e)
    rw [linkTimeOptimisation, runAll_cons, run_byDefault, Option.bind_some, runAll_cons, Command.run,
      Option.bind_some, runAll_cons, ← hv1, run_matches (s := ⟨v1, T, ts⟩) (by decide) hreq, nil]
    split
    · exact bind_some_of _
    · rfl
  rw [start]
  unfold linkTimeOn
  cases hm : matchesPart "true".toList ((v "CMP_CONFIG_LTO_REQUESTED").getD "true").toList with
  | false =>
    refine ⟨v1, rfl, hreq, hen, hoth _ (by decide) (by decide), fun n a b _ _ => hoth n a b⟩
  | true =>
    rw [if_pos rfl]
    cases hl : e.linkTime with
    | false =>
      refine ⟨v1.set "lto_supported" "NO", ?_, ?_, ?_, ?_, ?_⟩
      · simp [runAll_cons, Command.run, hl, Condition.holds, set_self, falseValues, runAll_nil]
      · rw [set_other (by decide), hreq]
      · rw [set_other (by decide), hen]; rfl
      · rw [set_other (by decide)]; exact hoth _ (by decide) (by decide)
      · intro n a b c _
        rw [set_other c, hoth n a b]
    | true =>
      refine ⟨(w (v1.set "lto_supported" "YES")).set "CMP_CONFIG_LTO_ENABLED" "true", ?_, ?_, ?_, ?_, ?_⟩
      · simp [runAll_cons, Command.run, hl, Condition.holds, set_self, falseValues, runAll_nil, he]
      · rw [set_other (by decide), hw _ _ (by decide), set_other (by decide), hreq]
      · exact set_self _ _ _
      · rw [set_other (by decide)]
        exact hx _ (by rw [set_other (by decide)]; exact hoth _ (by decide) (by decide))
      · intro n a b c d
        rw [set_other b, hw _ _ d, set_other c, hoth n a b]

/-- The options for the compiler. -/
def optionsFor (v : Variables) : List String :=
  let msvc := decide ((v "CMAKE_CXX_COMPILER_ID").getD "CMAKE_CXX_COMPILER_ID" = "MSVC")
  (if msvc then ["/utf-8"] else []) ++
    if (v "CMP_DEV").isSome then if msvc then ["/W4"] else ["-Wall", "-Wextra", "-pedantic"] else []

theorem run_compilerOptions (e : Machine) (v : Variables) (t : Target) (ts) (h : t.name = "cmp") :
    runAll e compilerOptions ⟨v, [t], ts⟩ =
      some ⟨v, [{ t with options := t.options ++ optionsFor v }], ts⟩ := by
  obtain ⟨tn, tk, tf, td, to', tl, tt, tc⟩ := t
  obtain rfl : tn = "cmp" := h
  unfold compilerOptions optionsFor
  by_cases hm : (v "CMAKE_CXX_COMPILER_ID").getD "CMAKE_CXX_COMPILER_ID" = "MSVC" <;>
    cases hd : v "CMP_DEV" <;>
    simp [runAll_cons, Command.run, Condition.holds, Argument.text, operand, hm, hd, runAll_nil,
      State.modify]

/-- The settings that are passed on. -/
def constantsOf (v : Variables) : List (String × String) :=
  (["CMP_CONFIG_HEADER_ONLY", "CMP_CONFIG_DEFAULT_BUFFER_CAPACITY",
    "CMP_CONFIG_DEFAULT_STDOUT_BUFFER_CAPACITY", "CMP_CONFIG_DEFAULT_STDERR_BUFFER_CAPACITY",
    "CMP_CONFIG_DEFAULT_STDIN_BUFFER_CAPACITY"].flatMap fun n => ((v n).map (n, ·)).toList) ++
  [("CMP_CONFIG_DESKTOP_GUI_PACKAGE_EXCLUDED",
      (v "CMP_CONFIG_DESKTOP_GUI_PACKAGE_EXCLUDED").getD ""),
    ("CMP_CONFIG_IO_PACKAGE_EXCLUDED", (v "CMP_CONFIG_IO_PACKAGE_EXCLUDED").getD ""),
    ("CMP_CONFIG_LTO_REQUESTED", (v "CMP_CONFIG_LTO_REQUESTED").getD ""),
    ("CMP_CONFIG_LTO_ENABLED", (v "CMP_CONFIG_LTO_ENABLED").getD "")]

theorem run_passOn (e : Machine) (v : Variables) (t : Target) (ts) (h : t.name = "cmp") (n : String) :
    (passOn n).run e ⟨v, [t], ts⟩ =
      some ⟨v, [{ t with definitions := t.definitions ++ ((v n).map (n, ·)).toList }], ts⟩ := by
  obtain ⟨tn, tk, tf, td, to', tl, tt, tc⟩ := t
  obtain rfl : tn = "cmp" := h
  unfold passOn
  cases hv : v n <;>
    simp [Command.run, Condition.holds, hv, runAll_cons, runAll_nil, State.modify, Argument.text]

theorem run_passOnAlways (e : Machine) (v : Variables) (t : Target) (ts) (h : t.name = "cmp")
    (n : String) : (passOnAlways n).run e ⟨v, [t], ts⟩ =
      some ⟨v, [{ t with definitions := t.definitions ++ [(n, (v n).getD "")] }], ts⟩ := by
  simp [passOnAlways, Command.run, State.modify, h, Argument.text]

theorem run_constants (e : Machine) (v : Variables) (t : Target) (ts) (h : t.name = "cmp") :
    runAll e constants ⟨v, [t], ts⟩ =
      some ⟨v, [{ t with definitions := t.definitions ++ constantsOf v }], ts⟩ := by
  simp only [constants, runAll_cons, run_passOn, run_passOnAlways, h, Option.bind_some, runAll_nil,
    constantsOf, List.flatMap_cons, List.flatMap_nil, List.append_assoc, List.cons_append, List.nil_append,
    List.append_nil]

/-- What the library is linked with. -/
def linksOf (sys g : String) : List String :=
  (if matchesPart "Darwin".toList sys.toList && matchesPart "false".toList g.toList then
    ["-framework AppKit"] else []) ++
  if (matchesPart "Linux".toList sys.toList || matchesPart "FreeBSD".toList sys.toList) &&
    matchesPart "false".toList g.toList then ["PkgConfig::GTK4"] else []

/-- Whether GTK has to be there. -/
def wantsGtk (sys g : String) : Bool :=
  (matchesPart "Linux".toList sys.toList || matchesPart "FreeBSD".toList sys.toList) &&
    matchesPart "false".toList g.toList

theorem run_dependencies {e : Machine} {v : Variables} {t : Target} {ts} (h : t.name = "cmp")
    {sys g : String} (hs : v "CMAKE_SYSTEM_NAME" = some sys) (hv : v sys = none) (hne : sys ≠ "")
    (hg : v "CMP_CONFIG_DESKTOP_GUI_PACKAGE_EXCLUDED" = some g) :
    runAll e dependencies ⟨v, [t], ts⟩ =
      if wantsGtk sys g && !(e.packages.contains "PkgConfig" && e.packages.contains "gtk4") then none
      else some ⟨v, [{ t with
        links := t.links ++ linksOf sys g,
        options := t.options ++ if matchesPart "Darwin".toList sys.toList &&
          matchesPart "false".toList g.toList then ["-ObjC++"] else [] }], ts⟩ := by
  have hsys : ∀ p, (system p).holds v = some (matchesPart p.toList sys.toList) := by
    intro p
    simp [system, Condition.holds, Argument.text, operand, hs, hv, hne]
  have hgui : usesGui.holds v = some (matchesPart "false".toList g.toList) := by
    simp [usesGui, Condition.holds, Argument.text, operand, hg]
  obtain ⟨tn, tk, tf, td, to', tl, tt, tc⟩ := t
  obtain rfl : tn = "cmp" := h
  unfold dependencies linksOf wantsGtk
  have hD := hsys "Darwin"
  have hL := hsys "Linux"
  have hF := hsys "FreeBSD"
  clear hsys
  generalize matchesPart "Darwin".toList sys.toList = D at *
  generalize matchesPart "Linux".toList sys.toList = L at *
  generalize matchesPart "FreeBSD".toList sys.toList = F at *
  generalize matchesPart "false".toList g.toList = G at *
  by_cases hP : "PkgConfig" ∈ e.packages <;> by_cases hQ : "gtk4" ∈ e.packages <;>
    cases D <;> cases L <;> cases F <;> cases G <;>
    simp [runAll_cons, Command.run, Condition.holds, hD, hL, hF, hgui, runAll_nil, State.modify, hP, hQ]

/-- Where the library is copied to. -/
def copiesOf (v : Variables) (b : String) : List String :=
  if matchesPart "false".toList b.toList then
    ["tests/automated", "tests/manual", "."] ++
      if (v "CMP_DEV").isSome then ["examples/unicode_stdio_example", "examples/desktop_gui_example",
        "../[unreleased]/lib", "../[unreleased]/app"] else []
  else []

theorem run_copies {e : Machine} {v : Variables} {t : Target} {ts} (h : t.name = "cmp") {b : String}
    (hb : v "CMP_BUILD_STATIC" = some b) :
    runAll e copies ⟨v, [t], ts⟩ =
      some ⟨v, [{ t with copies := t.copies ++ copiesOf v b }], ts⟩ := by
  simp only [copies, runAll_cons]
  rw [run_matches (by decide) hb]
  obtain ⟨tn, tk, tf, td, to', tl, tt, tc⟩ := t
  obtain rfl : tn = "cmp" := h
  unfold copiesOf
  cases matchesPart "false".toList b.toList <;> cases hd : v "CMP_DEV" <;>
    simp [runAll_cons, runAll_nil, Command.run, Condition.holds, hd, State.modify]

/-- The settings of the library. -/
def settingsOf (e : Machine) (v : Variables) : List (String × String) :=
  (["CMP_CONFIG_HEADER_ONLY", "CMP_CONFIG_DEFAULT_BUFFER_CAPACITY",
    "CMP_CONFIG_DEFAULT_STDOUT_BUFFER_CAPACITY", "CMP_CONFIG_DEFAULT_STDERR_BUFFER_CAPACITY",
    "CMP_CONFIG_DEFAULT_STDIN_BUFFER_CAPACITY"].flatMap fun n => ((v n).map (n, ·)).toList) ++
  [("CMP_CONFIG_DESKTOP_GUI_PACKAGE_EXCLUDED",
      (v "CMP_CONFIG_DESKTOP_GUI_PACKAGE_EXCLUDED").getD "false"),
    ("CMP_CONFIG_IO_PACKAGE_EXCLUDED", (v "CMP_CONFIG_IO_PACKAGE_EXCLUDED").getD "false"),
    ("CMP_CONFIG_LTO_REQUESTED", (v "CMP_CONFIG_LTO_REQUESTED").getD "true"),
    ("CMP_CONFIG_LTO_ENABLED", if linkTimeOn e v then "true" else "false")]

/-- The library. -/
def libraryOf (e : Machine) (v : Variables) (sys : String) : Target :=
  let b := (v "CMP_BUILD_STATIC").getD "false"
  let g := (v "CMP_CONFIG_DESKTOP_GUI_PACKAGE_EXCLUDED").getD "false"
  let isStatic := matchesPart "true".toList b.toList
  { name := "cmp"
    kind := if isStatic then .staticLibrary else .sharedLibrary
    sources := librarySources
    definitions := kindDefinitions isStatic ++ settingsOf e v
    options := optionsFor v ++ if matchesPart "Darwin".toList sys.toList &&
      matchesPart "false".toList g.toList then ["-ObjC++"] else []
    links := linksOf sys g
    linkTime := initially v || linkTimeOn e v
    copies := copiesOf v b }

/-- Whether configuring fails for want of GTK. -/
def lacksGtk (e : Machine) (v : Variables) (sys : String) : Bool :=
  wantsGtk sys ((v "CMP_CONFIG_DESKTOP_GUI_PACKAGE_EXCLUDED").getD "false") &&
    !(e.packages.contains "PkgConfig" && e.packages.contains "gtk4")

theorem run_api {e : Machine} {v : Variables} {sys : String} (h : On v sys) (ts) : ∃ v',
    runAll e api ⟨v, [], ts⟩ =
      if lacksGtk e v sys then none else some ⟨v', [libraryOf e v sys], ts⟩ := by
  have hp := h.proper.2
  simp only [setByBuild, List.mem_cons, List.not_mem_nil, or_false, not_or] at hp
  obtain ⟨p1, p2, p3, p4, p5, p6, p7, -⟩ := hp
  obtain ⟨v1, r1, g1, i1, b1, o1⟩ := run_defaults e v [] ts
  have r2 := run_library (e := e) (ts := ts) b1
  have ini : initially v1 = initially v := by
    unfold initially
    rw [o1 _ (by decide) (by decide) (by decide)]
  obtain ⟨isStatic, hst⟩ : ∃ x, x =
    matchesPart "true".toList ((v "CMP_BUILD_STATIC").getD "false").toList := ⟨_, rfl⟩
  rw [← hst] at r2
  obtain ⟨v2, r3, q2, n2, m2, o2⟩ := run_linkTime e (.linkTime "cmp") v1 [bareLibrary isStatic v1] ts
    (T' := [{ bareLibrary isStatic v1 with linkTime := true }]) (w := id)
    (x := v1 "CMAKE_INTERPROCEDURAL_OPTIMIZATION")
    (fun v1' => by simp [Command.run, modify_one, bareLibrary]) (fun _ _ _ => rfl) (fun _ h => h)
  have hon : linkTimeOn e v1 = linkTimeOn e v := by
    unfold linkTimeOn
    rw [o1 _ (by decide) (by decide) (by decide)]
  rw [hon] at r3 n2 m2
  have t3 : (if linkTimeOn e v then [{ bareLibrary isStatic v1 with linkTime := true }]
      else [bareLibrary isStatic v1]) =
      [{ bareLibrary isStatic v1 with linkTime := initially v || linkTimeOn e v }] := by
    cases linkTimeOn e v <;> simp [bareLibrary, ini]
  rw [t3] at r3
  have v2v : ∀ n, n ≠ "CMP_CONFIG_DESKTOP_GUI_PACKAGE_EXCLUDED" → n ≠ "CMP_CONFIG_IO_PACKAGE_EXCLUDED" →
      n ≠ "CMP_BUILD_STATIC" → n ≠ "CMP_CONFIG_LTO_REQUESTED" → n ≠ "CMP_CONFIG_LTO_ENABLED" →
      n ≠ "lto_supported" → n ≠ "CMAKE_INTERPROCEDURAL_OPTIMIZATION" → v2 n = v n :=
    fun n a b c d e f g => by rw [o2 n d e f g, o1 n a b c]
  have g2 := (o2 _ (by decide) (by decide) (by decide) (by decide)).trans g1
  have i2 := (o2 _ (by decide) (by decide) (by decide) (by decide)).trans i1
  have b2 := (o2 _ (by decide) (by decide) (by decide) (by decide)).trans b1
  have q2' : v2 "CMP_CONFIG_LTO_REQUESTED" = some ((v "CMP_CONFIG_LTO_REQUESTED").getD "true") := by
    rw [q2, o1 _ (by decide) (by decide) (by decide)]
  have hopt : optionsFor v2 = optionsFor v := by
    unfold optionsFor
    rw [v2v "CMP_DEV" (by decide) (by decide) (by decide) (by decide) (by decide) (by decide) (by decide),
      v2v "CMAKE_CXX_COMPILER_ID" (by decide) (by decide) (by decide) (by decide) (by decide) (by decide)
        (by decide)]
  have hcon : constantsOf v2 = settingsOf e v := by
    unfold constantsOf settingsOf
    rw [g2, i2, q2', n2]
    simp only [List.flatMap_cons, List.flatMap_nil, Option.getD_some]
    rw [v2v "CMP_CONFIG_HEADER_ONLY" (by decide) (by decide) (by decide) (by decide) (by decide)
        (by decide) (by decide),
      v2v "CMP_CONFIG_DEFAULT_BUFFER_CAPACITY" (by decide) (by decide) (by decide) (by decide)
        (by decide) (by decide) (by decide),
      v2v "CMP_CONFIG_DEFAULT_STDOUT_BUFFER_CAPACITY" (by decide) (by decide) (by decide) (by decide)
        (by decide) (by decide) (by decide),
      v2v "CMP_CONFIG_DEFAULT_STDERR_BUFFER_CAPACITY" (by decide) (by decide) (by decide) (by decide)
        (by decide) (by decide) (by decide),
      v2v "CMP_CONFIG_DEFAULT_STDIN_BUFFER_CAPACITY" (by decide) (by decide) (by decide) (by decide)
        (by decide) (by decide) (by decide)]
  have hcop : ∀ b, copiesOf v2 b = copiesOf v b := by
    intro b
    unfold copiesOf
    rw [v2v "CMP_DEV" (by decide) (by decide) (by decide) (by decide) (by decide) (by decide) (by decide)]
  have s2 : v2 "CMAKE_SYSTEM_NAME" = some sys := by
    rw [v2v "CMAKE_SYSTEM_NAME" (by decide) (by decide) (by decide) (by decide) (by decide) (by decide)
      (by decide), h.named]
  have f2 : v2 sys = none := by rw [v2v sys p1 p2 p3 p4 p5 p6 p7, h.free]
  refine ⟨v2, ?_⟩
  rw [api, runAll_append, runAll_append, runAll_append, runAll_append, runAll_append, runAll_append, r1,
    Option.bind_some, r2, Option.bind_some, r3, Option.bind_some, run_compilerOptions _ _ _ _ rfl,
    Option.bind_some, run_constants _ _ _ _ rfl, Option.bind_some,
    run_dependencies rfl s2 f2 h.proper.1 g2]
  unfold lacksGtk
  split
  · rfl
  · rw [Option.bind_some, run_copies rfl b2, hcop, hcon, hopt]
    simp only [libraryOf, bareLibrary, ← hst, List.nil_append]

end Cmp.Cmake
