/-
Lemmas about configuring the whole project: the programs.
-/
import Verif.Proofs.Cmake

namespace Cmp.Cmake

open Cmp.Spec

theorem modify_last {v : Variables} {T : List Target} {t : Target} {ts : List (String × String)}
    {n : String} (h : ∀ u ∈ T, u.name ≠ n) (hn : t.name = n) (f : Target → Target) :
    (⟨v, T ++ [t], ts⟩ : State).modify n f = some ⟨v, T ++ [f t], ts⟩ := by
  have e : (T.map fun u => if u.name = n then f u else u) = T := by
    conv => rhs; rw [← List.map_id T]
    exact List.map_congr_left fun u hu => if_neg (h u hu)
  simp [State.modify, hn, e]

theorem add_fresh {v : Variables} {T : List Target} {ts : List (String × String)} {n : String}
    (h : ∀ u ∈ T, u.name ≠ n) (k : Kind) (fs : List String) : (⟨v, T, ts⟩ : State).add n k fs =
      some ⟨v, T ++ [{ name := n, kind := k, sources := fs, linkTime := initially v }], ts⟩ := by
  have e : (T.any fun u => decide (u.name = n)) = false := by
    rw [List.any_eq_false]
    intro u hu
    simp [h u hu]
  simp [State.add, e, initially]

/-- A program that uses the library. -/
def programOf (linkTime : Bool) (name source : String) : Target where
  name := name
  kind := .program
  sources := [source]
  links := ["cmp"]
  linkTime := linkTime

/-- Whether the compiler is Visual C++. -/
def isMsvc (v : Variables) : Bool :=
  decide ((v "CMAKE_CXX_COMPILER_ID").getD "CMAKE_CXX_COMPILER_ID" = "MSVC")

/-- A program that uses the headers only. -/
def headerProgramOf (msvc linkTime : Bool) (name source : String) : Target where
  name := name
  kind := .program
  sources := [source]
  definitions := [("CMP_CONFIG_HEADER_ONLY", "true")]
  options := if msvc then ["/utf-8"] else []
  linkTime := linkTime

theorem run_program {e : Machine} {v : Variables} {T : List Target} {ts} {n : String}
    (h : ∀ u ∈ T, u.name ≠ n) (source : String) :
    runAll e (program n source) ⟨v, T, ts⟩ = some ⟨v, T ++ [programOf (initially v) n source], ts⟩ := by
  rw [program, runAll_cons, Command.run, add_fresh h, Option.bind_some, runAll_cons, Command.run,
    modify_last h rfl, Option.bind_some, runAll_nil]
  rfl

theorem run_headerProgram {e : Machine} {v : Variables} {T : List Target} {ts} {n : String}
    (h : ∀ u ∈ T, u.name ≠ n) (source : String) :
    runAll e (headerOnlyProgram n source) ⟨v, T, ts⟩ =
      some ⟨v, T ++ [headerProgramOf (isMsvc v) (initially v) n source], ts⟩ := by
  have hc : (Condition.equal (.word "CMAKE_CXX_COMPILER_ID") "MSVC").holds v = some (isMsvc v) := rfl
  rw [headerOnlyProgram, runAll_cons, Command.run, add_fresh h, Option.bind_some, runAll_cons,
    Command.run, modify_last h rfl, Option.bind_some, runAll_cons, Command.run, hc]
  cases hm : isMsvc v
  · simp only [runAll_nil, Option.bind_some]
    rfl
  · simp only [runAll_cons]
    rw [Command.run, modify_last h rfl]
    simp only [runAll_nil, Option.bind_some]
    rfl

theorem runAll_programs {α : Type} {e : Machine} {v : Variables} {cmds : α → List Command}
    {mk : α → Target} {tst : α → List (String × String)}
    (step : ∀ a T ts, (∀ t ∈ T, t.name ≠ (mk a).name) →
      runAll e (cmds a) ⟨v, T, ts⟩ = some ⟨v, T ++ [mk a], ts ++ tst a⟩) :
    ∀ (l : List α) (T ts), (l.map fun a => (mk a).name).Nodup →
      (∀ a ∈ l, ∀ t ∈ T, t.name ≠ (mk a).name) →
      runAll e (l.flatMap cmds) ⟨v, T, ts⟩ = some ⟨v, T ++ l.map mk, ts ++ l.flatMap tst⟩
  | [], T, ts, _, _ => by simp [runAll_nil]
  | a :: l, T, ts, hd, hf => by
    rw [List.map_cons, List.nodup_cons] at hd
    rw [List.flatMap_cons, runAll_append, step a T ts (hf a List.mem_cons_self), Option.bind_some,
      runAll_programs step l _ _ hd.2]
    · simp [List.append_assoc]
    · intro b hb t ht
      rcases List.mem_append.1 ht with ht | ht
      · exact hf b (List.mem_cons_of_mem _ hb) t ht
      · rw [List.mem_singleton.1 ht]
        intro heq
        exact hd.1 (heq ▸ List.mem_map.2 ⟨b, hb, rfl⟩)

/-- The tests that use the library. -/
def testPrograms (linkTime : Bool) : List Target :=
  automatedTests.map fun t => programOf linkTime ("test_" ++ t.2) (sourceOf t)

/-- The tests that use the headers only. -/
def headerTestPrograms (msvc linkTime : Bool) : List Target :=
  automatedTests.map fun t => headerProgramOf msvc linkTime ("ho_test_" ++ t.2) (sourceOf t)

/-- How the tests are called. -/
def testNames : List (String × String) :=
  automatedTests.map fun t => (t.2 ++ "_test", "test_" ++ t.2)

def headerTestNames : List (String × String) :=
  automatedTests.map fun t => ("ho_" ++ t.2 ++ "_test", "ho_test_" ++ t.2)

/-- Whether the tests that use the headers only are built. -/
def headerTestsOn (v : Variables) : Bool :=
  (v "CMP_DEV").isSome || matchesPart "true".toList ((v "CMP_BUILD_HO_TESTS").getD "false").toList

theorem run_headerOnlyTests (e : Machine) (v : Variables) (T ts) (cmds : List Command) : ∃ v',
    runAll e (headerOnlyTests cmds) ⟨v, T, ts⟩ =
      (if headerTestsOn v then runAll e cmds ⟨v', T, ts⟩ else some ⟨v', T, ts⟩) ∧
    ∀ n, n ≠ "CMP_BUILD_HO_TESTS" → v' n = v n := by
  have nil : runAll e [] = some := funext (runAll_nil e)
  obtain ⟨v1, hv1⟩ : ∃ v1, v1 = orElse v "CMP_BUILD_HO_TESTS" "false" := ⟨_, rfl⟩
  have hd : v1 "CMP_DEV" = v "CMP_DEV" := by rw [hv1, orElse_other (by decide)]
  have hh : v1 "CMP_BUILD_HO_TESTS" = some ((v "CMP_BUILD_HO_TESTS").getD "false") := by
    rw [hv1, orElse_self]
  have ho : ∀ n, n ≠ "CMP_BUILD_HO_TESTS" → v1 n = v n := fun n hn => by rw [hv1, orElse_other hn]
  unfold headerTestsOn
  cases hdev : v "CMP_DEV" with
  | none =>
    refine ⟨v1, ?_, ho⟩
    have e1 : runAll e (headerOnlyTests cmds) ⟨v, T, ts⟩ =
        ((ifMatches "CMP_BUILD_HO_TESTS" "true" cmds []).run e ⟨v1, T, ts⟩).bind (runAll e []) := by
      simp [headerOnlyTests, runAll_cons, run_byDefault, Command.run, Condition.holds, ← hv1, hd, hdev,
        runAll_nil]
    rw [e1, run_matches (s := ⟨v1, T, ts⟩) (by decide) hh, nil, bind_some_of]
    simp
  | some x =>
    refine ⟨v1.set "CMP_BUILD_HO_TESTS" "true", ?_, fun n hn => by rw [set_other hn, ho n hn]⟩
    have e1 : runAll e (headerOnlyTests cmds) ⟨v, T, ts⟩ =
        ((ifMatches "CMP_BUILD_HO_TESTS" "true" cmds []).run e
          ⟨v1.set "CMP_BUILD_HO_TESTS" "true", T, ts⟩).bind (runAll e []) := by
      simp [headerOnlyTests, runAll_cons, run_byDefault, Command.run, Condition.holds, ← hv1, hd, hdev,
        runAll_nil]
    have e2 : matchesPart "true".toList "true".toList = true := by decide
    rw [e1, run_matches (x := "true") (s := ⟨v1.set "CMP_BUILD_HO_TESTS" "true", T, ts⟩) (by decide)
      (set_self v1 "CMP_BUILD_HO_TESTS" "true"), nil, bind_some_of, e2]
    rfl

theorem initially_congr {v v' : Variables}
    (h : v' "CMAKE_INTERPROCEDURAL_OPTIMIZATION" = v "CMAKE_INTERPROCEDURAL_OPTIMIZATION") :
    initially v' = initially v := by unfold initially; rw [h]

theorem isMsvc_congr {v v' : Variables} (h : v' "CMAKE_CXX_COMPILER_ID" = v "CMAKE_CXX_COMPILER_ID") :
    isMsvc v' = isMsvc v := by unfold isMsvc; rw [h]

theorem mem_programs {p : Target} {b : Bool} (h : p ∈ testPrograms b) :
    ∃ t ∈ automatedTests, p = programOf b ("test_" ++ t.2) (sourceOf t) := by
  obtain ⟨t, ht, rfl⟩ := List.mem_map.1 h
  exact ⟨t, ht, rfl⟩

theorem run_automated {e : Machine} {v : Variables} {T : List Target} {ts}
    (h1 : ∀ t ∈ automatedTests, ∀ u ∈ T, u.name ≠ "test_" ++ t.2)
    (h2 : ∀ t ∈ automatedTests, ∀ u ∈ T, u.name ≠ "ho_test_" ++ t.2) : ∃ v',
    runAll e automated ⟨v, T, ts⟩ = some ⟨v', T ++ testPrograms (initially v) ++
        (if headerTestsOn v then headerTestPrograms (isMsvc v) (initially v) else []),
      ts ++ testNames ++ if headerTestsOn v then headerTestNames else []⟩ := by
  have r1 := runAll_programs (e := e) (v := v)
    (cmds := fun t : String × String => program ("test_" ++ t.2) (sourceOf t) ++
      [.test (t.2 ++ "_test") ("test_" ++ t.2)])
    (mk := fun t => programOf (initially v) ("test_" ++ t.2) (sourceOf t))
    (tst := fun t => [(t.2 ++ "_test", "test_" ++ t.2)])
    (fun a T ts h => by
      rw [runAll_append, run_program (n := "test_" ++ a.2) h, Option.bind_some, runAll_cons, Command.run, Option.bind_some,
        runAll_nil]) automatedTests T ts
    (by
      change (automatedTests.map fun t => "test_" ++ t.2).Nodup
      decide +kernel) h1
  obtain ⟨v', r2, hv⟩ := run_headerOnlyTests e v (T ++ testPrograms (initially v)) (ts ++ testNames)
    (automatedTests.flatMap fun t => headerOnlyProgram ("ho_test_" ++ t.2) (sourceOf t) ++
      [.test ("ho_" ++ t.2 ++ "_test") ("ho_test_" ++ t.2)])
  refine ⟨v', ?_⟩
  have e1 : automatedTests.flatMap (fun t => [(t.2 ++ "_test", "test_" ++ t.2)]) = testNames := by
    decide +kernel
  have e2 : automatedTests.flatMap (fun t => [("ho_" ++ t.2 ++ "_test", "ho_test_" ++ t.2)]) =
      headerTestNames := by decide +kernel
  rw [e1] at r1
  have r1' : runAll e (automatedTests.flatMap fun t => program ("test_" ++ t.2) (sourceOf t) ++
      [.test (t.2 ++ "_test") ("test_" ++ t.2)]) ⟨v, T, ts⟩ =
      some ⟨v, T ++ testPrograms (initially v), ts ++ testNames⟩ := r1
  rw [automated, runAll_append, r1', Option.bind_some, r2]
  cases headerTestsOn v with
  | false => simp
  | true =>
    have r3 := runAll_programs (e := e) (v := v')
      (cmds := fun t : String × String => headerOnlyProgram ("ho_test_" ++ t.2) (sourceOf t) ++
        [.test ("ho_" ++ t.2 ++ "_test") ("ho_test_" ++ t.2)])
      (mk := fun t => headerProgramOf (isMsvc v') (initially v') ("ho_test_" ++ t.2) (sourceOf t))
      (tst := fun t => [("ho_" ++ t.2 ++ "_test", "ho_test_" ++ t.2)])
      (fun a T ts h => by
        rw [runAll_append, run_headerProgram (n := "ho_test_" ++ a.2) h, Option.bind_some, runAll_cons,
          Command.run, Option.bind_some, runAll_nil]) automatedTests (T ++ testPrograms (initially v)) (ts ++ testNames)
      (by
        change (automatedTests.map fun t => "ho_test_" ++ t.2).Nodup
        decide +kernel)
      (by
        intro t ht u hu
        rcases List.mem_append.1 hu with hu | hu
        · exact h2 t ht u hu
        · obtain ⟨t', ht', rfl⟩ := mem_programs hu
          have : ∀ a ∈ automatedTests, ∀ b ∈ automatedTests, "test_" ++ a.2 ≠ "ho_test_" ++ b.2 := by
            decide +kernel
          exact this t' ht' t ht)
    rw [e2, initially_congr (hv _ (by decide)), isMsvc_congr (hv _ (by decide))] at r3
    rw [if_pos rfl, r3, if_pos rfl, if_pos rfl]
    rfl

/-- The manual tests. -/
def manualPrograms (linkTime : Bool) : List Target :=
  [programOf linkTime "test_platform" "test_platform.cpp", programOf linkTime "test_uio" "test_uio.cpp"]

def headerManualPrograms (msvc linkTime : Bool) : List Target :=
  [headerProgramOf msvc linkTime "ho_test_platform" "test_platform.cpp",
    headerProgramOf msvc linkTime "ho_test_uio" "test_uio.cpp"]

theorem run_manual {e : Machine} {v : Variables} {T : List Target} {ts}
    (h : ∀ n ∈ ["test_platform", "test_uio", "ho_test_platform", "ho_test_uio"], ∀ u ∈ T, u.name ≠ n) :
    ∃ v', runAll e manual ⟨v, T, ts⟩ = some ⟨v', T ++ manualPrograms (initially v) ++
        (if headerTestsOn v then headerManualPrograms (isMsvc v) (initially v) else []), ts⟩ := by
  obtain ⟨v', r2, hv⟩ := run_headerOnlyTests e v (T ++ manualPrograms (initially v)) ts
    (headerOnlyProgram "ho_test_platform" "test_platform.cpp" ++
      headerOnlyProgram "ho_test_uio" "test_uio.cpp")
  refine ⟨v', ?_⟩
  rw [manual, runAll_append, runAll_append, run_program (h _ (by decide)), Option.bind_some,
    run_program, Option.bind_some]
  · have e1 : T ++ [programOf (initially v) "test_platform" "test_platform.cpp"] ++
        [programOf (initially v) "test_uio" "test_uio.cpp"] = T ++ manualPrograms (initially v) := by
      simp [manualPrograms]
    rw [e1, r2]
    cases headerTestsOn v with
    | false => simp
    | true =>
      rw [if_pos rfl, if_pos rfl, runAll_append, run_headerProgram, Option.bind_some, run_headerProgram,
        initially_congr (hv _ (by decide)), isMsvc_congr (hv _ (by decide))]
      · simp [headerManualPrograms]
      · intro u hu
        simp only [List.mem_append, manualPrograms, List.mem_cons, List.not_mem_nil, or_false] at hu
        rcases hu with (hu | rfl | rfl) | rfl
        · exact h _ (by decide) u hu
        all_goals simp [programOf, headerProgramOf]
      · intro u hu
        simp only [List.mem_append, manualPrograms, List.mem_cons, List.not_mem_nil, or_false] at hu
        rcases hu with hu | rfl | rfl
        · exact h _ (by decide) u hu
        all_goals simp [programOf]
  · intro u hu
    simp only [List.mem_append, List.mem_cons, List.not_mem_nil, or_false] at hu
    rcases hu with hu | rfl
    · exact h _ (by decide) u hu
    · simp [programOf]

theorem run_subdirectory {e : Machine} {cs : List Command} {s s' : State} (h : runAll e cs s = some s') :
    (Command.subdirectory cs).run e s = some { s' with variables := s.variables } := by
  rw [Command.run, h]

theorem run_optimisation (e : Machine) (v : Variables) (T ts) : ∃ v',
    runAll e (linkTimeOptimisation (.set "CMAKE_INTERPROCEDURAL_OPTIMIZATION" "TRUE")) ⟨v, T, ts⟩ =
      some ⟨v', T, ts⟩ ∧ initially v' = (initially v || linkTimeOn e v) ∧ isMsvc v' = isMsvc v ∧
    v' "CMP_DEV" = v "CMP_DEV" ∧ headerTestsOn v' = headerTestsOn v := by
  obtain ⟨v', r, -, -, i, o⟩ := run_linkTime e (.set "CMAKE_INTERPROCEDURAL_OPTIMIZATION" "TRUE") v T ts
    (T' := T) (w := fun v => v.set "CMAKE_INTERPROCEDURAL_OPTIMIZATION" "TRUE") (x := some "TRUE")
    (fun v1 => by rw [Command.run]) (fun v1 n hn => set_other hn) (fun v1 _ => set_self _ _ _)
  rw [ite_self] at r
  have hd := o "CMP_DEV" (by decide) (by decide) (by decide) (by decide)
  refine ⟨v', r, ?_, isMsvc_congr (o _ (by decide) (by decide) (by decide) (by decide)), hd, ?_⟩
  · unfold initially
    rw [i]
    cases linkTimeOn e v
    · simp
    · simp [falseValues]
  · unfold headerTestsOn
    rw [hd, o "CMP_BUILD_HO_TESTS" (by decide) (by decide) (by decide) (by decide)]

/-- The names of the targets of the tests that are automated. -/
def automatedNames : List String :=
  automatedTests.map (fun t => "test_" ++ t.2) ++ automatedTests.map fun t => "ho_test_" ++ t.2

theorem name_of_automated {b m l : Bool} {u : Target}
    (h : u ∈ testPrograms l ++ if b then headerTestPrograms m l else []) : u.name ∈ automatedNames := by
  unfold automatedNames
  rcases List.mem_append.1 h with h | h
  · obtain ⟨t, ht, rfl⟩ := List.mem_map.1 h
    exact List.mem_append_left _ (List.mem_map.2 ⟨t, ht, rfl⟩)
  · cases b with
    | false => exact absurd h List.not_mem_nil
    | true =>
      obtain ⟨t, ht, rfl⟩ := List.mem_map.1 h
      exact List.mem_append_right _ (List.mem_map.2 ⟨t, ht, rfl⟩)

/-- The programs that test the library. -/
def allTests (e : Machine) (v : Variables) : List Target :=
  let l := initially v || linkTimeOn e v
  (testPrograms l ++ if headerTestsOn v then headerTestPrograms (isMsvc v) l else []) ++
    (manualPrograms l ++ if headerTestsOn v then headerManualPrograms (isMsvc v) l else [])

/-- The tests that are carried out. -/
def allTestNames (v : Variables) : List (String × String) :=
  testNames ++ if headerTestsOn v then headerTestNames else []

theorem run_tests {e : Machine} {v : Variables} {t : Target} {ts} (h : t.name = "cmp") : ∃ v',
    runAll e tests ⟨v, [t], ts⟩ = some ⟨v', [t] ++ allTests e v, ts ++ allTestNames v⟩ := by
  obtain ⟨v', r1, i, m, -, d⟩ := run_optimisation e v [t] ts
  have n1 : ∀ a ∈ automatedTests, "cmp" ≠ "test_" ++ a.2 := by decide +kernel
  have n2 : ∀ a ∈ automatedTests, "cmp" ≠ "ho_test_" ++ a.2 := by decide +kernel
  obtain ⟨v2, r2⟩ := run_automated (e := e) (v := v') (T := [t]) (ts := ts)
    (fun a ha u hu => by rw [List.mem_singleton.1 hu, h]; exact n1 a ha)
    (fun a ha u hu => by rw [List.mem_singleton.1 hu, h]; exact n2 a ha)
  have n3 : ∀ n ∈ ["test_platform", "test_uio", "ho_test_platform", "ho_test_uio"],
      "cmp" ≠ n ∧ n ∉ automatedNames := by decide +kernel
  obtain ⟨v3, r3⟩ := run_manual (e := e) (v := v')
    (T := [t] ++ testPrograms (initially v') ++
      if headerTestsOn v' then headerTestPrograms (isMsvc v') (initially v') else [])
    (ts := ts ++ testNames ++ if headerTestsOn v' then headerTestNames else [])
    (fun n hn u hu => by
      rw [List.append_assoc] at hu
      rcases List.mem_append.1 hu with hu | hu
      · rw [List.mem_singleton.1 hu, h]
        exact (n3 n hn).1
      · intro heq
        exact (n3 n hn).2 (heq ▸ name_of_automated hu))
  refine ⟨v', ?_⟩
  rw [tests, runAll_append, r1, Option.bind_some, runAll_cons, run_subdirectory r2, Option.bind_some,
    runAll_cons, run_subdirectory r3, Option.bind_some, runAll_nil]
  simp only [allTests, allTestNames, i, m, d, List.append_assoc]

/-- The examples. -/
def examplePrograms (linkTime : Bool) : List Target :=
  [programOf linkTime "desktop_gui_example" "src/main.cpp",
    programOf linkTime "unicode_stdio_example" "src/main.cpp"]

theorem run_example {e : Machine} {v : Variables} {T : List Target} {ts} {n : String}
    (hd : v "CMP_DEV" ≠ none) (h : ∀ u ∈ T, u.name ≠ n) :
    runAll e (exampleProgram n) ⟨v, T, ts⟩ =
      some ⟨v, T ++ [programOf (initially v) n "src/main.cpp"], ts⟩ := by
  obtain ⟨x, hx⟩ := Option.ne_none_iff_exists'.1 hd
  have hc : (Condition.notDefined "CMP_DEV").holds v = some false := by simp [Condition.holds, hx]
  rw [exampleProgram, runAll_cons, Command.run, hc]
  simp only [runAll_nil, Option.bind_some]
  exact run_program h _

theorem run_examples {e : Machine} {v : Variables} {T : List Target} {ts} (hd : v "CMP_DEV" ≠ none)
    (h : ∀ u ∈ T, u.name ≠ "desktop_gui_example" ∧ u.name ≠ "unicode_stdio_example") : ∃ v',
    runAll e examples ⟨v, T, ts⟩ =
      some ⟨v', T ++ examplePrograms (initially v || linkTimeOn e v), ts⟩ := by
  obtain ⟨v', r1, i, -, d, -⟩ := run_optimisation e v T ts
  rw [← d] at hd
  refine ⟨v', ?_⟩
  rw [examples, runAll_append, r1, Option.bind_some, runAll_cons,
    run_subdirectory (run_example hd fun u hu => (h u hu).1), Option.bind_some, runAll_cons,
    run_subdirectory (run_example hd _), Option.bind_some, runAll_nil]
  · simp [examplePrograms, i]
  · intro u hu
    rcases List.mem_append.1 hu with hu | hu
    · exact (h u hu).2
    · rw [List.mem_singleton.1 hu]
      simp [programOf]

theorem name_of_test {e : Machine} {v : Variables} {u : Target} (h : u ∈ allTests e v) :
    u.name ∈ automatedNames ++ ["test_platform", "test_uio", "ho_test_platform", "ho_test_uio"] := by
  rcases List.mem_append.1 h with h | h
  · exact List.mem_append_left _ (name_of_automated h)
  · refine List.mem_append_right _ ?_
    rcases List.mem_append.1 h with h | h
    · simp only [manualPrograms, List.mem_cons, List.not_mem_nil, or_false] at h
      rcases h with rfl | rfl <;> simp [programOf]
    · cases hb : headerTestsOn v with
      | false => rw [hb] at h; exact absurd h List.not_mem_nil
      | true =>
        rw [hb] at h
        simp only [headerManualPrograms, if_true, List.mem_cons, List.not_mem_nil, or_false] at h
        rcases h with rfl | rfl <;> simp [headerProgramOf]

/-- All targets of the project. -/
def allTargets (e : Machine) (v : Variables) (sys : String) : List Target :=
  [libraryOf e v sys] ++ allTests e v ++
    if (v "CMP_DEV").isSome then examplePrograms (initially v || linkTimeOn e v) else []

theorem configure_project {e : Machine} {v : Variables} {sys : String} (h : On v sys) :
    configure e project v =
      if lacksGtk e v sys then none else some ⟨v, allTargets e v sys, allTestNames v⟩ := by
  obtain ⟨v1, r1⟩ := run_api (e := e) h []
  unfold configure
  rw [project, runAll_cons, Command.run, r1]
  cases lacksGtk e v sys with
  | true => rfl
  | false =>
    obtain ⟨v2, r2⟩ := run_tests (e := e) (v := v) (t := libraryOf e v sys) (ts := []) rfl
    simp only [Bool.false_eq_true, if_false, Option.bind_some]
    rw [runAll_cons, run_subdirectory r2, Option.bind_some, runAll_cons, Command.run]
    unfold allTargets
    cases hd : v "CMP_DEV" with
    | none => simp [Condition.holds, hd, runAll_nil]
    | some x =>
      have n1 : ∀ n ∈ automatedNames ++ ["test_platform", "test_uio", "ho_test_platform", "ho_test_uio"],
          n ≠ "desktop_gui_example" ∧ n ≠ "unicode_stdio_example" := by decide +kernel
      obtain ⟨v3, r3⟩ := run_examples (e := e) (v := v) (T := [libraryOf e v sys] ++ allTests e v)
        (ts := [] ++ allTestNames v) (by rw [hd]; simp)
        (by
          intro u hu
          rcases List.mem_append.1 hu with hu | hu
          · rw [List.mem_singleton.1 hu]
            simp [libraryOf]
          · exact n1 _ (name_of_test hu))
      have hc : (Condition.defined "CMP_DEV").holds v = some true := by simp [Condition.holds, hd]
      simp only [hc]
      rw [runAll_cons, run_subdirectory r3]
      simp [runAll_nil]

theorem configure_api {e : Machine} {v : Variables} {sys : String} (h : On v sys) : ∃ v',
    configure e api v =
      if lacksGtk e v sys then none else some ⟨v', [libraryOf e v sys], []⟩ := run_api h []

end Cmp.Cmake
