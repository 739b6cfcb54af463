/-
Lemmas about the macros that the targets are compiled with.
-/
import Verif.Proofs.CmakeProject

namespace Cmp.Cmake

open Cmp.Spec

theorem lookup_option (o : Option String) (n k : String) :
    ((o.map (n, ·)).toList).lookup k = if k = n then o else none := by
  cases o with
  | none => simp
  | some x =>
    by_cases h : k = n
    · subst h; simp
    · have : (k == n) = false := by simpa using h
      simp [this, h]

theorem commandLine_spec : ∀ (defs : List (String × String)) (p : Macros),
    (∀ d ∈ defs, token d.2 ≠ none) → (defs.map Prod.fst).Nodup →
    ∃ m, commandLine p defs = some m ∧
      ∀ n, m n = match defs.lookup n with | some x => some (token x) | none => p n
  | [], p, _, _ => ⟨p, rfl, fun n => rfl⟩
  | (n0, x) :: rest, p, ht, hd => by
    rw [List.map_cons, List.nodup_cons] at hd
    obtain ⟨t, hx⟩ := Option.ne_none_iff_exists'.1 (ht (n0, x) List.mem_cons_self)
    obtain ⟨m, hm, h⟩ := commandLine_spec rest (p.set n0 (some t))
      (fun d hd' => ht d (List.mem_cons_of_mem _ hd')) hd.2
    refine ⟨m, by rw [commandLine, hx]; exact hm, fun n => ?_⟩
    rw [h n]
    by_cases hn : n = n0
    · subst hn
      have e : rest.lookup n = none := by
        rw [List.lookup_eq_none_iff]
        intro q hq
        have : n ≠ q.1 := fun e => hd.1 (e ▸ List.mem_map.2 ⟨q, hq, rfl⟩)
        simpa using this
      have hx' : token x = some t := hx
      rw [e]
      simp [List.lookup, Macros.set, hx']
    · have : (n == n0) = false := by simpa using hn
      simp only [List.lookup, this]
      cases rest.lookup n <;> simp [Macros.set, hn]

/-- The names of the macros of the library. -/
def macroNames : List String := ["CMP_CONFIG_IS_STATIC", "CMP_CONFIG_IS_DYNAMIC",
  "CMP_CONFIG_HEADER_ONLY", "CMP_CONFIG_DEFAULT_BUFFER_CAPACITY",
  "CMP_CONFIG_DEFAULT_STDOUT_BUFFER_CAPACITY", "CMP_CONFIG_DEFAULT_STDERR_BUFFER_CAPACITY",
  "CMP_CONFIG_DEFAULT_STDIN_BUFFER_CAPACITY", "CMP_CONFIG_DESKTOP_GUI_PACKAGE_EXCLUDED",
  "CMP_CONFIG_IO_PACKAGE_EXCLUDED", "CMP_CONFIG_LTO_REQUESTED", "CMP_CONFIG_LTO_ENABLED"]

theorem names_sublist (e : Machine) (v : Variables) (sys : String) :
    ((libraryOf e v sys).definitions.map Prod.fst).Sublist macroNames := by
  have opt : ∀ (o : Option String) (n : String), ((o.map (n, ·)).toList.map Prod.fst).Sublist [n] := by
    intro o n
    cases o <;> simp
  simp only [libraryOf, settingsOf, kindDefinitions, List.map_append, List.flatMap_cons, List.flatMap_nil,
    List.map_cons, List.map_nil, macroNames, List.append_nil, List.append_assoc]
  exact (List.Sublist.refl ["CMP_CONFIG_IS_STATIC", "CMP_CONFIG_IS_DYNAMIC"]).append
    ((opt _ _).append ((opt _ _).append ((opt _ _).append ((opt _ _).append ((opt _ _).append
      (List.Sublist.refl _))))))

theorem names_nodup (e : Machine) (v : Variables) (sys : String) :
    ((libraryOf e v sys).definitions.map Prod.fst).Nodup :=
  (names_sublist e v sys).nodup (by decide +kernel)

theorem lookup_other {e : Machine} {v : Variables} {sys n : String} (h : n ∉ macroNames) :
    (libraryOf e v sys).definitions.lookup n = none := by
  rw [List.lookup_eq_none_iff]
  intro q hq
  have : n ≠ q.1 := fun e' =>
    h ((names_sublist e v sys).subset (e' ▸ List.mem_map.2 ⟨q, hq, rfl⟩))
  simpa using this

theorem lookup_settings (e : Machine) (v : Variables) (sys : String) :
    let l := (libraryOf e v sys).definitions
    l.lookup "CMP_CONFIG_IS_STATIC" = some (if matchesPart "true".toList
      ((v "CMP_BUILD_STATIC").getD "false").toList then "true" else "false") ∧
    l.lookup "CMP_CONFIG_IS_DYNAMIC" = some (if matchesPart "true".toList
      ((v "CMP_BUILD_STATIC").getD "false").toList then "false" else "true") ∧
    l.lookup "CMP_CONFIG_HEADER_ONLY" = v "CMP_CONFIG_HEADER_ONLY" ∧
    l.lookup "CMP_CONFIG_DEFAULT_BUFFER_CAPACITY" = v "CMP_CONFIG_DEFAULT_BUFFER_CAPACITY" ∧
    l.lookup "CMP_CONFIG_DEFAULT_STDOUT_BUFFER_CAPACITY" =
      v "CMP_CONFIG_DEFAULT_STDOUT_BUFFER_CAPACITY" ∧
    l.lookup "CMP_CONFIG_DEFAULT_STDERR_BUFFER_CAPACITY" =
      v "CMP_CONFIG_DEFAULT_STDERR_BUFFER_CAPACITY" ∧
    l.lookup "CMP_CONFIG_DEFAULT_STDIN_BUFFER_CAPACITY" = v "CMP_CONFIG_DEFAULT_STDIN_BUFFER_CAPACITY" ∧
    l.lookup "CMP_CONFIG_DESKTOP_GUI_PACKAGE_EXCLUDED" =
      some ((v "CMP_CONFIG_DESKTOP_GUI_PACKAGE_EXCLUDED").getD "false") ∧
    l.lookup "CMP_CONFIG_IO_PACKAGE_EXCLUDED" =
      some ((v "CMP_CONFIG_IO_PACKAGE_EXCLUDED").getD "false") ∧
    l.lookup "CMP_CONFIG_LTO_REQUESTED" = some ((v "CMP_CONFIG_LTO_REQUESTED").getD "true") ∧
    l.lookup "CMP_CONFIG_LTO_ENABLED" = some (if linkTimeOn e v then "true" else "false") := by
  simp only [libraryOf, settingsOf, kindDefinitions, List.flatMap_cons, List.flatMap_nil,
    List.lookup_append, lookup_option, List.lookup, List.append_nil]
  refine ⟨?_, ?_, ?_, ?_, ?_, ?_, ?_, ?_, ?_, ?_, ?_⟩ <;> simp [Option.or]
  all_goals cases v _ <;> rfl

theorem token_true : token "true" = some (.name "true") := by decide +kernel

theorem token_false : token "false" = some (.name "false") := by decide +kernel

theorem tokens {e : Machine} {v : Variables} {sys : String} {p : Macros} (h : Simple v p) :
    ∀ d ∈ (libraryOf e v sys).definitions, token d.2 ≠ none := by
  have given : ∀ n ∈ passedOn, ∀ x, v n = some x → token x ≠ none := by
    intro n hn x hx
    obtain ⟨t, ht, -⟩ := h n hn x hx
    rw [ht]
    simp
  have words : ∀ b : Bool, token (if b then "true" else "false") ≠ none := by
    intro b
    cases b <;> simp [token_true, token_false]
  have words' : ∀ b : Bool, token (if b then "false" else "true") ≠ none := by
    intro b
    cases b <;> simp [token_true, token_false]
  have orFalse : ∀ n ∈ passedOn, token ((v n).getD "false") ≠ none := by
    intro n hn
    cases hx : v n with
    | none => simp [token_false]
    | some x => exact given n hn x hx
  have orTrue : ∀ n ∈ passedOn, token ((v n).getD "true") ≠ none := by
    intro n hn
    cases hx : v n with
    | none => simp [token_true]
    | some x => exact given n hn x hx
  intro d hd
  simp only [libraryOf, settingsOf, kindDefinitions, List.flatMap_cons, List.flatMap_nil, List.mem_append,
    List.mem_cons, List.not_mem_nil, or_false, Option.mem_toList, Option.map_eq_some_iff] at hd
  rcases hd with (rfl | rfl) | (⟨x, hx, rfl⟩ | ⟨x, hx, rfl⟩ | ⟨x, hx, rfl⟩ | ⟨x, hx, rfl⟩ | ⟨x, hx, rfl⟩) |
    rfl | rfl | rfl | rfl
  · exact words _
  · exact words' _
  · exact given _ (by decide) x hx
  · exact given _ (by decide) x hx
  · exact given _ (by decide) x hx
  · exact given _ (by decide) x hx
  · exact given _ (by decide) x hx
  · exact orFalse _ (by decide)
  · exact orFalse _ (by decide)
  · exact orTrue _ (by decide)
  · exact words _

theorem names_reserved : ∀ n ∈ macroNames, Reserved n := by decide +kernel

/-- The library and the programs that link with it are compiled with the settings that were given. -/
theorem before_library {e : Machine} {v : Variables} {sys : String} {p : Macros} {s : System}
    (hp : CompilerFor s p) (h : Simple v p) :
    ∃ m, commandLine p (libraryOf e v sys).definitions = some m ∧ Before m (settings v) ∧ Targets m s := by
  obtain ⟨m, hm, hl⟩ := commandLine_spec (libraryOf e v sys).definitions p (tokens h) (names_nodup e v sys)
  have foreign : ∀ n, ¬ Reserved n → m n = p n := by
    intro n hn
    rw [hl n, lookup_other fun h => hn (names_reserved n h)]
  have plain : ∀ t, Plain p t → Plain m t := by
    intro t ht
    cases t with
    | int _ => trivial
    | text _ => exact ht
    | name k => exact ⟨by rw [foreign k ht.2, ht.1], ht.2⟩
  have mark : ∀ (t : System), ∀ n ∈ t.marks, m n = p n := by
    have : ∀ (t : System), ∀ n ∈ t.marks, ¬ Reserved n := by
      intro t
      cases t <;> decide +kernel
    exact fun t n hn => foreign n (this t n hn)
  obtain ⟨-, -, s1, s2, s3, s4, s5, s6, s7, -, -⟩ := lookup_settings e v sys
  have opt : ∀ n ∈ passedOn, Reserved n → (libraryOf e v sys).definitions.lookup n = v n →
      m n = ((v n).bind token).map some := by
    intro n hn hr hk
    rw [hl n, hk]
    cases hx : v n with
    | none => exact hp.free n hr
    | some x =>
      obtain ⟨t, ht, -⟩ := h n hn x hx
      simp [ht]
  have dfl : ∀ n ∈ passedOn, (libraryOf e v sys).definitions.lookup n = some ((v n).getD "false") →
      m n = (token ((v n).getD "false")).map some := by
    intro n hn hk
    rw [hl n, hk]
    cases hx : v n with
    | none => simp [token_false]
    | some x =>
      obtain ⟨t, ht, -⟩ := h n hn x hx
      simp [ht]
  refine ⟨m, hm, ⟨?_, ?_, ?_, ?_⟩, ?_, ?_⟩
  · intro q hq
    simp only [Settings.given, settings, List.mem_cons, List.not_mem_nil, or_false] at hq
    rcases hq with rfl | rfl | rfl | rfl | rfl | rfl | rfl
    · exact opt "CMP_CONFIG_HEADER_ONLY" (by decide) (by decide) s1
    · exact dfl "CMP_CONFIG_IO_PACKAGE_EXCLUDED" (by decide) s7
    · exact dfl "CMP_CONFIG_DESKTOP_GUI_PACKAGE_EXCLUDED" (by decide) s6
    · exact opt "CMP_CONFIG_DEFAULT_BUFFER_CAPACITY" (by decide) (by decide) s2
    · exact opt "CMP_CONFIG_DEFAULT_STDOUT_BUFFER_CAPACITY" (by decide) (by decide) s3
    · exact opt "CMP_CONFIG_DEFAULT_STDERR_BUFFER_CAPACITY" (by decide) (by decide) s4
    · exact opt "CMP_CONFIG_DEFAULT_STDIN_BUFFER_CAPACITY" (by decide) (by decide) s5
  · intro q hq t ht
    have po : ∀ n ∈ passedOn, (v n).bind token = some t → Plain m t := by
      intro n hn hb
      cases hx : v n with
      | none => rw [hx] at hb; cases hb
      | some x =>
        obtain ⟨t', ht', hpl⟩ := h n hn x hx
        rw [hx, Option.bind_some, ht'] at hb
        cases hb
        exact plain _ hpl
    have pd : ∀ n ∈ passedOn, token ((v n).getD "false") = some t → Plain m t := by
      intro n hn hb
      cases hx : v n with
      | none =>
        rw [hx, Option.getD_none, token_false] at hb
        cases hb
        exact plain _ ⟨hp.words.2, by decide⟩
      | some x =>
        obtain ⟨t', ht', hpl⟩ := h n hn x hx
        rw [hx, Option.getD_some, ht'] at hb
        cases hb
        exact plain _ hpl
    simp only [Settings.given, settings, List.mem_cons, List.not_mem_nil, or_false] at hq
    rcases hq with rfl | rfl | rfl | rfl | rfl | rfl | rfl
    · exact po _ (by decide) ht
    · exact pd _ (by decide) ht
    · exact pd _ (by decide) ht
    · exact po _ (by decide) ht
    · exact po _ (by decide) ht
    · exact po _ (by decide) ht
    · exact po _ (by decide) ht
  · intro n hr hg hu
    rw [hl n, lookup_other]
    · exact hp.free n hr
    · intro hn
      simp only [Settings.given, settings, List.mem_cons, List.not_mem_nil, or_false, forall_eq_or_imp,
        forall_eq] at hg
      simp only [unrelated, List.mem_cons, List.not_mem_nil, or_false, not_or] at hu
      simp only [macroNames, List.mem_cons, List.not_mem_nil, or_false] at hn
      obtain ⟨g1, g2, g3, g4, g5, g6, g7⟩ := hg
      obtain ⟨u1, u2, u3, u4⟩ := hu
      rcases hn with hn | hn | hn | hn | hn | hn | hn | hn | hn | hn | hn
      · exact u1 hn
      · exact u2 hn
      · exact g1 hn
      · exact g4 hn
      · exact g5 hn
      · exact g6 hn
      · exact g7 hn
      · exact g3 hn
      · exact g2 hn
      · exact u3 hn
      · exact u4 hn
  · exact ⟨by rw [foreign _ (by decide)]; exact hp.words.1, by rw [foreign _ (by decide)]; exact hp.words.2⟩
  · obtain ⟨n, hn, hne⟩ := hp.targets.1
    exact ⟨n, hn, by rw [mark s n hn]; exact hne⟩
  · intro t ht n hn
    rw [mark t n hn]
    exact hp.targets.2 t ht n hn

/-- The settings of the programs that use the headers only. -/
def headerSettings : Settings := { headerOnly := some (.name "true") }

theorem before_header {p : Macros} {s : System} (hp : CompilerFor s p) :
    ∃ m, commandLine p [("CMP_CONFIG_HEADER_ONLY", "true")] = some m ∧ Before m headerSettings ∧
      Targets m s := by
  have foreign : ∀ n, ¬ Reserved n → p.set "CMP_CONFIG_HEADER_ONLY" (some (.name "true")) n = p n := by
    intro n hn
    have : n ≠ "CMP_CONFIG_HEADER_ONLY" := fun e => hn (e ▸ by decide)
    simp [Macros.set, this]
  have mark : ∀ (t : System), ∀ n ∈ t.marks,
      p.set "CMP_CONFIG_HEADER_ONLY" (some (.name "true")) n = p n := by
    have : ∀ (t : System), ∀ n ∈ t.marks, ¬ Reserved n := by
      intro t
      cases t <;> decide +kernel
    exact fun t n hn => foreign n (this t n hn)
  refine ⟨p.set "CMP_CONFIG_HEADER_ONLY" (some (.name "true")), by simp [commandLine, token_true],
    ⟨?_, ?_, ?_, ?_⟩, ?_, ?_⟩
  · intro q hq
    simp only [Settings.given, headerSettings, List.mem_cons, List.not_mem_nil, or_false] at hq
    rcases hq with rfl | rfl | rfl | rfl | rfl | rfl | rfl
    · simp [Macros.set]
    all_goals
      simp only [Macros.set, String.reduceEq, if_false, Option.map_none]
      exact hp.free _ (by decide)
  · intro q hq t ht
    simp only [Settings.given, headerSettings, List.mem_cons, List.not_mem_nil, or_false] at hq
    rcases hq with rfl | rfl | rfl | rfl | rfl | rfl | rfl
    · cases ht
      exact ⟨by rw [foreign _ (by decide)]; exact hp.words.1, by decide⟩
    all_goals cases ht
  · intro n hr hg _
    have : n ≠ "CMP_CONFIG_HEADER_ONLY" := hg ("CMP_CONFIG_HEADER_ONLY", some (.name "true"))
      (by simp [Settings.given, headerSettings])
    simp only [Macros.set, this, if_false]
    exact hp.free n hr
  · exact ⟨by rw [foreign _ (by decide)]; exact hp.words.1, by rw [foreign _ (by decide)]; exact hp.words.2⟩
  · obtain ⟨n, hn, hne⟩ := hp.targets.1
    exact ⟨n, hn, by rw [mark s n hn]; exact hne⟩
  · intro t ht n hn
    rw [mark t n hn]
    exact hp.targets.2 t ht n hn

end Cmp.Cmake
