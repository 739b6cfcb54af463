/-
Preprocessing with a record of what is defined twice.
-/
import Verif.Model.Exports
import Verif.Proofs.CmakeTargets

namespace Cmp.Headers

open Cmp.Spec

/-- `ds` turn `u` into `u'`, whatever follows, and define `log` once more in another way. -/
def Logs (file : String → List Directive) (k : Nat) (ds : List Directive) (u u' : TranslationUnit)
    (log : List String) : Prop :=
  ∀ f rest, ∃ f', f ≤ f' ∧
    preprocess file (f + k) (ds ++ rest) u = preprocess file f' rest u' ∧
    redefinitions file (f + k) (ds ++ rest) u = log ++ redefinitions file f' rest u'

variable {file : String → List Directive}

theorem Logs.nil (u : TranslationUnit) : Logs file 0 [] u u [] := fun f _ => ⟨f, Nat.le_refl f, rfl, rfl⟩

theorem Logs.more {k l ds u u' w} (h : Logs file k ds u u' w) (hl : k ≤ l) : Logs file l ds u u' w := by
  intro f rest
  obtain ⟨f', h1, h2, h3⟩ := h (f + (l - k)) rest
  have e : f + (l - k) + k = f + l := by omega
  rw [e] at h2 h3
  exact ⟨f', by omega, h2, h3⟩

theorem Logs.append {k l as bs u v w x y} (h : Logs file k as u v x) (h' : Logs file l bs v w y) :
    Logs file (k + l) (as ++ bs) u w (x ++ y) := by
  intro f rest
  obtain ⟨f1, h1, h2, h2'⟩ := h (f + l) (bs ++ rest)
  obtain ⟨f2, h3, h4, h4'⟩ := h'.more (l := l + (f1 - (f + l))) (by omega) f rest
  have e : f + (l + (f1 - (f + l))) = f1 := by omega
  have e' : f + (k + l) = f + l + k := by omega
  rw [e] at h4 h4'
  refine ⟨f2, h3, ?_, ?_⟩
  · rw [← h4, List.append_assoc, e', h2]
  · rw [List.append_assoc, e', h2', h4', List.append_assoc]

theorem Logs.cons {k l d bs u v w x} (h : Logs file k [d] u v []) (h' : Logs file l bs v w x) :
    Logs file (k + l) (d :: bs) u w x := h.append h'

theorem logs_define {n : String} {u : TranslationUnit} (b) (h : u.macros n = none) :
    Logs file 1 [.define n b] u { u with macros := u.macros.set n b } [] := by
  intro f rest
  refine ⟨f, Nat.le_refl f, rfl, ?_⟩
  simp [redefinitions, h]

theorem logs_redefine {n : String} {u : TranslationUnit} {b b'} (h : u.macros n = some b') (hb : b' ≠ b) :
    Logs file 1 [.define n b] u { u with macros := u.macros.set n b } [n] := by
  intro f rest
  refine ⟨f, Nat.le_refl f, rfl, ?_⟩
  simp [redefinitions, h, hb]

theorem logs_include {k n ds u u' w} (hn : file n = ds)
    (h : Logs file k ds { u with files := u.files ++ [n] } u' w) :
    Logs file (k + 1) [.include n] u u' w := by
  intro f rest
  subst hn
  exact h f rest

theorem logs_choose {k bs o ds u u' w} (hb : Directive.branch u.macros bs o = some ds)
    (h : Logs file k ds u u' w) : Logs file (k + 1) [.choose bs o] u u' w := by
  intro f rest
  have := h f rest
  simp only [← Nat.add_assoc, List.cons_append, List.nil_append, preprocess, redefinitions, hb]
  exact this

theorem logs_guarded {k g ds u' w} {u : TranslationUnit} (h : u.macros g = none)
    (hr : Logs file k ds { u with macros := u.macros.set g none } u' w) :
    Logs file (k + 2) (guarded g ds) u u' w := by
  refine (logs_choose (k := 1 + k) (ds := .define g none :: ds) ?_ ((logs_define _ h).cons hr)).more
    (by omega)
  simp [Directive.branch, PpCond.holds, h]

theorem logs_byDefault (n b) (u : TranslationUnit) :
    Logs file 2 [byDefault n b] u { u with macros := orElse u.macros n b } [] := by
  by_cases h : u.macros n = none
  · refine logs_choose (k := 1) (ds := [.define n (some b)]) ?_ ?_
    · simp [Directive.branch, PpCond.holds, h]
    · have e : orElse u.macros n b = u.macros.set n (some b) := by
        funext k
        simp [orElse, Macros.set, h]
      rw [e]
      exact logs_define _ h
  · have e : orElse u.macros n b = u.macros := by
      funext k
      simp [orElse, h]
    rw [e]
    refine (logs_choose (ds := []) ?_ (Logs.nil u)).more (by omega)
    have : (u.macros n).isNone = false := by cases hg : u.macros n <;> simp_all
    simp [Directive.branch, PpCond.holds, this]

theorem Logs.done {k ds u u' w} (h : Logs file k ds u u' w) {f : Nat} (hk : k ≤ f) :
    preprocess file f ds u = .done u' ∧ redefinitions file f ds u = w := by
  obtain ⟨f', h1, h2, h3⟩ := (h.more hk) 0 []
  rw [List.append_nil, Nat.zero_add] at h2 h3
  rw [h2, h3]
  cases f' <;> simp [preprocess, redefinitions]

/-- The macros after the defaults. -/
def defaulted (m : Macros) : Macros :=
  orElse (orElse (orElse (orElse (orElse (orElse (orElse (orElse (orElse (orElse (orElse
    (m.set "CMP_CORE_CONFIG_HPP_INCLUDED" none)
    "CMP_CONFIG_IS_STATIC" (.name "false")) "CMP_CONFIG_IS_DYNAMIC" (.name "false"))
    "CMP_CONFIG_LTO_REQUESTED" (.name "true")) "CMP_CONFIG_LTO_ENABLED" (.name "false"))
    "CMP_CONFIG_HEADER_ONLY" (.name "false")) "CMP_CONFIG_DEFAULT_BUFFER_CAPACITY" (.int 1024))
    "CMP_CONFIG_DEFAULT_STDOUT_BUFFER_CAPACITY" (.name "CMP_CONFIG_DEFAULT_BUFFER_CAPACITY"))
    "CMP_CONFIG_DEFAULT_STDERR_BUFFER_CAPACITY" (.name "CMP_CONFIG_DEFAULT_BUFFER_CAPACITY"))
    "CMP_CONFIG_DEFAULT_STDIN_BUFFER_CAPACITY" (.name "CMP_CONFIG_DEFAULT_BUFFER_CAPACITY"))
    "CMP_CONFIG_DESKTOP_GUI_PACKAGE_EXCLUDED" (.name "false"))
    "CMP_CONFIG_IO_PACKAGE_EXCLUDED" (.name "false")

theorem logs_defaults (m : Macros) (fs os) :
    Logs file 22 configDefaults ⟨m.set "CMP_CORE_CONFIG_HPP_INCLUDED" none, fs, os⟩
      ⟨defaulted m, fs, os⟩ [] :=
  (logs_byDefault _ _ _).cons <| (logs_byDefault _ _ _).cons <| (logs_byDefault _ _ _).cons <|
    (logs_byDefault _ _ _).cons <| (logs_byDefault _ _ _).cons <| (logs_byDefault _ _ _).cons <|
    (logs_byDefault _ _ _).cons <| (logs_byDefault _ _ _).cons <| (logs_byDefault _ _ _).cons <|
    (logs_byDefault _ _ _).cons <| (logs_byDefault _ _ _)

/-- The names that have a default. -/
def defaultNames : List String := ["CMP_CORE_CONFIG_HPP_INCLUDED", "CMP_CONFIG_IS_STATIC",
  "CMP_CONFIG_IS_DYNAMIC", "CMP_CONFIG_LTO_REQUESTED", "CMP_CONFIG_LTO_ENABLED", "CMP_CONFIG_HEADER_ONLY",
  "CMP_CONFIG_DEFAULT_BUFFER_CAPACITY", "CMP_CONFIG_DEFAULT_STDOUT_BUFFER_CAPACITY",
  "CMP_CONFIG_DEFAULT_STDERR_BUFFER_CAPACITY", "CMP_CONFIG_DEFAULT_STDIN_BUFFER_CAPACITY",
  "CMP_CONFIG_DESKTOP_GUI_PACKAGE_EXCLUDED", "CMP_CONFIG_IO_PACKAGE_EXCLUDED"]

theorem defaulted_other {m : Macros} {n : String} (h : n ∉ defaultNames) : defaulted m n = m n := by
  simp only [defaultNames, List.mem_cons, List.not_mem_nil, or_false, not_or] at h
  simp only [defaulted, ne_eq, h, not_false_eq_true, orElse_other, set_other]

theorem defaulted_dynamic (m : Macros) : defaulted m "CMP_CONFIG_IS_DYNAMIC" =
    if m "CMP_CONFIG_IS_DYNAMIC" = none then some (some (.name "false")) else m "CMP_CONFIG_IS_DYNAMIC" := by
  simp [defaulted, orElse_self, orElse_other, set_other]

theorem defaulted_headerOnly (m : Macros) : defaulted m "CMP_CONFIG_HEADER_ONLY" =
    if m "CMP_CONFIG_HEADER_ONLY" = none then some (some (.name "false")) else m "CMP_CONFIG_HEADER_ONLY" := by
  simp [defaulted, orElse_self, orElse_other, set_other]

/-- A condition that asks whether a macro that stands for a plain token is true. -/
theorem holds_equalsTrue {m : Macros} {n : String} {t : PpToken} (hm : m n = some (some t))
    (hn : Reserved n) (ht : Plain m t) (hw : m "true" = none ∧ m "false" = none) :
    (equalsTrue n).holds m = some (decide (number t = 1)) := by
  have h1 : m.value replacements (.name "true") = some 1 := by
    simp [replacements, Macros.value, hw.1]
  have h2 : m.value replacements (.name n) = some (number t) := by
    cases t with
    | int k => simp [replacements, Macros.value, hm, number]
    | name k =>
      have hk : ¬ k = n := fun e => ht.2 (e ▸ hn)
      simp [replacements, Macros.value, hm, number, ht.1, hk]
    | text k => exact ht.elim
  simp [equalsTrue, PpCond.holds, h1, h2]

/-- The names that belong to the header that CMake writes, and that which says how to mark. -/
def markNames : List String := ["CMP_LIBRARY_NAME", "CMP_EXPORT", "CMP_NO_EXPORT", "CMP_EXPORT_H"]

/-- What is known of the macros before the first header, as far as it matters here. -/
structure Fresh (m : Macros) (dyn only : Option PpToken) : Prop where
  dynamic : m "CMP_CONFIG_IS_DYNAMIC" = dyn.map some
  dynamicPlain : ∀ t, dyn = some t → Plain m t
  headerOnly : m "CMP_CONFIG_HEADER_ONLY" = only.map some
  headerOnlyPlain : ∀ t, only = some t → Plain m t
  unused : ∀ n ∈ ["CMP_CORE_CONFIG_HPP_INCLUDED", "CMP_CONDITIONAL_INLINE", "CMP_STATIC_DEFINE"] ++ markNames,
    m n = none
  words : m "true" = none ∧ m "false" = none

/-- The macros with what the header that CMake writes defines. -/
def marked (marks : Marks) (m : Macros) : Macros :=
  ((m.set "CMP_EXPORT_H" none).set "CMP_EXPORT" (some (.text
    (if (m "cmp_EXPORTS").isSome then marks.exported else marks.imported)))).set "CMP_NO_EXPORT"
    (some (.text marks.hidden))

theorem branch_undefined {m : Macros} {g : String} (h : m g = none) (ds o) :
    Directive.branch m [(.undefined g, ds)] o = some ds := by simp [Directive.branch, PpCond.holds, h]

theorem branch_not_defined {m : Macros} {g : String} (h : m g = none) (ds o) :
    Directive.branch m [(.defined g, ds)] o = some o := by simp [Directive.branch, PpCond.holds, h]

theorem branch_defined {m : Macros} {g : String} (h : (m g).isSome = true) (ds o) :
    Directive.branch m [(.defined g, ds)] o = some ds := by simp [Directive.branch, PpCond.holds, h]

theorem logs_exportHeader (marks : Marks) {u : TranslationUnit}
    (h : ∀ n ∈ "CMP_STATIC_DEFINE" :: markNames.tail, u.macros n = none) :
    Logs (exportFiles marks) 13 [.include "cmp_export.hpp"] u
      ⟨marked marks u.macros, u.files ++ ["cmp_export.hpp"], u.objects⟩ [] := by
  simp only [markNames, List.tail_cons, List.forall_mem_cons, List.not_mem_nil, false_implies, implies_true,
    and_true] at h
  obtain ⟨h0, h1, h2, h3⟩ := h
  refine logs_include (k := 12) (ds := exportHeader marks) (by simp [exportFiles]) ?_
  refine logs_guarded (k := 10) h3 ?_
  refine logs_choose (k := 9) (branch_not_defined (by simp [Macros.set, h0]) _ _) ?_
  refine Logs.more (k := 4 + 2) ?_ (by omega)
  refine Logs.append (as := [_]) (v := ⟨(u.macros.set "CMP_EXPORT_H" none).set "CMP_EXPORT" (some (.text
    (if (u.macros "cmp_EXPORTS").isSome then marks.exported else marks.imported))),
    u.files ++ ["cmp_export.hpp"], u.objects⟩) (x := []) (y := []) ?_ ?_
  · refine Logs.more (k := 3) (logs_choose (k := 2) (branch_undefined (by simp [Macros.set, h1]) _ _) ?_)
      (by omega)
    cases he : (u.macros "cmp_EXPORTS").isSome
    · refine logs_choose (k := 1) (branch_not_defined (by
        simpa [Macros.set] using he) _ _) ?_
      exact logs_define _ (by simp [Macros.set, h1])
    · refine logs_choose (k := 1) (branch_defined (by simpa [Macros.set] using he) _ _) ?_
      exact logs_define _ (by simp [Macros.set, h1])
  · refine logs_choose (k := 1) (branch_undefined (by simp [Macros.set, h2]) _ _) ?_
    exact logs_define _ (by simp [Macros.set, h2])

/-- The number that a setting which is off unless it is given stands for. -/
def given (t : Option PpToken) : Int := number (t.getD (.name "false"))

/-- The macros after `core/config.hpp` but for how functions are declared. -/
def beforeInline (marks : Marks) (found : Bool) (dyn : Option PpToken) (m : Macros) : Macros :=
  if found ∧ given dyn = 1 then
    (marked marks ((defaulted m).set "CMP_LIBRARY_NAME" none)).set "CMP_LIBRARY_NAME"
      (some (.name "CMP_EXPORT"))
  else (defaulted m).set "CMP_LIBRARY_NAME" none

/-- The macros after `core/config.hpp`. -/
def configured (marks : Marks) (found : Bool) (dyn only : Option PpToken) (m : Macros) : Macros :=
  (beforeInline marks found dyn m).set "CMP_CONDITIONAL_INLINE"
    (if given only = 1 then some (.name "inline") else none)

theorem Fresh.plain_mono {m m' : Macros} {t : PpToken} (h : Plain m t)
    (hm : ∀ n, ¬ Reserved n → m' n = m n) : Plain m' t := by
  cases t with
  | int _ => trivial
  | name n => exact ⟨(hm n h.2).trans h.1, h.2⟩
  | text _ => exact h.elim

theorem defaulted_foreign {m : Macros} {n : String} (h : ¬ Reserved n) : defaulted m n = m n :=
  defaulted_other fun hn => h ((show ∀ n ∈ defaultNames, Reserved n by decide +kernel) n hn)

theorem set_foreign {m : Macros} {n k : String} (b) (hn : Reserved n) (h : ¬ Reserved k) :
    m.set n b k = m k := set_other m b fun e => h (e ▸ hn)

theorem marked_foreign (marks : Marks) {m : Macros} {n : String} (h : ¬ Reserved n) :
    marked marks m n = m n := by
  unfold marked
  rw [set_foreign _ (by decide) h, set_foreign _ (by decide) h, set_foreign _ (by decide) h]

theorem beforeInline_foreign (marks : Marks) {found dyn} {m : Macros} {n : String} (h : ¬ Reserved n) :
    beforeInline marks found dyn m n = m n := by
  unfold beforeInline
  split
  · rw [set_foreign _ (by decide) h, marked_foreign _ h, set_foreign _ (by decide) h, defaulted_foreign h]
  · rw [set_foreign _ (by decide) h, defaulted_foreign h]

theorem beforeInline_headerOnly (marks : Marks) {found dyn} {m : Macros} :
    beforeInline marks found dyn m "CMP_CONFIG_HEADER_ONLY" = defaulted m "CMP_CONFIG_HEADER_ONLY" := by
  unfold beforeInline marked
  split <;> simp [set_other]

theorem branch_true {m : Macros} {n : String} {t : PpToken} (hm : m n = some (some t))
    (hn : Reserved n) (ht : Plain m t) (hw : m "true" = none ∧ m "false" = none) (ds o) :
    Directive.branch m [(equalsTrue n, ds)] o = some (if number t = 1 then ds else o) := by
  by_cases h : number t = 1 <;> simp [Directive.branch, holds_equalsTrue hm hn ht hw, h]

theorem orFalse {o : Option PpToken} {x : Option (Option PpToken)} (h : x = o.map some) :
    (if x = none then some (some (PpToken.name "false")) else x) = some (some (o.getD (.name "false"))) := by
  subst h
  cases o <;> simp

theorem plain_orFalse {m : Macros} {o : Option PpToken} (h : ∀ t, o = some t → Plain m t)
    (hw : m "false" = none) : Plain m (o.getD (.name "false")) := by
  cases o with
  | none => exact ⟨hw, by decide⟩
  | some t => exact h t rfl

theorem logs_inlineChoice (marks : Marks) (found : Bool) {m : Macros} {dyn only fs} (h : Fresh m dyn only) :
    Logs file 2 [inlineChoice] ⟨beforeInline marks found dyn m, fs, []⟩
      ⟨configured marks found dyn only m, fs, []⟩ [] := by
  have hb := branch_true (m := beforeInline marks found dyn m) (n := "CMP_CONFIG_HEADER_ONLY")
    (t := only.getD (.name "false"))
    (by rw [beforeInline_headerOnly, defaulted_headerOnly, orFalse h.headerOnly]) (by decide)
    (Fresh.plain_mono (plain_orFalse h.headerOnlyPlain h.words.2) fun n hn => beforeInline_foreign _ hn)
    ⟨by rw [beforeInline_foreign _ (by decide), h.words.1],
      by rw [beforeInline_foreign _ (by decide), h.words.2]⟩
    [.define "CMP_CONDITIONAL_INLINE" (some (.name "inline"))] [.define "CMP_CONDITIONAL_INLINE" none]
  refine logs_choose (k := 1) hb ?_
  have hn : beforeInline marks found dyn m "CMP_CONDITIONAL_INLINE" = none := by
    unfold beforeInline marked
    split <;> simp [set_other, defaulted_other (n := "CMP_CONDITIONAL_INLINE") (m := m) (by decide),
      h.unused "CMP_CONDITIONAL_INLINE" (by decide)]
  unfold configured
  by_cases ho : given only = 1
  · have ho' : number (only.getD (.name "false")) = 1 := ho
    rw [if_pos ho', if_pos ho]
    exact logs_define _ hn
  · have ho' : ¬ number (only.getD (.name "false")) = 1 := ho
    rw [if_neg ho', if_neg ho]
    exact logs_define _ hn

theorem logs_wholeConfig (marks : Marks) (found : Bool) {m : Macros} {dyn only} (h : Fresh m dyn only) :
    ∃ fs, Logs (exportFiles marks) 50 (wholeConfig found) ⟨m, [], []⟩
      ⟨configured marks found dyn only m, fs, []⟩
      (if found ∧ given dyn = 1 then ["CMP_LIBRARY_NAME"] else []) := by
  have un := h.unused
  simp only [markNames, List.cons_append, List.nil_append, List.forall_mem_cons, List.not_mem_nil,
    false_implies, implies_true, and_true] at un
  obtain ⟨u1, u2, u3, u4, u5, u6, u7⟩ := un
  have fine : ∀ {k : String} {b}, k ∉ defaultNames → k ≠ "CMP_LIBRARY_NAME" → m k = none →
      (defaulted m).set "CMP_LIBRARY_NAME" b k = none := by
    intro k b h1 h2 h3
    rw [set_other _ _ h2, defaulted_other h1, h3]
  have mid : ∃ fs, Logs (exportFiles marks) 15 [exportChoice found]
      ⟨(defaulted m).set "CMP_LIBRARY_NAME" none, [], []⟩ ⟨beforeInline marks found dyn m, fs, []⟩
      (if found ∧ given dyn = 1 then ["CMP_LIBRARY_NAME"] else []) := by
    have hb := branch_true (m := (defaulted m).set "CMP_LIBRARY_NAME" none) (n := "CMP_CONFIG_IS_DYNAMIC")
      (t := dyn.getD (.name "false"))
      (by rw [set_other _ _ (by decide), defaulted_dynamic, orFalse h.dynamic]) (by decide)
      (Fresh.plain_mono (plain_orFalse h.dynamicPlain h.words.2) fun n hn => by
        rw [set_foreign _ (by decide) hn, defaulted_foreign hn])
      ⟨by rw [set_other _ _ (by decide), defaulted_other (by decide), h.words.1],
        by rw [set_other _ _ (by decide), defaulted_other (by decide), h.words.2]⟩
      (if found then [.include "cmp_export.hpp", .define "CMP_LIBRARY_NAME" (some (.name "CMP_EXPORT"))]
        else []) []
    by_cases hd : given dyn = 1
    · have hd' : number (dyn.getD (.name "false")) = 1 := hd
      rw [if_pos hd'] at hb
      cases found with
      | true =>
        refine ⟨["cmp_export.hpp"], ?_⟩
        simp only [hd, beforeInline, and_self, if_true]
        refine logs_choose (k := 14) hb ?_
        refine Logs.append (k := 13) (l := 1) (as := [_]) (x := []) (logs_exportHeader marks ?_)
          (logs_redefine (b' := none) ?_ (by simp))
        · intro n hn
          simp only [markNames, List.tail_cons, List.mem_cons, List.not_mem_nil, or_false] at hn
          rcases hn with rfl | rfl | rfl | rfl
          · exact fine (b := none) (by decide) (by decide) u3
          · exact fine (b := none) (by decide) (by decide) u5
          · exact fine (b := none) (by decide) (by decide) u6
          · exact fine (b := none) (by decide) (by decide) u7
        · simp [marked, set_other, set_self]
      | false =>
        refine ⟨[], ?_⟩
        simp only [beforeInline, Bool.false_eq_true, false_and, if_false]
        exact (logs_choose hb (Logs.nil _)).more (by omega)
    · have hd' : ¬ number (dyn.getD (.name "false")) = 1 := hd
      rw [if_neg hd'] at hb
      refine ⟨[], ?_⟩
      simp only [hd, beforeInline, and_false, if_false]
      exact (logs_choose hb (Logs.nil _)).more (by omega)
  obtain ⟨fs, hmid⟩ := mid
  refine ⟨fs, ?_⟩
  have last := logs_inlineChoice (file := exportFiles marks) marks found (fs := fs) h
  refine (logs_guarded (k := 22 + (1 + (15 + 2))) u1 ?_).more (by omega)
  refine Logs.append (x := []) (logs_defaults m [] []) ?_
  refine Logs.cons (logs_define none ?_) ?_
  · exact (defaulted_other (by decide)).trans u4
  · have := hmid.append last
    rwa [List.append_nil] at this

/-- The part of `core/config.hpp` that the other properties are about. -/
theorem logs_config (marks : Marks) {m : Macros} {dyn only} (h : Fresh m dyn only) :
    Logs contents 40 [.include "cmp/core/config.hpp"] ⟨m, [], []⟩
      ⟨configured marks false dyn only m, ["cmp/core/config.hpp"], []⟩ [] := by
  have u1 := h.unused "CMP_CORE_CONFIG_HPP_INCLUDED" (by decide)
  have u4 := h.unused "CMP_LIBRARY_NAME" (by decide)
  refine (logs_include (k := 27) (ds := config) rfl ?_).more (by omega)
  refine (logs_guarded (k := 22 + (1 + 2)) u1 ?_).more (by omega)
  refine Logs.append (as := configDefaults) (x := []) (logs_defaults m _ []) ?_
  refine Logs.cons (logs_define none ((defaulted_other (by decide)).trans u4)) ?_
  have := logs_inlineChoice (file := contents) marks false (fs := ["cmp/core/config.hpp"]) h
  simp only [beforeInline, Bool.false_eq_true, false_and, if_false] at this
  exact this

end Cmp.Headers
