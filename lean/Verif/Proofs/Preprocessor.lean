/-
Preprocessing piece by piece.
-/
import Verif.Spec.Preprocessor

namespace Cmp.Headers

open Cmp.Spec

/-- `ds` turn `u` into `u'`, whatever follows, with `k` steps or fewer. -/
def Runs (k : Nat) (ds : List Directive) (u u' : TranslationUnit) : Prop :=
  ∀ f rest, ∃ f', f ≤ f' ∧
    preprocess contents (f + k) (ds ++ rest) u = preprocess contents f' rest u'

theorem Runs.nil (u : TranslationUnit) : Runs 0 [] u u := fun f _ => ⟨f, Nat.le_refl f, rfl⟩

theorem Runs.more {k l ds u u'} (h : Runs k ds u u') (hl : k ≤ l) : Runs l ds u u' := by
  intro f rest
  obtain ⟨f', h1, h2⟩ := h (f + (l - k)) rest
  refine ⟨f', by omega, ?_⟩
  rw [← h2]
  congr 1
  omega

theorem Runs.append {k l as bs u v w} (h : Runs k as u v) (h' : Runs l bs v w) :
    Runs (k + l) (as ++ bs) u w := by
  intro f rest
  obtain ⟨f1, h1, h2⟩ := h (f + l) (bs ++ rest)
  obtain ⟨f2, h3, h4⟩ := h'.more (l := l + (f1 - (f + l))) (by omega) f rest
  refine ⟨f2, h3, ?_⟩
  rw [← h4, List.append_assoc, show f + (k + l) = f + l + k by omega, h2]
  congr 1
  omega

theorem Runs.cons {k l d bs u v w} (h : Runs k [d] u v) (h' : Runs l bs v w) :
    Runs (k + l) (d :: bs) u w := h.append h'

theorem runs_define (n b u) : Runs 1 [.define n b] u { u with macros := u.macros.set n b } :=
  fun f _ => ⟨f, Nat.le_refl f, rfl⟩

theorem runs_object (n i c) (u : TranslationUnit) : Runs 1 [.object n i c] u
    { u with objects := u.objects ++ [⟨n, i, c.bind (u.macros.expand 4)⟩] } :=
  fun f _ => ⟨f, Nat.le_refl f, rfl⟩

theorem runs_include {k n ds u u'} (hn : contents n = ds)
    (h : Runs k ds { u with files := u.files ++ [n] } u') : Runs (k + 1) [.include n] u u' := by
  intro f rest
  subst hn
  exact h f rest

theorem runs_choose {k bs o ds u u'} (hb : Directive.branch u.macros bs o = some ds)
    (h : Runs k ds u u') : Runs (k + 1) [.choose bs o] u u' := by
  intro f rest
  have := h f rest
  simp only [← Nat.add_assoc, List.cons_append, List.nil_append, preprocess, hb]
  exact this

theorem runs_assert {a b : PpToken} {u : TranslationUnit} {x : Int}
    (ha : u.macros.constant a = some x) (hb : u.macros.constant b = some x) :
    Runs 1 [.assert a b] u u := by
  intro f rest
  exact ⟨f, Nat.le_refl f, by simp [preprocess, ha, hb]⟩

/-- A guarded header that was entered before. -/
theorem runs_guarded_again {g ds} {u : TranslationUnit} (h : u.macros g ≠ none) :
    Runs 1 (guarded g ds) u u := by
  refine runs_choose (ds := []) ?_ (Runs.nil u)
  have : (u.macros g).isNone = false := by cases hg : u.macros g <;> simp_all
  simp [Directive.branch, PpCond.holds, this]

/-- A guarded header for the first time. -/
theorem runs_guarded {k g ds u'} {u : TranslationUnit} (h : u.macros g = none)
    (hr : Runs k ds { u with macros := u.macros.set g none } u') : Runs (k + 2) (guarded g ds) u u' := by
  refine (runs_choose (k := 1 + k) (ds := .define g none :: ds) ?_ ((runs_define _ _ _).cons hr)).more
    (by omega)
  simp [Directive.branch, PpCond.holds, h]

theorem Runs.translate {k ds m u} (h : Runs k ds ⟨m, [], []⟩ u) (hk : k ≤ 1000) :
    translate m ds = .done u := by
  obtain ⟨f', h1, h2⟩ := (h.more hk) 0 []
  rw [List.append_nil] at h2
  unfold Headers.translate
  rw [show (1000 : Nat) = 0 + 1000 from rfl, h2]
  cases f' <;> rfl

/-- An assertion that does not hold ends it. -/
theorem preprocess_error {k ds u v} {a b : PpToken} (h : Runs k ds u v)
    (hb : ∀ x, v.macros.constant a = some x → v.macros.constant b ≠ some x) (f rest) :
    preprocess contents (f + 1 + k) (ds ++ .assert a b :: rest) u = .error := by
  obtain ⟨f', h1, h2⟩ := h (f + 1) (.assert a b :: rest)
  rw [h2]
  obtain ⟨f'', rfl⟩ : ∃ g, f' = g + 1 := ⟨f' - 1, by omega⟩
  rw [preprocess]
  split
  · next x y hx hy =>
    by_cases he : x = y
    · exact absurd (he ▸ hy) (hb x hx)
    · simp [he]
  · rfl

/-- `m` with a macro that is defined unless it is already. -/
def orElse (m : Macros) (n : String) (b : PpToken) : Macros :=
  fun k => if k = n ∧ m n = none then some (some b) else m k

theorem runs_byDefault (n b) (u : TranslationUnit) :
    Runs 2 [byDefault n b] u { u with macros := orElse u.macros n b } := by
  by_cases h : u.macros n = none
  · refine runs_choose (k := 1) (ds := [.define n (some b)]) ?_ ?_
    · simp [Directive.branch, PpCond.holds, h]
    · have e : orElse u.macros n b = u.macros.set n (some b) := by
        funext k
        simp [orElse, Macros.set, h]
      rw [e]
      exact runs_define _ _ _
  · have e : orElse u.macros n b = u.macros := by
      funext k
      simp [orElse, h]
    rw [e]
    refine (runs_choose (ds := []) ?_ (Runs.nil u)).more (by omega)
    have : (u.macros n).isNone = false := by cases hg : u.macros n <;> simp_all
    simp [Directive.branch, PpCond.holds, this]

/-- The macros after `core/config.hpp`: `p` are those before the first header, `used` the names that may
have been defined since. -/
structure Conf (p : Macros) (c : Settings) (used : List String) (m : Macros) : Prop where
  outside : ∀ n, n ∉ used → m n = p n
  reserved : ∀ n ∈ used, Reserved n
  config : m "CMP_CORE_CONFIG_HPP_INCLUDED" ≠ none
  headerOnly : m "CMP_CONFIG_HEADER_ONLY" = some (some (c.headerOnly.getD (.name "false")))
  io : m "CMP_CONFIG_IO_PACKAGE_EXCLUDED" = some (some (c.ioExcluded.getD (.name "false")))
  gui : m "CMP_CONFIG_DESKTOP_GUI_PACKAGE_EXCLUDED" = some (some (c.guiExcluded.getD (.name "false")))
  capacity : m "CMP_CONFIG_DEFAULT_BUFFER_CAPACITY" = some (some (c.capacity.getD (.int 1024)))
  stdout : m "CMP_CONFIG_DEFAULT_STDOUT_BUFFER_CAPACITY" =
    some (some (c.stdoutCapacity.getD (.name "CMP_CONFIG_DEFAULT_BUFFER_CAPACITY")))
  stderr : m "CMP_CONFIG_DEFAULT_STDERR_BUFFER_CAPACITY" =
    some (some (c.stderrCapacity.getD (.name "CMP_CONFIG_DEFAULT_BUFFER_CAPACITY")))
  stdin : m "CMP_CONFIG_DEFAULT_STDIN_BUFFER_CAPACITY" =
    some (some (c.stdinCapacity.getD (.name "CMP_CONFIG_DEFAULT_BUFFER_CAPACITY")))

/-- The names of settings and the guard of their header. -/
def settled : List String := ["CMP_CORE_CONFIG_HPP_INCLUDED", "CMP_CONFIG_HEADER_ONLY",
  "CMP_CONFIG_IO_PACKAGE_EXCLUDED", "CMP_CONFIG_DESKTOP_GUI_PACKAGE_EXCLUDED",
  "CMP_CONFIG_DEFAULT_BUFFER_CAPACITY", "CMP_CONFIG_DEFAULT_STDOUT_BUFFER_CAPACITY",
  "CMP_CONFIG_DEFAULT_STDERR_BUFFER_CAPACITY", "CMP_CONFIG_DEFAULT_STDIN_BUFFER_CAPACITY"]

theorem Conf.set {p c used m} (h : Conf p c used m) {n : String} (hr : Reserved n) (hn : n ∉ settled) (b) :
    Conf p c (n :: used) (m.set n b) := by
  have ne : ∀ k ∈ settled, k ≠ n := fun k hk e => hn (e ▸ hk)
  have e : ∀ k ∈ settled, m.set n b k = m k := fun k hk => by simp [Macros.set, ne k hk]
  refine ⟨?_, ?_, ?_, ?_, ?_, ?_, ?_, ?_, ?_, ?_⟩
  · intro k hk
    simp only [List.mem_cons, not_or] at hk
    simp [Macros.set, hk.1, h.outside k hk.2]
  · intro k hk
    rcases List.mem_cons.1 hk with rfl | hk
    · exact hr
    · exact h.reserved k hk
  · rw [e _ (by decide)]; exact h.config
  · rw [e _ (by decide)]; exact h.headerOnly
  · rw [e _ (by decide)]; exact h.io
  · rw [e _ (by decide)]; exact h.gui
  · rw [e _ (by decide)]; exact h.capacity
  · rw [e _ (by decide)]; exact h.stdout
  · rw [e _ (by decide)]; exact h.stderr
  · rw [e _ (by decide)]; exact h.stdin

/-- A name that is not the library's is as it was. -/
theorem Conf.foreign {p c used m} (h : Conf p c used m) {n : String} (hn : ¬ Reserved n) : m n = p n :=
  h.outside n fun hu => hn (h.reserved n hu)

/-- The token of a setting, or `false`, in a condition. -/
theorem Conf.value_of {p c used m} (h : Conf p c used m) (hb : Before p c) {n : String}
    {o : Option PpToken} (hg : (n, o) ∈ c.given) (hm : m n = some (some (o.getD (.name "false")))) :
    m.value 4 (.name n) = some (number (o.getD (.name "false"))) := by
  have hf : m "false" = none := by rw [h.foreign (by decide)]; exact hb.words.2
  have hN : Reserved n := by
    simp only [Settings.given, List.mem_cons, Prod.mk.injEq, List.not_mem_nil, or_false] at hg
    rcases hg with ⟨rfl, _⟩ | ⟨rfl, _⟩ | ⟨rfl, _⟩ | ⟨rfl, _⟩ | ⟨rfl, _⟩ | ⟨rfl, _⟩ | ⟨rfl, _⟩ <;> decide
  cases o with
  | none =>
    have hne : ¬ "false" = n := fun e => absurd (e ▸ hN) (by decide)
    simp [Macros.value, hm, hf, number, hne]
  | some t =>
    have hp := hb.plain _ hg t rfl
    cases t with
    | int k => simp [Macros.value, hm, number]
    | text s => exact hp.elim
    | name s =>
      have hs : m s = none := by rw [h.foreign hp.2]; exact hp.1
      have hne : ¬ s = n := fun e => hp.2 (e ▸ hN)
      simp [Macros.value, hm, hs, number, hne]

theorem Conf.false_value {p c used m} (h : Conf p c used m) (hb : Before p c) :
    m.value 4 (.name "false") = some 0 := by
  have hf : m "false" = none := by rw [h.foreign (by decide)]; exact hb.words.2
  simp [Macros.value, hf]

theorem Conf.true_value {p c used m} (h : Conf p c used m) (hb : Before p c) :
    m.value 4 (.name "true") = some 1 := by
  have hf : m "true" = none := by rw [h.foreign (by decide)]; exact hb.words.1
  simp [Macros.value, hf]

/-- The number of the setting for header-only use. -/
def headerOnlyNumber (c : Settings) : Int := number (c.headerOnly.getD (.name "false"))

theorem Conf.holds_true {p c used m} (h : Conf p c used m) (hb : Before p c) :
    (equalsTrue "CMP_CONFIG_HEADER_ONLY").holds m = some (decide (headerOnlyNumber c = 1)) := by
  simp only [equalsTrue, PpCond.holds, replacements, h.true_value hb,
    h.value_of hb (o := c.headerOnly) (by simp [Settings.given]) h.headerOnly]
  rfl

theorem Conf.holds_false {p c used m} (h : Conf p c used m) (hb : Before p c) :
    (equalsFalse "CMP_CONFIG_HEADER_ONLY").holds m = some (decide (headerOnlyNumber c = 0)) := by
  simp only [equalsFalse, PpCond.holds, replacements, h.false_value hb,
    h.value_of hb (o := c.headerOnly) (by simp [Settings.given]) h.headerOnly]
  rfl

theorem Conf.holds_io {p c used m} (h : Conf p c used m) (hb : Before p c) :
    (equalsFalse "CMP_CONFIG_IO_PACKAGE_EXCLUDED").holds m =
      some (decide (number (c.ioExcluded.getD (.name "false")) = 0)) := by
  simp only [equalsFalse, PpCond.holds, replacements, h.false_value hb,
    h.value_of hb (o := c.ioExcluded) (by simp [Settings.given]) h.io]

theorem Conf.holds_gui {p c used m} (h : Conf p c used m) (hb : Before p c) :
    (equalsFalse "CMP_CONFIG_DESKTOP_GUI_PACKAGE_EXCLUDED").holds m =
      some (decide (number (c.guiExcluded.getD (.name "false")) = 0)) := by
  simp only [equalsFalse, PpCond.holds, replacements, h.false_value hb,
    h.value_of hb (o := c.guiExcluded) (by simp [Settings.given]) h.gui]

theorem Conf.constant_false {p c used m} (h : Conf p c used m) (hb : Before p c) :
    m.constant (.name "false") = some 0 := by
  have hf : m "false" = none := by rw [h.foreign (by decide)]; exact hb.words.2
  simp [Macros.constant, Macros.expand, hf]

/-- The token of a setting, or `false`, in an assertion. -/
theorem Conf.constant_of {p c used m} (h : Conf p c used m) (hb : Before p c) {n : String}
    {o : Option PpToken} (hg : (n, o) ∈ c.given) (hm : m n = some (some (o.getD (.name "false")))) :
    m.constant (.name n) = some 0 ↔ IsNo (o.getD (.name "false")) := by
  have hf : m "false" = none := by rw [h.foreign (by decide)]; exact hb.words.2
  have hN : Reserved n := by
    simp only [Settings.given, List.mem_cons, Prod.mk.injEq, List.not_mem_nil, or_false] at hg
    rcases hg with ⟨rfl, _⟩ | ⟨rfl, _⟩ | ⟨rfl, _⟩ | ⟨rfl, _⟩ | ⟨rfl, _⟩ | ⟨rfl, _⟩ | ⟨rfl, _⟩ <;> decide
  cases o with
  | none =>
    have hne : ¬ "false" = n := fun e => absurd (e ▸ hN) (by decide)
    simp [Macros.constant, Macros.expand, hm, hf, IsNo, hne]
  | some t =>
    have hp := hb.plain _ hg t rfl
    cases t with
    | int k => simp [Macros.constant, Macros.expand, hm, IsNo]
    | text s => exact hp.elim
    | name s =>
      have hs : m s = none := by rw [h.foreign hp.2]; exact hp.1
      have hne : ¬ s = n := fun e => hp.2 (e ▸ hN)
      by_cases h1 : s = "true"
      · subst h1; simp [Macros.constant, Macros.expand, hm, hs, IsNo, hne]
      · by_cases h2 : s = "false"
        · subst h2; simp [Macros.constant, Macros.expand, hm, hs, IsNo, hne]
        · simp [Macros.constant, Macros.expand, hm, hs, IsNo, hne, h1, h2]

/-- What a capacity is replaced by. -/
theorem Conf.expand_of {p c used m} (h : Conf p c used m) (hb : Before p c) {n : String}
    {o : Option PpToken} (hg : (n, o) ∈ c.given) (hd : n ≠ "CMP_CONFIG_DEFAULT_BUFFER_CAPACITY")
    (hm : m n = some (some (o.getD (.name "CMP_CONFIG_DEFAULT_BUFFER_CAPACITY")))) :
    m.expand 4 (.name n) = some (asked o c.capacity) := by
  have hN : Reserved n := by
    simp only [Settings.given, List.mem_cons, Prod.mk.injEq, List.not_mem_nil, or_false] at hg
    rcases hg with ⟨rfl, _⟩ | ⟨rfl, _⟩ | ⟨rfl, _⟩ | ⟨rfl, _⟩ | ⟨rfl, _⟩ | ⟨rfl, _⟩ | ⟨rfl, _⟩ <;> decide
  have plain : ∀ q o', (q, o') ∈ c.given → ∀ t, o' = some t → (∃ k, t = .int k) ∨
      ∃ s, t = .name s ∧ m s = none ∧ ¬ Reserved s := by
    intro q o' hq t ht
    have hp := hb.plain _ hq t ht
    cases t with
    | int k => exact .inl ⟨k, rfl⟩
    | text s => exact hp.elim
    | name s => exact .inr ⟨s, rfl, by rw [h.foreign hp.2]; exact hp.1, hp.2⟩
  cases o with
  | some t =>
    rcases plain _ _ hg t rfl with ⟨k, rfl⟩ | ⟨s, rfl, hs, hr⟩
    · simp [Macros.expand, hm, asked]
    · have hne : ¬ s = n := fun e => hr (e ▸ hN)
      simp [Macros.expand, hm, asked, hs, hne]
  | none =>
    have hc := h.capacity
    have hq : ("CMP_CONFIG_DEFAULT_BUFFER_CAPACITY", c.capacity) ∈ c.given := by simp [Settings.given]
    have hd' : ¬ "CMP_CONFIG_DEFAULT_BUFFER_CAPACITY" = n := fun e => hd e.symm
    cases ho : c.capacity with
    | none =>
      rw [ho] at hc
      simp only [Option.getD_none] at hm hc
      simp [Macros.expand, hm, hc, asked, hd']
    | some t =>
      rw [ho] at hc
      simp only [Option.getD_none, Option.getD_some] at hm hc
      rcases plain _ _ hq t ho with ⟨k, rfl⟩ | ⟨s, rfl, hs, hr⟩
      · simp [Macros.expand, hm, hc, asked, hd']
      · have hne : ¬ s = "CMP_CONFIG_DEFAULT_BUFFER_CAPACITY" := fun e => hr (e ▸ by decide)
        simp [Macros.expand, hm, hc, asked, hs, hd', hne]

/-- The names that `core/config.hpp` may define. -/
def configNames : List String := settled ++ unrelated ++ ["CMP_LIBRARY_NAME", "CMP_CONDITIONAL_INLINE"]

/-- The macros before `core/config.hpp`. -/
structure Pre (p : Macros) (used : List String) (m : Macros) : Prop where
  outside : ∀ n, n ∉ used → m n = p n
  reserved : ∀ n ∈ used, Reserved n
  unsettled : ∀ n ∈ configNames, n ∉ used

theorem Pre.start (p : Macros) : Pre p [] p :=
  ⟨fun _ _ => rfl, fun _ h => by simp at h, fun _ _ h => by simp at h⟩

theorem Pre.set {p used m} (h : Pre p used m) {n : String} (hr : Reserved n) (hn : n ∉ configNames) (b) :
    Pre p (n :: used) (m.set n b) := by
  refine ⟨?_, ?_, ?_⟩
  · intro k hk
    simp only [List.mem_cons, not_or] at hk
    simp [Macros.set, hk.1, h.outside k hk.2]
  · intro k hk
    rcases List.mem_cons.1 hk with rfl | hk
    · exact hr
    · exact h.reserved k hk
  · intro k hk hu
    rcases List.mem_cons.1 hu with rfl | hu
    · exact hn hk
    · exact h.unsettled k hk hu

theorem Pre.fresh {p used m c} (h : Pre p used m) (hb : Before p c) {n : String} (hr : Reserved n)
    (hg : n ∉ c.given.map Prod.fst) (hn : n ∉ unrelated) (hu : n ∉ used) : m n = none := by
  rw [h.outside n hu]
  exact hb.others n hr (fun q hq e => hg (e ▸ List.mem_map_of_mem hq)) hn

theorem Conf.fresh {p used m c} (h : Conf p c used m) (hb : Before p c) {n : String} (hr : Reserved n)
    (hg : n ∉ c.given.map Prod.fst) (hn : n ∉ unrelated) (hu : n ∉ used) : m n = none := by
  rw [h.outside n hu]
  exact hb.others n hr (fun q hq e => hg (e ▸ List.mem_map_of_mem hq)) hn

theorem orElse_self (m : Macros) (n b) :
    orElse m n b n = if m n = none then some (some b) else m n := by simp [orElse]

theorem orElse_other {n k : String} (m : Macros) (b) (h : k ≠ n) : orElse m n b k = m k := by
  simp [orElse, h]

theorem set_other {n k : String} (m : Macros) (b) (h : k ≠ n) : m.set n b k = m k := by
  simp [Macros.set, h]

theorem set_self (m : Macros) (n : String) (b) : m.set n b n = some b := by simp [Macros.set]

/-- `core/config.hpp` for the first time. -/
theorem runs_config {p c used} (hb : Before p c) {u : TranslationUnit} (h : Pre p used u.macros) :
    ∃ m, Runs 40 [.include "cmp/core/config.hpp"] u
      ⟨m, u.files ++ ["cmp/core/config.hpp"], u.objects⟩ ∧ Conf p c (configNames ++ used) m ∧
      ∀ n, n ∉ configNames → m n = u.macros n := by
  have at' : ∀ n ∈ configNames, u.macros n = p n := fun n hn => h.outside n (h.unsettled n hn)
  have hg : u.macros "CMP_CORE_CONFIG_HPP_INCLUDED" = none :=
    h.fresh hb (by decide) (by simp [Settings.given]) (by decide) (h.unsettled _ (by decide))
  have hgiven := hb.given
  simp only [Settings.given, List.forall_mem_cons, List.not_mem_nil, false_implies, implies_true,
    and_true] at hgiven
  obtain ⟨g1, g2, g3, g4, g5, g6, g7⟩ := hgiven
  rw [← at' _ (by decide)] at g1 g2 g3 g4 g5 g6 g7
  let M : Macros := (orElse (orElse (orElse (orElse (orElse (orElse (orElse (orElse (orElse (orElse (orElse
    (u.macros.set "CMP_CORE_CONFIG_HPP_INCLUDED" none)
    "CMP_CONFIG_IS_STATIC" (.name "false")) "CMP_CONFIG_IS_DYNAMIC" (.name "false"))
    "CMP_CONFIG_LTO_REQUESTED" (.name "true")) "CMP_CONFIG_LTO_ENABLED" (.name "false"))
    "CMP_CONFIG_HEADER_ONLY" (.name "false")) "CMP_CONFIG_DEFAULT_BUFFER_CAPACITY" (.int 1024))
    "CMP_CONFIG_DEFAULT_STDOUT_BUFFER_CAPACITY" (.name "CMP_CONFIG_DEFAULT_BUFFER_CAPACITY"))
    "CMP_CONFIG_DEFAULT_STDERR_BUFFER_CAPACITY" (.name "CMP_CONFIG_DEFAULT_BUFFER_CAPACITY"))
    "CMP_CONFIG_DEFAULT_STDIN_BUFFER_CAPACITY" (.name "CMP_CONFIG_DEFAULT_BUFFER_CAPACITY"))
    "CMP_CONFIG_DESKTOP_GUI_PACKAGE_EXCLUDED" (.name "false"))
    "CMP_CONFIG_IO_PACKAGE_EXCLUDED" (.name "false")).set "CMP_LIBRARY_NAME" none
  have key : ∀ (o : Option PpToken) (n : String) (b : PpToken) (x : Option (Option PpToken)),
      x = o.map some → (if x = none then some (some b) else x) = some (some (o.getD b)) := by
    rintro (_ | t) n b x rfl <;> simp
  have hM : Conf p c (configNames ++ used) M := by
    refine ⟨?_, ?_, ?_, ?_, ?_, ?_, ?_, ?_, ?_, ?_⟩
    · intro n hn
      simp only [List.mem_append, not_or] at hn
      have ho := h.outside n hn.2
      have hk := hn.1
      simp only [configNames, settled, unrelated, List.cons_append, List.nil_append, List.mem_cons,
        List.not_mem_nil, or_false, not_or] at hk
      simp only [M, ne_eq, hk, not_false_eq_true, orElse_other, set_other, ho]
    · intro n hn
      rcases List.mem_append.1 hn with hn | hn
      · exact (show ∀ n ∈ configNames, Reserved n by decide) n hn
      · exact h.reserved n hn
    · simp [M, orElse_other, set_other, set_self]
    · rw [← key c.headerOnly "" _ _ g1]; simp [M, orElse_self, orElse_other, set_other]
    · rw [← key c.ioExcluded "" _ _ g2]; simp [M, orElse_self, orElse_other, set_other]
    · rw [← key c.guiExcluded "" _ _ g3]; simp [M, orElse_self, orElse_other, set_other]
    · rw [← key c.capacity "" _ _ g4]; simp [M, orElse_self, orElse_other, set_other]
    · rw [← key c.stdoutCapacity "" _ _ g5]; simp [M, orElse_self, orElse_other, set_other]
    · rw [← key c.stderrCapacity "" _ _ g6]; simp [M, orElse_self, orElse_other, set_other]
    · rw [← key c.stdinCapacity "" _ _ g7]; simp [M, orElse_self, orElse_other, set_other]
  have hend : ∃ m, Runs 2 [.choose [(equalsTrue "CMP_CONFIG_HEADER_ONLY",
      [.define "CMP_CONDITIONAL_INLINE" (some (.name "inline"))])] [.define "CMP_CONDITIONAL_INLINE" none]]
      ⟨M, u.files ++ ["cmp/core/config.hpp"], u.objects⟩
      ⟨m, u.files ++ ["cmp/core/config.hpp"], u.objects⟩ ∧ Conf p c (configNames ++ used) m ∧
      ∀ n, n ∉ configNames → m n = u.macros n := by
    have frame : ∀ b n, n ∉ configNames → M.set "CMP_CONDITIONAL_INLINE" b n = u.macros n := by
      intro b n hk
      simp only [configNames, settled, unrelated, List.cons_append, List.nil_append, List.mem_cons,
        List.not_mem_nil, or_false, not_or] at hk
      simp only [M, ne_eq, hk, not_false_eq_true, orElse_other, set_other]
    have weak : ∀ b, Conf p c (configNames ++ used) (M.set "CMP_CONDITIONAL_INLINE" b) := by
      intro b
      have := hM.set (n := "CMP_CONDITIONAL_INLINE") (by decide) (by decide) b
      refine { this with outside := ?_, reserved := hM.reserved }
      intro n hn
      refine this.outside n ?_
      simp only [List.mem_cons, not_or]
      exact ⟨fun e => hn (List.mem_append_left _ (e ▸ by decide)), hn⟩
    by_cases h1 : headerOnlyNumber c = 1
    · refine ⟨_, runs_choose ?_ (runs_define _ (some (.name "inline")) _), weak _, frame _⟩
      simp [Directive.branch, hM.holds_true hb, h1]
    · refine ⟨_, runs_choose ?_ (runs_define _ none _), weak _, frame _⟩
      simp [Directive.branch, hM.holds_true hb, h1]
  obtain ⟨m, hr, hm⟩ := hend
  refine ⟨m, ?_, hm⟩
  refine (runs_include (ds := config) rfl (runs_guarded hg ?_)).more (Nat.le_refl 40)
  refine Runs.more (k := 2 + (2 + (2 + (2 + (2 + (2 + (2 + (2 + (2 + (2 + (2 + (1 + 2)))))))))))) ?_ (by omega)
  exact (runs_byDefault _ _ _).cons <| (runs_byDefault _ _ _).cons <| (runs_byDefault _ _ _).cons <|
    (runs_byDefault _ _ _).cons <| (runs_byDefault _ _ _).cons <| (runs_byDefault _ _ _).cons <|
    (runs_byDefault _ _ _).cons <| (runs_byDefault _ _ _).cons <| (runs_byDefault _ _ _).cons <|
    (runs_byDefault _ _ _).cons <| (runs_byDefault _ _ _).cons <| (runs_define _ _ _).cons hr

theorem runs_config_again {p c used} {u : TranslationUnit} (h : Conf p c used u.macros) :
    Runs 2 [.include "cmp/core/config.hpp"] u
      ⟨u.macros, u.files ++ ["cmp/core/config.hpp"], u.objects⟩ :=
  runs_include (ds := config) rfl (runs_guarded_again h.config)

theorem Conf.weaken {p c used used' m} (h : Conf p c used m) (hs : ∀ n ∈ used, n ∈ used')
    (hr : ∀ n ∈ used', Reserved n) : Conf p c used' m :=
  { h with outside := fun n hn => h.outside n fun hu => hn (hs n hu), reserved := hr }

/-- The system that is found: the first one with a mark. -/
def chosen (p : Macros) : Option System :=
  [System.windows, .macos, .linuxBased, .freebsd].find? fun s => s.marks.any fun n => (p n).isSome

/-- The macro that stands for the system. -/
def systemMacro : System → String
  | .windows => "CMP_OS_WINDOWS"
  | .macos => "CMP_OS_MACOS"
  | .linuxBased => "CMP_OS_LINUX_BASED"
  | .freebsd => "CMP_OS_FREEBSD"

/-- The names that `core/operating_system.hpp` may define. -/
def systemNames : List String := ["CMP_CORE_OPERATING_SYSTEM_HPP_INCLUDED", "CMP_OS_WINDOWS",
  "CMP_OS_MACOS", "CMP_OS_LINUX_BASED", "CMP_OS_FREEBSD", "CMP_OS_NAME", "CMP_OS_UNIX_LIKE"]

/-- The macros after `core/operating_system.hpp`. -/
structure Sys (s : Option System) (m : Macros) : Prop where
  guard : m "CMP_CORE_OPERATING_SYSTEM_HPP_INCLUDED" ≠ none
  own : ∀ t, (m (systemMacro t)).isSome = decide (s = some t)
  unixLike : (m "CMP_OS_UNIX_LIKE").isSome = decide (s ≠ none ∧ s ≠ some .windows)
  name : m "CMP_OS_NAME" = s.map fun t => some (.text t.title)

theorem Sys.set {s m} (h : Sys s m) {n : String} (hn : n ∉ systemNames) (b) : Sys s (m.set n b) := by
  have e : ∀ k ∈ systemNames, m.set n b k = m k := fun k hk =>
    set_other m b fun e => hn (e ▸ hk)
  refine ⟨?_, ?_, ?_, ?_⟩
  · rw [e _ (by decide)]; exact h.guard
  · intro t
    rw [e _ (by cases t <;> decide)]; exact h.own t
  · rw [e _ (by decide)]; exact h.unixLike
  · rw [e _ (by decide)]; exact h.name

/-- The directives for the system that is found. -/
def systemDefines : Option System → List Directive
  | none => []
  | some s => [.define (systemMacro s) none, .define "CMP_OS_NAME" (some (.text s.title))]

theorem branch_system {p c used m} (h : Conf p c used m) {k : Nat} {rest : List Directive} {f : TranslationUnit → Prop}
    {u : TranslationUnit} (hu : u.macros = m) (hr : ∃ u', Runs k (systemDefines (chosen p) ++ rest) u u' ∧ f u') :
    ∃ u', Runs (k + 1) (chooseSystem :: rest) u u' ∧ f u' := by
  subst hu
  obtain ⟨u', hr, hf⟩ := hr
  refine ⟨u', ?_, hf⟩
  have fo : ∀ n, ¬ Reserved n → u.macros n = p n := fun n hn => h.foreign hn
  have hb : ∃ bs, chooseSystem = .choose bs [] ∧
      Directive.branch u.macros bs [] = some (systemDefines (chosen p)) := by
    refine ⟨_, rfl, ?_⟩
    simp only [Directive.branch, PpCond.holds]
    rw [fo "_WIN32" (by decide), fo "_WIN64" (by decide), fo "__WIN32__" (by decide),
      fo "__TOS_WIN__" (by decide), fo "__WINDOWS__" (by decide), fo "__APPLE__" (by decide),
      fo "__MACH__" (by decide), fo "__linux__" (by decide), fo "linux" (by decide),
      fo "__linux" (by decide), fo "__FreeBSD__" (by decide)]
    simp only [chosen, System.marks, List.find?, List.any_cons, List.any_nil, Bool.or_false]
    rw [show ((p "_WIN32").isSome || ((p "_WIN64").isSome || ((p "__WIN32__").isSome ||
      ((p "__TOS_WIN__").isSome || (p "__WINDOWS__").isSome)))) = ((((p "_WIN32").isSome ||
      (p "_WIN64").isSome) || (p "__WIN32__").isSome) || (p "__TOS_WIN__").isSome ||
      (p "__WINDOWS__").isSome) by simp only [Bool.or_assoc]]
    rw [show ((p "__linux__").isSome || ((p "linux").isSome || (p "__linux").isSome)) =
      (((p "__linux__").isSome || (p "linux").isSome) || (p "__linux").isSome) by
        simp only [Bool.or_assoc]]
    generalize ((((p "_WIN32").isSome || (p "_WIN64").isSome) || (p "__WIN32__").isSome) ||
      (p "__TOS_WIN__").isSome || (p "__WINDOWS__").isSome) = b1
    generalize ((p "__APPLE__").isSome || (p "__MACH__").isSome) = b2
    generalize (((p "__linux__").isSome || (p "linux").isSome) || (p "__linux").isSome) = b3
    generalize (p "__FreeBSD__").isSome = b4
    cases b1 <;> cases b2 <;> cases b3 <;> cases b4 <;> rfl
  obtain ⟨bs, h1, h2⟩ := hb
  rw [h1]
  intro f rest'
  obtain ⟨f', h3, h4⟩ := hr f rest'
  refine ⟨f', h3, ?_⟩
  rw [← h4]
  simp only [← Nat.add_assoc, List.cons_append, preprocess, h2, List.append_assoc]

/-- `core/operating_system.hpp` for the first time. -/
theorem runs_system {p c used} (hb : Before p c) {u : TranslationUnit} (h : Conf p c used u.macros)
    (hd : ∀ n ∈ systemNames, n ∉ used) :
    ∃ m, Runs 8 [.include "cmp/core/operating_system.hpp"] u
      ⟨m, u.files ++ ["cmp/core/operating_system.hpp"], u.objects⟩ ∧
      Conf p c (systemNames ++ used) m ∧ Sys (chosen p) m ∧
      ∀ n, n ∉ systemNames → m n = u.macros n := by
  have fresh : ∀ n ∈ systemNames, u.macros n = none := fun n hn =>
    h.fresh hb ((show ∀ n ∈ systemNames, Reserved n by decide) n hn)
      (by
        simp only [Settings.given, List.map_cons, List.map_nil]
        exact (show ∀ n ∈ systemNames, n ∉ _ by decide) n hn)
      ((show ∀ n ∈ systemNames, n ∉ unrelated by decide) n hn) (hd n hn)
  have hres : ∀ n ∈ systemNames ++ used, Reserved n := fun n hn => by
    rcases List.mem_append.1 hn with hn | hn
    · exact (show ∀ n ∈ systemNames, Reserved n by decide) n hn
    · exact h.reserved n hn
  have h0 : Conf p c ("CMP_CORE_OPERATING_SYSTEM_HPP_INCLUDED" :: used)
      (u.macros.set "CMP_CORE_OPERATING_SYSTEM_HPP_INCLUDED" none) := h.set (by decide) (by decide) none
  let v : TranslationUnit := ⟨u.macros.set "CMP_CORE_OPERATING_SYSTEM_HPP_INCLUDED" none,
    u.files ++ ["cmp/core/operating_system.hpp"], u.objects⟩
  suffices hs : ∃ u', Runs 4 (systemDefines (chosen p) ++ [.choose [(.or (.or (.defined "CMP_OS_MACOS")
      (.defined "CMP_OS_LINUX_BASED")) (.defined "CMP_OS_FREEBSD"), [.define "CMP_OS_UNIX_LIKE" none])] []])
      v u' ∧ (u'.files = v.files ∧ u'.objects = v.objects ∧ Conf p c (systemNames ++ used) u'.macros ∧
        Sys (chosen p) u'.macros ∧ ∀ n, n ∉ systemNames → u'.macros n = u.macros n) by
    obtain ⟨⟨m, fs, os⟩, h1, h2, h3, h4, h5, h6⟩ := branch_system h0 (u := v) rfl hs
    subst h2 h3
    exact ⟨m, (runs_include (ds := operatingSystem) rfl
      (runs_guarded (fresh _ (by decide)) h1)).more (by omega), h4, h5, h6⟩
  have f1 := fresh "CMP_OS_WINDOWS" (by decide)
  have f2 := fresh "CMP_OS_MACOS" (by decide)
  have f3 := fresh "CMP_OS_LINUX_BASED" (by decide)
  have f4 := fresh "CMP_OS_FREEBSD" (by decide)
  have f5 := fresh "CMP_OS_NAME" (by decide)
  have f6 := fresh "CMP_OS_UNIX_LIKE" (by decide)
  cases hc : chosen p with
  | none =>
    refine ⟨v, ?_, rfl, rfl, h0.weaken ?_ hres, ⟨?_, ?_, ?_, ?_⟩, ?_⟩
    · refine (runs_choose (ds := []) ?_ (Runs.nil v)).more (by omega)
      simp [v, Directive.branch, PpCond.holds, set_other, f2, f3, f4]
    · intro n hn
      rcases List.mem_cons.1 hn with rfl | hn
      · exact List.mem_append_left _ (by decide)
      · exact List.mem_append_right _ hn
    · simp [v, set_self]
    · intro t
      cases t <;> simp [v, systemMacro, set_other, f1, f2, f3, f4]
    · simp [v, set_other, f6]
    · simp [v, set_other, f5]
    · intro n hn
      simp only [systemNames, List.mem_cons, not_or] at hn
      simp [v, set_other, hn.1]
  | some s =>
    let w : TranslationUnit := ⟨(v.macros.set (systemMacro s) none).set "CMP_OS_NAME" (some (.text s.title)),
      v.files, v.objects⟩
    have r0 : Runs 2 (systemDefines (some s)) v w := (runs_define _ _ _).cons (runs_define _ _ _)
    have c1 : Conf p c ("CMP_OS_NAME" :: systemMacro s :: "CMP_CORE_OPERATING_SYSTEM_HPP_INCLUDED" :: used)
        w.macros := (h0.set (by cases s <;> decide) (by cases s <;> decide) none).set (by decide) (by decide) _
    by_cases hw : s = .windows
    · subst hw
      refine ⟨w, (r0.append (runs_choose (ds := []) ?_ (Runs.nil w))).more (by omega), rfl, rfl,
        c1.weaken ?_ hres, ⟨?_, ?_, ?_, ?_⟩, ?_⟩
      · simp [w, v, Directive.branch, PpCond.holds, systemMacro, set_other, f2, f3, f4]
      · intro n hn
        simp only [List.mem_cons] at hn
        rcases hn with rfl | rfl | rfl | hn
        · exact List.mem_append_left _ (by decide)
        · exact List.mem_append_left _ (by decide)
        · exact List.mem_append_left _ (by decide)
        · exact List.mem_append_right _ hn
      · simp [w, v, systemMacro, set_self, set_other]
      · intro t
        cases t <;> simp [w, v, systemMacro, set_self, set_other, f2, f3, f4]
      · simp [w, v, systemMacro, set_other, f6]
      · simp [w, set_self]
      · intro n hn
        simp only [systemNames, List.mem_cons, not_or] at hn
        simp [w, v, systemMacro, set_other, hn]
    · refine ⟨{ w with macros := w.macros.set "CMP_OS_UNIX_LIKE" none },
        (r0.append (runs_choose (k := 1) (ds := [.define "CMP_OS_UNIX_LIKE" none]) ?_
          (runs_define _ _ _))).more (by omega), rfl, rfl,
        (c1.set (n := "CMP_OS_UNIX_LIKE") (by decide) (by decide) none).weaken ?_ hres, ⟨?_, ?_, ?_, ?_⟩, ?_⟩
      · cases s <;> first
          | exact absurd rfl hw
          | simp [w, v, Directive.branch, PpCond.holds, systemMacro, set_self, set_other, f2, f3, f4]
      · intro n hn
        simp only [List.mem_cons] at hn
        rcases hn with rfl | rfl | rfl | rfl | hn
        · exact List.mem_append_left _ (by decide)
        · exact List.mem_append_left _ (by decide)
        · exact List.mem_append_left _ (by cases s <;> decide)
        · exact List.mem_append_left _ (by decide)
        · exact List.mem_append_right _ hn
      · cases s <;> simp [w, v, systemMacro, set_self, set_other]
      · intro t
        cases s <;> first
          | exact absurd rfl hw
          | (cases t <;> simp [w, v, systemMacro, set_self, set_other, f1, f2, f3, f4])
      · simp [set_self, hw]
      · simp [w, set_self, set_other]
      · intro n hn
        simp only [systemNames, List.mem_cons, not_or] at hn
        cases s <;> simp [w, v, systemMacro, set_other, hn]

/-- The names that `core/compiler.hpp` may define. -/
def compilerNames : List String := ["CMP_CORE_COMPILER_HPP_INCLUDED", "CMP_COMPILER_CLANG",
  "CMP_COMPILER_GCC", "CMP_COMPILER_MSVC", "CMP_COMPILER_UNSUPPORTED", "CMP_COMPILER_NAME"]

/-- `core/compiler.hpp` for the first time. -/
theorem runs_compiler {p c used} (hb : Before p c) {u : TranslationUnit} (h : Conf p c used u.macros)
    (hd : "CMP_CORE_COMPILER_HPP_INCLUDED" ∉ used) :
    ∃ m, Runs 6 [.include "cmp/core/compiler.hpp"] u
      ⟨m, u.files ++ ["cmp/core/compiler.hpp"], u.objects⟩ ∧
      Conf p c (compilerNames ++ used) m ∧ m "CMP_COMPILER_NAME" = some (some (.text (compilerTitle p))) ∧
      ∀ n, n ∉ compilerNames → m n = u.macros n := by
  have hg : u.macros "CMP_CORE_COMPILER_HPP_INCLUDED" = none :=
    h.fresh hb (by decide) (by simp [Settings.given]) (by decide) hd
  have hres : ∀ n ∈ compilerNames ++ used, Reserved n := fun n hn => by
    rcases List.mem_append.1 hn with hn | hn
    · exact (show ∀ n ∈ compilerNames, Reserved n by decide) n hn
    · exact h.reserved n hn
  have fo : ∀ n, ¬ Reserved n → u.macros n = p n := fun n hn => h.foreign hn
  let v : TranslationUnit := ⟨u.macros.set "CMP_CORE_COMPILER_HPP_INCLUDED" none,
    u.files ++ ["cmp/core/compiler.hpp"], u.objects⟩
  suffices hs : ∃ a ∈ compilerNames, a ∉ settled ∧ a ≠ "CMP_COMPILER_NAME" ∧ ∀ bs,
      compiler = guarded "CMP_CORE_COMPILER_HPP_INCLUDED" [.choose bs
        [.define "CMP_COMPILER_UNSUPPORTED" none,
          .define "CMP_COMPILER_NAME" (some (.text "<Unsupported>"))]] →
      Directive.branch v.macros bs [.define "CMP_COMPILER_UNSUPPORTED" none,
          .define "CMP_COMPILER_NAME" (some (.text "<Unsupported>"))] =
        some [.define a none, .define "CMP_COMPILER_NAME" (some (.text (compilerTitle p)))] by
    obtain ⟨a, ha, has, hne, hs⟩ := hs
    have hs := hs _ rfl
    refine ⟨(v.macros.set a none).set "CMP_COMPILER_NAME" (some (.text (compilerTitle p))),
      (runs_include (ds := compiler) rfl (runs_guarded hg (runs_choose hs
        ((runs_define _ _ _).cons (runs_define _ _ _))))).more (by omega), ?_, set_self _ _ _, ?_⟩
    · refine ((((h.set (n := "CMP_CORE_COMPILER_HPP_INCLUDED") (by decide) (by decide) none).set (n := a)
        (hres a (List.mem_append_left _ ha)) has none).set (n := "CMP_COMPILER_NAME") (by decide)
        (by decide) _).weaken ?_ hres)
      intro n hn
      simp only [List.mem_cons] at hn
      rcases hn with rfl | rfl | rfl | hn
      · exact List.mem_append_left _ (by decide)
      · exact List.mem_append_left _ ha
      · exact List.mem_append_left _ (by decide)
      · exact List.mem_append_right _ hn
    · intro n hn
      have n1 : n ≠ "CMP_COMPILER_NAME" := fun e => hn (by rw [e]; decide)
      have n2 : n ≠ a := fun e => hn (by rw [e]; exact ha)
      have n3 : n ≠ "CMP_CORE_COMPILER_HPP_INCLUDED" := fun e => hn (by rw [e]; decide)
      rw [set_other _ _ n1, set_other _ _ n2]
      exact set_other _ _ n3
  have e1 : v.macros "__clang__" = p "__clang__" :=
    (set_other (n := "CMP_CORE_COMPILER_HPP_INCLUDED") (k := "__clang__") u.macros none (by decide)).trans
      (fo _ (by decide))
  have e2 : v.macros "__GNUC__" = p "__GNUC__" :=
    (set_other (n := "CMP_CORE_COMPILER_HPP_INCLUDED") (k := "__GNUC__") u.macros none (by decide)).trans
      (fo _ (by decide))
  have e3 : v.macros "_MSC_VER" = p "_MSC_VER" :=
    (set_other (n := "CMP_CORE_COMPILER_HPP_INCLUDED") (k := "_MSC_VER") u.macros none (by decide)).trans
      (fo _ (by decide))
  by_cases h1 : (p "__clang__").isSome
  · refine ⟨"CMP_COMPILER_CLANG", by decide, by decide, by decide, ?_⟩
    intro bs hbs
    simp only [compiler, guarded, List.cons.injEq, Directive.choose.injEq, Prod.mk.injEq, and_true,
      true_and] at hbs
    subst hbs
    simp [Directive.branch, PpCond.holds, e1, h1, compilerTitle]
  · by_cases h2 : (p "__GNUC__").isSome
    · refine ⟨"CMP_COMPILER_GCC", by decide, by decide, by decide, ?_⟩
      intro bs hbs
      simp only [compiler, guarded, List.cons.injEq, Directive.choose.injEq, Prod.mk.injEq, and_true,
        true_and] at hbs
      subst hbs
      simp [Directive.branch, PpCond.holds, e1, h1, e2, h2, compilerTitle]
    · by_cases h3 : (p "_MSC_VER").isSome
      · refine ⟨"CMP_COMPILER_MSVC", by decide, by decide, by decide, ?_⟩
        intro bs hbs
        simp only [compiler, guarded, List.cons.injEq, Directive.choose.injEq, Prod.mk.injEq, and_true,
          true_and] at hbs
        subst hbs
        simp [Directive.branch, PpCond.holds, e1, h1, e2, h2, e3, h3, compilerTitle]
      · refine ⟨"CMP_COMPILER_UNSUPPORTED", by decide, by decide, by decide, ?_⟩
        intro bs hbs
        simp only [compiler, guarded, List.cons.injEq, Directive.choose.injEq, Prod.mk.injEq, and_true,
          true_and] at hbs
        subst hbs
        simp [Directive.branch, PpCond.holds, e1, h1, e2, h2, e3, h3, compilerTitle]

/-- The names that `core/platform.hpp` may define besides those of `core/config.hpp`. -/
def platformNames : List String :=
  systemNames ++ (compilerNames ++ ["CMP_CORE_PLATFORM_HPP_INCLUDED"])

/-- The macros after `core/platform.hpp`. -/
structure Ready (p : Macros) (c : Settings) (used : List String) (m : Macros) : Prop where
  conf : Conf p c used m
  sys : Sys (chosen p) m
  platform : m "CMP_CORE_PLATFORM_HPP_INCLUDED" ≠ none
  compilerName : m "CMP_COMPILER_NAME" = some (some (.text (compilerTitle p)))

theorem Ready.set {p c used m} (h : Ready p c used m) {n : String} (hr : Reserved n) (hn : n ∉ settled)
    (hp : n ∉ platformNames) : Ready p c (n :: used) (m.set n none) := by
  refine ⟨h.conf.set hr hn none, h.sys.set (fun e => hp (List.mem_append_left _ e)) none, ?_, ?_⟩
  · have n1 : "CMP_CORE_PLATFORM_HPP_INCLUDED" ≠ n := fun e => hp (by rw [← e]; decide)
    rw [set_other _ _ n1]; exact h.platform
  · have n1 : "CMP_COMPILER_NAME" ≠ n := fun e => hp (by rw [← e]; decide)
    rw [set_other _ _ n1]; exact h.compilerName

/-- `core/platform.hpp` for the first time, but not `core/config.hpp`. -/
theorem runs_platform {p c used} (hb : Before p c) {u : TranslationUnit} (h : Conf p c used u.macros)
    (hd : ∀ n ∈ platformNames, n ∉ used) :
    ∃ m, Runs 30 [.include "cmp/core/platform.hpp"] u
      ⟨m, u.files ++ ["cmp/core/platform.hpp", "cmp/core/config.hpp", "cmp/core/compiler.hpp",
        "cmp/core/operating_system.hpp"], u.objects⟩ ∧
      Ready p c (platformNames ++ used) m ∧ ∀ n, n ∉ platformNames → m n = u.macros n := by
  have hg : u.macros "CMP_CORE_PLATFORM_HPP_INCLUDED" = none :=
    h.fresh hb (by decide) (by simp [Settings.given]) (by decide) (hd _ (by decide))
  let v : TranslationUnit := ⟨u.macros.set "CMP_CORE_PLATFORM_HPP_INCLUDED" none,
    u.files ++ ["cmp/core/platform.hpp"], u.objects⟩
  have hv : Conf p c ("CMP_CORE_PLATFORM_HPP_INCLUDED" :: used) v.macros :=
    h.set (by decide) (by decide) none
  have r1 := runs_config_again hv
  obtain ⟨m2, r2, c2, n2, o2⟩ := runs_compiler hb
    (u := ⟨v.macros, v.files ++ ["cmp/core/config.hpp"], v.objects⟩) hv
    (by
      simp only [List.mem_cons, not_or]
      exact ⟨by decide, hd _ (by decide)⟩)
  obtain ⟨m3, r3, c3, s3, o3⟩ := runs_system hb
    (u := ⟨m2, v.files ++ ["cmp/core/config.hpp"] ++ ["cmp/core/compiler.hpp"], v.objects⟩) c2
    (by
      intro n hn hu
      rcases List.mem_append.1 hu with hu | hu
      · exact (show ∀ n ∈ systemNames, n ∉ compilerNames by decide) n hn hu
      · rcases List.mem_cons.1 hu with rfl | hu
        · exact absurd hn (by decide)
        · exact hd n (List.mem_append_left _ hn) hu)
  refine ⟨m3, ?_, ⟨?_, s3, ?_, ?_⟩, ?_⟩
  · have := (runs_include (ds := platform) rfl (runs_guarded hg (r1.cons (r2.cons r3)))).more
      (l := 30) (by omega)
    simpa only [v, List.append_assoc, List.cons_append, List.nil_append] using this
  · simpa only [platformNames, List.append_assoc, List.cons_append, List.nil_append] using c3
  · have e := (o3 "CMP_CORE_PLATFORM_HPP_INCLUDED" (by decide)).trans
      (o2 "CMP_CORE_PLATFORM_HPP_INCLUDED" (by decide))
    rw [e]
    simp [v, set_self]
  · rw [o3 _ (by decide)]; exact n2
  · intro n hn
    simp only [platformNames, List.mem_append, List.mem_singleton, not_or] at hn
    exact ((o3 n hn.1).trans (o2 n hn.2.1)).trans (set_other _ _ hn.2.2)

theorem runs_platform_again {p c used} {u : TranslationUnit} (h : Ready p c used u.macros) :
    Runs 2 [.include "cmp/core/platform.hpp"] u
      ⟨u.macros, u.files ++ ["cmp/core/platform.hpp"], u.objects⟩ :=
  runs_include (ds := platform) rfl (runs_guarded_again h.platform)

/-- Any guarded header that was entered before. -/
theorem runs_again {n g : String} {ds : List Directive} {u : TranslationUnit} (hn : contents n = guarded g ds)
    (h : u.macros g ≠ none) : Runs 2 [.include n] u ⟨u.macros, u.files ++ [n], u.objects⟩ :=
  runs_include hn (runs_guarded_again h)

/-- A file of which only the name is modelled. -/
theorem runs_leaf {n : String} {u : TranslationUnit} (hn : contents n = []) :
    Runs 1 [.include n] u ⟨u.macros, u.files ++ [n], u.objects⟩ :=
  runs_include hn (Runs.nil _)

end Cmp.Headers
