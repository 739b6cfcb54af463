/-
Preprocessing the headers of the standard streams.
-/
import Verif.Proofs.PreprocessorUnits

namespace Cmp.Headers

open Cmp.Spec

/-- `uout_resource` and `uerr_resource`, as they are defined. -/
def outObjects (c : Settings) (isInline : Bool) : List ObjectDefinition := [
  ⟨"uout_resource", isInline, some (asked c.stdoutCapacity c.capacity)⟩,
  ⟨"uerr_resource", isInline, some (asked c.stderrCapacity c.capacity)⟩]

/-- `uin_resource`, as it is defined. -/
def inObjects (c : Settings) (isInline : Bool) : List ObjectDefinition := [
  ⟨"uin_resource", isInline, some (asked c.stdinCapacity c.capacity)⟩]

/-- `uin`, `uout` and `uerr`, as they are defined. -/
def streamObjects (isInline : Bool) : List ObjectDefinition := [
  ⟨"uin", isInline, none⟩, ⟨"uout", isInline, none⟩, ⟨"uerr", isInline, none⟩]

theorem runs_outputResources {p c used} (hb : Before p c) (i : Bool) {u : TranslationUnit}
    (h : Conf p c used u.macros) :
    Runs 2 (outputResources i) u ⟨u.macros, u.files, u.objects ++ outObjects c i⟩ := by
  have e1 := h.expand_of hb (n := "CMP_CONFIG_DEFAULT_STDOUT_BUFFER_CAPACITY") (o := c.stdoutCapacity)
    (by simp [Settings.given]) (by decide) h.stdout
  have e2 := h.expand_of hb (n := "CMP_CONFIG_DEFAULT_STDERR_BUFFER_CAPACITY") (o := c.stderrCapacity)
    (by simp [Settings.given]) (by decide) h.stderr
  have := (runs_object "uout_resource" i (some (.name "CMP_CONFIG_DEFAULT_STDOUT_BUFFER_CAPACITY")) u).cons
    (runs_object "uerr_resource" i (some (.name "CMP_CONFIG_DEFAULT_STDERR_BUFFER_CAPACITY")) _)
  simpa only [outputResources, outObjects, Option.bind_some, e1, e2, List.append_assoc, List.cons_append, List.nil_append] using this

theorem runs_inputResource {p c used} (hb : Before p c) (i : Bool) {u : TranslationUnit}
    (h : Conf p c used u.macros) :
    Runs 1 (inputResource i) u ⟨u.macros, u.files, u.objects ++ inObjects c i⟩ := by
  have e1 := h.expand_of hb (n := "CMP_CONFIG_DEFAULT_STDIN_BUFFER_CAPACITY") (o := c.stdinCapacity)
    (by simp [Settings.given]) (by decide) h.stdin
  have := runs_object "uin_resource" i (some (.name "CMP_CONFIG_DEFAULT_STDIN_BUFFER_CAPACITY")) u
  simpa only [inputResource, inObjects, Option.bind_some, e1] using this

theorem runs_standardStreams (i : Bool) (u : TranslationUnit) :
    Runs 3 (standardStreams i) u ⟨u.macros, u.files, u.objects ++ streamObjects i⟩ := by
  have := (runs_object "uin" i none u).cons ((runs_object "uout" i none _).cons
    (runs_object "uerr" i none _))
  simpa only [standardStreams, streamObjects, Option.bind_none, List.append_assoc, List.cons_append, List.nil_append] using this

theorem ifHeaderOnly_yes {α : Type} {c : Settings} (h : HeaderOnly c) (l : List α) :
    ifHeaderOnly c l = l := by simp [ifHeaderOnly, h]

theorem ifHeaderOnly_no {α : Type} {c : Settings} (h : ¬ HeaderOnly c) (l : List α) :
    ifHeaderOnly c l = [] := by simp [ifHeaderOnly, h]

/-- A guard and what is needed of its name. -/
structure Guard (g : String) (m : Macros) : Prop where
  fresh : m g = none
  reserved : Reserved g
  unsettled : g ∉ settled
  elsewhere : g ∉ platformNames

/-- `windows_uout.hpp` or `unix_like_uout.hpp`. -/
theorem runs_uout {p c used header guard own} (hb : Before p c)
    (hh : contents header = systemUout guard own) (ho : contents own = systemUoutSource header)
    {u : TranslationUnit} (h : Ready p c used u.macros) (hi : u.macros ioGuard ≠ none)
    (hg : Guard guard u.macros) :
    Runs 16 [.include header] u ⟨u.macros.set guard none,
      u.files ++ [header, "cmp/io/inclusion_assert.hpp", "cmp/core/platform.hpp"] ++
        ifHeaderOnly c [own, header], u.objects ++ ifHeaderOnly c (outObjects c true)⟩ := by
  have h' := h.set hg.reserved hg.unsettled hg.elsewhere
  have ne1 : ioGuard ≠ guard := fun e => hi (e ▸ hg.fresh)
  let m : Macros := u.macros.set guard none
  let f3 := u.files ++ [header] ++ ["cmp/io/inclusion_assert.hpp"] ++ ["cmp/core/platform.hpp"]
  have r1 := runs_ioAssert_again (u := ⟨m, u.files ++ [header], u.objects⟩)
    (by
      change u.macros.set guard none ioGuard ≠ none
      rw [set_other _ _ ne1]; exact hi)
  have r2 := runs_platform_again (u := ⟨m, u.files ++ [header] ++ ["cmp/io/inclusion_assert.hpp"],
    u.objects⟩) h'
  have r3 : Runs 3 [.choose [(equalsTrue "CMP_CONFIG_HEADER_ONLY", outputResources true)] []]
      ⟨m, f3, u.objects⟩ ⟨m, f3, u.objects ++ ifHeaderOnly c (outObjects c true)⟩ := by
    refine runs_if_headerOnly hb (u := ⟨m, f3, u.objects⟩) h'.conf (fun hy => ?_) (fun hn => ?_)
    · rw [ifHeaderOnly_yes hy]
      exact runs_outputResources hb true (u := ⟨m, f3, u.objects⟩) h'.conf
    · rw [ifHeaderOnly_no hn, List.append_nil]
  have r4 : Runs 5 [source own] ⟨m, f3, u.objects ++ ifHeaderOnly c (outObjects c true)⟩
      ⟨m, f3 ++ ifHeaderOnly c [own, header], u.objects ++ ifHeaderOnly c (outObjects c true)⟩ := by
    refine runs_if_headerOnly hb (u := ⟨m, f3, _⟩) h'.conf (fun hy => ?_) (fun hn => ?_)
    · have a1 := runs_again (u := ⟨m, f3 ++ [own], u.objects ++ ifHeaderOnly c (outObjects c true)⟩)
        (n := header) (g := guard) (by rw [hh]; rfl) (by simp [m, set_self])
      have a2 : Runs 1 [.choose [(equalsFalse "CMP_CONFIG_HEADER_ONLY", outputResources false)] []]
          ⟨m, f3 ++ [own] ++ [header], u.objects ++ ifHeaderOnly c (outObjects c true)⟩
          ⟨m, f3 ++ [own] ++ [header], u.objects ++ ifHeaderOnly c (outObjects c true)⟩ := by
        refine runs_if_compiled (k := 0) hb (u := ⟨m, _, _⟩) h'.conf (fun h0 => ?_) (fun _ => rfl)
        exact absurd (h0.symm.trans hy) (by decide)
      have := runs_include (u := ⟨m, f3, u.objects ++ ifHeaderOnly c (outObjects c true)⟩) ho (a1.cons a2)
      rw [ifHeaderOnly_yes hy [own, header]]
      simpa only [List.append_assoc, List.cons_append, List.nil_append] using this
    · rw [ifHeaderOnly_no hn [own, header], List.append_nil]
  have := (runs_include hh (runs_guarded (u := ⟨u.macros, u.files ++ [header], u.objects⟩) hg.fresh
    (r1.cons (r2.cons (r3.cons r4))))).more (l := 16) (by omega)
  simpa only [m, f3, List.append_assoc, List.cons_append, List.nil_append] using this

/-- The files of `windows_uin.hpp` or `unix_like_uin.hpp`. -/
def uinFiles (c : Settings) (header own outHeader outOwn : String) : List String :=
  [header, "cmp/io/inclusion_assert.hpp", "cmp/core/platform.hpp", outHeader,
    "cmp/io/inclusion_assert.hpp", "cmp/core/platform.hpp"] ++
  ifHeaderOnly c [outOwn, outHeader] ++ ifHeaderOnly c [own, header]

/-- `windows_uin.hpp` or `unix_like_uin.hpp`. -/
theorem runs_uin {p c used header guard own outHeader outGuard outOwn} (hb : Before p c)
    (hh : contents header = systemUin guard outHeader own) (ho : contents own = systemUinSource header)
    (oh : contents outHeader = systemUout outGuard outOwn)
    (oo : contents outOwn = systemUoutSource outHeader)
    {u : TranslationUnit} (h : Ready p c used u.macros) (hi : u.macros ioGuard ≠ none)
    (hg : Guard guard u.macros) (og : Guard outGuard u.macros) (hne : outGuard ≠ guard) :
    Runs 36 [.include header] u ⟨(u.macros.set guard none).set outGuard none,
      u.files ++ uinFiles c header own outHeader outOwn,
      u.objects ++ ifHeaderOnly c (outObjects c true) ++ ifHeaderOnly c (inObjects c true)⟩ := by
  have h' := h.set hg.reserved hg.unsettled hg.elsewhere
  have h'' := h'.set og.reserved og.unsettled og.elsewhere
  have ne1 : ioGuard ≠ guard := fun e => hi (e ▸ hg.fresh)
  let m : Macros := u.macros.set guard none
  let M : Macros := m.set outGuard none
  have hi' : m ioGuard ≠ none := by
    rw [show m = u.macros.set guard none from rfl, set_other _ _ ne1]; exact hi
  have r1 := runs_ioAssert_again (u := ⟨m, u.files ++ [header], u.objects⟩) hi'
  have r2 := runs_platform_again (u := ⟨m, u.files ++ [header] ++ ["cmp/io/inclusion_assert.hpp"],
    u.objects⟩) h'
  have rO := runs_uout (c := c) (u := ⟨m, u.files ++ [header] ++ ["cmp/io/inclusion_assert.hpp"] ++
    ["cmp/core/platform.hpp"], u.objects⟩) hb oh oo h' hi'
    ⟨by
      change u.macros.set guard none outGuard = none
      rw [set_other _ _ hne]; exact og.fresh,
      og.reserved, og.unsettled, og.elsewhere⟩
  let f3 := u.files ++ [header] ++ ["cmp/io/inclusion_assert.hpp"] ++ ["cmp/core/platform.hpp"] ++
    [outHeader, "cmp/io/inclusion_assert.hpp", "cmp/core/platform.hpp"] ++ ifHeaderOnly c [outOwn, outHeader]
  let O := u.objects ++ ifHeaderOnly c (outObjects c true)
  have r3 : Runs 2 [.choose [(equalsTrue "CMP_CONFIG_HEADER_ONLY", inputResource true)] []]
      ⟨M, f3, O⟩ ⟨M, f3, O ++ ifHeaderOnly c (inObjects c true)⟩ := by
    refine runs_if_headerOnly hb (u := ⟨M, f3, O⟩) h''.conf (fun hy => ?_) (fun hn => ?_)
    · rw [ifHeaderOnly_yes hy]
      exact runs_inputResource hb true (u := ⟨M, f3, O⟩) h''.conf
    · rw [ifHeaderOnly_no hn, List.append_nil]
  have r4 : Runs 5 [source own] ⟨M, f3, O ++ ifHeaderOnly c (inObjects c true)⟩
      ⟨M, f3 ++ ifHeaderOnly c [own, header], O ++ ifHeaderOnly c (inObjects c true)⟩ := by
    refine runs_if_headerOnly hb (u := ⟨M, f3, _⟩) h''.conf (fun hy => ?_) (fun hn => ?_)
    · have a1 := runs_again (u := ⟨M, f3 ++ [own], O ++ ifHeaderOnly c (inObjects c true)⟩)
        (n := header) (g := guard) (by rw [hh]; rfl)
        (by simp [M, m, set_other _ _ (Ne.symm hne), set_self])
      have a2 : Runs 1 [.choose [(equalsFalse "CMP_CONFIG_HEADER_ONLY", inputResource false)] []]
          ⟨M, f3 ++ [own] ++ [header], O ++ ifHeaderOnly c (inObjects c true)⟩
          ⟨M, f3 ++ [own] ++ [header], O ++ ifHeaderOnly c (inObjects c true)⟩ := by
        refine runs_if_compiled (k := 0) hb (u := ⟨M, _, _⟩) h''.conf (fun h0 => ?_) (fun _ => rfl)
        exact absurd (h0.symm.trans hy) (by decide)
      have := runs_include (u := ⟨M, f3, O ++ ifHeaderOnly c (inObjects c true)⟩) ho (a1.cons a2)
      rw [ifHeaderOnly_yes hy [own, header]]
      simpa only [List.append_assoc, List.cons_append, List.nil_append] using this
    · rw [ifHeaderOnly_no hn [own, header], List.append_nil]
  have := (runs_include hh (runs_guarded (u := ⟨u.macros, u.files ++ [header], u.objects⟩) hg.fresh
    (r1.cons (r2.cons (rO.cons (r3.cons r4)))))).more (l := 36) (by omega)
  simpa only [m, M, f3, O, uinFiles, List.append_assoc, List.cons_append, List.nil_append] using this

/-- The guards of the headers that are chosen among for the standard streams. -/
def uioGuards : List String := ["CMP_IO_WINDOWS_UIN_HPP_INCLUDED", "CMP_IO_WINDOWS_UOUT_HPP_INCLUDED",
  "CMP_IO_UNIX_LIKE_UIN_HPP_INCLUDED", "CMP_IO_UNIX_LIKE_UOUT_HPP_INCLUDED"]

/-- The files of the last part of `common_uio.hpp`. -/
def commonFiles (c : Settings) (s : Option System) : List String :=
  part s
    (uinFiles c "cmp/io/impl/windows/windows_uin.hpp" "cmp/io/impl/windows/windows_uin.cpp"
      "cmp/io/impl/windows/windows_uout.hpp" "cmp/io/impl/windows/windows_uout.cpp")
    (uinFiles c "cmp/io/impl/unix_like/unix_like_uin.hpp" "cmp/io/impl/unix_like/unix_like_uin.cpp"
      "cmp/io/impl/unix_like/unix_like_uout.hpp" "cmp/io/impl/unix_like/unix_like_uout.cpp") ++
  ifHeaderOnly c ["cmp/io/impl/common/common_uio.cpp", "cmp/io/impl/common/common_uio.hpp"]

/-- Its objects. -/
def commonObjects (c : Settings) (s : Option System) : List ObjectDefinition :=
  part s (ifHeaderOnly c (outObjects c true) ++ ifHeaderOnly c (inObjects c true))
    (ifHeaderOnly c (outObjects c true) ++ ifHeaderOnly c (inObjects c true))

/-- The last part of `common_uio.hpp`. -/
theorem runs_common {p c used} (hb : Before p c) {u : TranslationUnit} (h : Ready p c used u.macros)
    (hi : u.macros ioGuard ≠ none) (hc : u.macros "CMP_IO_COMMON_UIO_HPP_INCLUDED" ≠ none)
    (hg : ∀ g ∈ uioGuards, u.macros g = none) :
    ∃ m used, Runs 44 [ioChoice "cmp/io/impl/windows/windows_uin.hpp"
        "cmp/io/impl/unix_like/unix_like_uin.hpp", source "cmp/io/impl/common/common_uio.cpp"] u
      ⟨m, u.files ++ commonFiles c (chosen p), u.objects ++ commonObjects c (chosen p)⟩ ∧
      Ready p c used m ∧ (∀ n, n ∉ uioGuards → m n = u.macros n) ∧
      ∀ g ∈ part (chosen p)
        ["CMP_IO_WINDOWS_UIN_HPP_INCLUDED", "CMP_IO_WINDOWS_UOUT_HPP_INCLUDED"]
        ["CMP_IO_UNIX_LIKE_UIN_HPP_INCLUDED", "CMP_IO_UNIX_LIKE_UOUT_HPP_INCLUDED"], m g ≠ none := by
  have guard : ∀ g ∈ uioGuards, Guard g u.macros := fun g hm => ⟨hg g hm,
    (show ∀ g ∈ uioGuards, Reserved g by decide) g hm, (show ∀ g ∈ uioGuards, g ∉ settled by decide) g hm,
    (show ∀ g ∈ uioGuards, g ∉ platformNames by decide) g hm⟩
  have hbr := branch_io (m := u.macros) h.sys [.include "cmp/io/impl/windows/windows_uin.hpp"]
    [.include "cmp/io/impl/unix_like/unix_like_uin.hpp"]
  have g1 := guard "CMP_IO_WINDOWS_UIN_HPP_INCLUDED" (by decide)
  have g2 := guard "CMP_IO_WINDOWS_UOUT_HPP_INCLUDED" (by decide)
  have g3 := guard "CMP_IO_UNIX_LIKE_UIN_HPP_INCLUDED" (by decide)
  have g4 := guard "CMP_IO_UNIX_LIKE_UOUT_HPP_INCLUDED" (by decide)
  have win := runs_uin (header := "cmp/io/impl/windows/windows_uin.hpp")
    (own := "cmp/io/impl/windows/windows_uin.cpp") (outHeader := "cmp/io/impl/windows/windows_uout.hpp")
    (outOwn := "cmp/io/impl/windows/windows_uout.cpp") hb rfl rfl rfl rfl h hi g1 g2 (by decide)
  have unx := runs_uin (header := "cmp/io/impl/unix_like/unix_like_uin.hpp")
    (own := "cmp/io/impl/unix_like/unix_like_uin.cpp")
    (outHeader := "cmp/io/impl/unix_like/unix_like_uout.hpp")
    (outOwn := "cmp/io/impl/unix_like/unix_like_uout.cpp") hb rfl rfl rfl rfl h hi g3 g4 (by decide)
  have hw := (h.set g1.reserved g1.unsettled g1.elsewhere).set g2.reserved g2.unsettled g2.elsewhere
  have hx := (h.set g3.reserved g3.unsettled g3.elsewhere).set g4.reserved g4.unsettled g4.elsewhere
  have last : ∀ {used} (v : TranslationUnit), Ready p c used v.macros →
      v.macros "CMP_IO_COMMON_UIO_HPP_INCLUDED" ≠ none →
      Runs 4 [source "cmp/io/impl/common/common_uio.cpp"] v ⟨v.macros, v.files ++ ifHeaderOnly c
        ["cmp/io/impl/common/common_uio.cpp", "cmp/io/impl/common/common_uio.hpp"], v.objects⟩ := by
    intro used v hv hcv
    refine runs_if_headerOnly hb hv.conf (fun hy => ?_) (fun hn => ?_)
    · have a1 := runs_again (u := ⟨v.macros, v.files ++ ["cmp/io/impl/common/common_uio.cpp"], v.objects⟩)
        (n := "cmp/io/impl/common/common_uio.hpp") (g := "CMP_IO_COMMON_UIO_HPP_INCLUDED") rfl hcv
      have := runs_include (n := "cmp/io/impl/common/common_uio.cpp")
        (ds := [.include "cmp/io/impl/common/common_uio.hpp"]) (u := v) rfl a1
      rw [ifHeaderOnly_yes hy]
      simpa only [List.append_assoc, List.cons_append, List.nil_append] using this
    · rw [ifHeaderOnly_no hn, List.append_nil]
  rcases three_ways (chosen p) with hs | hs | ⟨s, hs, -, hpt⟩
  · rw [hs] at hbr ⊢
    have r := ((runs_choose hbr (Runs.nil u)).cons (last u h hc)).more (l := 44) (by omega)
    refine ⟨u.macros, used, ?_, h, fun _ _ => rfl, fun g hg => ?_⟩
    · simpa only [commonFiles, commonObjects, part, List.nil_append, List.append_nil, ioChoice] using r
    · simp [part] at hg
  · rw [hs] at hbr ⊢
    have hc' : (u.macros.set "CMP_IO_WINDOWS_UIN_HPP_INCLUDED" none).set "CMP_IO_WINDOWS_UOUT_HPP_INCLUDED" none
        "CMP_IO_COMMON_UIO_HPP_INCLUDED" ≠ none := by
      rw [set_other _ _ (by decide), set_other _ _ (by decide)]; exact hc
    have r := ((runs_choose hbr win).cons (last _ hw hc')).more (l := 44) (by omega)
    refine ⟨_, _, ?_, hw, ?_, ?_⟩
    · simpa only [commonFiles, commonObjects, part, List.append_assoc, ioChoice] using r
    · intro n hn
      simp only [uioGuards, List.mem_cons, not_or] at hn
      rw [set_other _ _ hn.2.1, set_other _ _ hn.1]
    · simp [part, set_self, set_other]
  · rw [hs] at hbr ⊢
    rw [hpt] at hbr
    have hc' : (u.macros.set "CMP_IO_UNIX_LIKE_UIN_HPP_INCLUDED" none).set "CMP_IO_UNIX_LIKE_UOUT_HPP_INCLUDED" none
        "CMP_IO_COMMON_UIO_HPP_INCLUDED" ≠ none := by
      rw [set_other _ _ (by decide), set_other _ _ (by decide)]; exact hc
    have r := ((runs_choose hbr unx).cons (last _ hx hc')).more (l := 44) (by omega)
    refine ⟨_, _, ?_, hx, ?_, ?_⟩
    · simpa only [commonFiles, commonObjects, hpt, List.append_assoc, ioChoice] using r
    · intro n hn
      simp only [uioGuards, List.mem_cons, not_or] at hn
      rw [set_other _ _ hn.2.2.2.1, set_other _ _ hn.2.2.1]
    · simp [hpt, set_self, set_other]

end Cmp.Headers
