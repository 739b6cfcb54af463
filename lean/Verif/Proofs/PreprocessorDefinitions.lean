/-
Preprocessing `io/definitions.cpp`.
-/
import Verif.Proofs.PreprocessorLibrary

namespace Cmp.Headers

open Cmp.Spec

/-- The first part of the sources: `common_uio.cpp`. -/
theorem runs_commonSource {p c used} (hb : Before p c) (ha : IoAllowed c) {u : TranslationUnit}
    (h : Ready p c used u.macros) (hi : ioGuard ∉ used) (hc : "CMP_IO_COMMON_UIO_HPP_INCLUDED" ∉ used)
    (hg : ∀ g ∈ uioGuards, g ∉ used) :
    ∃ m used', Runs 60 [.include "cmp/io/impl/common/common_uio.cpp"] u
      ⟨m, u.files ++ (["cmp/io/impl/common/common_uio.cpp", "cmp/io/impl/common/common_uio.hpp",
        "cmp/io/inclusion_assert.hpp", "cmp/core/config.hpp", "cmp/core/platform.hpp"] ++
        commonFiles c (chosen p)), u.objects ++ commonObjects c (chosen p)⟩ ∧
      Ready p c used' m ∧ m ioGuard ≠ none ∧ m "CMP_IO_COMMON_UIO_HPP_INCLUDED" ≠ none ∧
      (∀ n, n ∉ uioGuards → n ≠ ioGuard → n ≠ "CMP_IO_COMMON_UIO_HPP_INCLUDED" → m n = u.macros n) ∧
      ∀ g ∈ part (chosen p)
        ["CMP_IO_WINDOWS_UIN_HPP_INCLUDED", "CMP_IO_WINDOWS_UOUT_HPP_INCLUDED"]
        ["CMP_IO_UNIX_LIKE_UIN_HPP_INCLUDED", "CMP_IO_UNIX_LIKE_UOUT_HPP_INCLUDED"], m g ≠ none := by
  have given : ∀ g, Reserved g → g.toList.take 11 ≠ "CMP_CONFIG_".toList → g ∉ used → u.macros g = none := by
    intro g h1 h2 h3
    refine h.conf.fresh hb h1 ?_ ?_ h3
    · intro hm
      apply h2
      simp only [Settings.given, List.map_cons, List.map_nil, List.mem_cons, List.not_mem_nil,
        or_false] at hm
      rcases hm with rfl | rfl | rfl | rfl | rfl | rfl | rfl <;> decide
    · intro hm
      apply h2
      simp only [unrelated, List.mem_cons, List.not_mem_nil, or_false] at hm
      rcases hm with rfl | rfl | rfl | rfl <;> decide
  have g0 := given "CMP_IO_COMMON_UIO_HPP_INCLUDED" (by decide) (by decide) hc
  have h1 := h.set (n := "CMP_IO_COMMON_UIO_HPP_INCLUDED") (by decide) (by decide) (by decide)
  have h2 := h1.set (n := ioGuard) (by decide) (by decide) (by decide)
  let m1 := u.macros.set "CMP_IO_COMMON_UIO_HPP_INCLUDED" none
  let m2 := m1.set ioGuard none
  let f1 := u.files ++ ["cmp/io/impl/common/common_uio.cpp"] ++ ["cmp/io/impl/common/common_uio.hpp"]
  have r1 := runs_ioAssert_ready hb ha (u := ⟨m1, f1, u.objects⟩) h1 (by
    simp only [List.mem_cons, not_or]; exact ⟨by decide, hi⟩)
  let f2 := f1 ++ ["cmp/io/inclusion_assert.hpp", "cmp/core/config.hpp"]
  have r2 := runs_platform_again (u := ⟨m2, f2, u.objects⟩) h2
  have i2 : m2 ioGuard ≠ none := by simp [m2, set_self]
  have k2 : m2 "CMP_IO_COMMON_UIO_HPP_INCLUDED" ≠ none := by
    change m1.set ioGuard none "CMP_IO_COMMON_UIO_HPP_INCLUDED" ≠ none
    rw [set_other _ _ (by decide)]; simp [m1, set_self]
  obtain ⟨m, used', r3, h3, o3, d3⟩ := runs_common hb
    (u := ⟨m2, f2 ++ ["cmp/core/platform.hpp"], u.objects⟩) h2 i2 k2 (by
      intro g hm
      have n1 : g ≠ ioGuard := fun e => absurd (e ▸ hm) (by decide)
      have n2 : g ≠ "CMP_IO_COMMON_UIO_HPP_INCLUDED" := fun e => absurd (e ▸ hm) (by decide)
      change (u.macros.set "CMP_IO_COMMON_UIO_HPP_INCLUDED" none).set ioGuard none g = none
      rw [set_other _ _ n1, set_other _ _ n2]
      exact given g ((show ∀ g ∈ uioGuards, Reserved g by decide) g hm)
        ((show ∀ g ∈ uioGuards, g.toList.take 11 ≠ "CMP_CONFIG_".toList by decide) g hm) (hg g hm))
  refine ⟨m, used', ?_, h3, ?_, ?_, ?_, d3⟩
  · have := (runs_include (n := "cmp/io/impl/common/common_uio.cpp")
      (ds := [.include "cmp/io/impl/common/common_uio.hpp"]) rfl
      (runs_include (n := "cmp/io/impl/common/common_uio.hpp") (ds := commonUio)
        (u := ⟨u.macros, u.files ++ ["cmp/io/impl/common/common_uio.cpp"], u.objects⟩) rfl
        (runs_guarded (u := ⟨u.macros, f1, u.objects⟩) g0 (r1.cons (r2.cons r3))))).more
        (l := 60) (by omega)
    simpa only [f1, f2, List.append_assoc, List.cons_append, List.nil_append] using this
  · rw [o3 _ (by decide)]; exact i2
  · rw [o3 _ (by decide)]; exact k2
  · intro n hn n1 n2
    refine (o3 n hn).trans ?_
    change (u.macros.set "CMP_IO_COMMON_UIO_HPP_INCLUDED" none).set ioGuard none n = u.macros n
    rw [set_other _ _ n1, set_other _ _ n2]

/-- `uio.cpp` in the library. -/
theorem runs_uioSource {p c used} (hb : Before p c) (h0 : headerOnlyNumber c = 0) {u : TranslationUnit}
    (h : Ready p c used u.macros) (hi : u.macros ioGuard ≠ none)
    (hc : u.macros "CMP_IO_COMMON_UIO_HPP_INCLUDED" ≠ none)
    (hg : u.macros "CMP_IO_UIO_HPP_INCLUDED" = none) :
    ∃ m, Runs 20 [.include "cmp/io/uio.cpp"] u ⟨m, u.files ++ ["cmp/io/uio.cpp", "cmp/io/uio.hpp",
      "cmp/io/inclusion_assert.hpp", "cmp/io/impl/common/common_uio.hpp"],
      u.objects ++ streamObjects false⟩ := by
  have hno : ¬ HeaderOnly c := fun hy => absurd (h0.symm.trans hy) (by decide)
  have h1 := h.set (n := "CMP_IO_UIO_HPP_INCLUDED") (by decide) (by decide) (by decide)
  let m := u.macros.set "CMP_IO_UIO_HPP_INCLUDED" none
  let F := u.files ++ ["cmp/io/uio.cpp"] ++ ["cmp/io/uio.hpp"]
  have r1 := runs_ioAssert_again (u := ⟨m, F, u.objects⟩) (by
    change u.macros.set "CMP_IO_UIO_HPP_INCLUDED" none ioGuard ≠ none
    rw [set_other _ _ (by decide)]; exact hi)
  have r2 := runs_again (u := ⟨m, F ++ ["cmp/io/inclusion_assert.hpp"], u.objects⟩)
    (n := "cmp/io/impl/common/common_uio.hpp") (g := "CMP_IO_COMMON_UIO_HPP_INCLUDED") rfl (by
    change u.macros.set "CMP_IO_UIO_HPP_INCLUDED" none "CMP_IO_COMMON_UIO_HPP_INCLUDED" ≠ none
    rw [set_other _ _ (by decide)]; exact hc)
  let F2 := F ++ ["cmp/io/inclusion_assert.hpp"] ++ ["cmp/io/impl/common/common_uio.hpp"]
  have r3 : Runs 1 [.choose [(equalsTrue "CMP_CONFIG_HEADER_ONLY", standardStreams true)] []]
      ⟨m, F2, u.objects⟩ ⟨m, F2, u.objects⟩ :=
    runs_if_headerOnly (k := 0) hb (u := ⟨m, F2, u.objects⟩) h1.conf (fun hy => absurd hy hno) fun _ => rfl
  have r4 := runs_include (n := "cmp/io/uio.hpp") (ds := uio)
    (u := ⟨u.macros, u.files ++ ["cmp/io/uio.cpp"], u.objects⟩) rfl
    (runs_guarded (u := ⟨u.macros, F, u.objects⟩) hg (r1.cons (r2.cons r3)))
  refine ⟨m, ?_⟩
  have := (runs_include (n := "cmp/io/uio.cpp") (ds := uioSource) rfl
    (r4.cons (runs_standardStreams false _))).more (l := 20) (by omega)
  simpa only [F, F2, List.append_assoc, List.cons_append, List.nil_append] using this

/-- The rest of the sources, when `file.hpp` was entered. -/
theorem runs_lastSources {p c used} (hb : Before p c) (h0 : headerOnlyNumber c = 0) {u : TranslationUnit}
    (h : Ready p c used u.macros) (hi : u.macros ioGuard ≠ none)
    (hc : u.macros "CMP_IO_COMMON_UIO_HPP_INCLUDED" ≠ none)
    (hf : u.macros "CMP_IO_FILE_HPP_INCLUDED" ≠ none)
    (hg : u.macros "CMP_IO_UIO_HPP_INCLUDED" = none) :
    ∃ m, Runs 40 [.include "cmp/io/exceptions.cpp", .include "cmp/io/file.cpp",
      .include "cmp/io/general.cpp", .include "cmp/io/input_resource.cpp", .include "cmp/io/io_buffer.cpp",
      .include "cmp/io/io_resource.cpp", .include "cmp/io/output_resource.cpp",
      .include "cmp/io/transfer_resource.cpp", .include "cmp/io/uio.cpp"] u
      ⟨m, u.files ++ ["cmp/io/exceptions.cpp", "cmp/io/file.cpp", "cmp/io/file.hpp",
        "cmp/io/general.cpp", "cmp/io/input_resource.cpp", "cmp/io/io_buffer.cpp",
        "cmp/io/io_resource.cpp", "cmp/io/output_resource.cpp", "cmp/io/transfer_resource.cpp",
        "cmp/io/uio.cpp", "cmp/io/uio.hpp", "cmp/io/inclusion_assert.hpp",
        "cmp/io/impl/common/common_uio.hpp"], u.objects ++ streamObjects false⟩ := by
  have a1 := runs_leaf (n := "cmp/io/exceptions.cpp") (u := u) (by decide)
  have a2 := runs_include (n := "cmp/io/file.cpp") (ds := [.include "cmp/io/file.hpp"])
    (u := ⟨u.macros, u.files ++ ["cmp/io/exceptions.cpp"], u.objects⟩) rfl
    (runs_again (u := ⟨u.macros, u.files ++ ["cmp/io/exceptions.cpp"] ++ ["cmp/io/file.cpp"], u.objects⟩)
      (n := "cmp/io/file.hpp") (g := "CMP_IO_FILE_HPP_INCLUDED") rfl hf)
  have a3 := runs_leaves (u := ⟨u.macros, u.files ++ ["cmp/io/exceptions.cpp"] ++ ["cmp/io/file.cpp"] ++
    ["cmp/io/file.hpp"], u.objects⟩) ["cmp/io/general.cpp", "cmp/io/input_resource.cpp",
      "cmp/io/io_buffer.cpp", "cmp/io/io_resource.cpp", "cmp/io/output_resource.cpp",
      "cmp/io/transfer_resource.cpp"] (by decide)
  obtain ⟨m, a4⟩ := runs_uioSource hb h0 (u := ⟨u.macros, u.files ++ ["cmp/io/exceptions.cpp"] ++
    ["cmp/io/file.cpp"] ++ ["cmp/io/file.hpp"] ++ ["cmp/io/general.cpp", "cmp/io/input_resource.cpp",
      "cmp/io/io_buffer.cpp", "cmp/io/io_resource.cpp", "cmp/io/output_resource.cpp",
      "cmp/io/transfer_resource.cpp"], u.objects⟩) h hi hc hg
  refine ⟨m, ?_⟩
  have := (a1.cons (a2.cons (a3.append a4))).more (l := 40) (by simp)
  simpa only [List.map_cons, List.map_nil, List.append_assoc, List.cons_append, List.nil_append] using this

/-- The objects of `io/definitions.cpp`. -/
def ioObjects (c : Settings) (s : Option System) : List ObjectDefinition :=
  part s (inObjects c false ++ outObjects c false) (inObjects c false ++ outObjects c false) ++
    streamObjects false

/-- The part of `ioDefinitions` that follows `common_uio.cpp`. -/
def ioDefinitionsTail : List Directive := [
  .choose [(.defined "CMP_OS_WINDOWS", [.include "cmp/io/impl/windows/windows_file.cpp",
      .include "cmp/io/impl/windows/windows_uin.cpp", .include "cmp/io/impl/windows/windows_uout.cpp"]),
      (.defined "CMP_OS_UNIX_LIKE", [.include "cmp/io/impl/unix_like/unix_like_file.cpp",
        .include "cmp/io/impl/unix_like/unix_like_uin.cpp",
        .include "cmp/io/impl/unix_like/unix_like_uout.cpp"])] [], .include "cmp/io/exceptions.cpp",
      .include "cmp/io/file.cpp",
      .include "cmp/io/general.cpp", .include "cmp/io/input_resource.cpp", .include "cmp/io/io_buffer.cpp",
      .include "cmp/io/io_resource.cpp", .include "cmp/io/output_resource.cpp",
      .include "cmp/io/transfer_resource.cpp", .include "cmp/io/uio.cpp"]

/-- The macros of the io library when `common_uio.cpp` is done. -/
structure AfterCommon (p : Macros) (c : Settings) (used : List String) (m : Macros) : Prop where
  ready : Ready p c used m
  io : m ioGuard ≠ none
  common : m "CMP_IO_COMMON_UIO_HPP_INCLUDED" ≠ none
  file : Guard "CMP_IO_FILE_HPP_INCLUDED" m
  uio : m "CMP_IO_UIO_HPP_INCLUDED" = none

/-- The sources of one system and the rest of the sources. -/
theorem runs_systemSources {p c used fileHeader fileGuard fileOwn inHeader inGuard inOwn outHeader outGuard
    outOwn} {ds es : List Directive} (hb : Before p c) (h0 : headerOnlyNumber c = 0)
    {u : TranslationUnit} (h : AfterCommon p c used u.macros)
    (f1 : contents fileHeader = systemFile fileGuard fileOwn) (f2 : contents fileOwn = [.include fileHeader])
    (f3 : Guard fileGuard u.macros) (f4 : fileGuard ≠ "CMP_IO_FILE_HPP_INCLUDED")
    (f5 : fileGuard ≠ "CMP_IO_UIO_HPP_INCLUDED")
    (hpart : part (chosen p) [.include "cmp/io/impl/windows/windows_file.hpp"]
      [.include "cmp/io/impl/unix_like/unix_like_file.hpp"] = [Directive.include fileHeader])
    (hall : part (chosen p) [.include "cmp/io/impl/windows/windows_file.cpp",
      .include "cmp/io/impl/windows/windows_uin.cpp", .include "cmp/io/impl/windows/windows_uout.cpp"]
      [.include "cmp/io/impl/unix_like/unix_like_file.cpp",
        .include "cmp/io/impl/unix_like/unix_like_uin.cpp",
        .include "cmp/io/impl/unix_like/unix_like_uout.cpp"] =
      [Directive.include fileOwn, .include inOwn, .include outOwn])
    (i1 : contents inHeader = guarded inGuard ds) (i2 : contents inOwn = systemUinSource inHeader)
    (i3 : u.macros inGuard ≠ none)
    (o1 : contents outHeader = guarded outGuard es) (o2 : contents outOwn = systemUoutSource outHeader)
    (o3 : u.macros outGuard ≠ none) :
    ∃ m, Runs 90 ioDefinitionsTail u
      ⟨m, u.files ++ [fileOwn, fileHeader, "cmp/io/inclusion_assert.hpp", "cmp/io/file.hpp",
        "cmp/io/inclusion_assert.hpp", "cmp/core/platform.hpp", fileHeader, inOwn, inHeader, outOwn, outHeader,
        "cmp/io/exceptions.cpp", "cmp/io/file.cpp", "cmp/io/file.hpp",
        "cmp/io/general.cpp", "cmp/io/input_resource.cpp", "cmp/io/io_buffer.cpp",
        "cmp/io/io_resource.cpp", "cmp/io/output_resource.cpp", "cmp/io/transfer_resource.cpp",
        "cmp/io/uio.cpp", "cmp/io/uio.hpp", "cmp/io/inclusion_assert.hpp",
        "cmp/io/impl/common/common_uio.hpp"],
        u.objects ++ (inObjects c false ++ outObjects c false ++ streamObjects false)⟩ := by
  have s1 := runs_fileSource hb h0 f1 f2 h.ready h.io f3 h.file f4 hpart
  let m2 := (u.macros.set fileGuard none).set "CMP_IO_FILE_HPP_INCLUDED" none
  have c2 : Ready p c _ m2 := (h.ready.set f3.reserved f3.unsettled f3.elsewhere).set h.file.reserved
    h.file.unsettled h.file.elsewhere
  have keep : ∀ n, u.macros n ≠ none → m2 n ≠ none := by
    intro n hn
    have a : n ≠ fileGuard := fun e => hn (e ▸ f3.fresh)
    have b : n ≠ "CMP_IO_FILE_HPP_INCLUDED" := fun e => hn (e ▸ h.file.fresh)
    change (u.macros.set fileGuard none).set "CMP_IO_FILE_HPP_INCLUDED" none n ≠ none
    rw [set_other _ _ b, set_other _ _ a]
    exact hn
  let F1 := u.files ++ [fileOwn, fileHeader, "cmp/io/inclusion_assert.hpp", "cmp/io/file.hpp",
        "cmp/io/inclusion_assert.hpp", "cmp/core/platform.hpp", fileHeader]
  have s2 := runs_uinSource hb h0 i1 i2 (u := ⟨m2, F1, u.objects⟩) c2 (keep _ i3)
  have s3 := runs_uoutSource hb h0 o1 o2
    (u := ⟨m2, F1 ++ [inOwn, inHeader], u.objects ++ inObjects c false⟩) c2 (keep _ o3)
  obtain ⟨m3, s4⟩ := runs_lastSources hb h0
    (u := ⟨m2, F1 ++ [inOwn, inHeader] ++ [outOwn, outHeader],
      u.objects ++ inObjects c false ++ outObjects c false⟩) c2 (keep _ h.io) (keep _ h.common)
      (by
        change (u.macros.set fileGuard none).set "CMP_IO_FILE_HPP_INCLUDED" none
          "CMP_IO_FILE_HPP_INCLUDED" ≠ none
        simp [set_self])
      (by
        change (u.macros.set fileGuard none).set "CMP_IO_FILE_HPP_INCLUDED" none
          "CMP_IO_UIO_HPP_INCLUDED" = none
        rw [set_other _ _ (by decide), set_other _ _ (Ne.symm f5)]
        exact h.uio)
  have hbr := branch_io (m := u.macros) h.ready.sys [.include "cmp/io/impl/windows/windows_file.cpp",
      .include "cmp/io/impl/windows/windows_uin.cpp", .include "cmp/io/impl/windows/windows_uout.cpp"]
      [.include "cmp/io/impl/unix_like/unix_like_file.cpp",
        .include "cmp/io/impl/unix_like/unix_like_uin.cpp",
        .include "cmp/io/impl/unix_like/unix_like_uout.cpp"]
  rw [hall] at hbr
  refine ⟨m3, ?_⟩
  have := ((runs_choose hbr (s1.cons (s2.cons s3))).cons s4).more (l := 90) (by omega)
  simpa only [ioDefinitionsTail, ioChoice, F1, List.append_assoc, List.cons_append, List.nil_append] using this

/-- The rest of the sources on a system that is not known: `file.hpp` is entered here. -/
theorem runs_noSources {p c used} (hb : Before p c) (h0 : headerOnlyNumber c = 0)
    (hs : chosen p = none) {u : TranslationUnit} (h : AfterCommon p c used u.macros) :
    ∃ m, Runs 90 ioDefinitionsTail u
      ⟨m, u.files ++ ["cmp/io/exceptions.cpp", "cmp/io/file.cpp", "cmp/io/file.hpp",
        "cmp/io/inclusion_assert.hpp", "cmp/core/platform.hpp",
        "cmp/io/general.cpp", "cmp/io/input_resource.cpp", "cmp/io/io_buffer.cpp",
        "cmp/io/io_resource.cpp", "cmp/io/output_resource.cpp", "cmp/io/transfer_resource.cpp",
        "cmp/io/uio.cpp", "cmp/io/uio.hpp", "cmp/io/inclusion_assert.hpp",
        "cmp/io/impl/common/common_uio.hpp"], u.objects ++ streamObjects false⟩ := by
  have hno : ¬ HeaderOnly c := fun hy => absurd (h0.symm.trans hy) (by decide)
  have hbr := branch_io (m := u.macros) h.ready.sys [.include "cmp/io/impl/windows/windows_file.cpp",
      .include "cmp/io/impl/windows/windows_uin.cpp", .include "cmp/io/impl/windows/windows_uout.cpp"]
      [.include "cmp/io/impl/unix_like/unix_like_file.cpp",
        .include "cmp/io/impl/unix_like/unix_like_uin.cpp",
        .include "cmp/io/impl/unix_like/unix_like_uout.cpp"]
  rw [hs] at hbr
  have a0 := runs_choose hbr (Runs.nil u)
  have a1 := runs_leaf (n := "cmp/io/exceptions.cpp") (u := u) (by decide)
  let M := u.macros.set "CMP_IO_FILE_HPP_INCLUDED" none
  have h1 : Ready p c _ M := h.ready.set h.file.reserved h.file.unsettled h.file.elsewhere
  let F := u.files ++ ["cmp/io/exceptions.cpp"] ++ ["cmp/io/file.cpp"] ++ ["cmp/io/file.hpp"]
  have b1 := runs_ioAssert_again (u := ⟨M, F, u.objects⟩) (by
    change u.macros.set "CMP_IO_FILE_HPP_INCLUDED" none ioGuard ≠ none
    rw [set_other _ _ (by decide)]; exact h.io)
  have b2 := runs_platform_again (u := ⟨M, F ++ ["cmp/io/inclusion_assert.hpp"], u.objects⟩) h1
  let F3 := F ++ ["cmp/io/inclusion_assert.hpp"] ++ ["cmp/core/platform.hpp"]
  have b3 : Runs 1 [source "cmp/io/file.cpp"] ⟨M, F3, u.objects⟩ ⟨M, F3, u.objects⟩ :=
    runs_if_headerOnly (k := 0) hb (u := ⟨M, F3, u.objects⟩) h1.conf (fun hy => absurd hy hno) fun _ => rfl
  have hb4 := branch_io (m := M) h1.sys [.include "cmp/io/impl/windows/windows_file.hpp"]
    [.include "cmp/io/impl/unix_like/unix_like_file.hpp"]
  rw [hs] at hb4
  have b4 := runs_choose (u := ⟨M, F3, u.objects⟩) hb4 (Runs.nil _)
  have a2 := runs_include (n := "cmp/io/file.cpp") (ds := [.include "cmp/io/file.hpp"])
    (u := ⟨u.macros, u.files ++ ["cmp/io/exceptions.cpp"], u.objects⟩) rfl
    (runs_include (n := "cmp/io/file.hpp") (ds := file)
      (u := ⟨u.macros, u.files ++ ["cmp/io/exceptions.cpp"] ++ ["cmp/io/file.cpp"], u.objects⟩) rfl
      (runs_guarded (u := ⟨u.macros, F, u.objects⟩) h.file.fresh (b1.cons (b2.cons (b3.cons b4)))))
  have a3 := runs_leaves (u := ⟨M, F3, u.objects⟩) ["cmp/io/general.cpp", "cmp/io/input_resource.cpp",
      "cmp/io/io_buffer.cpp", "cmp/io/io_resource.cpp", "cmp/io/output_resource.cpp",
      "cmp/io/transfer_resource.cpp"] (by decide)
  obtain ⟨m, a4⟩ := runs_uioSource hb h0 (u := ⟨M, F3 ++ ["cmp/io/general.cpp", "cmp/io/input_resource.cpp",
      "cmp/io/io_buffer.cpp", "cmp/io/io_resource.cpp", "cmp/io/output_resource.cpp",
      "cmp/io/transfer_resource.cpp"], u.objects⟩) h1
    (by
      change u.macros.set "CMP_IO_FILE_HPP_INCLUDED" none ioGuard ≠ none
      rw [set_other _ _ (by decide)]; exact h.io)
    (by
      change u.macros.set "CMP_IO_FILE_HPP_INCLUDED" none "CMP_IO_COMMON_UIO_HPP_INCLUDED" ≠ none
      rw [set_other _ _ (by decide)]; exact h.common)
    (by
      change u.macros.set "CMP_IO_FILE_HPP_INCLUDED" none "CMP_IO_UIO_HPP_INCLUDED" = none
      rw [set_other _ _ (by decide)]; exact h.uio)
  refine ⟨m, ?_⟩
  have := (a0.cons (a1.cons (a2.cons (a3.append a4)))).more (l := 90) (by simp)
  simpa only [ioDefinitionsTail, ioChoice, F, F3, List.map_cons, List.map_nil, List.append_assoc, List.cons_append,
    List.nil_append] using this

/-- `io/definitions.cpp` when the io package is built. -/
theorem runs_ioDefinitions {p c} (hb : Before p c) (ha : IoAllowed c) (h0 : headerOnlyNumber c = 0) :
    ∃ m fs, Runs 400 ioDefinitions ⟨p, [], []⟩ ⟨m, fs, ioObjects c (chosen p)⟩ ∧
      sourcesOf fs = ioSources (chosen p) := by
  have hno : ¬ HeaderOnly c := fun hy => absurd (h0.symm.trans hy) (by decide)
  have hio : number (c.ioExcluded.getD (.name "false")) = 0 := by
    rcases ha with e | e <;> rw [e] <;> decide
  obtain ⟨m0, r0, c0⟩ := runs_library hb
  let u0 : TranslationUnit := ⟨m0, ["cmp/core/config.hpp", "cmp/core/platform.hpp", "cmp/core/config.hpp",
    "cmp/core/compiler.hpp", "cmp/core/operating_system.hpp"], []⟩
  obtain ⟨m1, used1, r1, c1, i1, k1, o1, d1⟩ := runs_commonSource hb ha (u := u0) c0 (by decide) (by decide)
    (by decide)
  have fresh : ∀ g, Reserved g → g ∉ c.given.map Prod.fst → g ∉ unrelated →
      g ∉ platformNames ++ (configNames ++ []) → g ∉ uioGuards → g ≠ ioGuard →
      g ≠ "CMP_IO_COMMON_UIO_HPP_INCLUDED" → m1 g = none := fun g a1 a2 a3 a4 a5 a6 a7 =>
    (o1 g a5 a6 a7).trans (c0.conf.fresh hb a1 a2 a3 a4)
  have hgiven : c.given.map Prod.fst = ["CMP_CONFIG_HEADER_ONLY", "CMP_CONFIG_IO_PACKAGE_EXCLUDED",
      "CMP_CONFIG_DESKTOP_GUI_PACKAGE_EXCLUDED", "CMP_CONFIG_DEFAULT_BUFFER_CAPACITY",
      "CMP_CONFIG_DEFAULT_STDOUT_BUFFER_CAPACITY", "CMP_CONFIG_DEFAULT_STDERR_BUFFER_CAPACITY",
      "CMP_CONFIG_DEFAULT_STDIN_BUFFER_CAPACITY"] := rfl
  rw [hgiven] at fresh
  have fg : Guard "CMP_IO_FILE_HPP_INCLUDED" m1 :=
    ⟨fresh _ (by decide) (by decide) (by decide) (by decide) (by decide) (by decide) (by decide),
      by decide, by decide, by decide⟩
  have wg : Guard "CMP_IO_WINDOWS_FILE_HPP_INCLUDED" m1 :=
    ⟨fresh _ (by decide) (by decide) (by decide) (by decide) (by decide) (by decide) (by decide),
      by decide, by decide, by decide⟩
  have xg : Guard "CMP_IO_UNIX_LIKE_FILE_HPP_INCLUDED" m1 :=
    ⟨fresh _ (by decide) (by decide) (by decide) (by decide) (by decide) (by decide) (by decide),
      by decide, by decide, by decide⟩
  have ug : m1 "CMP_IO_UIO_HPP_INCLUDED" = none :=
    fresh _ (by decide) (by decide) (by decide) (by decide) (by decide) (by decide) (by decide)
  have hac : AfterCommon p c used1 m1 := ⟨c1, i1, k1, fg, ug⟩
  have hcO : commonObjects c (chosen p) = [] := by
    rw [commonObjects, ifHeaderOnly_no hno, ifHeaderOnly_no hno]
    cases chosen p with
    | none => rfl
    | some s => cases s <;> rfl
  rw [hcO, List.append_nil] at r1
  have outer : ∀ {k ds u'}, Runs k ds u0 u' →
      Runs (70 + (k + 1)) [.include "cmp/core/config.hpp", .include "cmp/core/platform.hpp",
        .choose [(.and (equalsFalse "CMP_CONFIG_HEADER_ONLY")
          (equalsFalse "CMP_CONFIG_IO_PACKAGE_EXCLUDED"), ds)] []] ⟨p, [], []⟩ u' := by
    intro k ds u' r
    refine r0.append (bs := [_]) (runs_choose (u := u0) ?_ r)
    simp only [Directive.branch, PpCond.holds, u0, c0.conf.holds_false hb, c0.conf.holds_io hb, h0, hio]
    rfl
  let F := u0.files ++ (["cmp/io/impl/common/common_uio.cpp",
    "cmp/io/impl/common/common_uio.hpp", "cmp/io/inclusion_assert.hpp", "cmp/core/config.hpp",
    "cmp/core/platform.hpp"] ++ commonFiles c (chosen p))
  have finish : ∀ {m x}, Runs 90 (ioDefinitionsTail) ⟨m1, F, []⟩ ⟨m, F ++ x, ioObjects c (chosen p)⟩ →
      sourcesOf x = (ioSources (chosen p)).drop 1 →
      ∃ m fs, Runs 400 ioDefinitions ⟨p, [], []⟩ ⟨m, fs, ioObjects c (chosen p)⟩ ∧
      sourcesOf fs = ioSources (chosen p) := by
    intro m x r hx
    refine ⟨m, F ++ x, (outer (r1.cons r)).more (l := 400) (by omega), ?_⟩
    rw [sourcesOf, List.filter_append, ← sourcesOf, ← sourcesOf, hx]
    simp only [F, u0, commonFiles, uinFiles, ifHeaderOnly_no hno, List.append_nil]
    rcases chosen p with _ | _ | _ | _ | _ <;> decide +kernel
  have ofSystem : ∀ {s}, chosen p = some s → ioObjects c (chosen p) =
      [] ++ (inObjects c false ++ outObjects c false ++ streamObjects false) := by
    intro s hs; rw [hs]; cases s <;> rfl
  have win : chosen p = some .windows → ∃ m fs, Runs 400 ioDefinitions ⟨p, [], []⟩
      ⟨m, fs, ioObjects c (chosen p)⟩ ∧ sourcesOf fs = ioSources (chosen p) := by
    intro hs
    have hd := d1
    rw [hs] at hd
    obtain ⟨m, r⟩ := runs_systemSources (u := ⟨m1, F, []⟩)
      (fileHeader := "cmp/io/impl/windows/windows_file.hpp")
      (fileGuard := "CMP_IO_WINDOWS_FILE_HPP_INCLUDED")
      (fileOwn := "cmp/io/impl/windows/windows_file.cpp")
      (inHeader := "cmp/io/impl/windows/windows_uin.hpp")
      (inGuard := "CMP_IO_WINDOWS_UIN_HPP_INCLUDED") (inOwn := "cmp/io/impl/windows/windows_uin.cpp")
      (outHeader := "cmp/io/impl/windows/windows_uout.hpp")
      (outGuard := "CMP_IO_WINDOWS_UOUT_HPP_INCLUDED") (outOwn := "cmp/io/impl/windows/windows_uout.cpp")
      hb h0 hac rfl rfl wg (by decide) (by decide) (by rw [hs]; rfl) (by rw [hs]; rfl) rfl rfl
      (hd _ (by simp [part])) rfl rfl (hd _ (by simp [part]))
    rw [← ofSystem hs] at r
    exact finish r (by rw [hs]; decide +kernel)
  have unix : (∀ {α : Type} (w x : List α), part (chosen p) w x = x) → (∃ s, chosen p = some s) →
      ∃ m fs, Runs 400 ioDefinitions ⟨p, [], []⟩
      ⟨m, fs, ioObjects c (chosen p)⟩ ∧ sourcesOf fs = ioSources (chosen p) := by
    intro hu hs
    obtain ⟨s, hs⟩ := hs
    have hd := d1
    rw [hu] at hd
    obtain ⟨m, r⟩ := runs_systemSources (u := ⟨m1, F, []⟩)
      (fileHeader := "cmp/io/impl/unix_like/unix_like_file.hpp")
      (fileGuard := "CMP_IO_UNIX_LIKE_FILE_HPP_INCLUDED")
      (fileOwn := "cmp/io/impl/unix_like/unix_like_file.cpp")
      (inHeader := "cmp/io/impl/unix_like/unix_like_uin.hpp")
      (inGuard := "CMP_IO_UNIX_LIKE_UIN_HPP_INCLUDED") (inOwn := "cmp/io/impl/unix_like/unix_like_uin.cpp")
      (outHeader := "cmp/io/impl/unix_like/unix_like_uout.hpp")
      (outGuard := "CMP_IO_UNIX_LIKE_UOUT_HPP_INCLUDED")
      (outOwn := "cmp/io/impl/unix_like/unix_like_uout.cpp")
      hb h0 hac rfl rfl xg (by decide) (by decide) (hu _ _) (hu _ _) rfl rfl
      (hd _ (by simp)) rfl rfl (hd _ (by simp))
    rw [← ofSystem hs] at r
    exact finish r (by rw [ioSources, hu]; decide +kernel)
  rcases hs : chosen p with _ | _ | _ | _ | _
  · rw [← hs]
    obtain ⟨m, r⟩ := runs_noSources hb h0 hs (u := ⟨m1, F, []⟩) hac
    have : ioObjects c (chosen p) = [] ++ streamObjects false := by rw [hs]; rfl
    rw [← this] at r
    exact finish r (by rw [hs]; decide +kernel)
  · rw [← hs]; exact win hs
  all_goals rw [← hs]; exact unix (fun w x => by rw [hs]; rfl) ⟨_, hs⟩

end Cmp.Headers
