import Verif.Props.File
import Mathlib.Data.List.GetD

/-
C73 in full, and C115: reads and writes of any size.
-/

namespace Cmp

/-- What is left in an array of which block after block of `most` bytes was stored at the same
address: at each index the byte stored there last. -/
def Spec.stacked (most : Nat) (data : List Byte) : List Byte :=
  (List.range (min data.length most)).map fun i =>
    data.getD (i + most * ((data.length - 1 - i) / most)) 0

/-- What is written if each block of `most` bytes is taken from the start of the array. -/
def Spec.repeated (most : Nat) (data : List Byte) (n : Nat) : List Byte :=
  (List.range n).map fun i => data.getD (i % most) 0

open Cmp.Spec (stacked repeated)

theorem stacked_length (most : Nat) (data : List Byte) :
    (stacked most data).length = min data.length most := by simp [stacked]

theorem stacked_short {most : Nat} {data : List Byte} (h : data.length ≤ most) :
    stacked most data = data := by
  apply List.ext_getElem
  · rw [stacked_length]; omega
  · intro i h1 h2
    simp only [stacked, List.getElem_map, List.getElem_range]
    rw [Nat.div_eq_of_lt (by omega), Nat.mul_zero, Nat.add_zero, List.getD_eq_getElem _ _ h2]

theorem stacked_long {most : Nat} {data : List Byte} (h : most ≤ data.length) :
    stacked most data = stacked most (data.drop most)
      ++ (data.take most).drop (stacked most (data.drop most)).length := by
  apply List.ext_getElem
  · rw [List.length_append, List.length_drop, List.length_take, stacked_length, stacked_length,
      List.length_drop]
    omega
  · intro i h1 h2
    have h3 := h1
    rw [stacked_length] at h3
    by_cases hi : i < (stacked most (data.drop most)).length
    · rw [List.getElem_append_left hi]
      simp only [stacked, List.getElem_map, List.getElem_range]
      rw [stacked_length, List.length_drop] at hi
      rw [List.length_drop]
      have hp : 0 < most := by omega
      have e : (data.length - 1 - i) / most = (data.length - most - 1 - i) / most + 1 := by
        rw [← Nat.add_div_right _ hp]
        congr 1
        omega
      simp only [List.getD_eq_getElem?_getD, List.getElem?_drop]
      rw [e, Nat.mul_add, Nat.mul_one]
      congr 2
      omega
    · rw [List.getElem_append_right (by omega)]
      simp only [stacked, List.getElem_map, List.getElem_range, List.getElem_drop, List.getElem_take]
      rw [stacked_length, List.length_drop] at hi
      have hd : (data.length - 1 - i) / most = 0 := Nat.div_eq_of_lt (by omega)
      rw [hd, Nat.mul_zero, Nat.add_zero, List.getD_eq_getElem _ _ (by omega)]
      congr 1
      simp only [List.length_map, List.length_range, List.length_drop]
      omega

/-- Reading block after block. -/
theorem readBlocks_stacked {sch : List Nat → Prop} {block : Nat → M FileDev ReadResult}
    (E : FileDev.Exact sch block) (most : Nat) (hmost : 0 < most) (fuel n : Nat) (hn : n ≤ fuel)
    {d : FileDev} {f : Desc} {content : List Byte} (hf : d.fd = some f) (hm : f.mode ≠ .writeOnly)
    (hc : d.files f.path = some content) (hs : sch d.reads) :
    ∃ reads', sch reads' ∧ FileDev.readBlocks block most fuel n d =
      (.ok ⟨stacked most ((content.drop f.offset).take n), ((content.drop f.offset).take n).length⟩,
        { d with
          fd := some { f with offset := f.offset + ((content.drop f.offset).take n).length }
          reads := reads' }) := by
  induction fuel generalizing n d f with
  | zero =>
    obtain rfl : n = 0 := by omega
    refine ⟨d.reads, hs, ?_⟩
    cases d
    simp_all [FileDev.readBlocks, stacked]
  | succ fuel ih =>
    by_cases h0 : n = 0
    · subst h0
      refine ⟨d.reads, hs, ?_⟩
      cases d
      simp_all [FileDev.readBlocks, stacked]
    · obtain ⟨reads', hs', e⟩ := E (min n most) d f content hf hm hc hs (by omega)
      simp only [FileDev.readBlocks]
      rw [if_neg h0, M.bind_ok e]
      dsimp only
      by_cases hshort : ((content.drop f.offset).take (min n most)).length ≠ min n most
      · rw [if_pos hshort]
        have hl : (content.drop f.offset).length < min n most := by
          rw [List.length_take] at hshort
          omega
        have h1 : (content.drop f.offset).take (min n most) = content.drop f.offset :=
          List.take_of_length_le (by omega)
        have h2 : (content.drop f.offset).take n = content.drop f.offset :=
          List.take_of_length_le (by omega)
        refine ⟨reads', hs', ?_⟩
        rw [h1, h2, stacked_short (by omega)]
        rfl
      · rw [if_neg hshort]
        have hlen : ((content.drop f.offset).take (min n most)).length = min n most := by
          simpa using hshort
        have hle : min n most ≤ (content.drop f.offset).length := by
          rw [List.length_take] at hlen
          omega
        rw [hlen]
        obtain ⟨reads'', hs'', e'⟩ := ih (n - most) (by omega)
          (d := { d with fd := some { f with offset := f.offset + min n most }, reads := reads' })
          (f := { f with offset := f.offset + min n most }) rfl hm hc hs'
        refine ⟨reads'', hs'', ?_⟩
        rw [M.bind_ok e']
        dsimp only
        by_cases hnm : n ≤ most
        · have : min n most = n := by omega
          have h0' : n - most = 0 := by omega
          rw [this] at hlen ⊢
          simp only [h0', List.take_zero, List.length_nil, Nat.add_zero]
          rw [stacked_short (most := most) (data := []) (by simp), stacked_short (by omega), hlen]
          simp
        · have hmin : min n most = most := by omega
          rw [hmin] at hlen hle ⊢
          have hdrop : (content.drop (f.offset + most)).take (n - most)
              = ((content.drop f.offset).take n).drop most := by
            rw [List.drop_take, List.drop_drop]
          have htake : (content.drop f.offset).take most
              = ((content.drop f.offset).take n).take most := by
            rw [List.take_take, Nat.min_eq_left (by omega)]
          have hdl : most ≤ ((content.drop f.offset).take n).length := by
            rw [List.length_take]; omega
          rw [hdrop, htake]
          generalize (content.drop f.offset).take n = data at hdl ⊢
          rw [stacked_long hdl, List.length_drop,
            show f.offset + most + (data.length - most) = f.offset + data.length by omega,
            show most + (data.length - most) = data.length by omega]
          rfl

/-- C73 in full: whatever the size of the request, the count is right, and the array holds at each
index the last of the bytes whose blocks start at the same address: blocks of 2^63-1 bytes on Unix
and of 2^32-1 bytes on Windows.  On Unix for systems that deliver all that is there (see C45), on
Windows for all schedules. -/
theorem C73_exact (P : FilePlatform) (files : Nat → Option (List Byte)) (path q n : Nat)
    (mode : AccessMode) (reads : List Nat) (content : List Byte) (hc : files path = some content)
    (hm : mode ≠ .writeOnly) (hs : P.Steady reads) :
    let data := (content.drop q).take n
    ∃ reads', P.readRaw n .leanRetrieval ⟨files, some ⟨path, q, mode⟩, 0, reads⟩ =
      (.ok ⟨stacked (match P with | .unix => 2 ^ 63 - 1 | .windows => 2 ^ 32 - 1) data, data.length⟩,
        ⟨files, some ⟨path, q + data.length, mode⟩, 0, reads'⟩) := by
  intro data
  cases P with
  | unix =>
    obtain ⟨reads', -, e⟩ := readBlocks_stacked FileDev.exact_unix FileDev.ssizeMax (by decide) n n
      (Nat.le_refl _) (d := ⟨files, some ⟨path, q, mode⟩, 0, reads⟩) rfl hm hc hs
    refine ⟨reads', ?_⟩
    show FileDev.readRaw n .leanRetrieval _ = _
    rw [FileDev.readRaw, M.noexcept_apply,
      M.bind_ok (show FileDev.skipFill _ .leanRetrieval _ = (.ok (), _) from rfl), M.bind_ok e,
      M.bind_ok (show FileDev.noteFill _ .leanRetrieval _ _ = (.ok (), _) from rfl)]
    rfl
  | windows =>
    obtain ⟨reads', -, e⟩ := readBlocks_stacked FileDev.exact_windows FileDev.dwordMax (by decide) n n
      (Nat.le_refl _) (d := ⟨files, some ⟨path, q, mode⟩, 0, reads⟩) rfl hm hc hs
    refine ⟨reads', ?_⟩
    show FileDev.readRawWindows n .leanRetrieval _ = _
    rw [FileDev.readRawWindows, M.noexcept_apply,
      M.bind_ok (show FileDev.skipFill _ .leanRetrieval _ = (.ok (), _) from rfl), M.bind_ok e,
      M.bind_ok (show FileDev.noteFill _ .leanRetrieval _ _ = (.ok (), _) from rfl)]
    rfl

/-- Eight bytes in blocks of three. -/
example : stacked 3 [0, 1, 2, 3, 4, 5, 6, 7] = [6, 7, 5] ∧ stacked 3 [0, 1] = [0, 1] := by decide

/-! ### C115 -/

theorem repeated_step (most : Nat) (data : List Byte) {n : Nat} (hn : n ≤ data.length) :
    repeated most data n = data.take (min n most) ++ repeated most data (n - most) := by
  apply List.ext_getElem
  · simp only [repeated, List.length_append, List.length_map, List.length_range, List.length_take]
    omega
  · intro i h1 h2
    have hi : i < n := by simpa [repeated] using h1
    simp only [repeated, List.getElem_map, List.getElem_range]
    by_cases him : i < most
    · rw [List.getElem_append_left (by rw [List.length_take]; omega), List.getElem_take,
        Nat.mod_eq_of_lt him, List.getD_eq_getElem _ _ (by omega)]
    · rw [List.getElem_append_right (by rw [List.length_take]; omega)]
      simp only [List.getElem_map, List.getElem_range, List.length_take]
      rw [show i - min (min n most) data.length = i - most by omega, ← Nat.mod_eq_sub_mod (by omega)]

/-- Writing block after block. -/
theorem writeBlocks_repeated (most : Nat) (hmost : 0 < most) (data : List Byte)
    (fs : Nat → Option (List Byte)) (path : Nat) (mode : AccessMode) (hm : mode ≠ .readOnly) (k : Nat)
    (reads : List Nat) (fuel n q : Nat) (content : List Byte) (hn : n ≤ fuel) (hd : n ≤ data.length)
    (hq : q ≤ content.length) :
    FileDev.writeBlocks most data fuel n
        ⟨FileDev.withFile fs path content, some ⟨path, q, mode⟩, k, reads⟩ =
      (.ok n, ⟨FileDev.withFile fs path (Res.overlay content q (repeated most data n)),
        some ⟨path, q + n, mode⟩, k, reads⟩) := by
  induction fuel generalizing n q content with
  | zero =>
    obtain rfl : n = 0 := by omega
    simp [FileDev.writeBlocks, repeated, Res.overlay_nil]
  | succ fuel ih =>
    by_cases h0 : n = 0
    · subst h0
      simp [FileDev.writeBlocks, repeated, Res.overlay_nil]
    · have hlen : (data.take (min n most)).length = min n most := by
        rw [List.length_take]; omega
      have e : FileDev.sysWrite (data.take (min n most))
          ⟨FileDev.withFile fs path content, some ⟨path, q, mode⟩, k, reads⟩ =
          (.ok (some (min n most)),
            ⟨FileDev.withFile fs path (Res.overlay content q (data.take (min n most))),
            some ⟨path, q + min n most, mode⟩, k, reads⟩) := by
        simp only [FileDev.sysWrite]
        rw [if_neg hm]
        simp only [FileDev.withFile, if_true, Option.getD_some, FileDev.patched_inside _ _ _ hq,
          Prod.mk.injEq, true_and, FileDev.mk.injEq, and_true, hlen]
        funext p
        by_cases hp : p = path <;> simp [hp, FileDev.withFile]
      simp only [FileDev.writeBlocks]
      rw [if_neg h0, M.bind_ok e]
      simp only [Option.getD_some]
      have hol : q + min n most ≤ (Res.overlay content q (data.take (min n most))).length := by
        rw [Res.overlay_length _ _ _ hq, hlen]
        omega
      rw [if_neg (by simp), M.bind_ok (ih (n - most) (q + min n most) _ (by omega) (by omega) hol)]
      have hstep := repeated_step most data hd
      have := Res.overlay_append content q (data.take (min n most)) (repeated most data (n - most)) hq
      rw [hlen, ← hstep] at this
      rw [this, show q + min n most + (n - most) = q + n by omega]
      simp only [M.pure_apply, Prod.mk.injEq, Outcome.ok.injEq, and_true]
      omega

/-- The claim: one write stores the bytes it is given. -/
def WritesWhole (P : FilePlatform) (content : List Byte) (q : Nat) (data : List Byte) : Prop :=
  ∃ d, P.writeRaw data ⟨FileDev.withFile (fun _ => none) 0 content, some ⟨0, q, .writeOnly⟩, 0, []⟩
      = (.ok data.length, d)
    ∧ d.files 0 = some (Res.overlay content q data)

/-- C115 in full: the count is right, but of data larger than a block -- 2^63-1 bytes on Unix, 2^32-1
on Windows -- the first block is written again and again. -/
theorem C115_exact (P : FilePlatform) (files : Nat → Option (List Byte)) (path q k : Nat)
    (mode : AccessMode) (reads : List Nat) (content data : List Byte) (hc : files path = some content)
    (hm : mode ≠ .readOnly) (hq : q ≤ content.length) :
    ∃ files', P.writeRaw data ⟨files, some ⟨path, q, mode⟩, k, reads⟩ =
        (.ok data.length, ⟨files', some ⟨path, q + data.length, mode⟩, k, reads⟩)
      ∧ files' path = some (Res.overlay content q (repeated
          (match P with | .unix => 2 ^ 63 - 1 | .windows => 2 ^ 32 - 1) data data.length))
      ∧ ∀ p, p ≠ path → files' p = files p := by
  have hfs : files = FileDev.withFile files path content := by
    funext p
    by_cases hp : p = path <;> simp [FileDev.withFile, hp, hc]
  cases P with
  | unix =>
    have e := writeBlocks_repeated FileDev.ssizeMax (by decide) data files path mode hm k reads
      data.length data.length q content (Nat.le_refl _) (Nat.le_refl _) hq
    rw [← hfs] at e
    have e' : FileDev.writeRaw data ⟨files, some ⟨path, q, mode⟩, k, reads⟩ =
        (.ok data.length, ⟨FileDev.withFile files path
          (Res.overlay content q (repeated FileDev.ssizeMax data data.length)),
          some ⟨path, q + data.length, mode⟩, k, reads⟩) := by
      rw [FileDev.writeRaw, M.noexcept_apply, e]
      rfl
    refine ⟨_, e', ?_, fun p hp => ?_⟩
    · simp only [FileDev.withFile, if_true]
      rfl
    · simp only [FileDev.withFile, if_neg hp]
  | windows =>
    have e := writeBlocks_repeated FileDev.dwordMax (by decide) data files path mode hm k reads
      data.length data.length q content (Nat.le_refl _) (Nat.le_refl _) hq
    rw [← hfs] at e
    have e' : FileDev.writeRawWindows data ⟨files, some ⟨path, q, mode⟩, k, reads⟩ =
        (.ok data.length, ⟨FileDev.withFile files path
          (Res.overlay content q (repeated FileDev.dwordMax data data.length)),
          some ⟨path, q + data.length, mode⟩, k, reads⟩) := by
      rw [FileDev.writeRawWindows, M.noexcept_apply, e]
      rfl
    refine ⟨_, e', ?_, fun p hp => ?_⟩
    · simp only [FileDev.withFile, if_true]
      rfl
    · simp only [FileDev.withFile, if_neg hp]

theorem repeated_short {most : Nat} {data : List Byte} (h : data.length ≤ most) :
    repeated most data data.length = data := by
  apply List.ext_getElem
  · simp [repeated]
  · intro i h1 h2
    simp only [repeated, List.getElem_map, List.getElem_range]
    rw [Nat.mod_eq_of_lt (by omega), List.getD_eq_getElem _ _ h2]

theorem repeated_ne {most : Nat} (h : 0 < most) {data : List Byte}
    (hd : data = List.replicate most 0 ++ [1]) : repeated most data data.length ≠ data := by
  intro he
  have hlen : data.length = most + 1 := by rw [hd]; simp
  have hl := congrArg (fun l : List Byte => l[most]?) he
  have h1 : (repeated most data data.length)[most]? = some (data.getD 0 0) := by
    rw [repeated, List.getElem?_map, List.getElem?_range (by omega), Option.map_some, Nat.mod_self]
  have h2 : data[most]? = some 1 := by
    rw [hd, List.getElem?_append_right (by simp)]
    simp
  have h3 : data.getD 0 0 = 0 := by
    rw [List.getD_eq_getElem?_getD, hd, List.getElem?_append_left (by simpa using h),
      List.getElem?_replicate_of_lt h]
    rfl
  simp only [h1, h2, h3] at hl
  simp at hl

theorem not_writesWhole {data : List Byte} {most : Nat} (hm : most = 2 ^ 32 - 1)
    (h : repeated most data data.length ≠ data) : ¬ WritesWhole .windows [] 0 data := by
  rintro ⟨d, e, hd⟩
  obtain ⟨files', e', h1, -⟩ := C115_exact .windows (FileDev.withFile (fun _ => none) 0 []) 0 0 0
    .writeOnly [] [] data (by simp [FileDev.withFile]) (by decide) (Nat.zero_le _)
  rw [e'] at e
  simp only [Prod.mk.injEq, true_and] at e
  subst e
  simp only [← hm] at h1
  change files' 0 = _ at hd
  rw [h1] at hd
  simp only [Option.some.injEq, Res.overlay, List.take_nil, List.nil_append, List.drop_nil,
    List.append_nil] at hd
  exact h hd

/-- On Windows, of 2^32 bytes the last one written is the first. -/
theorem C115_violated : ¬ ∀ content q data, q ≤ content.length → WritesWhole .windows content q data := by
  intro h
  obtain ⟨most, hm⟩ : ∃ most, most = 2 ^ 32 - 1 := ⟨_, rfl⟩
  have hp : 0 < most := by omega
  exact not_writesWhole hm (repeated_ne hp rfl) (h [] 0 _ (Nat.zero_le _))

/-- Data that fit into one block.  Missing: larger ones. -/
theorem C115_partial (content data : List Byte) (q : Nat) (hq : q ≤ content.length) :
    (data.length ≤ 2 ^ 63 - 1 → WritesWhole .unix content q data)
    ∧ (data.length ≤ 2 ^ 32 - 1 → WritesWhole .windows content q data) := by
  constructor <;> intro hl
  · obtain ⟨files', e, h1, -⟩ := C115_exact .unix (FileDev.withFile (fun _ => none) 0 content) 0 q 0
      .writeOnly [] content data (by simp [FileDev.withFile]) (by decide) hq
    refine ⟨_, e, ?_⟩
    simp only [h1]
    rw [repeated_short hl]
  · obtain ⟨files', e, h1, -⟩ := C115_exact .windows (FileDev.withFile (fun _ => none) 0 content) 0 q 0
      .writeOnly [] content data (by simp [FileDev.withFile]) (by decide) hq
    refine ⟨_, e, ?_⟩
    simp only [h1]
    rw [repeated_short hl]

/-- Eight bytes in blocks of three; and a short write in the middle. -/
example : repeated 3 [0, 1, 2, 3, 4, 5, 6, 7] 8 = [0, 1, 2, 0, 1, 2, 0, 1]
    ∧ WritesWhole .windows [1, 2, 3] 1 [9] :=
  ⟨by decide, (C115_partial [1, 2, 3] [9] 1 (by decide)).2 (by decide)⟩

end Cmp
