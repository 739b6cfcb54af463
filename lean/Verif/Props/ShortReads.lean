import Verif.Proofs.ShortReads

/-
Property C45 once more: what reads from files return on Unix, exactly, for every schedule of short
counts.
-/

namespace Cmp

open Spec (handed portions overlaid shortReads AllAtOnce)

/-- Without a buffer, for every schedule: each read puts the portions it is handed at the same place
and returns the number of bytes of all of them; it stops only when that number is the one that was
asked for, or when the file is over. -/
theorem C45_exact_short (content : List Byte) (reads : List Nat) (ns : List Nat)
    (hlim : ∀ n ∈ ns, n ≤ FileDev.ssizeMax) (files : Nat → Option (List Byte)) (path : Nat)
    (mode : AccessMode) (hf : files path = some content) (hm : mode ≠ .writeOnly) :
    (M.runList (FileObj.read .unix) ns (freshFile .unix 0 files reads path mode)).1 =
      .ok (shortReads ns content reads) := by
  obtain ⟨f, e⟩ := reads_short files path mode content hf hm ns reads reads 0 hlim (.inr rfl)
  rw [freshFile_eq .unix 0 files reads path mode content hf]
  exact congrArg Prod.fst e

/-- A read of four bytes which is told that it got ten. -/
example : (M.runList (FileObj.read .unix) [4]
    (freshFile .unix 0 (fun _ => some [1, 2, 3, 4, 5, 6, 7, 8, 9, 10]) [2] 0 .readOnly)).1 =
    .ok [⟨[7, 8, 9, 10], 10⟩] := by
  rw [C45_exact_short [1, 2, 3, 4, 5, 6, 7, 8, 9, 10] [2] [4] (by decide +kernel) _ 0 .readOnly rfl
    (by decide)]
  decide +kernel

example : (M.runList (FileObj.read .unix) [5, 1, 2]
    (freshFile .unix 0 (fun _ => some [1, 2, 3, 4, 5, 6, 7, 8, 9, 10]) [3, 2] 0 .readOnly)).1 =
    .ok [⟨[4, 5, 3], 5⟩, ⟨[6], 1⟩, ⟨[7, 8], 2⟩] := by
  rw [C45_exact_short [1, 2, 3, 4, 5, 6, 7, 8, 9, 10] [3, 2] [5, 1, 2] (by decide +kernel) _ 0
    .readOnly rfl (by decide)]
  decide +kernel

theorem portions_atOnce {n : Nat} {content : List Byte} {l : List Nat} (hn : 0 < n)
    (hc : content ≠ []) (h : min n content.length ≤ handed n l) :
    portions n 0 content l = [content.take n] := by
  have hh := handed_pos l hn
  have ht : content.take (handed n l) = content.take n := by
    rcases Nat.le_total n content.length with g | g
    · rw [Nat.min_eq_left g] at h
      rw [show handed n l = n by omega]
    · rw [Nat.min_eq_right g] at h
      rw [List.take_of_length_le h, List.take_of_length_le g]
  rw [portions_cons l hn hc, ht]
  split
  · rfl
  · rename_i g
    have : content.drop (handed n l) = [] := by
      apply List.drop_eq_nil_of_le
      simp only [List.length_take] at g
      omega
    rw [this, portions_nil]

theorem portions_later {n : Nat} {content : List Byte} {l : List Nat} (hn : 0 < n)
    (hc : content ≠ []) (h : ¬ min n content.length ≤ handed n l) :
    ∃ a b ps, portions n 0 content l = a :: b :: ps := by
  have hl : (content.take (handed n l)).length = handed n l := by
    rw [List.length_take]
    omega
  have hd : content.drop (handed n l) ≠ [] :=
    List.ne_nil_of_length_pos (by rw [List.length_drop]; omega)
  rw [portions_cons l hn hc, hl, if_neg (by omega), portions_cons _ hn hd]
  exact ⟨_, _, _, rfl⟩

theorem shortReads_atOnce : ∀ (ns : List Nat) (content : List Byte) (l : List Nat),
    AllAtOnce ns content l →
      ((shortReads ns content l).map (·.bytes)).flatten = content.take ns.sum
      ∧ ∀ g ∈ shortReads ns content l, g.count = g.bytes.length
  | [], _, _, _ => by simp [shortReads]
  | n :: ns, content, l, h => by
    simp only [AllAtOnce] at h
    by_cases h0 : n = 0 ∨ content = []
    · have hp : portions n 0 content l = [] := by
        rcases h0 with g | g
        · rw [g, portions_zero]
        · rw [g, portions_nil]
      rw [if_pos h0] at h
      obtain ⟨h1, h2⟩ := shortReads_atOnce ns content l h
      simp only [shortReads, hp, List.flatten_nil, List.length_nil, List.drop_zero, List.map_cons,
        List.flatten_cons, h1, List.sum_cons]
      refine ⟨?_, fun g hg => ?_⟩
      · rcases h0 with g | g
        · simp [g, overlaid]
        · simp [g, overlaid]
      · rcases List.mem_cons.mp hg with rfl | hg
        · simp [overlaid]
        · exact h2 g hg
    · rw [if_neg h0] at h
      simp only [not_or] at h0
      have hp := portions_atOnce (by omega) h0.2 h.1
      have hlen : content.drop (content.take n).length = content.drop n := by
        rw [List.length_take]
        rcases Nat.le_total n content.length with g | g
        · rw [Nat.min_eq_left g]
        · rw [Nat.min_eq_right g, List.drop_length, List.drop_eq_nil_of_le g]
      obtain ⟨h1, h2⟩ := shortReads_atOnce ns (content.drop n) l.tail h.2
      simp only [shortReads, hp, List.flatten_cons, List.flatten_nil, List.append_nil,
        List.length_cons, List.length_nil, Nat.zero_add, List.drop_one, hlen, List.map_cons, h1,
        List.sum_cons, overlaid, List.foldl_cons, List.foldl_nil, List.drop_nil]
      refine ⟨(List.take_add).symm, fun g hg => ?_⟩
      rcases List.mem_cons.mp hg with rfl | hg
      · rfl
      · exact h2 g hg

theorem atOnce_of_counts : ∀ (ns : List Nat) (content : List Byte) (l : List Nat),
    (∀ g ∈ shortReads ns content l, g.count = g.bytes.length) → AllAtOnce ns content l
  | [], _, _, _ => trivial
  | n :: ns, content, l, h => by
    simp only [shortReads, List.mem_cons, forall_eq_or_imp] at h
    simp only [AllAtOnce]
    by_cases h0 : n = 0 ∨ content = []
    · rw [if_pos h0]
      have hp : portions n 0 content l = [] := by
        rcases h0 with g | g
        · rw [g, portions_zero]
        · rw [g, portions_nil]
      rw [hp] at h
      exact atOnce_of_counts ns content l (by simpa using h.2)
    · rw [if_neg h0]
      simp only [not_or] at h0
      by_cases hw : min n content.length ≤ handed n l
      · refine ⟨hw, ?_⟩
        rw [portions_atOnce (by omega) h0.2 hw] at h
        have hlen : content.drop (content.take n).length = content.drop n := by
          rw [List.length_take]
          rcases Nat.le_total n content.length with g | g
          · rw [Nat.min_eq_left g]
          · rw [Nat.min_eq_right g, List.drop_length, List.drop_eq_nil_of_le g]
        exact atOnce_of_counts ns (content.drop n) l.tail (by
          have h2 := h.2
          simp only [List.flatten_cons, List.flatten_nil, List.append_nil, hlen, List.length_cons,
            List.length_nil, Nat.zero_add, List.drop_one] at h2
          exact h2)
      · obtain ⟨a, b, ps, hp⟩ := portions_later (by omega) h0.2 hw
        have hne := portions_ne n content.length 0 content l (Nat.le_refl _)
        rw [hp] at h hne
        have := overlay_short ps (hne a (by simp)) (hne b (by simp))
        have := h.1
        omega

/-- So without a buffer the claim is true of exactly the schedules which hand over everything at
once. -/
theorem C45_exact_schedule (content : List Byte) (reads : List Nat) (ns : List Nat)
    (hlim : ∀ n ∈ ns, n ≤ FileDev.ssizeMax) :
    FileInOrder .unix 0 content reads ns ↔ AllAtOnce ns content reads := by
  constructor
  · intro h
    obtain ⟨outs, f, e, -, q⟩ := h (fun _ => some content) 0 .readOnly rfl (by decide)
    have e' := C45_exact_short content reads ns hlim (fun _ => some content) 0 .readOnly rfl
      (by decide)
    rw [e] at e'
    simp only [Outcome.ok.injEq] at e'
    rw [e'] at q
    exact atOnce_of_counts ns content reads q
  · intro h files path mode hf hm
    have e := C45_exact_short content reads ns hlim files path mode hf hm
    obtain ⟨h1, h2⟩ := shortReads_atOnce ns content reads h
    exact ⟨_, _, Prod.ext e rfl, h1, h2⟩

/-- Short counts that do no harm: the second read asks for two bytes and the system has them. -/
example : FileInOrder .unix 0 [1, 2, 3, 4] [3, 2] [1, 2, 4] :=
  (C45_exact_schedule _ _ _ (by decide +kernel)).mpr (by simp [AllAtOnce, handed])

/-- With a buffer of `cap` bytes, for every schedule: as long as the reads take no more than is
said to be in the first page, they see the portions put at the same place over the zeros of the
empty buffer.  If the portions together are more than the buffer holds, the next read beyond its end
is undefined behaviour: it copies from behind the memory of the buffer. -/
theorem C45_exact_page (cap : Nat) (content : List Byte) (reads : List Nat) (ns : List Nat) (n : Nat)
    (h0 : 0 < cap) (hcap : cap ≤ FileDev.ssizeMax) (hfit : ns.sum ≤ cap)
    (hpage : ns.sum ≤ (portions cap 0 content reads).flatten.length) (hns : ns ≠ [])
    (files : Nat → Option (List Byte)) (path : Nat) (mode : AccessMode)
    (hf : files path = some content) (hm : mode ≠ .writeOnly) :
    ∃ outs f, M.runList (FileObj.read .unix) ns (freshFile .unix cap files reads path mode) =
        (.ok outs, f)
      ∧ (outs.map (·.bytes)).flatten =
        (overlaid (portions cap 0 content reads) ++ List.replicate cap 0).take ns.sum
      ∧ (cap < (portions cap 0 content reads).flatten.length → cap < ns.sum + n →
          (FileObj.read .unix n f).1 = .ub) := by
  obtain ⟨g, e, hg⟩ := read_fresh cap files reads path mode content hf hm h0 hcap
  have hlen : ((overlaid (portions cap 0 content reads) ++ List.replicate cap 0).take cap).length =
      cap := by
    simp
  obtain ⟨outs, f, e', hb, h'⟩ := hg.reads ns (by omega) (by omega)
  refine ⟨outs, f, ?_, ?_, fun h1 h2 => ?_⟩
  · cases ns with
    | nil => exact absurd rfl hns
    | cons k ks =>
      rw [← e']
      simp only [M.runList]
      rw [M.bind_apply, M.bind_apply, e k]
  · rw [hb, List.drop_zero, List.take_take, Nat.min_eq_left hfit]
  · exact h'.overrun (by omega) (by omega) (by omega)

/-- A file of ten bytes read through a buffer of four: the system hands over two bytes, then four,
then four.  The first read returns the last four bytes; the second one is undefined behaviour. -/
theorem C45_violated_buffer :
    ∃ outs f, M.runList (FileObj.read .unix) [4] (freshFile .unix 4
        (fun _ => some [1, 2, 3, 4, 5, 6, 7, 8, 9, 10]) [2] 0 .readOnly) = (.ok outs, f)
      ∧ (outs.map (·.bytes)).flatten = [7, 8, 9, 10]
      ∧ (FileObj.read .unix 1 f).1 = .ub := by
  obtain ⟨outs, f, e, hb, hu⟩ := C45_exact_page 4 [1, 2, 3, 4, 5, 6, 7, 8, 9, 10] [2] [4] 1
    (by decide) (by decide +kernel) (by decide) (by decide +kernel) (by decide)
    (fun _ => some [1, 2, 3, 4, 5, 6, 7, 8, 9, 10]) 0 .readOnly rfl (by decide)
  refine ⟨outs, f, e, ?_, hu (by decide +kernel) (by decide)⟩
  rw [hb]
  decide +kernel

end Cmp
