import Verif.Proofs.Pages
import Verif.Spec.Turn

/-
Helper lemmas: reading page by page from any byte on.
-/

namespace Cmp

open Cmp.Spec (ArrayCursor turn turns pageSize pageRest PagesSuffice)

namespace Res

variable {δ : Type} {raw : Nat → ReadRequest → M δ ReadResult} {lim : Nat → Prop}
  {content : List Byte} {idle : Nat → δ → Prop} {loaded : Nat → Nat → δ → Prop}

/-- Loading the first page, from byte `q` on. -/
theorem paged_start (S : Source raw lim content idle loaded) {cap q : Nat} {r : Res δ}
    (hl : r.buf.data.length = cap) (hd : r.buf.readDirty = true) (hq : q ≤ content.length)
    (hi : idle q r.dev) (hcap : lim cap) (hc : 0 < cap) (n : Nat) :
    ∃ r', read raw n r = readLoaded raw n r' ∧ Paged cap content loaded q q r' := by
  obtain ⟨d', hfill, hld⟩ := S.fill r.buf.data.length q r.dev (by rw [hl]; exact hcap) (.inl hi) hq
  have hGlen : ((content.drop q).take r.buf.data.length).length
      = min cap (content.length - q) := by
    simp [hl]
  have hG : (content.drop q).take r.buf.data.length =
      (content.drop q).take ((content.drop q).take r.buf.data.length).length := by
    rw [List.length_take, List.length_drop, ← List.length_drop, ← List.take_eq_take_min]
  rw [read_buffered _ _ _ (by omega), readBuffered_dirty hd hfill]
  generalize (content.drop q).take r.buf.data.length = G at *
  refine ⟨_, rfl, by rw [← hl]; exact filled_length _ _ _, hq, rfl,
    by simp only [filled]; omega, rfl, Nat.zero_le _, hld, ?_⟩
  simp only [filled]
  rw [List.take_of_length_le (show G.length ≤ r.buf.data.length by omega), List.take_left]
  exact hG

/-- A read that needs at most one more page. -/
theorem readLoaded_turn (S : Source raw lim content idle loaded) {cap : Nat} {s : Nat × Nat}
    {r : Res δ} (h : Paged cap content loaded s.1 s.2 r) (hcap : lim cap) {n : Nat}
    (hn : n ≤ pageRest cap content.length s + cap) :
    ∃ r', readLoaded raw n r
        = (.ok ⟨(content.drop s.1).take n, ((content.drop s.1).take n).length⟩, r')
      ∧ Paged cap content loaded (turn cap content.length s n).1 (turn cap content.length s n).2 r' := by
  have h1 := h.size
  have h2 := h.position
  have h3 := h.inside
  have h4 := h.within
  have h5 := h.le
  simp only [pageRest, pageSize] at hn
  by_cases hin : s.1 + n ≤ s.2 + r.buf.size
  · obtain ⟨r', e', hp'⟩ := readLoaded_page raw h hin
    have hlen : ((content.drop s.1).take n).length = n := by simp; omega
    rw [turn, if_pos (by omega)]
    exact ⟨r', by rw [e', hlen], hp'⟩
  · obtain ⟨r', e', hp'⟩ := readLoaded_next S h hcap (n := n) (by omega) (by omega)
    rw [turn, if_neg (by omega)]
    refine ⟨r', e', ?_⟩
    rwa [show min (s.2 + cap) content.length = s.2 + r.buf.size by omega]

theorem turn_fst (cap len : Nat) (s : Nat × Nat) (n : Nat) :
    (turn cap len s n).1 = min (s.1 + n) len := by
  rw [turn]
  split
  · simp only; omega
  · rfl

theorem reads_paged (S : Source raw lim content idle loaded) {cap : Nat} {s : Nat × Nat}
    {r : Res δ} (h : Paged cap content loaded s.1 s.2 r) (hcap : lim cap) (hc : 0 < cap)
    (ns : List Nat) (hn : PagesSuffice cap content.length s ns) :
    ∃ r', M.runList (read raw) ns r =
        (.ok (((⟨content, s.1⟩ : ArrayCursor).reads ns).map fun g => ⟨g, g.length⟩), r')
      ∧ Paged cap content loaded (turns cap content.length s ns).1
          (turns cap content.length s ns).2 r' := by
  induction ns generalizing s r with
  | nil => exact ⟨r, rfl, h⟩
  | cons n ns ih =>
    have hl := h.length
    obtain ⟨r', a, b⟩ := readLoaded_turn S h hcap hn.1
    obtain ⟨r'', a', b'⟩ := ih b hn.2
    have a0 : read raw n r = readLoaded raw n r := by
      rw [read_buffered _ _ _ (by omega), readBuffered_clean _ _ _ h.clean]
    have hcur : (⟨content, s.1⟩ : ArrayCursor).afterRead n =
        ⟨content, (turn cap content.length s n).1⟩ := by
      have := h.inside
      rw [turn_fst]
      simp only [ArrayCursor.afterRead, ArrayCursor.next, List.length_take, List.length_drop,
        ArrayCursor.mk.injEq, true_and]
      omega
    refine ⟨r'', ?_, b'⟩
    have := M.runList_cons (a0.trans a) a'
    rw [this]
    simp only [ArrayCursor.reads, hcur, List.map_cons]
    rfl

/-- From a resource with nothing loaded, byte `q` next. -/
theorem reads_start (S : Source raw lim content idle loaded) {cap q : Nat} {r : Res δ}
    (hl : r.buf.data.length = cap) (hd : r.buf.readDirty = true) (hq : q ≤ content.length)
    (hi : idle q r.dev) (hcap : lim cap) (hc : 0 < cap)
    (ns : List Nat) (hn : PagesSuffice cap content.length (q, q) ns) :
    ∃ r', M.runList (read raw) ns r =
        (.ok (((⟨content, q⟩ : ArrayCursor).reads ns).map fun g => ⟨g, g.length⟩), r')
      ∧ (ns = [] → r' = r)
      ∧ (ns ≠ [] → Paged cap content loaded (turns cap content.length (q, q) ns).1
          (turns cap content.length (q, q) ns).2 r')
      ∧ ∀ n, ∃ r'', read raw n r' = readLoaded raw n r''
          ∧ Paged cap content loaded (turns cap content.length (q, q) ns).1
            (turns cap content.length (q, q) ns).2 r'' := by
  cases ns with
  | nil =>
    exact ⟨r, rfl, fun _ => rfl, fun h => absurd rfl h, fun n => paged_start S hl hd hq hi hcap hc n⟩
  | cons n ns =>
    obtain ⟨r1, e1, h1⟩ := paged_start S hl hd hq hi hcap hc n
    have hl1 := h1.length
    obtain ⟨r2, e2, h2⟩ := reads_paged S (s := (q, q)) h1 hcap hc (n :: ns) hn
    have a0 : read raw n r1 = readLoaded raw n r1 := by
      rw [read_buffered _ _ _ (by omega), readBuffered_clean _ _ _ h1.clean]
    refine ⟨r2, ?_, fun h => by simp at h, fun _ => h2, fun m => ⟨r2, ?_, h2⟩⟩
    · rw [← e2]
      simp only [M.runList, M.bind_apply, e1, a0]
    · have := h2.length
      rw [read_buffered _ _ _ (by omega), readBuffered_clean _ _ _ h2.clean]

end Res

end Cmp
