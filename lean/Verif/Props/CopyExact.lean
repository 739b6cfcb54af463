import Verif.Props.Copy
import Verif.Proofs.Pages

/-
Property C101 for containers in full: portions of any size.
-/

namespace Cmp

open Cmp.Spec (pageStart restOfPage)

variable {ρ ω : Type}

theorem copyAll_end {R : Reader ρ} {W : Writer ω} {k fuel : Nat} {r : ρ} {w w' : ω}
    (h : R.isAtEnd r = .ok true) (e : W.flush w = (.ok (), w')) :
    copyAll R W k (fuel + 1) (r, w) = (.ok (), (r, w')) := by
  rw [copyAll, M.bind_ok (M.get_apply _)]
  simp only
  rw [h, M.bind_ok (M.lift_apply _ _)]
  exact M.onSnd_ok r e

theorem copyAll_step {R : Reader ρ} {W : Writer ω} {fits : List Byte → Prop}
    {got out : List Byte → ω → Prop} (C : W.Collects fits got out) {k : Nat}
    {g sofar : List Byte} {r r' : ρ} {w : ω} (h : R.isAtEnd r = .ok false)
    (e : R.read k r = (.ok ⟨g, g.length⟩, r')) (hf : fits (sofar ++ g)) (hg : got sofar w) :
    ∃ w', got (sofar ++ g) w' ∧
      ∀ fuel, copyAll R W k (fuel + 1) (r, w) = copyAll R W k fuel (r', w') := by
  obtain ⟨n, w', e', hg'⟩ := C.write sofar w g hf hg
  refine ⟨w', hg', fun fuel => ?_⟩
  rw [copyAll, M.bind_ok (M.get_apply _)]
  simp only
  rw [h, M.bind_ok (M.lift_apply _ _)]
  simp only [Bool.false_eq_true, if_false]
  rw [M.bind_ok (M.onFst_ok w e)]
  simp only [List.take_length]
  rw [M.bind_ok (M.onSnd_ok r' e')]

/-- Less time does not help. -/
theorem copyAll_less (R : Reader ρ) (W : Writer ω) (k fuel : Nat) (s : ρ × ω)
    (h : (copyAll R W k (fuel + 1) s).1 = .hang) : (copyAll R W k fuel s).1 = .hang := by
  induction fuel generalizing s with
  | zero => rfl
  | succ fuel ih =>
    rw [copyAll, M.bind_ok (M.get_apply _)] at h ⊢
    generalize hx : R.isAtEnd s.1 = x at h ⊢
    cases x with
    | ok b =>
      rw [M.bind_ok (M.lift_apply _ _)] at h ⊢
      cases b with
      | true => exact h
      | false =>
        simp only [Bool.false_eq_true, if_false] at h ⊢
        rw [M.bind_apply] at h ⊢
        rcases hr : M.onFst (R.read k) s with ⟨_ | _ | _ | _ | _, s1⟩ <;> rw [hr] at h <;> try exact h
        simp only at h ⊢
        rw [M.bind_apply] at h ⊢
        rename_i got
        rcases hw : M.onSnd (W.write (got.bytes.take got.count)) s1 with ⟨_ | _ | _ | _ | _, s2⟩ <;>
          rw [hw] at h <;> try exact h
        exact ih s2 h
    | _ => exact h

theorem copyAll_hang (R : Reader ρ) (W : Writer ω) (k fuel n : Nat) (s : ρ × ω)
    (h : (copyAll R W k (fuel + n) s).1 = .hang) : (copyAll R W k fuel s).1 = .hang := by
  induction n with
  | zero => exact h
  | succ n ih => exact ih (copyAll_less R W k (fuel + n) s h)

namespace Ctr

variable {cap cap' k : Nat} {content : List Byte}

/-- The state of the target. -/
abbrev Copied (cap : Nat) (w : List Byte) (r : Res Ctr) : Prop :=
  Res.Writing cap (fun _ => True) (Res.Overwrote (Ctr.Idle 1) [] 0) r w

theorem isAtEnd_paged {p b : Nat} {r : Res Ctr} (h : Res.Paged cap content (Loaded 1 content) p b r) :
    isAtEnd r = decide (p = content.length) := by
  obtain ⟨h1, h2, h3, h4⟩ := h.loaded
  have h5 := h.position
  have h6 : getPosition r = p := by
    unfold getPosition
    omega
  unfold isAtEnd
  rw [h6]
  simp only [Ctr.count, h1, h2, Nat.div_one, Nat.mul_one]
  rw [Bool.eq_iff_iff]
  simp

/-- The portions that come as they should. -/
theorem copy_before (hc : 0 < cap) (i : Nat) (hi : ∀ j < i, j * k < content.length)
    (h : ∀ j < i, k ≤ restOfPage cap content.length (j * k) + cap) :
    ∃ r w, Res.Turning cap content (Idle 1 content) (Loaded 1 content) (min (i * k) content.length) r
      ∧ isAtEnd r = decide (min (i * k) content.length = content.length)
      ∧ Copied cap' (content.take (i * k)) w
      ∧ ∀ fuel, copyAll reader writer k (fuel + i) (freshCtr cap 1 content, freshCtr cap' 1 [])
          = copyAll reader writer k fuel (r, w) := by
  induction i with
  | zero =>
    refine ⟨_, _, ?_, ?_, by simpa using Ctr.got_fresh cap', fun _ => rfl⟩
    · simp only [Nat.zero_mul, Nat.zero_min]
      exact Res.turning_make cap (Ctr.make 1 content) ⟨rfl, rfl, rfl, rfl⟩
    · simp only [Nat.zero_mul, Nat.zero_min]
      rw [Bool.eq_iff_iff]
      simp [isAtEnd, getPosition, freshCtr, Ctr.make, IoBuffer.make, Ctr.count]
      omega
  | succ i ih =>
    obtain ⟨r, w, h1, h0, h2, h3⟩ := ih (fun j hj => hi j (by omega)) (fun j hj => h j (by omega))
    have hlt := hi i (by omega)
    rw [Nat.min_eq_left (by omega)] at h0 h1
    obtain ⟨r', e, b, h4, h4'⟩ := Res.read_turning_page (Ctr.source 1 content) h1 trivial hc (h i (by omega))
    obtain ⟨w', h5, h6⟩ := copyAll_step (R := reader) (Ctr.collects cap' [])
      (k := k) (by
        show Outcome.ok (isAtEnd r) = _
        rw [h0, decide_eq_false (by omega)]) e trivial h2
    refine ⟨r', w', ?_, ?_, ?_, ?_⟩
    · rw [Nat.add_mul, Nat.one_mul]; exact .inr ⟨b, h4, h4'⟩
    · rw [Nat.add_mul, Nat.one_mul]; exact isAtEnd_paged h4
    · have : content.take ((i + 1) * k) = content.take (i * k) ++ (content.drop (i * k)).take k := by
        rw [Nat.add_mul, Nat.one_mul, List.take_add]
      rw [this]
      exact h5
    · intro fuel
      rw [show fuel + (i + 1) = (fuel + 1) + i by omega, h3, h6]

/-- The buffer is used up, and the position is somewhere. -/
structure Past (cap : Nat) (content : List Byte) (page q : Nat) (r : Res Ctr) : Prop where
  length : r.buf.data.length = cap
  clean : r.buf.readDirty = false
  size : r.buf.size = page
  position : r.buf.position = page
  content_eq : r.dev.content = content
  elem_eq : r.dev.elem = 1
  at_ : r.dev.position = (q : Int)
  inside : q ≤ content.length
  fits : page ≤ cap

theorem isAtEnd_past {page q : Nat} {r : Res Ctr} (h : Past cap content page q r) :
    isAtEnd r = decide (q + page = content.length) := by
  unfold isAtEnd getPosition
  simp only [Ctr.count, h.content_eq, h.elem_eq, Nat.div_one, Nat.mul_one, h.at_, h.position]
  rw [Bool.eq_iff_iff]
  simp
  omega

theorem read_past {page q : Nat} {r : Res Ctr} (hc : 0 < cap) (hk : cap < k)
    (h : Past cap content page q r) :
    ∃ r', Res.read readRaw k r =
        (.ok ⟨(content.drop q).take k, ((content.drop q).take k).length⟩, r')
      ∧ Past cap content page (min (q + k) content.length) r' := by
  have h1 := h.length
  have h2 := h.size
  have h3 := h.position
  have h4 := h.fits
  have h5 := h.inside
  have hu : r.buf.unread = [] := by
    have := IoBuffer.unread_length r.buf (by omega)
    exact List.eq_nil_of_length_eq_zero (by omega)
  have hz : k - (r.buf.size - r.buf.position) = k := by omega
  have hl := readRaw_lean r.dev k q h.at_ (by rw [h.content_eq]; exact h5)
  have e := Res.readLoaded_lean (raw := readRaw) (r := r) (n := k) (by omega) (by omega) (by omega)
    (by omega) (by rw [hz]; exact hl)
  rw [Res.read_buffered _ _ _ (by omega), Res.readBuffered_clean _ _ _ h.clean, e, hu, h.content_eq]
  refine ⟨_, Prod.ext (by simp) rfl, h1, h.clean, h2, h2, rfl, h.elem_eq, ?_, by omega, h4⟩
  simp only [List.length_take, List.length_drop]
  omega

/-- The portion that goes back to the start of the page. -/
theorem read_over {p : Nat} {r : Res Ctr} (hc : 0 < cap) (hp : p < content.length)
    (h : Res.Turning cap content (Idle 1 content) (Loaded 1 content) p r)
    (hk : restOfPage cap content.length p + cap < k) :
    let b := pageStart cap p
    let page := min cap (content.length - b)
    ∃ g r', Res.read readRaw k r = (.ok ⟨g, g.length⟩, r')
      ∧ g = (content.drop p).take (b + page - p) ++ (content.drop b).take (p + k - (b + page))
      ∧ p ≤ b + page ∧ b + page ≤ content.length ∧ 0 < page ∧ page ≤ cap ∧ b + page + cap < p + k
      ∧ Past cap content page (min (p + k - page) content.length) r' := by
  intro b page
  obtain ⟨b', r', e', hpg, ha⟩ := Res.turning_load (Ctr.source 1 content) h trivial hc k
  have hrest := hpg.rest hc ha
  have h1 := hpg.size
  have h2 := hpg.position
  have h3 := hpg.length
  have h4 := hpg.within
  have h5 := hpg.le
  obtain ⟨hu, hul⟩ := hpg.unread
  have hb : b' = pageStart cap p := by
    rcases ha with ⟨⟨m, rfl⟩, ha⟩ | ⟨rfl, ha⟩
    · exact (Res.pageStart_eq hc ha (by omega)).symm
    · omega
  subst hb
  change r'.buf.size = page at h1
  change b + r'.buf.position = p at h2
  rw [h1] at h4 h5 hu hul hrest
  change b + page ≤ content.length at h5
  change restOfPage cap content.length p = b + page - p at hrest
  change r'.buf.unread = (content.drop p).take (b + page - p) at hu
  change r'.buf.unread.length = b + page - p at hul
  obtain ⟨l1, l2, l3, l4⟩ := hpg.loaded
  change b + r'.dev.lastFill = b + r'.buf.size at l3
  change _ = ((b + r'.buf.size : Nat) : Int) at l4
  have l6 : r'.dev.position = (b : Int) := by omega
  have hpos : 0 < page := by
    rcases ha with ⟨-, ha⟩ | ⟨-, ha⟩
    · change b < p ∨ b = 0 ∧ p = 0 at ha
      show 0 < min cap (content.length - b)
      omega
    · omega
  have hpc : page ≤ cap := Nat.min_le_left _ _
  clear_value page b
  have hz : k - (r'.buf.size - r'.buf.position) = p + k - (b + page) := by omega
  have hl := readRaw_lean r'.dev (p + k - (b + page)) b l6 (by rw [l1]; omega)
  have e := Res.readLoaded_lean (raw := readRaw) (r := r') (n := k) (by omega) (by omega) (by omega)
    (by omega) (by rw [hz]; exact hl)
  rw [e', e, hu, l1]
  refine ⟨(content.drop p).take (b + page - p) ++ (content.drop b).take (p + k - (b + page)), _,
    Prod.ext (by simp) rfl, rfl, by omega, h5, hpos, hpc, by omega,
    h3, hpg.clean, h1, h1, rfl, l2, ?_, by omega, hpc⟩
  simp only [List.length_take, List.length_drop]
  omega

/-- After that the end is met only by chance. -/
theorem copy_past_end {page q : Nat} (hc : 0 < cap) (hk : cap < k) (hp : 0 < page) (j : Nat)
    (hj : q + page + j * k = content.length) {r w : Res Ctr} {sofar : List Byte}
    (h : Past cap content page q r) (hw : Copied cap' sofar w) :
    ∃ s, (∀ fuel, copyAll reader writer k (fuel + j + 1) (r, w) = (.ok (), s))
      ∧ s.1.dev.content = content ∧ s.2.dev.content = sofar ++ (content.drop q).take (j * k) := by
  induction j generalizing q r w sofar with
  | zero =>
    obtain ⟨w', e, ho⟩ := (Ctr.collects cap' []).flush sofar w hw
    refine ⟨_, fun fuel => copyAll_end ?_ e, h.content_eq, by simpa using ho⟩
    show Outcome.ok (isAtEnd r) = _
    rw [isAtEnd_past h, decide_eq_true (by omega)]
  | succ j ih =>
    rw [Nat.add_mul, Nat.one_mul] at hj
    obtain ⟨r', e, h'⟩ := read_past hc hk h
    obtain ⟨w', h5, h6⟩ := copyAll_step (R := reader) (Ctr.collects cap' []) (k := k) (by
      show Outcome.ok (isAtEnd r) = _
      rw [isAtEnd_past h, decide_eq_false (by omega)]) e trivial hw
    rw [Nat.min_eq_left (by omega)] at h'
    obtain ⟨s, e2, h7, h8⟩ := ih (by omega) h' h5
    refine ⟨s, fun fuel => ?_, h7, ?_⟩
    · rw [show fuel + (j + 1) + 1 = (fuel + j + 1) + 1 by omega, h6, e2]
    · rw [h8, List.append_assoc]
      congr 1
      rw [Nat.add_mul, Nat.one_mul, Nat.add_comm (j * k) k, List.take_add, List.drop_drop]

theorem copy_past_hang {page q : Nat} (hc : 0 < cap) (hk : cap < k) (hp : 0 < page)
    (hj : ∀ j, q + page + j * k ≠ content.length) (fuel : Nat) {r w : Res Ctr} {sofar : List Byte}
    (h : Past cap content page q r) (hw : Copied cap' sofar w) :
    (copyAll reader writer k fuel (r, w)).1 = .hang := by
  induction fuel generalizing q r w sofar with
  | zero => rfl
  | succ fuel ih =>
    obtain ⟨r', e, h'⟩ := read_past hc hk h
    have := hj 0
    obtain ⟨w', h5, h6⟩ := copyAll_step (R := reader) (Ctr.collects cap' []) (k := k) (by
      show Outcome.ok (isAtEnd r) = _
      rw [isAtEnd_past h, decide_eq_false (by omega)]) e trivial hw
    rw [h6]
    refine ih ?_ h' h5
    intro j hj'
    by_cases hq : q + k ≤ content.length
    · rw [Nat.min_eq_left hq] at hj'
      refine hj (j + 1) ?_
      rw [Nat.add_mul, Nat.one_mul]
      omega
    · omega

end Ctr

/-- C101 for containers of bytes in full.  If no portion needs more than the rest of a page of the
buffer and the page behind it, the target becomes a copy.  Otherwise let `i` be the first portion that
does: from there the source goes back to the start of its page.  If the content is a whole number of
portions, the program ends, and the target has the right length but lacks the last page and has the
page that was loaded twice; if not, the source never is at its end and the program never ends. -/
theorem C101_exact (cap cap' k : Nat) (content : List Byte) (hc : 0 < cap) (hk : 0 < k) :
    ((∀ i, i * k < content.length → k ≤ restOfPage cap content.length (i * k) + cap) →
      CopiesContainer cap cap' k content)
    ∧ ∀ i, i * k < content.length → (∀ j < i, k ≤ restOfPage cap content.length (j * k) + cap) →
      restOfPage cap content.length (i * k) + cap < k →
      let b := pageStart cap (i * k)
      let page := min cap (content.length - b)
      (k ∣ content.length → ∃ s, copyAll Ctr.reader Ctr.writer k (content.length + 1)
          (freshCtr cap 1 content, freshCtr cap' 1 []) = (.ok (), s)
        ∧ s.1.dev.content = content
        ∧ s.2.dev.content = content.take (b + page) ++ (content.drop b).take (content.length - (b + page)))
      ∧ (¬ k ∣ content.length → ∀ fuel, (copyAll Ctr.reader Ctr.writer k fuel
          (freshCtr cap 1 content, freshCtr cap' 1 [])).1 = .hang) := by
  constructor
  · intro h
    obtain ⟨i, hi1, hi2⟩ : ∃ i, content.length ≤ i * k ∧ ∀ j < i, j * k < content.length := by
      have hex : ∃ i, content.length ≤ i * k := ⟨content.length, Nat.le_mul_of_pos_right _ hk⟩
      refine ⟨Nat.find hex, Nat.find_spec hex, fun j hj => ?_⟩
      have := Nat.find_min hex hj
      omega
    have hil : i ≤ content.length := by
      by_contra hcon
      have h1 := hi2 content.length (by omega)
      have h2 := Nat.le_mul_of_pos_right content.length hk
      omega
    obtain ⟨r, w, h1, h2, h3, h4⟩ := Ctr.copy_before (cap' := cap') hc i hi2
      (fun j hj => h j (hi2 j hj))
    rw [Nat.min_eq_right hi1] at h1 h2
    obtain ⟨w', e, ho⟩ := (Ctr.collects cap' []).flush _ w h3
    have e' := h4 (content.length - i + 1)
    rw [show content.length - i + 1 + i = content.length + 1 by omega,
      copyAll_end (show Outcome.ok (Ctr.isAtEnd r) = .ok true by rw [h2, decide_eq_true rfl]) e] at e'
    refine ⟨_, e', ?_, ?_⟩
    · rcases h1 with ⟨-, -, hi, -⟩ | ⟨b, hb, -⟩
      · exact hi.content_eq
      · exact hb.loaded.content_eq
    · rw [ho, List.take_of_length_le hi1]
      rfl
  · intro i hi hbefore hover b page
    have hbl : ∀ j < i, j * k < content.length := fun j hj =>
      lt_of_le_of_lt (Nat.mul_le_mul_right k hj.le) hi
    obtain ⟨r, w, h1, h2, h3, h4⟩ := Ctr.copy_before (cap' := cap') hc i hbl hbefore
    rw [Nat.min_eq_left hi.le] at h1 h2
    obtain ⟨g, r', e, hg, h5, h6, h7, h8, h9, h10⟩ := Ctr.read_over hc hi h1 hover
    change g = (content.drop (i * k)).take (b + page - i * k) ++
      (content.drop b).take (i * k + k - (b + page)) at hg
    change i * k ≤ b + page at h5
    change b + page ≤ content.length at h6
    change 0 < page at h7
    change b + page + cap < i * k + k at h9
    change Ctr.Past cap content page (min (i * k + k - page) content.length) r' at h10
    obtain ⟨w', h11, h12⟩ := copyAll_step (R := Ctr.reader) (Ctr.collects cap' []) (k := k) (by
      show Outcome.ok (Ctr.isAtEnd r) = _
      rw [h2, decide_eq_false (by omega)]) e trivial h3
    clear_value b page
    have hkc : cap < k := by omega
    constructor
    · rintro ⟨n, hn⟩
      rw [Nat.mul_comm] at hn
      obtain ⟨j, rfl⟩ : ∃ j, n = i + 1 + j := by
        have : i < n := by
          by_contra hcon
          have := Nat.mul_le_mul_right k (not_lt.mp hcon)
          omega
        exact ⟨n - (i + 1), by omega⟩
      rw [Nat.add_mul, Nat.add_mul, Nat.one_mul] at hn
      rw [Nat.min_eq_left (by omega)] at h10
      obtain ⟨s, e2, h13, h14⟩ := Ctr.copy_past_end (cap' := cap') hc hkc h7 j (by omega) h10 h11
      refine ⟨s, ?_, h13, ?_⟩
      · have hij : i + 1 + j ≤ content.length := by
          have := Nat.le_mul_of_pos_right (i + 1 + j) hk
          rw [Nat.add_mul, Nat.add_mul, Nat.one_mul] at this
          omega
        rw [show content.length + 1 = (content.length - (i + 1 + j) + j + 1) + 1 + i by omega, h4, h12, e2]
      · have e3 : content.take (b + page) = content.take (i * k) ++
            (content.drop (i * k)).take (b + page - i * k) := by
          rw [← List.take_add]
          congr 1
          omega
        have e4 : (content.drop b).take (content.length - (b + page)) =
            (content.drop b).take (i * k + k - (b + page)) ++
              (content.drop (i * k + k - page)).take (j * k) := by
          rw [show content.length - (b + page) = i * k + k - (b + page) + j * k by omega, List.take_add,
            List.drop_drop, show b + (i * k + k - (b + page)) = i * k + k - page by omega]
        rw [h14, hg, e3, e4]
        simp only [List.append_assoc]
    · intro hnd fuel
      refine copyAll_hang _ _ _ fuel (1 + i) _ ?_
      rw [show fuel + (1 + i) = fuel + 1 + i by omega, h4, h12]
      refine Ctr.copy_past_hang hc hkc h7 ?_ fuel h10 h11
      intro j hj
      by_cases hq : i * k + k - page ≤ content.length
      · rw [Nat.min_eq_left hq] at hj
        refine hnd ⟨i + 1 + j, ?_⟩
        rw [Nat.mul_comm k, Nat.add_mul, Nat.add_mul, Nat.one_mul]
        omega
      · omega

/-- So with portions that are too large the target is a copy only if the content is a whole number of
portions and repeats itself. -/
theorem C101_exact_iff (cap cap' k i : Nat) (content : List Byte) (hc : 0 < cap) (hk : 0 < k)
    (hi : i * k < content.length) (hj : ∀ j < i, k ≤ restOfPage cap content.length (j * k) + cap)
    (hover : restOfPage cap content.length (i * k) + cap < k) :
    CopiesContainer cap cap' k content ↔ k ∣ content.length ∧
      let b := pageStart cap (i * k)
      let page := min cap (content.length - b)
      (content.drop b).take (content.length - (b + page)) = content.drop (b + page) := by
  obtain ⟨h1, h2⟩ := (C101_exact cap cap' k content hc hk).2 i hi hj hover
  constructor
  · rintro ⟨s, e, h3, h4⟩
    by_cases hd : k ∣ content.length
    · refine ⟨hd, ?_⟩
      obtain ⟨s', e', -, h6⟩ := h1 hd
      rw [e] at e'
      cases e'
      rw [h4] at h6
      intro b page
      have h7 : content.take (b + page) ++ content.drop (b + page) = content.take (b + page) ++
          (content.drop b).take (content.length - (b + page)) := by
        rw [List.take_append_drop]
        exact h6
      exact (List.append_cancel_left h7).symm
    · have := h2 hd (content.length + 1)
      rw [e] at this
      cases this
  · rintro ⟨hd, h3⟩
    obtain ⟨s, e, h4, h5⟩ := h1 hd
    refine ⟨s, e, h4, ?_⟩
    dsimp only at h3
    rw [h5, h3, List.take_append_drop]

/-- Portions of three halves of the buffer, twice. -/
example : CopiesContainer 4 2 6 [1, 2, 3, 4, 5, 6, 7, 8, 9, 10, 11, 12] := by
  refine (C101_exact 4 2 6 _ (by decide) (by decide)).1 fun i hi => ?_
  simp only [List.length_cons, List.length_nil] at hi ⊢
  obtain rfl | rfl : i = 0 ∨ i = 1 := by omega
  all_goals decide

/-- Portions of five bytes through a buffer of two. -/
example : ∃ s, copyAll Ctr.reader Ctr.writer 5 11
      (freshCtr 2 1 [0, 1, 2, 3, 4, 5, 6, 7, 8, 9], freshCtr 0 1 []) = (.ok (), s)
    ∧ s.2.dev.content = [0, 1, 0, 1, 2, 3, 4, 5, 6, 7] := by
  obtain ⟨s, e, -, h⟩ := ((C101_exact 2 0 5 [0, 1, 2, 3, 4, 5, 6, 7, 8, 9] (by decide) (by decide)).2 0
    (by decide) (by omega) (by decide)).1 (by decide)
  exact ⟨s, e, h⟩

example (fuel : Nat) : (copyAll Ctr.reader Ctr.writer 5 fuel
    (freshCtr 2 1 [0, 1, 2, 3, 4, 5, 6, 7, 8], freshCtr 0 1 [])).1 = .hang :=
  ((C101_exact 2 0 5 [0, 1, 2, 3, 4, 5, 6, 7, 8] (by decide) (by decide)).2 0
    (by decide) (by omega) (by decide)).2 (by decide) fuel

end Cmp
