import Verif.Props.Views
import Verif.Proofs.Pages

/-
Property C111 in full: what becomes of readers that lose their buffer in an assignment.
-/

namespace Cmp

namespace Spec

/-- A reader as it is: `page` is where the page in the buffer starts, if there is one, and `lag` is by
how much it takes itself to be farther than it is. -/
structure Glass where
  content : List Byte
  cursor : Nat
  cap : Nat
  page : Option Nat
  lag : Nat
  deriving DecidableEq

namespace Glass

/-- Where the page in the buffer starts and ends once there is one. -/
def pageFrom (v : Glass) : Nat := v.page.getD v.cursor
def pageTo (v : Glass) : Nat := v.pageFrom + min v.cap (v.content.length - v.pageFrom)

/-- The reader after `n` bytes: the next page is loaded if the page does not have all of them. -/
def after (v : Glass) (n : Nat) : Glass :=
  { v with
    cursor := min (v.cursor + n) v.content.length
    page := if v.cap = 0 then none else
      some (if v.cursor + n ≤ v.pageTo then v.pageFrom else v.pageTo) }

/-- The buffer is lost: reading goes on at the start of the page, while the reader still counts what
it has read of the page. -/
def lost (v : Glass) : Glass :=
  { v with
    cursor := v.pageFrom
    cap := 0
    page := none
    lag := v.lag + (v.cursor - v.pageFrom) }

end Glass

/-- The readers; `some none` is one that was moved from. -/
abbrev Glasses : Type := Nat → Option (Option Glass)

def Glasses.put (w : Glasses) (i : Nat) (v : Option (Option Glass)) : Glasses :=
  fun k => if k = i then v else w k

/-- What the operations do. -/
def glassStep (w : Glasses) : ViewOp → ResObs × Glasses
  | .construct i cap content => (.nothing, w.put i (some (some ⟨content, 0, cap, none, 0⟩)))
  | .copyConstruct i j | .copyAssign i j => (.nothing, w.put i (w j))
  | .moveConstruct i j => (.nothing, (w.put j (some none)).put i (w j))
  | .moveAssign i j again => (.nothing, (w.put j (some none)).put i ((w j).map fun o =>
      o.map fun v => if again then v.lost else v))
  | .destroy i => (.nothing, w.put i none)
  | .read i n =>
    match w i with
    | some (some v) => (.bytes ((v.content.drop v.cursor).take n), w.put i (some (some (v.after n))))
    | _ => (.nothing, w)
  | .seek i k =>
    match w i with
    | some (some v) => (.nothing, w.put i (some (some { v with cursor := k, page := none, lag := 0 })))
    | _ => (.nothing, w)
  | .position i =>
    match w i with
    | some (some v) => (.number ((v.cursor + v.lag : Nat) : Int), w)
    | _ => (.nothing, w)
  | .atEnd i =>
    match w i with
    | some (some v) => (.flag (decide (v.cursor + v.lag = v.content.length)), w)
    | _ => (.nothing, w)

/-- What a program may do, as in `viewLegal`; a read may go as far as the end of the next page. -/
def glassLegal (w : Glasses) : ViewOp → Bool
  | .construct i _ _ => (w i).isNone
  | .copyConstruct i j | .moveConstruct i j => (w i).isNone && (w j).join.isSome
  | .copyAssign i j =>
    match w i, w j with
    | some none, some (some _) => true
    | some (some o), some (some v) => decide (o.cap ≤ v.cap)
    | _, _ => false
  | .moveAssign i j _ => decide (i ≠ j) && (w i).isSome && (w j).join.isSome
  | .destroy i => (w i).isSome
  | .read i n =>
    match w i with
    | some (some v) => decide (v.cursor + n ≤ v.pageTo + v.cap ∨ v.cap = 0)
    | _ => false
  | .seek i k =>
    match w i with
    | some (some v) => decide (k ≤ v.content.length)
    | _ => false
  | .position i | .atEnd i => (w i).join.isSome

def glassAll : Glasses → List ViewOp → Bool
  | _, [] => true
  | w, op :: ops => glassLegal w op && glassAll (glassStep w op).2 ops

def glassResults : Glasses → List ViewOp → List ResObs
  | _, [] => []
  | w, op :: ops => (glassStep w op).1 :: glassResults (glassStep w op).2 ops

end Spec

open Spec (glassStep glassLegal glassAll glassResults)

namespace Res

variable {δ : Type} {raw : Nat → ReadRequest → M δ ReadResult} {lim : Nat → Prop} {content : List Byte}
  {idle : Nat → δ → Prop} {loaded : Nat → Nat → δ → Prop}

/-- Loading a page at any position. -/
theorem paged_at (S : Source raw lim content idle loaded) {cap q : Nat} {r : Res δ}
    (hl : r.buf.data.length = cap) (hd : r.buf.readDirty = true)
    (hi : idle q r.dev) (hq : q ≤ content.length) (hcap : lim cap) (n : Nat) :
    ∃ r', readBuffered raw n r = readLoaded raw n r' ∧ Paged cap content loaded q q r' := by
  obtain ⟨d', hfill, hld⟩ := S.fill r.buf.data.length q r.dev (by rw [hl]; exact hcap) (.inl hi) hq
  have hGlen : ((content.drop q).take r.buf.data.length).length = min cap (content.length - q) := by
    simp [hl]
  have hG : (content.drop q).take r.buf.data.length =
      (content.drop q).take ((content.drop q).take r.buf.data.length).length := by
    rw [List.length_take, List.length_drop, ← List.length_drop, ← List.take_eq_take_min]
  rw [readBuffered_dirty hd hfill]
  generalize (content.drop q).take r.buf.data.length = G at *
  refine ⟨_, rfl, by rw [← hl]; exact filled_length _ _ _, hq, rfl,
    by simp only [filled]; omega, rfl, Nat.zero_le _, hld, ?_⟩
  simp only [filled]
  rw [List.take_of_length_le (show G.length ≤ r.buf.data.length by omega), List.take_left]
  exact hG

end Res

namespace Views

/-- The object of the library is such a reader. -/
def Is (v : Spec.Glass) (r : Res Ctr) : Prop :=
  match v.page with
  | some b => 0 < v.cap ∧ v.lag = 0 ∧ Res.Paged v.cap v.content (Ctr.Loaded 1 v.content) v.cursor b r
  | none => r.buf.data.length = v.cap ∧ v.cursor ≤ v.content.length ∧ r.dev.content = v.content ∧
      r.dev.elem = 1 ∧ r.dev.position = v.cursor ∧ r.buf.position = v.lag ∧
      (0 < v.cap → r.buf.readDirty = true ∧ r.dev.lastFill = 0 ∧ v.lag = 0)

theorem Is.length {v : Spec.Glass} {r : Res Ctr} (h : Is v r) : r.buf.data.length = v.cap := by
  unfold Is at h
  split at h
  · exact h.2.2.length
  · exact h.1

theorem Is.content {v : Spec.Glass} {r : Res Ctr} (h : Is v r) :
    r.dev.content = v.content ∧ r.dev.elem = 1 := by
  unfold Is at h
  split at h
  · exact ⟨h.2.2.loaded.content_eq, h.2.2.loaded.elem_eq⟩
  · exact ⟨h.2.2.1, h.2.2.2.1⟩

theorem Is.position {v : Spec.Glass} {r : Res Ctr} (h : Is v r) :
    Ctr.getPosition r = ((v.cursor + v.lag : Nat) : Int) := by
  unfold Is at h
  unfold Ctr.getPosition
  split at h
  · obtain ⟨-, h2, h3⟩ := h
    have h4 := h3.position
    have h5 := h3.loaded.position
    have h6 := h3.loaded.lastFill
    omega
  · obtain ⟨-, -, -, -, h5, h6, -⟩ := h
    omega

theorem Is.lost {v : Spec.Glass} {r : Res Ctr} (h : Is v r) : Is v.lost (emptied r) := by
  unfold Is at h
  cases hp : v.page with
  | some b =>
    rw [hp] at h
    obtain ⟨-, h2, h3⟩ := h
    have h4 := h3.position
    have h5 := h3.loaded.position
    have h6 := h3.loaded.lastFill
    have h7 := h3.inside
    refine ⟨rfl, ?_, h3.loaded.content_eq, h3.loaded.elem_eq, ?_, ?_, fun h => absurd h (Nat.lt_irrefl 0)⟩
    · simp only [Spec.Glass.lost, Spec.Glass.pageFrom, hp, Option.getD_some]
      omega
    · simp only [Spec.Glass.lost, Spec.Glass.pageFrom, hp, Option.getD_some, emptied]
      omega
    · simp only [Spec.Glass.lost, Spec.Glass.pageFrom, hp, Option.getD_some, emptied]
      omega
  | none =>
    rw [hp] at h
    obtain ⟨-, h2, h3, h4, h5, h6, -⟩ := h
    refine ⟨rfl, ?_, h3, h4, ?_, ?_, fun h => absurd h (Nat.lt_irrefl 0)⟩
    · simp only [Spec.Glass.lost, Spec.Glass.pageFrom, hp, Option.getD_none]
      exact h2
    · simp only [Spec.Glass.lost, Spec.Glass.pageFrom, hp, Option.getD_none, emptied]
      exact h5
    · simp only [Spec.Glass.lost, Spec.Glass.pageFrom, hp, Option.getD_none, emptied]
      omega

theorem Is.read {v : Spec.Glass} {r : Res Ctr} (h : Is v r) (n : Nat)
    (hn : v.cursor + n ≤ v.pageTo + v.cap ∨ v.cap = 0) :
    ∃ r', Res.read Ctr.readRaw n r = (.ok ⟨(v.content.drop v.cursor).take n,
        ((v.content.drop v.cursor).take n).length⟩, r') ∧ Is (v.after n) r' := by
  have hlen := h.length
  by_cases hcap : v.cap = 0
  · have hp : v.page = none := by
      unfold Is at h
      split at h
      · omega
      · assumption
    unfold Is at h
    rw [hp] at h
    obtain ⟨-, h2, h3, h4, h5, h6, -⟩ := h
    have e := Ctr.readRaw_lean r.dev n v.cursor h5 (by rw [h3]; exact h2)
    rw [h3] at e
    have e' : Res.read Ctr.readRaw n r = (.ok ⟨(v.content.drop v.cursor).take n,
        ((v.content.drop v.cursor).take n).length⟩, { r with dev := { r.dev with
          content := v.content
          position := ((v.cursor + ((v.content.drop v.cursor).take n).length : Nat) : Int) } }) := by
      rw [Res.read, M.bind_ok (M.get_apply r), if_neg (by rw [IoBuffer.capacity, hlen]; omega)]
      unfold Res.onDev
      rw [e]
    refine ⟨_, e', ?_⟩
    unfold Is
    simp only [Spec.Glass.after, hcap, if_true]
    refine ⟨by simpa [hcap] using hlen, by omega, trivial, h4, ?_, h6, fun h => absurd h (Nat.lt_irrefl 0)⟩
    simp only [List.length_take, List.length_drop]
    omega
  · have hpos : 0 < v.cap := by omega
    have hn' := hn.resolve_right hcap
    have S := Ctr.source 1 v.content
    obtain ⟨r1, e1, hP, hfrom⟩ : ∃ r1, Res.read Ctr.readRaw n r = Res.readLoaded Ctr.readRaw n r1 ∧
        Res.Paged v.cap v.content (Ctr.Loaded 1 v.content) v.cursor v.pageFrom r1 ∧ v.lag = 0 := by
      rw [Res.read_buffered _ _ _ (by omega)]
      unfold Is at h
      cases hp : v.page with
      | some b =>
        rw [hp] at h
        refine ⟨r, by rw [Res.readBuffered_clean _ _ _ h.2.2.clean], ?_, h.2.1⟩
        simp only [Spec.Glass.pageFrom, hp, Option.getD_some]
        exact h.2.2
      | none =>
        rw [hp] at h
        obtain ⟨h1, h2, h3, h4, h5, h6, h7⟩ := h
        obtain ⟨h7, h8, h9⟩ := h7 hpos
        obtain ⟨r1, e1, hP⟩ := Res.paged_at S h1 h7 (q := v.cursor) ⟨h3, h4, h8, h5⟩ h2 trivial n
        refine ⟨r1, e1, ?_, h9⟩
        simp only [Spec.Glass.pageFrom, hp, Option.getD_none]
        exact hP
    have hsize := hP.size
    have hin := hP.inside
    have hle := hP.le
    have hto : v.pageTo = v.pageFrom + r1.buf.size := by rw [hsize]; rfl
    rw [e1]
    by_cases hpage : v.cursor + n ≤ v.pageTo
    · obtain ⟨r2, e2, hP2⟩ := Res.readLoaded_page Ctr.readRaw hP (n := n) (by omega)
      refine ⟨r2, ?_, ?_⟩
      · rw [e2]
        congr 3
        simp
        omega
      · unfold Is
        simp only [Spec.Glass.after, if_neg hcap, if_pos hpage]
        refine ⟨hpos, hfrom, ?_⟩
        rw [Nat.min_eq_left (by omega)]
        exact hP2
    · obtain ⟨r2, e2, hP2⟩ := Res.readLoaded_next S hP trivial (n := n) (by omega) (by omega)
      refine ⟨r2, e2, ?_⟩
      unfold Is
      simp only [Spec.Glass.after, if_neg hcap, if_neg hpage]
      refine ⟨hpos, hfrom, ?_⟩
      rw [hto]
      exact hP2

/-- The objects of the library and of the specification. -/
def Match (w : Views) (v : Spec.Glasses) : Prop := ∀ i,
  match v i with
  | none => w i = none
  | some none => ∃ r, w i = some r ∧ r.buf.data = []
  | some (some a) => ∃ r, w i = some r ∧ Is a r

theorem Match.put {w : Views} {v : Spec.Glasses} (h : Match w v) (i : Nat) (r : Option (Res Ctr))
    (a : Option (Option Spec.Glass))
    (hr : match a with
      | none => r = none
      | some none => ∃ x, r = some x ∧ x.buf.data = []
      | some (some a) => ∃ x, r = some x ∧ Is a x) :
    Match (w.put i r) (v.put i a) := by
  intro k
  by_cases hk : k = i
  · simp only [Views.put, Spec.Glasses.put, if_pos hk]
    exact hr
  · simp only [Views.put, Spec.Glasses.put, if_neg hk]
    exact h k

theorem Match.value {w : Views} {v : Spec.Glasses} (h : Match w v) {i : Nat} {a : Spec.Glass}
    (hi : v i = some (some a)) : ∃ r, w i = some r ∧ Is a r := by
  have := h i
  rw [hi] at this
  exact this

theorem Match.absent {w : Views} {v : Spec.Glasses} (h : Match w v) {i : Nat} (hi : v i = none) :
    w i = none := by
  have := h i
  rw [hi] at this
  exact this

theorem Match.present {w : Views} {v : Spec.Glasses} (h : Match w v) {i : Nat} (hi : (v i).isSome) :
    ∃ r, w i = some r := by
  have := h i
  cases hv : v i with
  | none => rw [hv] at hi; cases hi
  | some o =>
    rw [hv] at this
    cases o with
    | none => obtain ⟨r, hr, -⟩ := this; exact ⟨r, hr⟩
    | some a => obtain ⟨r, hr, -⟩ := this; exact ⟨r, hr⟩

theorem isSome_join' {α : Type} {o : Option (Option α)} (h : o.join.isSome = true) :
    ∃ a, o = some (some a) := by
  cases o with
  | none => cases h
  | some x =>
    cases x with
    | none => cases h
    | some a => exact ⟨a, rfl⟩

theorem match_step {w : Views} {v : Spec.Glasses} (h : Match w v) (op : ViewOp)
    (hl : glassLegal v op = true) :
    ∃ w', step op w = (.ok (glassStep v op).1, w') ∧ Match w' (glassStep v op).2 := by
  cases op with
  | construct i cap content =>
    have hi := h.absent (Option.isNone_iff_eq_none.mp hl)
    refine ⟨_, by simp only [step, hi]; rfl, h.put i _ _ ⟨_, rfl, ?_⟩⟩
    exact ⟨by simp [IoBuffer.make], Nat.zero_le _, rfl, rfl, rfl, rfl, fun _ => ⟨rfl, rfl, rfl⟩⟩
  | copyConstruct i j =>
    simp only [glassLegal, Bool.and_eq_true] at hl
    have hi := h.absent (Option.isNone_iff_eq_none.mp hl.1)
    obtain ⟨a, ha⟩ := isSome_join' hl.2
    obtain ⟨r, hr, h1⟩ := h.value ha
    refine ⟨_, by simp only [step, hi, hr]; rfl, ?_⟩
    simp only [glassStep, ha]
    exact h.put i _ _ ⟨r, rfl, h1⟩
  | copyAssign i j =>
    have key : ∃ a o r, v j = some (some a) ∧ w i = some o ∧ w j = some r ∧ Is a r ∧
        ¬ o.buf.capacity > r.buf.capacity := by
      simp only [glassLegal] at hl
      split at hl
      · rename_i a h1 h2
        obtain ⟨r, hr, h3⟩ := h.value h2
        have := h i
        rw [h1] at this
        obtain ⟨o, ho, he⟩ := this
        refine ⟨a, o, r, h2, ho, hr, h3, ?_⟩
        rw [IoBuffer.capacity, he]
        simp
      · rename_i b a h1 h2
        obtain ⟨r, hr, h3⟩ := h.value h2
        obtain ⟨o, ho, h4⟩ := h.value h1
        refine ⟨a, o, r, h2, ho, hr, h3, ?_⟩
        rw [IoBuffer.capacity, IoBuffer.capacity, h3.length, h4.length]
        have := of_decide_eq_true hl
        omega
      · cases hl
    obtain ⟨a, o, r, ha, ho, hr, h1, hcap⟩ := key
    refine ⟨_, by simp only [step, ho, hr, if_neg hcap]; rfl, ?_⟩
    simp only [glassStep, ha]
    exact h.put i _ _ ⟨r, rfl, h1⟩
  | moveConstruct i j =>
    simp only [glassLegal, Bool.and_eq_true] at hl
    have hi := h.absent (Option.isNone_iff_eq_none.mp hl.1)
    obtain ⟨a, ha⟩ := isSome_join' hl.2
    obtain ⟨r, hr, h1⟩ := h.value ha
    refine ⟨_, by simp only [step, hi, hr]; rfl, ?_⟩
    simp only [glassStep, ha]
    exact (h.put j _ _ (by exact ⟨_, rfl, rfl⟩)).put i _ _ ⟨r, rfl, h1⟩
  | moveAssign i j again =>
    simp only [glassLegal, Bool.and_eq_true] at hl
    obtain ⟨o, ho⟩ := h.present hl.1.2
    obtain ⟨a, ha⟩ := isSome_join' hl.2
    obtain ⟨r, hr, h1⟩ := h.value ha
    refine ⟨_, by simp only [step, ho, hr]; rfl, ?_⟩
    simp only [glassStep, ha, Option.map_some]
    refine (h.put j _ _ (by exact ⟨_, rfl, rfl⟩)).put i _ _ ?_
    cases again with
    | false => exact ⟨r, rfl, h1⟩
    | true => exact ⟨emptied r, rfl, h1.lost⟩
  | destroy i =>
    obtain ⟨o, ho⟩ := h.present hl
    exact ⟨_, by simp only [step, ho]; rfl, h.put i none none rfl⟩
  | read i n =>
    simp only [glassLegal] at hl
    split at hl
    · rename_i a ha
      obtain ⟨r, hr, h1⟩ := h.value ha
      obtain ⟨r', e1, h3⟩ := h1.read n (of_decide_eq_true hl)
      refine ⟨w.put i (some r'), ?_, ?_⟩
      · simp only [step, use, hr, glassStep, ha]
        rw [M.bind_ok e1]
        rfl
      · simp only [glassStep, ha]
        exact h.put i _ _ ⟨r', rfl, h3⟩
    · cases hl
  | seek i k =>
    simp only [glassLegal] at hl
    split at hl
    · rename_i a ha
      have hk := of_decide_eq_true hl
      obtain ⟨r, hr, h1⟩ := h.value ha
      obtain ⟨c1, c2⟩ := h1.content
      refine ⟨w.put i (some ⟨r.buf.setReadDirty true, (Ctr.seek k .begin r.dev).2⟩), ?_, ?_⟩
      · simp only [step, use, hr, glassStep, ha]
        rw [M.bind_ok (Ctr.setPositionIn_eq r k .begin)]
        rfl
      · simp only [glassStep, ha]
        refine h.put i _ _ ⟨_, rfl, h1.length, hk, c1, c2, ?_, rfl, fun _ => ⟨rfl, rfl, rfl⟩⟩
        simp [Ctr.seek, c2]
    · cases hl
  | position i =>
    obtain ⟨a, ha⟩ := isSome_join' hl
    obtain ⟨r, hr, h1⟩ := h.value ha
    refine ⟨w.put i (some r), ?_, ?_⟩
    · simp only [step, use, hr, glassStep, ha]
      rw [M.bind_ok (M.get_apply r), h1.position]
      rfl
    · simp only [glassStep, ha]
      rw [put_same hr]
      exact h
  | atEnd i =>
    obtain ⟨a, ha⟩ := isSome_join' hl
    obtain ⟨r, hr, h1⟩ := h.value ha
    have he : Ctr.isAtEnd r = decide (a.cursor + a.lag = a.content.length) := by
      obtain ⟨c1, c2⟩ := h1.content
      rw [Ctr.isAtEnd, h1.position, Ctr.count, c1, c2, Bool.eq_iff_iff, beq_iff_eq, decide_eq_true_iff,
        Nat.div_one, Nat.mul_one]
      exact Int.natCast_inj
    refine ⟨w.put i (some r), ?_, ?_⟩
    · simp only [step, use, hr, glassStep, ha]
      rw [M.bind_ok (M.get_apply r), he]
      rfl
    · simp only [glassStep, ha]
      rw [put_same hr]
      exact h

end Views

/-- C111 in full, for every history, whatever is in the buffers that are lost: an assignment that loses
the buffer makes the object read on at the start of the page that was in it, while it reports a
position, and takes itself to be at the end, as if it were where the original was.  Nothing else goes
wrong: in all other histories the readers are those of `viewStep`, `C111_partial`. -/
theorem C111_exact (ops : List ViewOp) (hl : glassAll (fun _ => none) ops = true) :
    (M.runList Views.step ops (fun _ => none)).1 = .ok (glassResults (fun _ => none) ops) := by
  suffices ∀ (w : Views) (v : Spec.Glasses), Views.Match w v → glassAll v ops = true →
      ∃ w', M.runList Views.step ops w = (.ok (glassResults v ops), w') by
    obtain ⟨w', e⟩ := this (fun _ => none) (fun _ => none) (fun _ => rfl) hl
    rw [e]
  clear hl
  induction ops with
  | nil => intro w v _ _; exact ⟨w, rfl⟩
  | cons op ops ih =>
    intro w v h hl
    simp only [glassAll, Bool.and_eq_true] at hl
    obtain ⟨w1, e1, h1⟩ := Views.match_step h op hl.1
    obtain ⟨w2, e2⟩ := ih w1 _ h1 hl.2
    exact ⟨w2, M.runList_cons e1 e2⟩

/-- The case is real: all bytes are read, the last two from the second page, and the buffer is lost.
These two come again, although the object says that it is at the end; afterwards it does not. -/
example :
    let ops : List ViewOp := [.construct 0 4 [1, 2, 3, 4, 5, 6], .construct 1 4 [], .read 0 6, .read 0 0,
      .moveAssign 1 0 true, .position 1, .atEnd 1, .read 1 2, .position 1, .atEnd 1, .seek 1 5, .position 1,
      .read 1 7, .atEnd 1]
    glassAll (fun _ => none) ops = true ∧ glassResults (fun _ => none) ops =
      [.nothing, .nothing, .bytes [1, 2, 3, 4, 5, 6], .bytes [], .nothing, .number 6, .flag true,
        .bytes [5, 6], .number 8, .flag false, .nothing, .number 5, .bytes [6], .flag true] := by
  decide +kernel

end Cmp
