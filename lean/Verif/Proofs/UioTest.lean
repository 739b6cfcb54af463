import Verif.Model.UioTest
import Verif.Spec.UioTest
import Verif.Props.StdioExample
import Verif.Props.TextReal

/-
The manual test of the standard streams.
-/

namespace Cmp

open InStream OutStream
open _root_.Spec (Item Ending Itemised passReturns gather skipChars takes8 firstWord firstLine codes)

theorem readLineTo_same {ρ : Type} {R : Reader ρ} {t0 t1 : ρ}
    (h : ∀ n, R.read n t0 = R.read n t1) (h0 : R.isAtEnd t0 = .ok false)
    (h1 : R.isAtEnd t1 = .ok false) (native o : Endian) (f : EncodingForm) (e : Enc) (fuel : Nat)
    (s : Str e) :
    readLineTo native R e (fuel + 1) (⟨t0, o, f⟩, s) = readLineTo native R e (fuel + 1) (⟨t1, o, f⟩, s) := by
  have hf : readFiltered native R ⟨t0, o, f⟩ = readFiltered native R ⟨t1, o, f⟩ := by
    rw [readFiltered, M.bind_apply, M.bind_apply, readCodePoint_same h]
  have hs : ∀ s : Str e, appendLineTo native R e (fuel + 1) (⟨t0, o, f⟩, s) =
      appendLineTo native R e (fuel + 1) (⟨t1, o, f⟩, s) := by
    intro s
    have e0 : (onStream (isAtEnd R) : M (InStream ρ × Str e) Bool) (⟨t0, o, f⟩, s) =
        (.ok false, (⟨t0, o, f⟩, s)) := by simp [onStream, isAtEnd, h0]
    have e1 : (onStream (isAtEnd R) : M (InStream ρ × Str e) Bool) (⟨t1, o, f⟩, s) =
        (.ok false, (⟨t1, o, f⟩, s)) := by simp [onStream, isAtEnd, h1]
    rw [appendLineTo, M.bind_ok e0, M.bind_ok e1]
    simp only [Bool.false_eq_true, if_false]
    rw [M.bind_apply, M.bind_apply, onStream, onStream, hf]
  have e0 : ∀ t, (onTarget (M.set []) : M (InStream ρ × Str e) Unit) (⟨t, o, f⟩, s) =
      (.ok (), (⟨t, o, f⟩, [])) := fun _ => rfl
  rw [readLineTo, M.bind_ok (e0 t0), M.bind_ok (e0 t1), hs]

theorem gather_rest_length {α : Type} (tells : Bool) (stop : Nat → Bool) (add : Nat → Option (List α))
    (is : List Item) : (gather tells stop add is).2.2.length ≤ is.length := by
  induction is with
  | nil => simp [gather]
  | cons i is ih =>
    cases i with
    | bad => simp [gather]
    | cut => simp [gather]
    | char v =>
      simp only [gather]
      cases stop v with
      | true => simp
      | false =>
        cases add v with
        | none => simp
        | some us => simpa using Nat.le_succ_of_le ih

theorem firstWord_length (is : List Item) : (firstWord is).2.2.length ≤ is.length :=
  Nat.le_trans (gather_rest_length _ _ _ _) (List.dropWhile_sublist _).length_le

theorem firstLine_length (is : List Item) : (firstLine is).2.2.length ≤ is.length :=
  gather_rest_length _ _ _ _

/-- The two streams in the middle of a dialogue: `w` was written, `is` is left to be read, and
whenever input was asked for what had arrived satisfies `P`. -/
structure Ready (p : StdPlatform) (native : Endian) (capIn capOut : Nat) (P : List Byte → Prop)
    (w : List Byte) (is : List Item) (c : Console) : Prop where
  inEndian : c.inEndian = native
  inForm : c.inForm = p.inForm
  outEndian : c.outEndian = native
  outForm : c.outForm = .utf8
  talk : ∃ total bs js, Talking p capIn capOut total w bs c.res ∧
    Itemised p.inForm.form native.order (nats bs) js ∧ passReturns false js = is
  asked : AskedWhen (fun l => P (Sys.output l)) [] c.res.world.log

namespace Ready

variable {p : StdPlatform} {native : Endian} {capIn capOut : Nat} {P : List Byte → Prop} {w : List Byte}
  {is : List Item} {c : Console}

/-- At the start of a program. -/
theorem make (p : StdPlatform) (native : Endian) (capIn capOut : Nat) (P : List Byte → Prop)
    (supply : List Byte) (reads : List (Option Nat)) (hreads : ∀ e ∈ reads, ∃ k, e = some (k + 1))
    (hu : p = .windows → 2 ∣ supply.length) (js : List Item)
    (hj : Itemised p.inForm.form native.order (nats supply) js) :
    Ready p native capIn capOut P [] (passReturns false js)
      (Console.make p native capIn capOut ⟨supply, reads, [], []⟩) := by
  have hu' : p.unit ∣ supply.length := by
    cases p with
    | unix => exact Nat.one_dvd _
    | windows => exact hu rfl
  refine ⟨rfl, rfl, rfl, rfl, ⟨_, _, js, talking_make p native capIn capOut supply reads hreads hu', hj,
    rfl⟩, ?_⟩
  intro pre n g post e
  have e : ([] : List StdEvent) = _ := e
  simp at e

/-- Writing one argument. -/
theorem print (h : Ready p native capIn capOut P w is c) (i : Printed) (t : List Nat) (hm : i.Means t)
    (hs : i.Supported native native .utf8 t) :
    ∃ c', Console.uout (i.write native p.stdout) c = (.ok (), c') ∧
      Ready p native capIn capOut P (w ++ shownText t) is c' := by
  obtain ⟨total, bs, js, ht, hj, hi⟩ := h.talk
  obtain ⟨r', e, q, new, hlog, hnew⟩ := uout_print p native capIn capOut total bs w c.res.world.log c
    ⟨h.outEndian, h.outForm⟩ i t hm hs ht.start
  refine ⟨_, e, h.inEndian, h.inForm, h.outEndian, h.outForm, ⟨total, bs, js, q, hj, hi⟩, ?_⟩
  show AskedWhen _ _ r'.world.log
  rw [hlog]
  exact h.asked.append (AskedWhen.wrote hnew)

/-- Flushing. -/
theorem flush (h : Ready p native capIn capOut P w is c) :
    ∃ c', Console.uout (OutStream.flush p.stdout) c = (.ok (), c') ∧
      Ready p native capIn capOut P w is c' ∧ Sys.output c'.res.world.log = w := by
  obtain ⟨total, bs, js, ht, hj, hi⟩ := h.talk
  obtain ⟨r, hr, ho, ⟨ws, hws, hwrote⟩, e, -⟩ := ht.flushed
  refine ⟨{ c with res := r }, ?_, ⟨h.inEndian, h.inForm, h.outEndian, h.outForm,
    ⟨total, bs, js, hr, hj, hi⟩, ?_⟩, ho⟩
  · simp only [Console.uout, OutStream.flush, OutStream.onRes]
    rw [e]
  · show AskedWhen _ _ r.world.log
    rw [hws]
    exact h.asked.append (AskedWhen.wrote hwrote)

/-- Reading into a local string. -/
theorem hear (h : Ready p native capIn capOut P w is c) (hP : P w) (fuel : Nat)
    (rd : M (InStream (Tied Sys) × Str .char8) Unit) (stop : Nat → Bool)
    (front : List Item → List Item) (hfront : ∀ is i, i ∈ front is → i ∈ is)
    (hsame : ∀ t0 t1, (∀ n, p.stdin.read n t0 = p.stdin.read n t1) →
      rd (⟨t0, native, p.inForm⟩, []) = rd (⟨t1, native, p.inForm⟩, []))
    (hrd : ∀ left : List Byte → Tied Sys → Prop, p.stdin.Delivers (· = p.unit) false left → ∀ s is,
      HasItems (· = p.unit) false left s is → is.length < fuel →
      ∃ r', rd (s, []) = (ending (gather false stop (grown .char8) (front is)).2.1,
          ({ s with res := r' }, (gather false stop (grown .char8) (front is)).1)) ∧
        HasItems (· = p.unit) false left { s with res := r' }
          (gather false stop (grown .char8) (front is)).2.2)
    (hf : is.length < fuel) :
    let g := gather false stop takes8 (front is)
    ∃ c', Console.uin (fun s => passBack (rd (s, []))) c =
        (ending g.2.1 >>= fun _ => .ok (encs .char8 g.1), c') ∧
      Ready p native capIn capOut P w g.2.2 c' := by
  intro g
  obtain ⟨total, bs, js, ht, hj, hi⟩ := h.talk
  obtain ⟨res, ie, jf, oe, of⟩ := c
  obtain ⟨h1, h2, h3, h4, -, hasked⟩ := h
  simp only at h1 h2 h3 h4 ht hasked
  subst h1 h2
  obtain ⟨t', ht', ho, ⟨ws, hws, hwrote⟩, -, hs⟩ := ht.flushed
  have hmem := passReturns_mem false js
  have hshown : Talking.Shown p capIn capOut total w t'.world.log bs t' :=
    ⟨ht', ho, [], by simp, by intro pre n g post e; simp at e⟩
  obtain ⟨r', e1, q⟩ := hrd _ (Talking.delivers_shown p capIn capOut total w t'.world.log)
    ⟨t', ie, p.inForm⟩ is ⟨p.unit_form, bs, js, hshown, hj, hi⟩ hf
  rw [← hsame res t' hs] at e1
  have hg : gather false stop (grown .char8) (front is) = (encs .char8 g.1, g.2) := by
    refine gather_units stop (front is) fun v hv => itemised_all_lt hj bs rfl v (hmem.2 v ?_)
    rw [hi]
    exact hfront is _ hv
  rw [hg] at e1 q
  obtain ⟨-, rest, js', hl, hj', hi'⟩ := q
  obtain ⟨hl, -, new, hlog, hnew⟩ := hl
  refine ⟨⟨r', ie, p.inForm, oe, of⟩, ?_, rfl, rfl, h3, h4, ⟨total, rest, js', hl, hj', hi'⟩, ?_⟩
  · simp only [Console.uin]
    rw [e1]
    cases g.2.1 <;> rfl
  · show AskedWhen _ _ r'.world.log
    have hlog : r'.world.log = t'.world.log ++ new := hlog
    rw [hlog, hws, List.append_assoc]
    refine hasked.append ((AskedWhen.wrote hwrote).append ?_)
    rw [List.nil_append, ← hws]
    exact hnew.mono fun l hl => by rw [hl]; exact hP

/-- Reading a word. -/
theorem hearWord (h : Ready p native capIn capOut P w is c) (hP : P w) (fuel : Nat)
    (hf : is.length < fuel) :
    ∃ c', Console.uin (readLocalWord native p.stdin fuel) c =
        (ending (firstWord is).2.1 >>= fun _ => .ok (encs .char8 (firstWord is).1), c') ∧
      Ready p native capIn capOut P w (firstWord is).2.2 c' := by
  obtain ⟨fuel, rfl⟩ : ∃ k, fuel = k + 1 := ⟨fuel - 1, by omega⟩
  have := h.hear hP (fuel + 1) (readWordTo native p.stdin .char8 (fuel + 1)) Spec.space
    (skipChars Spec.space) (fun _ _ hi => skipChars_mem hi)
    (fun t0 t1 ht => readWordTo_same ht rfl rfl native native p.inForm .char8 fuel [])
    (fun left D s is hs hl => C116_word D native .char8 (fuel + 1) s is hs hl []) hf
  have e : (fun s => passBack (readWordTo native p.stdin .char8 (fuel + 1) (s, []))) =
      readLocalWord native p.stdin (fuel + 1) :=
    funext fun s => (readLocalWord_eq native p.stdin (fuel + 1) s).symm
  rw [e] at this
  exact this

/-- Reading a line. -/
theorem hearLine (h : Ready p native capIn capOut P w is c) (hP : P w) (fuel : Nat)
    (hf : is.length < fuel) :
    ∃ c', Console.uin (UioTest.readLocalLine native p.stdin fuel) c =
        (ending (firstLine is).2.1 >>= fun _ => .ok (encs .char8 (firstLine is).1), c') ∧
      Ready p native capIn capOut P w (firstLine is).2.2 c' := by
  obtain ⟨fuel, rfl⟩ : ∃ k, fuel = k + 1 := ⟨fuel - 1, by omega⟩
  have := h.hear hP (fuel + 1) (readLineTo native p.stdin .char8 (fuel + 1)) (fun v => decide (v = 10))
    (fun is => is) (fun _ _ hi => hi)
    (fun t0 t1 ht => readLineTo_same ht rfl rfl native native p.inForm .char8 fuel [])
    (fun left D s is hs hl => (C116_line D native .char8 (fuel + 1) s is hs hl []).2) hf
  have e : (fun s => passBack (readLineTo native p.stdin .char8 (fuel + 1) (s, []))) =
      UioTest.readLocalLine native p.stdin (fuel + 1) := by
    funext s
    unfold UioTest.readLocalLine passBack
    rcases readLineTo native p.stdin .char8 (fuel + 1) (s, []) with ⟨o, s'⟩
    cases o <;> rfl
  rw [e] at this
  exact this

end Ready

/-- The number 5.5 is written as `5.5`, on a machine that is exact on small numbers. -/
theorem format_5_5 (rnd : ℚ → ℚ) (h1 : rnd (1 / 2) = 1 / 2) (h2 : rnd 5 = 5) (h0 : rnd 0 = 0) (n : Nat) :
    formatFloat .char8 rnd (n + 2) (11 / 2) FloatFormat.default = .ok [0x35#8, 0x2E#8, 0x35#8] := by
  have hfl : ⌊(11 / 2 : ℚ)⌋ = 5 := by norm_num
  have hloop : formatFractionLoop .char8 rnd FloatFormat.default (n + 2) (1 / 2) 0 0 [] =
      .ok ([0x35#8], 0) := by
    have er : ((FloatFormat.default.radix : Nat) : ℚ) = 10 := by norm_num [FloatFormat.default]
    have e1 : (1 / 2 * 10 : ℚ) = 5 := by norm_num
    have e2 : ⌊(5 : ℚ)⌋ = 5 := by norm_num
    have e4 : (5 - ((5 : Int) : ℚ) : ℚ) = 0 := by norm_num
    rw [formatFractionLoop, if_neg (by norm_num)]
    simp only [er, e1, h2, e2, e4, h0]
    rw [if_neg (by decide)]
    rw [show appendCP .char8 [] (formatDigit 5) = .ok [0x35#8] by decide]
    simp only [Outcome.ok_bind]
    simp [FloatFormat.default, formatFractionLoop]
  have habs : (if (11 / 2 : ℚ) < 0 then -(11 / 2 : ℚ) else 11 / 2) = 11 / 2 := by norm_num
  have := formatFloat_run (e := .char8) (rnd := rnd) (fuel := n + 2) (x := 11 / 2) (fr := 1 / 2)
    (f := FloatFormat.default) (eq := ⟨10, .onlyWhenNegative, .none⟩) (v := 5)
    (o := [0x35#8]) (fs := [0x35#8]) (o' := [0x35#8, 0x2E#8]) (pl := 0) (by decide)
    (by rw [floorToLongLong, hfl, if_pos (by decide)])
    (by decide) (by rw [habs, hfl, show (11 / 2 - ((5 : Int) : ℚ) : ℚ) = 1 / 2 by norm_num, h1]) (by norm_num)
    hloop (by decide) (by decide)
  exact this

end Cmp
