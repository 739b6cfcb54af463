import Verif.Model.MemoryValues
import Verif.Props.MemoryTarget
import Verif.Props.Target

/-
Property C148: truth values and numbers that are read while memory runs out.
-/

namespace Cmp

open InStream
open _root_.Spec (Item Ending Itemised gather skipChars)

/-- C148 fails: after an operator was refused memory within a number, the next one returns a number that is
not in the text.  The text is `12345 6`, a string has room for 3 units of its own, and no memory can be had:
the second operator returns 5. -/
theorem C148_violated :
    ¬ ∀ (H : Heap) (x : Exn) (small : Nat) (content : List Byte) (fuel : Nat),
      let start : InStream (Res Ctr) := ⟨freshCtr 4 1 content, .little, .utf8⟩
      let first := readIntegerTo .little Ctr.reader .int fuel (start, 0)
      let second := readIntegerTo .little Ctr.reader .int fuel (first.2.1, 0)
      let refused := readIntegerMem H x small 0 .little Ctr.reader .int fuel (start, 0)
      let next := readIntegerMem H x small 1 .little Ctr.reader .int fuel (refused.2.1, 0)
      first.1 = .ok () → second.1 = .ok () → refused.1 = .throw x → next.1 = .ok () →
      next.2.2 = first.2.2 ∨ next.2.2 = second.2.2 := by
  intro h
  have := h ⟨fun _ => false, id, 1000⟩ .outOfRange 3 [0x31, 0x32, 0x33, 0x34, 0x35, 0x20, 0x36] 10
    (by decide +kernel) (by decide +kernel) (by decide +kernel) (by decide +kernel)
  revert this
  decide +kernel

section Limited

variable {ρ : Type} {R : Reader ρ} {sizes : Nat → Prop} {tells : Bool} {left : List Byte → ρ → Prop}

/-- How a read of a value ends: the word `g` is converted and assigned, and the stream goes on behind it. -/
def Converted {α : Type} (sizes : Nat → Prop) (tells : Bool) (left : List Byte → ρ → Prop)
    (is : List Item) (parse : Str .char8 → Outcome α) (s : InStream ρ) (old : α)
    (result : Outcome Unit × InStream ρ × α) : Prop :=
  let space := fun v => decide (Spec.IsWhiteSpace v)
  let g := gather tells space (grown .char8) (skipChars space is)
  let o := assigned (ending g.2.1 >>= fun _ => parse g.1) old
  ∃ r', result = (o.1, ({ s with res := r' }, o.2)) ∧
    HasItems sizes tells left { s with res := r' } g.2.2

/-- Or: memory is refused at a character `v` of the word, behind the characters `cs`, which are more than a
string holds of its own; the variable keeps its value, and the stream goes on behind that character, inside or
behind the word. -/
def Interrupted {α : Type} (sizes : Nat → Prop) (tells : Bool) (left : List Byte → ρ → Prop) (small : Nat)
    (x : Exn) (is : List Item) (s : InStream ρ) (old : α) (result : Outcome Unit × InStream ρ × α) : Prop :=
  ∃ r' cs v us rest, result = (.throw x, ({ s with res := r' }, old)) ∧
    skipChars (fun v => decide (Spec.IsWhiteSpace v)) is = cs.map Item.char ++ .char v :: rest ∧
    (∀ c ∈ cs ++ [v], ¬ Spec.IsWhiteSpace c) ∧ (∀ c ∈ cs, grown .char8 c ≠ none) ∧
    grown .char8 v = some us ∧
    small < (added .char8 cs).length + us.length ∧
    HasItems sizes tells left { s with res := r' } rest

theorem readValueMem_cases {α : Type} (D : R.Delivers sizes tells left) (H : Heap) (x : Exn)
    (small asked : Nat) (native : Endian) (fuel : Nat) (s : InStream ρ) (is : List Item)
    (h : HasItems sizes tells left s is) (hf : is.length < fuel) (parse : Str .char8 → Outcome α) (old : α) :
    let result := (do
        let input ← onStream (readLocalWordMem H x small asked native R fuel)
        let v ← M.lift (parse input)
        onTarget (M.set v) : M (InStream ρ × α) Unit) (s, old)
    Converted sizes tells left is parse s old result ∨ Interrupted sizes tells left small x is s old result := by
  intro result
  obtain ⟨-, -, -, -, hw⟩ := C146_exact D H x native .char8 fuel s is h hf ⟨[], small, asked⟩
  rcases hw with ⟨r', m', e1, h1, q⟩ | ⟨r', m', rest, cs, v, us, k, e1, h1, q⟩
  · left
    refine ⟨r', ?_, q⟩
    generalize gather tells (fun v => decide (Spec.IsWhiteSpace v)) (grown .char8)
      (skipChars (fun v => decide (Spec.IsWhiteSpace v)) is) = g at e1 h1 ⊢
    have h1 : m'.units = g.1 := h1
    cases hg : g.2.1 with
    | finished =>
      have e2 : (onStream (readLocalWordMem H x small asked native R fuel) : M (InStream ρ × α) _) (s, old) =
          (.ok g.1, (({ s with res := r' } : InStream ρ), old)) := by
        rw [onStream_apply, readLocalWordMem, e1, hg, ← h1]; rfl
      simp only [result]
      rw [M.bind_ok e2, M.bind_apply, M.lift_apply]
      change _ = ((assigned (parse g.1) old).1, _, (assigned (parse g.1) old).2)
      cases parse g.1 <;> rfl
    | _ =>
      simp only [result]
      rw [M.bind_apply, onStream_apply, readLocalWordMem, e1, hg]
      rfl
  · right
    refine ⟨r', cs, v, us, rest, ?_, h1.items, ?_, fun c hc => (h1.taken c hc).2, h1.units, ?_, q⟩
    · simp only [result]
      rw [M.bind_apply, onStream_apply, readLocalWordMem, e1]
    · intro c hc
      rcases List.mem_append.mp hc with hc | hc
      · simpa using (h1.taken c hc).1
      · rw [List.mem_singleton.mp hc]
        simpa using h1.going
    · simpa using h1.full

/-- C148 in general, on every source, for all bytes in it and all schedules of refusals. -/
theorem C148_exact (D : R.Delivers sizes tells left) (H : Heap) (x : Exn) (small asked : Nat)
    (native : Endian) (fuel : Nat) (s : InStream ρ) (is : List Item) (h : HasItems sizes tells left s is)
    (hf : is.length < fuel) (T : IntTy) (rnd : ℚ → ℚ) (b : Bool) (n : Int) (y : ℚ) :
    (Converted sizes tells left is (fun w => parseBool .char8 w BoolFormat.default) s b
        (readBoolMem H x small asked native R fuel (s, b)) ∨
      Interrupted sizes tells left small x is s b (readBoolMem H x small asked native R fuel (s, b))) ∧
    (Converted sizes tells left is (fun w => parseInteger .char8 T w IntegerFormat.default) s n
        (readIntegerMem H x small asked native R T fuel (s, n)) ∨
      Interrupted sizes tells left small x is s n (readIntegerMem H x small asked native R T fuel (s, n))) ∧
    (Converted sizes tells left is (fun w => parseFloat .char8 rnd w FloatFormat.default) s y
        (readFloatMem H x small asked native R rnd fuel (s, y)) ∨
      Interrupted sizes tells left small x is s y (readFloatMem H x small asked native R rnd fuel (s, y))) :=
  ⟨readValueMem_cases D H x small asked native fuel s is h hf
      (fun w => parseBool .char8 w BoolFormat.default) b,
    readValueMem_cases D H x small asked native fuel s is h hf
      (fun w => parseInteger .char8 T w IntegerFormat.default) n,
    readValueMem_cases D H x small asked native fuel s is h hf
      (fun w => parseFloat .char8 rnd w FloatFormat.default) y⟩

/-- A word that a string holds of its own is not refused. -/
theorem not_interrupted {α : Type} {small : Nat} {x : Exn} {is : List Item} {s : InStream ρ} {old : α}
    {result : Outcome Unit × InStream ρ × α}
    (hr : (gather tells (fun v => decide (Spec.IsWhiteSpace v)) (grown .char8)
      (skipChars (fun v => decide (Spec.IsWhiteSpace v)) is)).1.length ≤ small)
    (h : Interrupted sizes tells left small x is s old result) : False := by
  obtain ⟨r', cs, v, us, rest, -, hi, hc, hg, hu, hs, -⟩ := h
  have key : ∀ cs : List Nat, (∀ c ∈ cs ++ [v], ¬ Spec.IsWhiteSpace c) →
      ∀ its, its = cs.map Item.char ++ .char v :: rest → (∀ c ∈ cs, grown .char8 c ≠ none) →
      (added .char8 cs).length + us.length ≤
        (gather tells (fun v => decide (Spec.IsWhiteSpace v)) (grown .char8) its).1.length := by
    intro cs
    induction cs with
    | nil =>
      rintro hc its rfl -
      have := hc v (by simp)
      rw [List.map_nil, List.nil_append, gather, hu]
      simp [added, this]
    | cons c cs ih =>
      rintro hc its rfl hg
      have h1 := hc c (by simp)
      obtain ⟨ws, hws⟩ := Option.ne_none_iff_exists'.mp (hg c (by simp))
      have := ih (fun d hd => hc d (by simp at hd ⊢; tauto)) _ rfl (fun d hd => hg d (by simp [hd]))
      rw [List.map_cons, List.cons_append, gather, hws]
      have ha : added .char8 (c :: cs) = ws ++ added .char8 cs := by simp [added, hws]
      rw [ha]
      simp [h1]
      omega
  have := key cs hc _ hi hg
  omega

/-- C148, part: values whose words are not longer than what a string holds without asking for memory are read
as in unlimited memory, whatever requests are refused: what is assigned or thrown, and where the stream goes on,
is as in `C116_values`.
What is missing: longer words; what happens to them is in `C148_exact`. -/
theorem C148_partial (D : R.Delivers sizes tells left) (H : Heap) (x : Exn) (small asked : Nat)
    (native : Endian) (fuel : Nat) (s : InStream ρ) (is : List Item) (h : HasItems sizes tells left s is)
    (hf : is.length < fuel)
    (hr : (gather tells (fun v => decide (Spec.IsWhiteSpace v)) (grown .char8)
      (skipChars (fun v => decide (Spec.IsWhiteSpace v)) is)).1.length ≤ small)
    (T : IntTy) (rnd : ℚ → ℚ) (b : Bool) (n : Int) (y : ℚ) :
    Converted sizes tells left is (fun w => parseBool .char8 w BoolFormat.default) s b
      (readBoolMem H x small asked native R fuel (s, b)) ∧
    Converted sizes tells left is (fun w => parseInteger .char8 T w IntegerFormat.default) s n
      (readIntegerMem H x small asked native R T fuel (s, n)) ∧
    Converted sizes tells left is (fun w => parseFloat .char8 rnd w FloatFormat.default) s y
      (readFloatMem H x small asked native R rnd fuel (s, y)) := by
  obtain ⟨h1, h2, h3⟩ := C148_exact D H x small asked native fuel s is h hf T rnd b n y
  exact ⟨h1.resolve_right fun h => not_interrupted hr h, h2.resolve_right fun h => not_interrupted hr h,
    h3.resolve_right fun h => not_interrupted hr h⟩

end Limited

/-- Whatever the source and the memory do: the variable keeps its value unless the operator returns
normally. -/
theorem C148_kept {ρ : Type} (H : Heap) (x : Exn) (small asked : Nat) (native : Endian) (R : Reader ρ)
    (fuel : Nat) (s : InStream ρ) (T : IntTy) (rnd : ℚ → ℚ) :
    (∀ b, (readBoolMem H x small asked native R fuel (s, b)).1 ≠ .ok () →
      (readBoolMem H x small asked native R fuel (s, b)).2.2 = b) ∧
    (∀ n, (readIntegerMem H x small asked native R T fuel (s, n)).1 ≠ .ok () →
      (readIntegerMem H x small asked native R T fuel (s, n)).2.2 = n) ∧
    (∀ y, (readFloatMem H x small asked native R rnd fuel (s, y)).1 ≠ .ok () →
      (readFloatMem H x small asked native R rnd fuel (s, y)).2.2 = y) :=
  ⟨fun b => set_last (readLocalWordMem H x small asked native R fuel)
      (fun w => parseBool .char8 w BoolFormat.default) s b,
    fun n => set_last (readLocalWordMem H x small asked native R fuel)
      (fun w => parseInteger .char8 T w IntegerFormat.default) s n,
    fun y => set_last (readLocalWordMem H x small asked native R fuel)
      (fun w => parseFloat .char8 rnd w FloatFormat.default) s y⟩

/-- `-12 3` is read as -12 by a string of its own room while no memory can be had, and 3 is read next. -/
example :
    let H : Heap := ⟨fun _ => false, id, 100⟩
    let r := readIntegerMem H .outOfRange 15 0 .little Ctr.reader .int 9
      (⟨freshCtr 4 1 [0x2D, 0x31, 0x32, 0x20, 0x33], .little, .utf8⟩, 7)
    r.1 = .ok () ∧ r.2.2 = -12 ∧
      (readIntegerMem H .outOfRange 15 0 .little Ctr.reader .int 9 r.2).2.2 = 3 := by
  decide +kernel

/-- The sources and items that the theorems speak of exist, and the words of these are short. -/
example : HasItems (fun n => n ≤ 4 ∨ 4 = 0) true
    (fun bs r => ∃ p, bs = ([0x2D, 0x31, 0x32, 0x20] : List Byte).drop p ∧
      Ctr.Reading 4 [0x2D, 0x31, 0x32, 0x20] 1 p r)
    ⟨freshCtr 4 1 [0x2D, 0x31, 0x32, 0x20], .little, .utf8⟩
      [.char 0x2D, .char 0x31, .char 0x32, .char 0x20]
    ∧ (gather true (fun v => decide (Spec.IsWhiteSpace v)) (grown .char8)
      (skipChars (fun v => decide (Spec.IsWhiteSpace v))
        [.char 0x2D, .char 0x31, .char 0x32, .char 0x20])).1.length ≤ 3 := by
  refine ⟨⟨.inl (by decide), _, [.char 0x2D, .char 0x31, .char 0x32, .char 0x20], Ctr.left_fresh 4 1 _, ?_,
    by decide⟩, by decide +kernel⟩
  exact .char (n := 1) (by decide +kernel) (.char (n := 1) (by decide +kernel)
    (.char (n := 1) (by decide +kernel) (.char (n := 1) (by decide +kernel) .none)))

end Cmp
