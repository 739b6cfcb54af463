import Verif.Proofs.MemoryTarget

/-
Properties of text input into strings when memory runs out.
-/

namespace Cmp

open InStream
open _root_.Spec (Item Ending Itemised passReturns gather skipChars)

/-- C146 fails: the character for which there was no memory is gone from the stream, and the string may
have a part of it. -/
theorem C146_violated :
    ¬ ∀ (H : Heap) (x : Exn) (native o : Endian) (f : EncodingForm) (cap : Nat) (content : List Byte)
      (e : Enc) (m : MStr (BitVec e.width)) (fuel : Nat),
      ∀ s' m', appendAllMem H x native Ctr.reader e fuel (⟨freshCtr cap 1 content, o, f⟩, m)
          = (.throw x, (s', m')) →
        (appendAllTo native Ctr.reader e fuel (s', m'.units)).2.2 =
          (appendAllTo native Ctr.reader e fuel (⟨freshCtr cap 1 content, o, f⟩, m.units)).2.2 := by
  intro h
  have := h ⟨fun _ => false, id, 100⟩ .outOfRange .little .little .utf8 4 [0x61, 0xC3, 0xA9, 0x62] .char8
    ⟨[], 2, 0⟩ 9 _ _ (Prod.ext (by decide +kernel) rfl)
  revert this
  decide +kernel

section Limited

variable {ρ : Type} {R : Reader ρ} {sizes : Nat → Prop} {tells : Bool} {left : List Byte → ρ → Prop}

theorem clear_apply (e : Enc) (s : InStream ρ) (m : MStr (BitVec e.width)) :
    (onTarget (clearMem e) : M (InStream ρ × MStr (BitVec e.width)) Unit) (s, m) =
      (.ok (), (s, { m with units := [] })) := rfl

theorem stopLine (v : Nat) (hv : v < 2 ^ 32) :
    (fun c : Char32 => decide (c = 10#32)) (BitVec.ofNat 32 v) = (fun v => decide (v = 10)) v := by
  have := ofNat32_inj hv (show 10 < 2 ^ 32 by omega)
  by_cases h10 : v = 10
  · simp [h10]
  · have : BitVec.ofNat 32 v ≠ 10#32 := fun h => h10 (this.mp h)
    simp [h10, this]

theorem stopWord (v : Nat) (hv : v < 2 ^ 32) :
    isWhitespace (BitVec.ofNat 32 v) = decide (Spec.IsWhiteSpace v) := by
  rw [Bool.eq_iff_iff, isWhitespace_iff v hv, decide_eq_true_eq]

/-- C146 in general, on every source, for all bytes in it, every string and all schedules of refusals:
reading ends as in unlimited memory, with the same string and the same rest (`C116_line`, `C116_all`,
`C116_word`), or it is refused memory and throws; then the string has got all characters up to one, and of
that one fewer units than it has, and the stream goes on behind that one. -/
theorem C146_exact (D : R.Delivers sizes tells left) (H : Heap) (x : Exn) (native : Endian) (e : Enc)
    (fuel : Nat) (s : InStream ρ) (is : List Item) (h : HasItems sizes tells left s is)
    (hf : is.length < fuel) (m : MStr (BitVec e.width)) :
    Fed sizes tells left e (fun v => decide (v = 10)) x is s m
      (appendLineMem H x native R e fuel (s, m)) ∧
    Fed sizes tells left e (fun v => decide (v = 10)) x is s { m with units := [] }
      (readLineMem H x native R e fuel (s, m)) ∧
    Fed sizes tells left e (fun _ => false) x is s m (appendAllMem H x native R e fuel (s, m)) ∧
    Fed sizes tells left e (fun _ => false) x is s { m with units := [] }
      (readAllMem H x native R e fuel (s, m)) ∧
    Fed sizes tells left e (fun v => decide (Spec.IsWhiteSpace v)) x
      (skipChars (fun v => decide (Spec.IsWhiteSpace v)) is) s { m with units := [] }
      (readWordMem H x native R e fuel (s, m)) := by
  refine ⟨?_, ?_, ?_, ?_, ?_⟩
  · rw [appendLineMem_eq]
    exact loopMem_fed D H x native e _ _ stopLine fuel is hf s h m
  · rw [readLineMem, M.bind_ok (clear_apply e s m), appendLineMem_eq]
    exact loopMem_fed D H x native e _ _ stopLine fuel is hf s h _
  · rw [appendAllMem_eq]
    exact loopMem_fed D H x native e _ _ (fun _ _ => rfl) fuel is hf s h m
  · rw [readAllMem, M.bind_ok (clear_apply e s m), appendAllMem_eq]
    exact loopMem_fed D H x native e _ _ (fun _ _ => rfl) fuel is hf s h _
  · rw [readWordMem, M.bind_ok (clear_apply e s m)]
    exact skipSpaceMem_fed D H x native e _ stopWord fuel fuel is hf hf s h _

/-- With room in the string nothing is refused. -/
theorem fed_room {e : Enc} {stop : Nat → Bool} {x : Exn} {is : List Item} {s : InStream ρ}
    {m : MStr (BitVec e.width)} {res : Outcome Unit × InStream ρ × MStr (BitVec e.width)}
    (h : Fed sizes tells left e stop x is s m res)
    (hr : m.units.length + (gather tells stop (grown e) is).1.length ≤ m.capacity) :
    res.1 = ending (gather tells stop (grown e) is).2.1 ∧
      res.2.2.units = m.units ++ (gather tells stop (grown e) is).1 ∧
      HasItems sizes tells left res.2.1 (gather tells stop (grown e) is).2.2 := by
  rcases h with ⟨r', m', e1, h1, q⟩ | ⟨r', m', rest, cs, v, us, k, e1, h1, q⟩
  · rw [e1]
    exact ⟨rfl, h1, q⟩
  · exfalso
    have hfull := h1.full
    rw [h1.gather_eq tells] at hr
    simp only [List.length_append] at hr
    omega

/-- C146, part: whoever has reserved room in the string for what is to be read gets it, whatever requests are
refused: nothing is lost and nothing is torn.
What is missing: strings without room; what happens to them is in `C146_exact`. -/
theorem C146_partial (D : R.Delivers sizes tells left) (H : Heap) (x : Exn) (native : Endian) (e : Enc)
    (fuel : Nat) (s : InStream ρ) (is : List Item) (h : HasItems sizes tells left s is)
    (hf : is.length < fuel) (m : MStr (BitVec e.width)) :
    let line := gather tells (fun v => decide (v = 10)) (grown e) is
    let all := gather tells (fun _ => false) (grown e) is
    let space := fun v => decide (Spec.IsWhiteSpace v)
    let word := gather tells space (grown e) (skipChars space is)
    (m.units.length + line.1.length ≤ m.capacity →
      ∃ s' m', appendLineMem H x native R e fuel (s, m) = (ending line.2.1, (s', m')) ∧
        m'.units = m.units ++ line.1 ∧ HasItems sizes tells left s' line.2.2) ∧
    (m.units.length + all.1.length ≤ m.capacity →
      ∃ s' m', appendAllMem H x native R e fuel (s, m) = (ending all.2.1, (s', m')) ∧
        m'.units = m.units ++ all.1 ∧ HasItems sizes tells left s' all.2.2) ∧
    (word.1.length ≤ m.capacity →
      ∃ s' m', readWordMem H x native R e fuel (s, m) = (ending word.2.1, (s', m')) ∧
        m'.units = word.1 ∧ HasItems sizes tells left s' word.2.2) := by
  obtain ⟨h1, -, h2, -, h3⟩ := C146_exact D H x native e fuel s is h hf m
  refine ⟨fun hr => ?_, fun hr => ?_, fun hr => ?_⟩
  · obtain ⟨a, b, c⟩ := fed_room h1 hr
    exact ⟨_, _, Prod.ext a rfl, b, c⟩
  · obtain ⟨a, b, c⟩ := fed_room h2 hr
    exact ⟨_, _, Prod.ext a rfl, b, c⟩
  · obtain ⟨a, b, c⟩ := fed_room h3 (by simpa using hr)
    exact ⟨_, _, Prod.ext a rfl, by simpa using b, c⟩

end Limited

/-- `a`, U+00E9 and `b` are read into a string with room for two bytes while no memory can be had: the
string gets `a` and half of U+00E9, and `b` is read next. -/
example :
    let H : Heap := ⟨fun _ => false, id, 100⟩
    let r := appendAllMem H .outOfRange .little Ctr.reader .char8 9
      (⟨freshCtr 4 1 [0x61, 0xC3, 0xA9, 0x62], .little, .utf8⟩, ⟨[], 2, 0⟩)
    r.1 = .throw .outOfRange ∧ r.2.2.units = [0x61, 0xC3] ∧
      (readFiltered .little Ctr.reader r.2.1).1 = .ok 0x62#32 := by
  decide +kernel

/-- The sources and items that the theorems speak of exist: this one, and by `fresh_hasItems` every container
of bytes. -/
example : HasItems (fun n => n ≤ 4 ∨ 4 = 0) true
    (fun bs r => ∃ p, bs = ([0x61, 0xC3, 0xA9, 0x62] : List Byte).drop p ∧
      Ctr.Reading 4 [0x61, 0xC3, 0xA9, 0x62] 1 p r)
    ⟨freshCtr 4 1 [0x61, 0xC3, 0xA9, 0x62], .little, .utf8⟩ [.char 0x61, .char 0xE9, .char 0x62] := by
  refine ⟨.inl (by decide), _, [.char 0x61, .char 0xE9, .char 0x62], Ctr.left_fresh 4 1 _, ?_, by decide⟩
  exact .char (n := 1) (by decide +kernel) (.char (n := 2) (by decide +kernel)
    (.char (n := 1) (by decide +kernel) .none))

end Cmp
