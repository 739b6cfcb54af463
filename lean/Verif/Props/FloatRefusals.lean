/-
C110 for arithmetic that may overflow: what is refused does not depend on the arithmetic.
-/
import Verif.Props.FloatLanguage
import Verif.Model.Overflow

namespace Cmp

/-- How an evaluation ended, whatever it gave. -/
def Outcome.close {α : Type} : Outcome α → Outcome Unit
  | .ok _ => .ok ()
  | .throw x => .throw x
  | .terminate => .terminate
  | .ub => .ub
  | .hang => .hang

theorem Outcome.close_bind {α β γ δ : Type} {x : Outcome α} {y : Outcome β} {f : α → Outcome γ}
    {g : β → Outcome δ} (h : x.close = y.close)
    (hf : ∀ a b, x = .ok a → y = .ok b → (f a).close = (g b).close) :
    (x >>= f).close = (y >>= g).close := by
  cases x <;> cases y <;> first | exact hf _ _ rfl rfl | (cases h; rfl) | cases h

theorem fold_close {rnd : ℚ → FloatValue} {rnd' : ℚ → ℚ} (hr : ∀ q, 1 ≤ q → 1 ≤ rnd' q) {r : Nat}
    (hr2 : 2 ≤ r) : ∀ (cs : List Char32) (st : FloatValue × FloatValue) (st' : ℚ × ℚ), 1 ≤ st'.1 →
      (cs.foldlM (parseFractionValue rnd r) st).close =
        (cs.foldlM (parseFractionStep rnd' r) st').close
  | [], st, st', _ => rfl
  | c :: cs, st, st', h => by
    rw [List.foldlM_cons, List.foldlM_cons]
    have hroot : 1 ≤ rnd' (st'.1 * r) := by
      refine hr _ ?_
      have h2 : (2 : ℚ) ≤ r := by exact_mod_cast hr2
      nlinarith
    unfold parseFractionValue parseFractionStep
    cases hd : digitCharacterToInteger c r with
    | ok d =>
      by_cases h1 : d = -1
      · simp only [h1]; rfl
      · have h0 : rnd' (st'.1 * r) ≠ 0 := by linarith
        have := fold_close (rnd := rnd) hr hr2 cs (appendDigitValue rnd r st d)
          (rnd' (st'.1 * r), rnd' (st'.2 + rnd' (d / rnd' (st'.1 * r)))) hroot
        unfold parseFractionValue parseFractionStep at this
        simpa [h1, appendDigit, h0] using this
    | _ => rfl

/-- Whatever the arithmetic, overflowing or not, the same texts are read, and every other text, even one
that is not Unicode, is refused in the same way: C110_exact, and with it which texts are accepted
(C108_exact), holds for every arithmetic. -/
theorem C110_exact_arithmetic (e : Enc) (rnd : ℚ → FloatValue) (rnd' : ℚ → ℚ) (f : FloatFormat) (s : Str e)
    (hf : f.Valid) (hr : ∀ q, 1 ≤ q → 1 ≤ rnd' q) :
    ((∃ v, parseFloatValue e rnd s f = .ok v) ↔ ∃ v, parseFloat e rnd' s f = .ok v) ∧
    (∀ x, parseFloatValue e rnd s f = .throw x ↔ parseFloat e rnd' s f = .throw x) ∧
    (parseFloatValue e rnd s f = .terminate ↔ parseFloat e rnd' s f = .terminate) ∧
    (parseFloatValue e rnd s f = .ub ↔ parseFloat e rnd' s f = .ub) ∧
    (parseFloatValue e rnd s f = .hang ↔ parseFloat e rnd' s f = .hang) := by
  have key : (parseFloatValue e rnd s f).close = (parseFloat e rnd' s f).close := by
    unfold parseFloatValue parseFloat
    refine Outcome.close_bind rfl fun u u' h1 h1' => ?_
    obtain rfl : u = u' := by rw [h1] at h1'; exact Outcome.ok.inj h1'
    refine Outcome.close_bind rfl fun q q' h2 h2' => ?_
    obtain rfl : q = q' := by rw [h2] at h2'; exact Outcome.ok.inj h2'
    cases u.findIdx? (· == BitVec.ofNat 32 f.radixCharacter.char) with
    | none => exact Outcome.close_bind rfl fun v v' _ _ => rfl
    | some i =>
      refine Outcome.close_bind rfl fun v v' _ _ => ?_
      dsimp only
      split
      · rfl
      · split
        · rfl
        · exact Outcome.close_bind (fold_close hr hf.1 _ _ _ le_rfl) fun _ _ _ _ => rfl
  generalize parseFloatValue e rnd s f = x at key
  generalize parseFloat e rnd' s f = y at key
  cases x <;> cases y <;> simp_all [Outcome.close]

/-- The hypothesis about the arithmetic is met by exact arithmetic, and the text `1.x` is refused by both. -/
example : (∀ q : ℚ, 1 ≤ q → 1 ≤ id q) ∧ FloatFormat.default.Valid ∧
    parseFloatValue .char8 (fun q => .fin q) [49#8, 46#8, 120#8] .default =
      .throw (.parseFailed .wrongPlaceLimit) :=
  ⟨fun _ h => h, ⟨by decide, by decide⟩, by decide +kernel⟩

end Cmp
