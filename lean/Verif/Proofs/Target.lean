import Verif.Model.Target
import Verif.Proofs.Recover
import Verif.Props.Unicode

/-
Reading into variables: the model with the variable agrees with the model that passes results back,
and what is in the variable in the end.
-/

namespace Cmp

namespace InStream

open Spec (Item Ending gather skipChars)

variable {ρ τ : Type} {R : Reader ρ} {sizes : Nat → Prop} {tells : Bool} {left : List Byte → ρ → Prop}

@[simp] theorem onStream_apply {α : Type} (m : M (InStream ρ) α) (s : InStream ρ) (t : τ) :
    onStream m (s, t) = ((m s).1, ((m s).2, t)) := rfl

@[simp] theorem onTarget_apply {α : Type} (m : M τ α) (s : InStream ρ) (t : τ) :
    onTarget m (s, t) = ((m t).1, (s, (m t).2)) := rfl

/-- A variable passed back. -/
def passBack {α : Type} : Outcome Unit × (α × τ) → Outcome τ × α
  | (.ok (), s) => (.ok s.2, s.1)
  | (.throw x, s) => (.throw x, s.1)
  | (.terminate, s) => (.terminate, s.1)
  | (.ub, s) => (.ub, s.1)
  | (.hang, s) => (.hang, s.1)

theorem readLocalWord_eq (native : Endian) (R : Reader ρ) (fuel : Nat) (s : InStream ρ) :
    readLocalWord native R fuel s = passBack (readWordTo native R .char8 fuel (s, [])) := by
  unfold readLocalWord passBack
  rcases readWordTo native R .char8 fuel (s, []) with ⟨o, s'⟩
  cases o <;> rfl

theorem passBack_onStream {α : Type} (m : M (InStream ρ) α)
    (f : α → M (InStream ρ) τ) (g : α → M (InStream ρ × τ) Unit) (s : InStream ρ) (t : τ)
    (h : ∀ a s, f a s = passBack (g a (s, t))) :
    (m >>= f) s = passBack ((onStream m >>= g) (s, t)) := by
  rcases hx : m s with ⟨o, s1⟩
  have hx' : (onStream m : M (InStream ρ × τ) α) (s, t) = (o, (s1, t)) := by simp [hx]
  rw [M.bind_apply, M.bind_apply, hx, hx']
  cases o with
  | ok a => exact h a s1
  | _ => rfl

theorem passBack_onTarget (e : Enc) (c : Char32)
    (f : Str e → M (InStream ρ) (Str e)) (g : M (InStream ρ × Str e) Unit) (s : InStream ρ) (t : Str e)
    (h : ∀ s t, f t s = passBack (g (s, t))) :
    (M.lift (appendCP e t c) >>= f) s =
      passBack ((onTarget (appendCodePoint e c) >>= fun _ => g) (s, t)) := by
  rcases hx : appendCodePoint e c t with ⟨o, t1⟩
  have hx' : (onTarget (appendCodePoint e c) : M (InStream ρ × Str e) Unit) (s, t) = (o, (s, t1)) := by
    simp [hx]
  rw [M.bind_apply, M.bind_apply, hx', M.lift_apply, appendCP, hx]
  cases o with
  | ok a => exact h s t1
  | _ => rfl

theorem appendLine_eq (native : Endian) (R : Reader ρ) (e : Enc) (fuel : Nat) (t : Str e)
    (s : InStream ρ) :
    appendLine native R e fuel t s = passBack (appendLineTo native R e fuel (s, t)) := by
  induction fuel generalizing t s with
  | zero => rfl
  | succ fuel ih =>
    rw [appendLine, appendLineTo]
    refine passBack_onStream _ _ _ s t fun a s => ?_
    cases a
    · refine passBack_onStream _ _ _ s t fun c s => ?_
      by_cases h : c = 10#32
      · rw [if_pos h, if_pos h]; rfl
      · rw [if_neg h, if_neg h]
        exact passBack_onTarget e c _ _ s t fun s t => ih t s
    · rfl

theorem appendAll_eq (native : Endian) (R : Reader ρ) (e : Enc) (fuel : Nat) (t : Str e)
    (s : InStream ρ) :
    appendAll native R e fuel t s = passBack (appendAllTo native R e fuel (s, t)) := by
  induction fuel generalizing t s with
  | zero => rfl
  | succ fuel ih =>
    rw [appendAll, appendAllTo]
    refine passBack_onStream _ _ _ s t fun a s => ?_
    cases a
    · refine passBack_onStream _ _ _ s t fun c s => ?_
      exact passBack_onTarget e c _ _ s t fun s t => ih t s
    · rfl

theorem takeWord_eq (native : Endian) (R : Reader ρ) (e : Enc) (fuel : Nat) (t : Str e)
    (s : InStream ρ) :
    takeWord native R e fuel t s = passBack (takeWordTo native R e fuel (s, t)) := by
  induction fuel generalizing t s with
  | zero => rfl
  | succ fuel ih =>
    rw [takeWord, takeWordTo]
    refine passBack_onStream _ _ _ s t fun a s => ?_
    cases a
    · refine passBack_onStream _ _ _ s t fun c s => ?_
      by_cases h : isWhitespace c = true
      · rw [if_pos h, if_pos h]; rfl
      · rw [if_neg h, if_neg h]
        exact passBack_onTarget e c _ _ s t fun s t => ih t s
    · rfl

theorem skipSpace_eq (native : Endian) (R : Reader ρ) (e : Enc) (fuel : Nat) (s : InStream ρ) :
    skipSpace native R e fuel s = passBack (skipSpaceTo native R e fuel (s, [])) := by
  induction fuel generalizing s with
  | zero => rfl
  | succ fuel ih =>
    rw [skipSpace, skipSpaceTo]
    refine passBack_onStream _ _ _ s [] fun a s => ?_
    cases a
    · refine passBack_onStream _ _ _ s [] fun c s => ?_
      by_cases h : isWhitespace c = true
      · rw [if_pos h, if_pos h]; exact ih s
      · rw [if_neg h, if_neg h]
        rcases hx : appendCodePoint e c [] with ⟨o, t1⟩
        rw [onTarget_apply, M.lift_apply, appendCP, hx]
        cases o <;> rfl
    · rfl

theorem readWord_eq (native : Endian) (R : Reader ρ) (e : Enc) (fuel : Nat) (t : Str e)
    (s : InStream ρ) :
    readWord native R e fuel s = passBack (readWordTo native R e fuel (s, t)) := by
  rw [readWord, readWordTo, M.bind_apply, skipSpace_eq, M.bind_apply, onTarget_apply, M.set_apply]
  dsimp only
  rw [M.bind_apply]
  rcases skipSpaceTo native R e fuel (s, []) with ⟨o, s1, t1⟩
  cases o with
  | ok a => exact takeWord_eq native R e fuel t1 s1
  | _ => rfl

/-! ### What is in the variable -/

/-- What `append_code_point` appends to an empty string, if it does not reject the code point. -/
def grown (e : Enc) (v : Nat) : Option (Str e) :=
  match appendCodePoint e (BitVec.ofNat 32 v) [] with
  | (.ok (), us) => some us
  | _ => none

theorem grown_none {e : Enc} {v : Nat} (h : grown e v = none) (t : Str e) :
    appendCodePoint e (BitVec.ofNat 32 v) t = (.throw .invalidCodePoint, t) := by
  rcases C16_insert_exact e (BitVec.ofNat 32 v) with ⟨-, -, hr⟩ | ⟨us, -, -, -, -, -, ha, -⟩
  · exact hr _ t
  · rw [grown, ha] at h
    cases h

theorem grown_some {e : Enc} {v : Nat} {us : Str e} (h : grown e v = some us) (t : Str e) :
    appendCodePoint e (BitVec.ofNat 32 v) t = (.ok (), t ++ us) := by
  rcases C16_insert_exact e (BitVec.ofNat 32 v) with ⟨-, -, hr⟩ | ⟨us', -, -, -, -, -, ha, -⟩
  · rw [grown, appendCodePoint, hr] at h
    cases h
  · rw [grown, ha] at h
    cases h
    exact ha t

/-- The outcome of reading into a string. -/
def ending : Ending → Outcome Unit
  | .finished => .ok ()
  | .rejected => .throw .invalidCodePoint
  | .bad => .throw .invalidUnicodeEncoding
  | .cut => .throw .readPastEnd

/-- The loops: read until `stop`. -/
def loopTo (native : Endian) (R : Reader ρ) (e : Enc) (stop : Char32 → Bool) :
    Nat → M (InStream ρ × Str e) Unit
  | 0 => M.hang
  | fuel + 1 => do
    let atEnd ← onStream (isAtEnd R)
    if atEnd then pure ()
    else do
      let c ← onStream (readFiltered native R)
      if stop c then pure ()
      else do
        onTarget (appendCodePoint e c)
        loopTo native R e stop fuel

theorem appendLineTo_eq (native : Endian) (R : Reader ρ) (e : Enc) (fuel : Nat) :
    appendLineTo native R e fuel = loopTo native R e (fun c => decide (c = 10#32)) fuel := by
  induction fuel with
  | zero => rfl
  | succ fuel ih => rw [appendLineTo, loopTo, ih]; simp only [decide_eq_true_eq]

theorem appendAllTo_eq (native : Endian) (R : Reader ρ) (e : Enc) (fuel : Nat) :
    appendAllTo native R e fuel = loopTo native R e (fun _ => false) fuel := by
  induction fuel with
  | zero => rfl
  | succ fuel ih => rw [appendAllTo, loopTo, ih]; simp

theorem takeWordTo_eq (native : Endian) (R : Reader ρ) (e : Enc) (fuel : Nat) :
    takeWordTo native R e fuel = loopTo native R e isWhitespace fuel := by
  induction fuel with
  | zero => rfl
  | succ fuel ih => rw [takeWordTo, loopTo, ih]

theorem hasItems_lt {s : InStream ρ} {v : Nat} {is : List Item}
    (h : HasItems sizes tells left s (.char v :: is)) : v < 2 ^ 32 := by
  obtain ⟨hs, bs, js, hl, hj, hp⟩ := h
  cases js with
  | nil => cases hp
  | cons j js =>
    cases js with
    | nil =>
      rw [Spec.passReturns] at hp
      split at hp
      · cases hp
      · cases hp
        exact itemised_lt hj
    | cons k js =>
      rw [Spec.passReturns] at hp
      split at hp
      · cases hp
        revert hj
        generalize hn : nats bs = l
        intro hj
        cases hj with
        | char h t =>
          subst hn
          rw [nats_drop] at t
          exact itemised_lt t
        | bad h t =>
          subst hn
          rw [nats_drop] at t
          exact itemised_lt t
      · cases hp
        exact itemised_lt hj

theorem loopTo_gather (D : R.Delivers sizes tells left) (native : Endian) (e : Enc)
    (stop : Nat → Bool) (stop' : Char32 → Bool)
    (hstop : ∀ v, v < 2 ^ 32 → stop' (BitVec.ofNat 32 v) = stop v) (fuel : Nat) (is : List Item)
    (hf : is.length < fuel) (s : InStream ρ) (h : HasItems sizes tells left s is) (t : Str e) :
    ∃ r', loopTo native R e stop' fuel (s, t) =
        (ending (gather tells stop (grown e) is).2.1,
          ({ s with res := r' }, t ++ (gather tells stop (grown e) is).1)) ∧
      HasItems sizes tells left { s with res := r' } (gather tells stop (grown e) is).2.2 := by
  induction is generalizing fuel s t with
  | nil =>
    obtain ⟨fuel, rfl⟩ : ∃ k, fuel = k + 1 := ⟨fuel - 1, by simp at hf; omega⟩
    have hend := hasItems_end D h
    have e0 : (onStream (isAtEnd R) : M (InStream ρ × Str e) Bool) (s, t) = (.ok (tells && true), (s, t)) := by
      rw [onStream_apply, hend]; rfl
    rw [loopTo, M.bind_ok e0]
    cases tells with
    | true => exact ⟨s.res, by simp [gather, ending], h⟩
    | false =>
      obtain ⟨r', e1, q⟩ := hasItems_none D native h
      have e1' : (onStream (readFiltered native R) : M (InStream ρ × Str e) Char32) (s, t) =
          (.throw .readPastEnd, ({ s with res := r' }, t)) := by rw [onStream_apply, e1]
      refine ⟨r', ?_, q⟩
      rw [if_neg (by simp), M.bind_throw e1']
      simp [gather, ending]
  | cons i is ih =>
    obtain ⟨fuel, rfl⟩ : ∃ k, fuel = k + 1 := ⟨fuel - 1, by simp at hf; omega⟩
    have hend := hasItems_end D h
    have e0 : (onStream (isAtEnd R) : M (InStream ρ × Str e) Bool) (s, t) = (.ok false, (s, t)) := by
      rw [onStream_apply, hend]; simp
    obtain ⟨r', e1, q⟩ := hasItems_read D native h
    have e1' : (onStream (readFiltered native R) : M (InStream ρ × Str e) Char32) (s, t) =
        (report i, ({ s with res := r' }, t)) := by rw [onStream_apply, e1]
    rw [loopTo, M.bind_ok e0, if_neg (by simp)]
    cases i with
    | bad => exact ⟨r', by rw [M.bind_throw e1']; simp [gather, ending], q⟩
    | cut => exact ⟨r', by rw [M.bind_throw e1']; simp [gather, ending], q⟩
    | char v =>
      have hv := hasItems_lt h
      rw [M.bind_ok e1', hstop v hv, gather]
      by_cases hst : stop v = true
      · rw [if_pos hst, if_pos hst]
        exact ⟨r', by simp [ending], q⟩
      · rw [if_neg hst, if_neg hst]
        cases hg : grown e v with
        | none =>
          have e2 : (onTarget (appendCodePoint e (BitVec.ofNat 32 v)) : M (InStream ρ × Str e) Unit)
              ({ s with res := r' }, t) = (.throw .invalidCodePoint, ({ s with res := r' }, t)) := by
            rw [onTarget_apply, grown_none hg]
          exact ⟨r', by rw [M.bind_throw e2]; simp [ending], q⟩
        | some us =>
          have e2 : (onTarget (appendCodePoint e (BitVec.ofNat 32 v)) : M (InStream ρ × Str e) Unit)
              ({ s with res := r' }, t) = (.ok (), ({ s with res := r' }, t ++ us)) := by
            rw [onTarget_apply, grown_some hg]
          rw [M.bind_ok e2]
          obtain ⟨r2, e3, q2⟩ := ih fuel (by simp at hf; omega) { s with res := r' } q (t ++ us)
          refine ⟨r2, ?_, q2⟩
          rw [e3]
          simp

/-- Skipping whitespace and taking the first character of a word: what is left to gather is the rest
of the word, unless it fails. -/
theorem skipSpaceTo_gather (D : R.Delivers sizes tells left) (native : Endian) (e : Enc)
    (stop : Nat → Bool)
    (hstop : ∀ v, v < 2 ^ 32 → isWhitespace (BitVec.ofNat 32 v) = stop v) (fuel fuel2 : Nat)
    (is : List Item) (hf : is.length < fuel) (hf2 : is.length < fuel2) (s : InStream ρ)
    (h : HasItems sizes tells left s is) (t : Str e) :
    ∃ r', (skipSpaceTo native R e fuel >>= fun _ => takeWordTo native R e fuel2) (s, t) =
        (ending (gather tells stop (grown e) (skipChars stop is)).2.1,
          ({ s with res := r' }, t ++ (gather tells stop (grown e) (skipChars stop is)).1)) ∧
      HasItems sizes tells left { s with res := r' }
        (gather tells stop (grown e) (skipChars stop is)).2.2 := by
  induction is generalizing fuel s t with
  | nil =>
    obtain ⟨fuel, rfl⟩ : ∃ k, fuel = k + 1 := ⟨fuel - 1, by simp at hf; omega⟩
    have hend := hasItems_end D h
    have e0 : (onStream (isAtEnd R) : M (InStream ρ × Str e) Bool) (s, t) = (.ok (tells && true), (s, t)) := by
      rw [onStream_apply, hend]; rfl
    cases tells with
    | true =>
      have e1 : skipSpaceTo native R e (fuel + 1) (s, t) = (.ok (), (s, t)) := by
        rw [skipSpaceTo, M.bind_ok e0]; rfl
      rw [M.bind_ok e1, takeWordTo_eq]
      exact loopTo_gather D native e stop isWhitespace hstop fuel2 [] hf2 s h t
    | false =>
      obtain ⟨r', e1, q⟩ := hasItems_none D native h
      have e1' : (onStream (readFiltered native R) : M (InStream ρ × Str e) Char32) (s, t) =
          (.throw .readPastEnd, ({ s with res := r' }, t)) := by rw [onStream_apply, e1]
      have e2 : skipSpaceTo native R e (fuel + 1) (s, t) =
          (.throw .readPastEnd, ({ s with res := r' }, t)) := by
        rw [skipSpaceTo, M.bind_ok e0, if_neg (by simp), M.bind_throw e1']
      refine ⟨r', ?_, q⟩
      rw [M.bind_throw e2]
      simp [skipChars, gather, ending]
  | cons i is ih =>
    obtain ⟨fuel, rfl⟩ : ∃ k, fuel = k + 1 := ⟨fuel - 1, by simp at hf; omega⟩
    have hend := hasItems_end D h
    have e0 : (onStream (isAtEnd R) : M (InStream ρ × Str e) Bool) (s, t) = (.ok false, (s, t)) := by
      rw [onStream_apply, hend]; simp
    obtain ⟨r', e1, q⟩ := hasItems_read D native h
    have e1' : (onStream (readFiltered native R) : M (InStream ρ × Str e) Char32) (s, t) =
        (report i, ({ s with res := r' }, t)) := by rw [onStream_apply, e1]
    cases i with
    | bad =>
      have e2 : skipSpaceTo native R e (fuel + 1) (s, t) =
          (.throw .invalidUnicodeEncoding, ({ s with res := r' }, t)) := by
        rw [skipSpaceTo, M.bind_ok e0, if_neg (by simp), M.bind_throw e1']
      exact ⟨r', by rw [M.bind_throw e2]; simp [skipChars, gather, ending], q⟩
    | cut =>
      have e2 : skipSpaceTo native R e (fuel + 1) (s, t) =
          (.throw .readPastEnd, ({ s with res := r' }, t)) := by
        rw [skipSpaceTo, M.bind_ok e0, if_neg (by simp), M.bind_throw e1']
      exact ⟨r', by rw [M.bind_throw e2]; simp [skipChars, gather, ending], q⟩
    | char v =>
      have hv := hasItems_lt h
      by_cases hst : stop v = true
      · have e2 : skipSpaceTo native R e (fuel + 1) (s, t) =
            skipSpaceTo native R e fuel ({ s with res := r' }, t) := by
          rw [skipSpaceTo, M.bind_ok e0, if_neg (by simp), M.bind_ok e1', hstop v hv, if_pos hst]
        rw [M.bind_apply, e2, ← M.bind_apply]
        have hk : skipChars stop (.char v :: is) = skipChars stop is := by
          simp [skipChars, hst]
        rw [hk]
        exact ih fuel (by simp at hf; omega) (by simp at hf2; omega) { s with res := r' } q t
      · have hk : skipChars stop (.char v :: is) = .char v :: is := by
          simp [skipChars, hst]
        rw [hk, gather, if_neg hst]
        cases hg : grown e v with
        | none =>
          have e2 : skipSpaceTo native R e (fuel + 1) (s, t) =
              (.throw .invalidCodePoint, ({ s with res := r' }, t)) := by
            rw [skipSpaceTo, M.bind_ok e0, if_neg (by simp), M.bind_ok e1', hstop v hv, if_neg hst,
              onTarget_apply, grown_none hg]
          exact ⟨r', by rw [M.bind_throw e2]; simp [ending], q⟩
        | some us =>
          have e2 : skipSpaceTo native R e (fuel + 1) (s, t) =
              (.ok (), ({ s with res := r' }, t ++ us)) := by
            rw [skipSpaceTo, M.bind_ok e0, if_neg (by simp), M.bind_ok e1', hstop v hv, if_neg hst,
              onTarget_apply, grown_some hg]
          rw [M.bind_ok e2, takeWordTo_eq]
          obtain ⟨r2, e3, q2⟩ := loopTo_gather D native e stop isWhitespace hstop fuel2 is
            (by simp at hf2; omega) { s with res := r' } q (t ++ us)
          refine ⟨r2, ?_, q2⟩
          rw [e3]
          simp

end InStream

end Cmp
