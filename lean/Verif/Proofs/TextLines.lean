import Verif.Proofs.TextRead

/-
Lines, whole texts and words read from a stream that holds a well-formed text.
-/

namespace Cmp

/-- What reading makes of a text: a carriage return with a code point behind it is dropped. -/
def filt : List Nat → List Nat
  | [] => []
  | [c] => [c]
  | c :: d :: cs => if c = 13 then d :: filt cs else c :: filt (d :: cs)

theorem filt_cons_ne (c : Nat) (cs : List Nat) (h : c ≠ 13) : filt (c :: cs) = c :: filt cs := by
  cases cs with
  | nil => simp [filt]
  | cons d cs => simp [filt, h]

theorem filt_isEmpty (cs : List Nat) : (filt cs).isEmpty = cs.isEmpty := by
  match cs with
  | [] => rfl
  | [c] => rfl
  | c :: d :: cs => rw [filt]; split <;> rfl

theorem filt_eq_self (cs : List Nat) (h : 13 ∉ cs) : filt cs = cs := by
  induction cs with
  | nil => rfl
  | cons c cs ih =>
    rw [filt_cons_ne c cs (by rintro rfl; simp at h), ih (fun x => h (by simp [x]))]

/-- A source that cannot say that it is at its end does not end in a carriage return. -/
def EndOk (tells : Bool) (cs : List Nat) : Prop := tells = true ∨ cs.getLast? ≠ some 13

theorem EndOk.tail {tells : Bool} {c : Nat} {cs : List Nat} (h : EndOk tells (c :: cs)) :
    EndOk tells cs := by
  rcases h with h | h
  · exact Or.inl h
  · cases cs with
    | nil => exact Or.inr (by simp)
    | cons d cs => exact Or.inr (by simpa [List.getLast?_cons_cons] using h)

namespace InStream

variable {ρ : Type} {R : Reader ρ} {sizes : Nat → Prop} {tells : Bool}
  {left : List Byte → ρ → Prop}

/-- The stream is about to deliver the code points `ts`. -/
def HasText (sizes : Nat → Prop) (tells : Bool) (left : List Byte → ρ → Prop) (s : InStream ρ)
    (ts : List Nat) : Prop :=
  sizes s.form.form.unitSize ∧ ∃ cs, Spec.IsText cs ∧ EndOk tells cs ∧ filt cs = ts ∧
    left (textBytes s.form s.endian cs) s.res

theorem HasText.text {s : InStream ρ} {ts : List Nat} (h : HasText sizes tells left s ts) :
    Spec.IsText ts := by
  obtain ⟨-, cs, ht, -, rfl, -⟩ := h
  suffices ∀ n (cs : List Nat), cs.length ≤ n → Spec.IsText cs → Spec.IsText (filt cs) from
    this _ _ (Nat.le_refl _) ht
  intro n
  induction n with
  | zero =>
    intro cs hn ht
    cases cs with
    | nil => exact ht
    | cons => simp at hn
  | succ n ih =>
    intro cs hn ht
    match cs, hn, ht with
    | [], _, ht => exact ht
    | [c], _, ht => exact ht
    | c :: d :: cs, hn, ht =>
      simp only [List.length_cons] at hn
      rw [filt]
      split
      · intro x hx
        rcases List.mem_cons.mp hx with rfl | hx
        · exact ht _ (by simp)
        · exact ih cs (by omega) (fun y hy => ht y (by simp [hy])) x hx
      · intro x hx
        rcases List.mem_cons.mp hx with rfl | hx
        · exact ht _ (by simp)
        · exact ih (d :: cs) (by simp; omega)
            (fun y hy => ht y (List.mem_cons_of_mem _ hy)) x hx

theorem hasText_end (D : R.Delivers sizes tells left) {s : InStream ρ} {ts : List Nat}
    (h : HasText sizes tells left s ts) : isAtEnd R s = (.ok (tells && ts.isEmpty), s) := by
  obtain ⟨-, cs, -, -, rfl, hl⟩ := h
  rw [isAtEnd_eq D s _ hl, textBytes_isEmpty, filt_isEmpty]

theorem ofNat32_inj {a b : Nat} (ha : a < 2 ^ 32) (hb : b < 2 ^ 32) :
    BitVec.ofNat 32 a = BitVec.ofNat 32 b ↔ a = b := by
  constructor
  · intro h
    have := congrArg BitVec.toNat h
    rwa [BitVec.toNat_ofNat, BitVec.toNat_ofNat, Nat.mod_eq_of_lt ha, Nat.mod_eq_of_lt hb] at this
  · rintro rfl; rfl

theorem isScalar_lt {c : Nat} (h : Spec.IsScalar c) : c < 2 ^ 32 := by
  have := h.1
  omega

theorem hasText_read (D : R.Delivers sizes tells left) (native : Endian) {s : InStream ρ} {t : Nat}
    {ts : List Nat} (h : HasText sizes tells left s (t :: ts)) :
    ∃ r', readFiltered native R s = (.ok (BitVec.ofNat 32 t), { s with res := r' }) ∧
      HasText sizes tells left { s with res := r' } ts := by
  obtain ⟨hs, cs, ht, he, hf, hl⟩ := h
  match cs, ht, he, hf, hl with
  | c :: cs, ht, he, hf, hl =>
    have hc : Spec.IsScalar c := ht c (by simp)
    have ht' : Spec.IsText cs := fun x hx => ht x (by simp [hx])
    rw [textBytes_cons] at hl
    obtain ⟨r1, e1, q1⟩ := readCodePoint_text D native s hs c hc _ hl
    rw [readFiltered, M.bind_ok e1]
    by_cases h13 : c = 13
    · subst h13
      rw [if_pos rfl]
      have ea := isAtEnd_eq D { s with res := r1 } _ q1
      rw [textBytes_isEmpty] at ea
      rw [M.bind_ok ea]
      match cs, he, hf, ht', q1 with
      | [], he, hf, _, q1 =>
        simp only [filt, List.cons.injEq] at hf
        obtain ⟨rfl, rfl⟩ := hf
        rcases he with rfl | he
        · exact ⟨r1, rfl, hs, [], by simp [Spec.IsText], Or.inl rfl, rfl, q1⟩
        · simp at he
      | d :: cs, he, hf, ht', q1 =>
        rw [filt, if_pos rfl] at hf
        simp only [List.cons.injEq] at hf
        obtain ⟨rfl, rfl⟩ := hf
        rw [textBytes_cons] at q1
        obtain ⟨r2, e2, q2⟩ := readCodePoint_text D native { s with res := r1 } hs d
          (ht' d (by simp)) _ q1
        simp only [List.isEmpty_cons, Bool.and_false, Bool.false_eq_true, if_false]
        exact ⟨r2, e2, hs, cs, fun x hx => ht' x (by simp [hx]), he.tail.tail, rfl, q2⟩
    · rw [if_neg (by
        intro h
        exact h13 ((ofNat32_inj (isScalar_lt hc) (by omega)).mp h))]
      rw [filt_cons_ne c cs h13] at hf
      simp only [List.cons.injEq] at hf
      obtain ⟨rfl, rfl⟩ := hf
      exact ⟨r1, rfl, hs, cs, ht', he.tail, rfl, q1⟩

/-- The loop of `append_line` up to a line feed. -/
theorem appendLine_lf (D : R.Delivers sizes tells left) (native : Endian) (e : Enc)
    (l rest : List Nat) (h10 : 10 ∉ l) (hi : ∀ c ∈ l, InsOk e c) :
    ∀ (fuel : Nat) (target : Str e) (s : InStream ρ), l.length < fuel →
      HasText sizes tells left s (l ++ 10 :: rest) →
      ∃ r', appendLine native R e fuel target s = (.ok (target ++ encs e l), { s with res := r' }) ∧
        HasText sizes tells left { s with res := r' } rest := by
  induction l with
  | nil =>
    intro fuel target s hf h
    obtain ⟨fuel, rfl⟩ : ∃ n, fuel = n + 1 := ⟨fuel - 1, by omega⟩
    obtain ⟨r', e', h'⟩ := hasText_read D native h
    refine ⟨r', ?_, h'⟩
    rw [appendLine, M.bind_ok (hasText_end D h)]
    simp only [List.nil_append, List.isEmpty_cons, Bool.and_false, Bool.false_eq_true, if_false]
    rw [M.bind_ok e', if_pos rfl]
    simp
  | cons c l ih =>
    intro fuel target s hf h
    obtain ⟨fuel, rfl⟩ : ∃ n, fuel = n + 1 := ⟨fuel - 1, by omega⟩
    have hc : Spec.IsScalar c := h.text c (by simp)
    obtain ⟨r', e', h'⟩ := hasText_read D native h
    obtain ⟨r'', e'', h''⟩ := ih (fun x => h10 (by simp [x])) (fun x hx => hi x (by simp [hx])) fuel
      (target ++ encU e c) { s with res := r' } (by simp at hf; omega) h'
    refine ⟨r'', ?_, h''⟩
    rw [appendLine, M.bind_ok (hasText_end D h)]
    simp only [List.cons_append, List.isEmpty_cons, Bool.and_false, Bool.false_eq_true, if_false]
    rw [M.bind_ok e', if_neg (by
      intro h
      have := (ofNat32_inj (isScalar_lt hc) (by omega)).mp h
      subst this
      simp at h10), appendCP_enc e c (hi c (by simp)), M.bind_ok (M.lift_apply _ _), e'']
    simp

/-- The loop of `append_line` up to the end of the input. -/
theorem appendLine_end (D : R.Delivers sizes true left) (native : Endian) (e : Enc)
    (l : List Nat) (h10 : 10 ∉ l) (hi : ∀ c ∈ l, InsOk e c) :
    ∀ (fuel : Nat) (target : Str e) (s : InStream ρ), l.length < fuel →
      HasText sizes true left s l →
      ∃ r', appendLine native R e fuel target s = (.ok (target ++ encs e l), { s with res := r' }) ∧
        HasText sizes true left { s with res := r' } [] := by
  induction l with
  | nil =>
    intro fuel target s hf h
    obtain ⟨fuel, rfl⟩ : ∃ n, fuel = n + 1 := ⟨fuel - 1, by omega⟩
    refine ⟨s.res, ?_, h⟩
    rw [appendLine, M.bind_ok (hasText_end D h)]
    simp
  | cons c l ih =>
    intro fuel target s hf h
    obtain ⟨fuel, rfl⟩ : ∃ n, fuel = n + 1 := ⟨fuel - 1, by omega⟩
    have hc : Spec.IsScalar c := h.text c (by simp)
    obtain ⟨r', e', h'⟩ := hasText_read D native h
    obtain ⟨r'', e'', h''⟩ := ih (fun x => h10 (by simp [x])) (fun x hx => hi x (by simp [hx])) fuel
      (target ++ encU e c) { s with res := r' } (by simp at hf; omega) h'
    refine ⟨r'', ?_, h''⟩
    rw [appendLine, M.bind_ok (hasText_end D h)]
    simp only [List.isEmpty_cons, Bool.and_false, Bool.false_eq_true, if_false]
    rw [M.bind_ok e', if_neg (by
      intro h
      have := (ofNat32_inj (isScalar_lt hc) (by omega)).mp h
      subst this
      simp at h10), appendCP_enc e c (hi c (by simp)), M.bind_ok (M.lift_apply _ _), e'']
    simp

/-- The loop of `append_all`. -/
theorem appendAll_end (D : R.Delivers sizes true left) (native : Endian) (e : Enc)
    (l : List Nat) (hi : ∀ c ∈ l, InsOk e c) :
    ∀ (fuel : Nat) (target : Str e) (s : InStream ρ), l.length < fuel →
      HasText sizes true left s l →
      ∃ r', appendAll native R e fuel target s = (.ok (target ++ encs e l), { s with res := r' }) ∧
        HasText sizes true left { s with res := r' } [] := by
  induction l with
  | nil =>
    intro fuel target s hf h
    obtain ⟨fuel, rfl⟩ : ∃ n, fuel = n + 1 := ⟨fuel - 1, by omega⟩
    refine ⟨s.res, ?_, h⟩
    rw [appendAll, M.bind_ok (hasText_end D h)]
    simp
  | cons c l ih =>
    intro fuel target s hf h
    obtain ⟨fuel, rfl⟩ : ∃ n, fuel = n + 1 := ⟨fuel - 1, by omega⟩
    obtain ⟨r', e', h'⟩ := hasText_read D native h
    obtain ⟨r'', e'', h''⟩ := ih (fun x hx => hi x (by simp [hx])) fuel
      (target ++ encU e c) { s with res := r' } (by simp at hf; omega) h'
    refine ⟨r'', ?_, h''⟩
    rw [appendAll, M.bind_ok (hasText_end D h)]
    simp only [List.isEmpty_cons, Bool.and_false, Bool.false_eq_true, if_false]
    rw [M.bind_ok e', appendCP_enc e c (hi c (by simp)), M.bind_ok (M.lift_apply _ _), e'']
    simp

/-- Whitespace is skipped up to the first character of a word. -/
theorem skipSpace_word (D : R.Delivers sizes tells left) (native : Endian) (e : Enc)
    (sp : List Nat) (c : Nat) (rest : List Nat)
    (hsp : ∀ x ∈ sp, isWhitespace (BitVec.ofNat 32 x) = true)
    (hc : isWhitespace (BitVec.ofNat 32 c) = false) (hi : InsOk e c) :
    ∀ (fuel : Nat) (s : InStream ρ), sp.length < fuel →
      HasText sizes tells left s (sp ++ c :: rest) →
      ∃ r', skipSpace native R e fuel s = (.ok (encU e c), { s with res := r' }) ∧
        HasText sizes tells left { s with res := r' } rest := by
  induction sp with
  | nil =>
    intro fuel s hf h
    obtain ⟨fuel, rfl⟩ : ∃ n, fuel = n + 1 := ⟨fuel - 1, by omega⟩
    obtain ⟨r', e', h'⟩ := hasText_read D native h
    refine ⟨r', ?_, h'⟩
    rw [skipSpace, M.bind_ok (hasText_end D h)]
    simp only [List.nil_append, List.isEmpty_cons, Bool.and_false, Bool.false_eq_true, if_false]
    rw [M.bind_ok e', hc, if_neg (by simp), appendCP_enc e c hi]
    simp
  | cons x sp ih =>
    intro fuel s hf h
    obtain ⟨fuel, rfl⟩ : ∃ n, fuel = n + 1 := ⟨fuel - 1, by omega⟩
    obtain ⟨r', e', h'⟩ := hasText_read D native h
    obtain ⟨r'', e'', h''⟩ := ih (fun y hy => hsp y (by simp [hy])) fuel { s with res := r' }
      (by simp at hf; omega) h'
    refine ⟨r'', ?_, h''⟩
    rw [skipSpace, M.bind_ok (hasText_end D h)]
    simp only [List.cons_append, List.isEmpty_cons, Bool.and_false, Bool.false_eq_true, if_false]
    rw [M.bind_ok e', hsp x (by simp), if_pos rfl, e'']

/-- Whitespace is skipped up to the end of the input. -/
theorem skipSpace_end (D : R.Delivers sizes true left) (native : Endian) (e : Enc)
    (sp : List Nat) (hsp : ∀ x ∈ sp, isWhitespace (BitVec.ofNat 32 x) = true) :
    ∀ (fuel : Nat) (s : InStream ρ), sp.length < fuel → HasText sizes true left s sp →
      ∃ r', skipSpace native R e fuel s = (.ok [], { s with res := r' }) ∧
        HasText sizes true left { s with res := r' } [] := by
  induction sp with
  | nil =>
    intro fuel s hf h
    obtain ⟨fuel, rfl⟩ : ∃ n, fuel = n + 1 := ⟨fuel - 1, by omega⟩
    refine ⟨s.res, ?_, h⟩
    rw [skipSpace, M.bind_ok (hasText_end D h)]
    simp
  | cons x sp ih =>
    intro fuel s hf h
    obtain ⟨fuel, rfl⟩ : ∃ n, fuel = n + 1 := ⟨fuel - 1, by omega⟩
    obtain ⟨r', e', h'⟩ := hasText_read D native h
    obtain ⟨r'', e'', h''⟩ := ih (fun y hy => hsp y (by simp [hy])) fuel { s with res := r' }
      (by simp at hf; omega) h'
    refine ⟨r'', ?_, h''⟩
    rw [skipSpace, M.bind_ok (hasText_end D h)]
    simp only [List.isEmpty_cons, Bool.and_false, Bool.false_eq_true, if_false]
    rw [M.bind_ok e', hsp x (by simp), if_pos rfl, e'']

/-- The rest of a word up to the whitespace behind it. -/
theorem takeWord_space (D : R.Delivers sizes tells left) (native : Endian) (e : Enc)
    (w : List Nat) (b : Nat) (rest : List Nat)
    (hw : ∀ x ∈ w, isWhitespace (BitVec.ofNat 32 x) = false)
    (hb : isWhitespace (BitVec.ofNat 32 b) = true) (hi : ∀ c ∈ w, InsOk e c) :
    ∀ (fuel : Nat) (target : Str e) (s : InStream ρ), w.length < fuel →
      HasText sizes tells left s (w ++ b :: rest) →
      ∃ r', takeWord native R e fuel target s = (.ok (target ++ encs e w), { s with res := r' }) ∧
        HasText sizes tells left { s with res := r' } rest := by
  induction w with
  | nil =>
    intro fuel target s hf h
    obtain ⟨fuel, rfl⟩ : ∃ n, fuel = n + 1 := ⟨fuel - 1, by omega⟩
    obtain ⟨r', e', h'⟩ := hasText_read D native h
    refine ⟨r', ?_, h'⟩
    rw [takeWord, M.bind_ok (hasText_end D h)]
    simp only [List.nil_append, List.isEmpty_cons, Bool.and_false, Bool.false_eq_true, if_false]
    rw [M.bind_ok e', hb, if_pos rfl]
    simp
  | cons c w ih =>
    intro fuel target s hf h
    obtain ⟨fuel, rfl⟩ : ∃ n, fuel = n + 1 := ⟨fuel - 1, by omega⟩
    obtain ⟨r', e', h'⟩ := hasText_read D native h
    obtain ⟨r'', e'', h''⟩ := ih (fun y hy => hw y (by simp [hy])) (fun x hx => hi x (by simp [hx]))
      fuel (target ++ encU e c) { s with res := r' } (by simp at hf; omega) h'
    refine ⟨r'', ?_, h''⟩
    rw [takeWord, M.bind_ok (hasText_end D h)]
    simp only [List.cons_append, List.isEmpty_cons, Bool.and_false, Bool.false_eq_true, if_false]
    rw [M.bind_ok e', hw c (by simp), if_neg (by simp), appendCP_enc e c (hi c (by simp)),
      M.bind_ok (M.lift_apply _ _), e'']
    simp

/-- The rest of a word up to the end of the input. -/
theorem takeWord_end (D : R.Delivers sizes true left) (native : Endian) (e : Enc)
    (w : List Nat) (hw : ∀ x ∈ w, isWhitespace (BitVec.ofNat 32 x) = false)
    (hi : ∀ c ∈ w, InsOk e c) :
    ∀ (fuel : Nat) (target : Str e) (s : InStream ρ), w.length < fuel →
      HasText sizes true left s w →
      ∃ r', takeWord native R e fuel target s = (.ok (target ++ encs e w), { s with res := r' }) ∧
        HasText sizes true left { s with res := r' } [] := by
  induction w with
  | nil =>
    intro fuel target s hf h
    obtain ⟨fuel, rfl⟩ : ∃ n, fuel = n + 1 := ⟨fuel - 1, by omega⟩
    refine ⟨s.res, ?_, h⟩
    rw [takeWord, M.bind_ok (hasText_end D h)]
    simp
  | cons c w ih =>
    intro fuel target s hf h
    obtain ⟨fuel, rfl⟩ : ∃ n, fuel = n + 1 := ⟨fuel - 1, by omega⟩
    obtain ⟨r', e', h'⟩ := hasText_read D native h
    obtain ⟨r'', e'', h''⟩ := ih (fun y hy => hw y (by simp [hy])) (fun x hx => hi x (by simp [hx]))
      fuel (target ++ encU e c) { s with res := r' } (by simp at hf; omega) h'
    refine ⟨r'', ?_, h''⟩
    rw [takeWord, M.bind_ok (hasText_end D h)]
    simp only [List.isEmpty_cons, Bool.and_false, Bool.false_eq_true, if_false]
    rw [M.bind_ok e', hw c (by simp), if_neg (by simp), appendCP_enc e c (hi c (by simp)),
      M.bind_ok (M.lift_apply _ _), e'']
    simp

/-- A word with whitespace behind it. -/
theorem readWord_space (D : R.Delivers sizes tells left) (native : Endian) (e : Enc)
    (sp w : List Nat) (b : Nat) (rest : List Nat)
    (hsp : ∀ x ∈ sp, isWhitespace (BitVec.ofNat 32 x) = true) (hne : w ≠ [])
    (hw : ∀ x ∈ w, isWhitespace (BitVec.ofNat 32 x) = false)
    (hb : isWhitespace (BitVec.ofNat 32 b) = true) (hi : ∀ c ∈ w, InsOk e c)
    (fuel : Nat) (s : InStream ρ) (hf : sp.length + w.length < fuel)
    (h : HasText sizes tells left s (sp ++ w ++ b :: rest)) :
    ∃ r', readWord native R e fuel s = (.ok (encs e w), { s with res := r' }) ∧
      HasText sizes tells left { s with res := r' } rest := by
  cases w with
  | nil => simp at hne
  | cons c w =>
    have h1 : HasText sizes tells left s (sp ++ c :: (w ++ b :: rest)) := by simpa using h
    obtain ⟨r1, e1, q1⟩ := skipSpace_word D native e sp c _ hsp (hw c (by simp)) (hi c (by simp))
      fuel s (by omega) h1
    obtain ⟨r2, e2, q2⟩ := takeWord_space D native e w b rest (fun x hx => hw x (by simp [hx])) hb
      (fun x hx => hi x (by simp [hx])) fuel (encU e c) { s with res := r1 }
      (by simp at hf; omega) q1
    exact ⟨r2, by rw [readWord, M.bind_ok e1, e2, encs_cons], q2⟩

/-- A word at the end of the input. -/
theorem readWord_end (D : R.Delivers sizes true left) (native : Endian) (e : Enc)
    (sp w : List Nat) (hsp : ∀ x ∈ sp, isWhitespace (BitVec.ofNat 32 x) = true)
    (hw : ∀ x ∈ w, isWhitespace (BitVec.ofNat 32 x) = false) (hi : ∀ c ∈ w, InsOk e c)
    (fuel : Nat) (s : InStream ρ) (hf : sp.length + w.length < fuel)
    (h : HasText sizes true left s (sp ++ w)) :
    ∃ r', readWord native R e fuel s = (.ok (encs e w), { s with res := r' }) ∧
      HasText sizes true left { s with res := r' } [] := by
  cases w with
  | nil =>
    obtain ⟨r1, e1, q1⟩ := skipSpace_end D native e sp hsp fuel s (by omega) (by simpa using h)
    obtain ⟨r2, e2, q2⟩ := takeWord_end D native e [] (by simp) (by simp) fuel []
      { s with res := r1 } (by simp; omega) q1
    exact ⟨r2, by rw [readWord, M.bind_ok e1, e2]; simp, q2⟩
  | cons c w =>
    obtain ⟨r1, e1, q1⟩ := skipSpace_word D native e sp c _ hsp (hw c (by simp)) (hi c (by simp))
      fuel s (by omega) h
    obtain ⟨r2, e2, q2⟩ := takeWord_end D native e w (fun x hx => hw x (by simp [hx]))
      (fun x hx => hi x (by simp [hx])) fuel (encU e c) { s with res := r1 }
      (by simp at hf; omega) q1
    exact ⟨r2, by rw [readWord, M.bind_ok e1, e2, encs_cons], q2⟩

end InStream

end Cmp
