import Verif.Spec.Returns
import Verif.Props.TextExact
import Verif.Props.Copy
import Mathlib.Tactic.SplitIfs

/-
What lines, words, whole texts and copies give for every text: with carriage returns anywhere, and
with code points that the string type or the target refuses (C26, C54, C55, C56, C102).  The programs
catch the exception and go on reading.
-/

namespace Cmp

open InStream OutStream

theorem filt_eq_loseReturns (cs : List Nat) : filt cs = Spec.loseReturns cs := by
  fun_induction filt cs <;> simp_all [Spec.loseReturns]

theorem loseReturns_length (cs : List Nat) : (Spec.loseReturns cs).length ≤ cs.length := by
  fun_induction Spec.loseReturns cs <;> (simp_all; try omega)

theorem loseReturns_mem (cs : List Nat) : ∀ c ∈ Spec.loseReturns cs, c ∈ cs := by
  fun_induction Spec.loseReturns cs with
  | case1 => simp
  | case2 => simp
  | case3 d cs ih =>
    intro c hc
    rcases List.mem_cons.mp hc with rfl | hc
    · simp
    · simp [ih c hc]
  | case4 c d cs h ih =>
    intro x hx
    rcases List.mem_cons.mp hx with rfl | hx
    · simp
    · exact List.mem_cons_of_mem _ (ih x hx)

theorem loseReturns_keeps (cs : List Nat) : ∀ c ∈ cs, c ≠ 13 → c ∈ Spec.loseReturns cs := by
  fun_induction Spec.loseReturns cs with
  | case1 => simp
  | case2 => simp
  | case3 d cs ih =>
    intro c hc h13
    rcases List.mem_cons.mp hc with rfl | hc
    · exact absurd rfl h13
    · rcases List.mem_cons.mp hc with rfl | hc
      · simp
      · exact List.mem_cons_of_mem _ (ih c hc h13)
  | case4 c d cs h ih =>
    intro x hx h13
    rcases List.mem_cons.mp hx with rfl | hx
    · simp
    · exact List.mem_cons_of_mem _ (ih x hx h13)

/-- Code points that a string type refuses: those of `std::u8string` whose low 16 bits are a surrogate
value. -/
def Refused (e : Enc) (c : Nat) : Prop := e = .char8 ∧ LowSurrogate c

instance (e : Enc) : DecidablePred (Refused e) := fun c => by unfold Refused; infer_instance

/-- A call with `invalid_code_point` caught. -/
def tried {σ α : Type} (x : M σ α) : M σ (Option α) := fun s =>
  match x s with
  | (.ok a, s') => (.ok (some a), s')
  | (.throw .invalidCodePoint, s') => (.ok none, s')
  | (.throw ex, s') => (.throw ex, s')
  | (.terminate, s') => (.terminate, s')
  | (.ub, s') => (.ub, s')
  | (.hang, s') => (.hang, s')

theorem tried_ok {σ α : Type} {x : M σ α} {s s' : σ} {a : α} (h : x s = (.ok a, s')) :
    tried x s = (.ok (some a), s') := by
  rw [tried, h]

theorem tried_refused {σ α : Type} {x : M σ α} {s s' : σ}
    (h : x s = (.throw .invalidCodePoint, s')) : tried x s = (.ok none, s') := by
  rw [tried, h]

/-- A string type that is given only what it can hold or refuses. -/
theorem insOk_of_not_refused {e : Enc} {c : Nat} (hs : Spec.IsScalar c)
    (hn : e = .narrow → c < 128) (h : ¬ Refused e c) : InsOk e c := by
  cases e with
  | narrow => exact hn rfl
  | char8 => exact ⟨hs, fun hl => h ⟨rfl, hl⟩⟩
  | char16 => exact hs
  | wide2 => exact hs
  | char32 => exact isScalar_lt hs
  | wide4 => exact isScalar_lt hs

theorem appendCP_refused' {e : Enc} (s : Str e) {c : Nat} (hs : Spec.IsScalar c) (h : Refused e c) :
    appendCP e s (BitVec.ofNat 32 c) = .throw .invalidCodePoint := by
  obtain ⟨rfl, hl⟩ := h
  exact appendCP_refused s hs hl

theorem refused_ne {e : Enc} {c : Nat} (h : Refused e c) : c ≠ 10 := by
  rintro rfl
  exact absurd h.2 (by decide)

section Streams

variable {ρ : Type} {R : Reader ρ} {sizes : Nat → Prop} {tells : Bool}
  {left : List Byte → ρ → Prop}

/-- The loop of `append_line` up to a character that is refused. -/
theorem appendLine_refused (D : R.Delivers sizes tells left) (native : Endian) (e : Enc)
    (l : List Nat) (b : Nat) (rest : List Nat) (h10 : 10 ∉ l) (hi : ∀ c ∈ l, InsOk e c)
    (hb : Refused e b) :
    ∀ (fuel : Nat) (target : Str e) (s : InStream ρ), l.length < fuel →
      HasText sizes tells left s (l ++ b :: rest) →
      ∃ r', appendLine native R e fuel target s = (.throw .invalidCodePoint, { s with res := r' }) ∧
        HasText sizes tells left { s with res := r' } rest := by
  induction l with
  | nil =>
    intro fuel target s hf h
    obtain ⟨fuel, rfl⟩ : ∃ n, fuel = n + 1 := ⟨fuel - 1, by omega⟩
    have hc : Spec.IsScalar b := h.text b (by simp)
    obtain ⟨r', e', h'⟩ := hasText_read D native h
    refine ⟨r', ?_, h'⟩
    rw [appendLine, M.bind_ok (hasText_end D h)]
    simp only [List.nil_append, List.isEmpty_cons, Bool.and_false, Bool.false_eq_true, if_false]
    rw [M.bind_ok e', if_neg (by
      intro h
      exact refused_ne hb ((ofNat32_inj (isScalar_lt hc) (by omega)).mp h)), appendCP_refused' _ hc hb]
    rfl
  | cons c l ih =>
    intro fuel target s hf h
    obtain ⟨fuel, rfl⟩ : ∃ n, fuel = n + 1 := ⟨fuel - 1, by omega⟩
    have hc : Spec.IsScalar c := h.text c (by simp)
    obtain ⟨r', e', h'⟩ := hasText_read D native h
    obtain ⟨r'', e'', h''⟩ := ih (fun x => h10 (by simp [x])) (fun x hx => hi x (by simp [hx])) fuel
      (target ++ encU e c) { s with res := r' } (by simp at hf; omega) h'
    refine ⟨r'', ?_, h''⟩
    rw [appendLine, M.bind_ok (hasText_end D h)]
    simp only [List.cons_append, List.isEmpty_cons, Bool.and_false, Bool.false_eq_true, if_false]
    rw [M.bind_ok e', if_neg (by
      intro h
      have := (ofNat32_inj (isScalar_lt hc) (by omega)).mp h
      subst this
      simp at h10), appendCP_enc e c (hi c (by simp)), M.bind_ok (M.lift_apply _ _), e'']

/-- The loop of `append_all` up to a character that is refused. -/
theorem appendAll_refused (D : R.Delivers sizes tells left) (native : Endian) (e : Enc)
    (l : List Nat) (b : Nat) (rest : List Nat) (hi : ∀ c ∈ l, InsOk e c) (hb : Refused e b) :
    ∀ (fuel : Nat) (target : Str e) (s : InStream ρ), l.length < fuel →
      HasText sizes tells left s (l ++ b :: rest) →
      ∃ r', appendAll native R e fuel target s = (.throw .invalidCodePoint, { s with res := r' }) ∧
        HasText sizes tells left { s with res := r' } rest := by
  induction l with
  | nil =>
    intro fuel target s hf h
    obtain ⟨fuel, rfl⟩ : ∃ n, fuel = n + 1 := ⟨fuel - 1, by omega⟩
    have hc : Spec.IsScalar b := h.text b (by simp)
    obtain ⟨r', e', h'⟩ := hasText_read D native h
    refine ⟨r', ?_, h'⟩
    rw [appendAll, M.bind_ok (hasText_end D h)]
    simp only [List.nil_append, List.isEmpty_cons, Bool.and_false, Bool.false_eq_true, if_false]
    rw [M.bind_ok e', appendCP_refused' _ hc hb]
    rfl
  | cons c l ih =>
    intro fuel target s hf h
    obtain ⟨fuel, rfl⟩ : ∃ n, fuel = n + 1 := ⟨fuel - 1, by omega⟩
    obtain ⟨r', e', h'⟩ := hasText_read D native h
    obtain ⟨r'', e'', h''⟩ := ih (fun x hx => hi x (by simp [hx])) fuel
      (target ++ encU e c) { s with res := r' } (by simp at hf; omega) h'
    refine ⟨r'', ?_, h''⟩
    rw [appendAll, M.bind_ok (hasText_end D h)]
    simp only [List.cons_append, List.isEmpty_cons, Bool.and_false, Bool.false_eq_true, if_false]
    rw [M.bind_ok e', appendCP_enc e c (hi c (by simp)), M.bind_ok (M.lift_apply _ _), e'']

/-- A refused character in front of a word. -/
theorem skipSpace_refused (D : R.Delivers sizes tells left) (native : Endian) (e : Enc)
    (sp : List Nat) (b : Nat) (rest : List Nat)
    (hsp : ∀ x ∈ sp, isWhitespace (BitVec.ofNat 32 x) = true)
    (hw : isWhitespace (BitVec.ofNat 32 b) = false) (hb : Refused e b) :
    ∀ (fuel : Nat) (s : InStream ρ), sp.length < fuel →
      HasText sizes tells left s (sp ++ b :: rest) →
      ∃ r', skipSpace native R e fuel s = (.throw .invalidCodePoint, { s with res := r' }) ∧
        HasText sizes tells left { s with res := r' } rest := by
  induction sp with
  | nil =>
    intro fuel s hf h
    obtain ⟨fuel, rfl⟩ : ∃ n, fuel = n + 1 := ⟨fuel - 1, by omega⟩
    have hc : Spec.IsScalar b := h.text b (by simp)
    obtain ⟨r', e', h'⟩ := hasText_read D native h
    refine ⟨r', ?_, h'⟩
    rw [skipSpace, M.bind_ok (hasText_end D h)]
    simp only [List.nil_append, List.isEmpty_cons, Bool.and_false, Bool.false_eq_true, if_false]
    rw [M.bind_ok e', hw, if_neg (by simp), appendCP_refused' _ hc hb]
    rfl
  | cons x sp ih =>
    intro fuel s hf h
    obtain ⟨fuel, rfl⟩ : ∃ n, fuel = n + 1 := ⟨fuel - 1, by omega⟩
    obtain ⟨r', e', h'⟩ := hasText_read D native h
    obtain ⟨r'', e'', h''⟩ := ih (fun y hy => hsp y (by simp [hy])) fuel { s with res := r' }
      (by simp at hf; omega) h'
    refine ⟨r'', ?_, h''⟩
    rw [skipSpace, M.bind_ok (hasText_end D h)]
    simp only [List.cons_append, List.isEmpty_cons, Bool.and_false, Bool.false_eq_true, if_false]
    rw [M.bind_ok e', hsp x (by simp), if_pos rfl, e'']

/-- The rest of a word up to a character that is refused. -/
theorem takeWord_refused (D : R.Delivers sizes tells left) (native : Endian) (e : Enc)
    (w : List Nat) (b : Nat) (rest : List Nat)
    (hw : ∀ x ∈ w, isWhitespace (BitVec.ofNat 32 x) = false)
    (hbw : isWhitespace (BitVec.ofNat 32 b) = false) (hi : ∀ c ∈ w, InsOk e c) (hb : Refused e b) :
    ∀ (fuel : Nat) (target : Str e) (s : InStream ρ), w.length < fuel →
      HasText sizes tells left s (w ++ b :: rest) →
      ∃ r', takeWord native R e fuel target s = (.throw .invalidCodePoint, { s with res := r' }) ∧
        HasText sizes tells left { s with res := r' } rest := by
  induction w with
  | nil =>
    intro fuel target s hf h
    obtain ⟨fuel, rfl⟩ : ∃ n, fuel = n + 1 := ⟨fuel - 1, by omega⟩
    have hc : Spec.IsScalar b := h.text b (by simp)
    obtain ⟨r', e', h'⟩ := hasText_read D native h
    refine ⟨r', ?_, h'⟩
    rw [takeWord, M.bind_ok (hasText_end D h)]
    simp only [List.nil_append, List.isEmpty_cons, Bool.and_false, Bool.false_eq_true, if_false]
    rw [M.bind_ok e', hbw, if_neg (by simp), appendCP_refused' _ hc hb]
    rfl
  | cons c w ih =>
    intro fuel target s hf h
    obtain ⟨fuel, rfl⟩ : ∃ n, fuel = n + 1 := ⟨fuel - 1, by omega⟩
    obtain ⟨r', e', h'⟩ := hasText_read D native h
    obtain ⟨r'', e'', h''⟩ := ih (fun y hy => hw y (by simp [hy])) (fun x hx => hi x (by simp [hx]))
      fuel (target ++ encU e c) { s with res := r' } (by simp at hf; omega) h'
    refine ⟨r'', ?_, h''⟩
    rw [takeWord, M.bind_ok (hasText_end D h)]
    simp only [List.cons_append, List.isEmpty_cons, Bool.and_false, Bool.false_eq_true, if_false]
    rw [M.bind_ok e', hw c (by simp), if_neg (by simp), appendCP_enc e c (hi c (by simp)),
      M.bind_ok (M.lift_apply _ _), e'']

/-- A word with a refused character in it. -/
theorem readWord_refused (D : R.Delivers sizes tells left) (native : Endian) (e : Enc)
    (sp w : List Nat) (b : Nat) (rest : List Nat)
    (hsp : ∀ x ∈ sp, isWhitespace (BitVec.ofNat 32 x) = true)
    (hw : ∀ x ∈ w, isWhitespace (BitVec.ofNat 32 x) = false)
    (hbw : isWhitespace (BitVec.ofNat 32 b) = false) (hi : ∀ c ∈ w, InsOk e c) (hb : Refused e b)
    (fuel : Nat) (s : InStream ρ) (hf : sp.length + w.length < fuel)
    (h : HasText sizes tells left s (sp ++ w ++ b :: rest)) :
    ∃ r', readWord native R e fuel s = (.throw .invalidCodePoint, { s with res := r' }) ∧
      HasText sizes tells left { s with res := r' } rest := by
  cases w with
  | nil =>
    obtain ⟨r1, e1, q1⟩ := skipSpace_refused D native e sp b rest hsp hbw hb fuel s (by omega)
      (by simpa using h)
    exact ⟨r1, by rw [readWord, M.bind_apply, e1], q1⟩
  | cons c w =>
    have h1 : HasText sizes tells left s (sp ++ c :: (w ++ b :: rest)) := by simpa using h
    obtain ⟨r1, e1, q1⟩ := skipSpace_word D native e sp c _ hsp (hw c (by simp)) (hi c (by simp))
      fuel s (by omega) h1
    obtain ⟨r2, e2, q2⟩ := takeWord_refused D native e w b rest (fun x hx => hw x (by simp [hx])) hbw
      (fun x hx => hi x (by simp [hx])) hb fuel (encU e c) { s with res := r1 }
      (by simp at hf; omega) q1
    exact ⟨r2, by rw [readWord, M.bind_ok e1, e2], q2⟩

/-! ### C54 -/

theorem linesTried_append (P : Nat → Prop) [DecidablePred P] (l ts : List Nat)
    (h10 : 10 ∉ l) (hl : ∀ c ∈ l, ¬ P c) :
    ∀ sofar, Spec.linesTried P sofar (l ++ ts) = Spec.linesTried P (sofar ++ l) ts := by
  induction l with
  | nil => simp
  | cons c l ih =>
    intro sofar
    rw [List.cons_append, Spec.linesTried, if_neg (by rintro rfl; simp at h10),
      if_neg (hl c (by simp)), ih (fun h => h10 (by simp [h])) (fun x hx => hl x (by simp [hx]))]
    simp

theorem readLines_tried (D : R.Delivers sizes true left) (native : Endian) (e : Enc) (fuel : Nat)
    (n : Nat) : ∀ (ts : List Nat) (s : InStream ρ), ts.length ≤ n → ts.length < fuel →
      (e = .narrow → ∀ c ∈ ts, c < 128) → HasText sizes true left s ts →
      ∃ r', M.runList (fun _ => tried (readLine native R e fuel))
            (List.replicate (Spec.linesTried (Refused e) [] ts).length ()) s
          = (.ok ((Spec.linesTried (Refused e) [] ts).map (Option.map (encs e))),
              { s with res := r' })
        ∧ HasText sizes true left { s with res := r' } [] := by
  induction n with
  | zero =>
    intro ts s hn hf ha h
    have : ts = [] := List.length_eq_zero_iff.mp (by omega)
    subst this
    obtain ⟨r, e1, q⟩ := appendLine_end D native e [] (by simp) (by simp) fuel [] s (by simpa using hf) h
    exact ⟨r, M.runList_cons (tried_ok e1) (M.runList_nil _ _), q⟩
  | succ n ih =>
    intro ts s hn hf ha h
    have hins : ∀ c ∈ ts, ¬ Refused e c → InsOk e c := fun c hc =>
      insOk_of_not_refused (h.text c hc) (fun hh => ha hh c hc)
    rcases split_first (fun c => c ≠ 10 ∧ ¬ Refused e c) ts with hl | ⟨l, b, rest, rfl, hl, hb⟩
    · have e0 : Spec.linesTried (Refused e) [] ts = [some ts] := by
        have := linesTried_append (Refused e) ts [] (fun hh => (hl 10 hh).1 rfl)
          (fun c hc => (hl c hc).2) []
        rw [List.append_nil] at this
        rw [this]
        rfl
      obtain ⟨r, e1, q⟩ := appendLine_end D native e ts (fun hh => (hl 10 hh).1 rfl)
        (fun c hc => hins c hc (hl c hc).2) fuel [] s hf h
      rw [e0]
      exact ⟨r, M.runList_cons (tried_ok e1) (M.runList_nil _ _), q⟩
    · have h10 : 10 ∉ l := fun hh => (hl 10 hh).1 rfl
      have e0 := linesTried_append (Refused e) l (b :: rest) h10 (fun c hc => (hl c hc).2) []
      rw [List.length_append, List.length_cons] at hn hf
      have hi : ∀ c ∈ l, InsOk e c := fun c hc => hins c (by simp [hc]) (hl c hc).2
      by_cases hb10 : b = 10
      · subst hb10
        rw [e0, Spec.linesTried, if_pos rfl]
        obtain ⟨r1, e1, q1⟩ := appendLine_lf D native e l rest h10 hi fuel [] s (by omega) h
        obtain ⟨r2, e2, q2⟩ := ih rest _ (by omega) (by omega) (fun hh c hc => ha hh c (by simp [hc])) q1
        exact ⟨r2, M.runList_cons (tried_ok e1) e2, q2⟩
      · have hbr : Refused e b := by
          by_contra hh
          exact hb ⟨hb10, hh⟩
        rw [e0, Spec.linesTried, if_neg hb10, if_pos hbr]
        obtain ⟨r1, e1, q1⟩ := appendLine_refused D native e l b rest h10 hi hbr fuel [] s (by omega) h
        obtain ⟨r2, e2, q2⟩ := ih rest _ (by omega) (by omega) (fun hh c hc => ha hh c (by simp [hc])) q1
        exact ⟨r2, M.runList_cons (tried_refused e1) e2, q2⟩

/-! ### C55 -/

theorem allTried_append (P : Nat → Prop) [DecidablePred P] (l ts : List Nat) (hl : ∀ c ∈ l, ¬ P c) :
    ∀ sofar, Spec.allTried P sofar (l ++ ts) = Spec.allTried P (sofar ++ l) ts := by
  induction l with
  | nil => simp
  | cons c l ih =>
    intro sofar
    rw [List.cons_append, Spec.allTried, if_neg (hl c (by simp)), ih (fun x hx => hl x (by simp [hx]))]
    simp

theorem readAlls_tried (D : R.Delivers sizes true left) (native : Endian) (e : Enc) (fuel : Nat)
    (n : Nat) : ∀ (ts : List Nat) (s : InStream ρ), ts.length ≤ n → ts.length < fuel →
      (e = .narrow → ∀ c ∈ ts, c < 128) → HasText sizes true left s ts →
      ∃ r', M.runList (fun _ => tried (readAll native R e fuel))
            (List.replicate (Spec.allTried (Refused e) [] ts).length ()) s
          = (.ok ((Spec.allTried (Refused e) [] ts).map (Option.map (encs e))), { s with res := r' })
        ∧ HasText sizes true left { s with res := r' } [] := by
  induction n with
  | zero =>
    intro ts s hn hf ha h
    have : ts = [] := List.length_eq_zero_iff.mp (by omega)
    subst this
    obtain ⟨r, e1, q⟩ := appendAll_end D native e [] (by simp) fuel [] s (by simpa using hf) h
    exact ⟨r, M.runList_cons (tried_ok e1) (M.runList_nil _ _), q⟩
  | succ n ih =>
    intro ts s hn hf ha h
    have hins : ∀ c ∈ ts, ¬ Refused e c → InsOk e c := fun c hc =>
      insOk_of_not_refused (h.text c hc) (fun hh => ha hh c hc)
    rcases split_first (fun c => ¬ Refused e c) ts with hl | ⟨l, b, rest, rfl, hl, hb⟩
    · have e0 : Spec.allTried (Refused e) [] ts = [some ts] := by
        have := allTried_append (Refused e) ts [] hl []
        rw [List.append_nil] at this
        rw [this]
        rfl
      obtain ⟨r, e1, q⟩ := appendAll_end D native e ts (fun c hc => hins c hc (hl c hc)) fuel [] s hf h
      rw [e0]
      exact ⟨r, M.runList_cons (tried_ok e1) (M.runList_nil _ _), q⟩
    · have e0 := allTried_append (Refused e) l (b :: rest) hl []
      rw [List.length_append, List.length_cons] at hn hf
      have hi : ∀ c ∈ l, InsOk e c := fun c hc => hins c (by simp [hc]) (hl c hc)
      have hbr : Refused e b := not_not.mp hb
      rw [e0, Spec.allTried, if_pos hbr]
      obtain ⟨r1, e1, q1⟩ := appendAll_refused D native e l b rest hi hbr fuel [] s (by omega) h
      obtain ⟨r2, e2, q2⟩ := ih rest _ (by omega) (by omega) (fun hh c hc => ha hh c (by simp [hc])) q1
      exact ⟨r2, M.runList_cons (tried_refused e1) e2, q2⟩

/-! ### C56 -/

section

variable (S P : Nat → Prop) [DecidablePred S] [DecidablePred P]

theorem wordsTried_seps (l ts : List Nat) (hl : ∀ c ∈ l, S c) :
    Spec.wordsTried S P [] (l ++ ts) = Spec.wordsTried S P [] ts := by
  induction l with
  | nil => rfl
  | cons c l ih =>
    rw [List.cons_append, Spec.wordsTried, if_pos (hl c (by simp)), if_pos rfl,
      ih (fun x hx => hl x (by simp [hx]))]

theorem wordsTried_word (l ts : List Nat) (hs : ∀ c ∈ l, ¬ S c) (hp : ∀ c ∈ l, ¬ P c) :
    ∀ sofar, Spec.wordsTried S P sofar (l ++ ts) = Spec.wordsTried S P (sofar ++ l) ts := by
  induction l with
  | nil => simp
  | cons c l ih =>
    intro sofar
    rw [List.cons_append, Spec.wordsTried, if_neg (hs c (by simp)), if_neg (hp c (by simp)),
      ih (fun x hx => hs x (by simp [hx])) (fun x hx => hp x (by simp [hx]))]
    simp

end

theorem readWords_tried (D : R.Delivers sizes true left) (native : Endian) (e : Enc) (fuel : Nat)
    (n : Nat) : ∀ (ts : List Nat) (s : InStream ρ), ts.length ≤ n → ts.length < fuel →
      (e = .narrow → ∀ c ∈ ts, c < 128) → HasText sizes true left s ts →
      ∃ r', M.runList (fun _ => tried (readWord native R e fuel))
            (List.replicate (Spec.wordsTried Spec.IsWhiteSpace (Refused e) [] ts).length ()) s
          = (.ok ((Spec.wordsTried Spec.IsWhiteSpace (Refused e) [] ts).map (Option.map (encs e))),
              { s with res := r' })
        ∧ HasText sizes true left { s with res := r' } [] := by
  have htail : ∀ (s : InStream ρ), 0 < fuel → HasText sizes true left s [] →
      ∃ r', M.runList (fun _ => tried (readWord native R e fuel)) (List.replicate 1 ()) s =
        (.ok [some []], { s with res := r' }) ∧ HasText sizes true left { s with res := r' } [] := by
    intro s hf h
    obtain ⟨r, e', q⟩ := readWord_end D native e [] [] (by simp) (by simp) (by simp) fuel s
      (by simp; omega) h
    exact ⟨r, M.runList_cons (tried_ok e') (M.runList_nil _ _), q⟩
  induction n with
  | zero =>
    intro ts s hn hf ha h
    have : ts = [] := List.length_eq_zero_iff.mp (by omega)
    subst this
    exact htail s (by omega) h
  | succ n ih =>
    intro ts s hn hf ha h
    have hins : ∀ c ∈ ts, ¬ Refused e c → InsOk e c := fun c hc =>
      insOk_of_not_refused (h.text c hc) (fun hh => ha hh c hc)
    have hsp : ∀ c ∈ ts, Spec.IsWhiteSpace c → isWhitespace (BitVec.ofNat 32 c) = true :=
      fun c hc hw => (isWhitespace_iff c (isScalar_lt (h.text c hc))).mpr hw
    have hns : ∀ c ∈ ts, ¬ Spec.IsWhiteSpace c → isWhitespace (BitVec.ofNat 32 c) = false :=
      fun c hc hw => by
        rw [← Bool.not_eq_true, isWhitespace_iff c (isScalar_lt (h.text c hc))]
        exact hw
    -- the whitespace in front
    obtain ⟨sp, us, rfl, hs, hus⟩ : ∃ sp us, ts = sp ++ us ∧ (∀ c ∈ sp, Spec.IsWhiteSpace c)
        ∧ ∀ c us', us = c :: us' → ¬ Spec.IsWhiteSpace c := by
      rcases split_first Spec.IsWhiteSpace ts with hl | ⟨sp, c, us, rfl, hl, hc⟩
      · exact ⟨ts, [], by simp, hl, by simp⟩
      · refine ⟨sp, c :: us, rfl, hl, ?_⟩
        intro c' us' hh
        injection hh with h1 h2
        exact h1 ▸ hc
    rw [wordsTried_seps _ _ sp us hs]
    rw [List.length_append] at hn hf
    rcases split_first (fun c => ¬ Spec.IsWhiteSpace c ∧ ¬ Refused e c) us with
      hl | ⟨w, b, rest, rfl, hl, hb⟩
    · obtain ⟨r1, e1, q1⟩ := readWord_end D native e sp us (fun c hc => hsp c (by simp [hc]) (hs c hc))
        (fun c hc => hns c (by simp [hc]) (hl c hc).1) (fun c hc => hins c (by simp [hc]) (hl c hc).2)
        fuel s hf h
      have e0 := wordsTried_word Spec.IsWhiteSpace (Refused e) us [] (fun c hc => (hl c hc).1)
        (fun c hc => (hl c hc).2) []
      rw [List.append_nil] at e0
      rw [e0, List.nil_append, Spec.wordsTried]
      by_cases hne : us = []
      · subst hne
        rw [if_pos rfl]
        exact ⟨r1, M.runList_cons (tried_ok e1) (M.runList_nil _ _), q1⟩
      · rw [if_neg hne]
        obtain ⟨r2, e2, q2⟩ := htail _ (by omega) q1
        exact ⟨r2, M.runList_cons (tried_ok e1) e2, q2⟩
    · have e0 := wordsTried_word Spec.IsWhiteSpace (Refused e) w (b :: rest) (fun c hc => (hl c hc).1)
        (fun c hc => (hl c hc).2) []
      rw [List.length_append, List.length_cons] at hn hf
      have h' : HasText sizes true left s (sp ++ w ++ b :: rest) := by simpa using h
      have hsp' : ∀ c ∈ sp, isWhitespace (BitVec.ofNat 32 c) = true :=
        fun c hc => hsp c (by simp [hc]) (hs c hc)
      have hw' : ∀ c ∈ w, isWhitespace (BitVec.ofNat 32 c) = false :=
        fun c hc => hns c (by simp [hc]) (hl c hc).1
      have hi' : ∀ c ∈ w, InsOk e c := fun c hc => hins c (by simp [hc]) (hl c hc).2
      have ha' : e = .narrow → ∀ c ∈ rest, c < 128 := fun hh c hc => ha hh c (by simp [hc])
      rw [e0, List.nil_append, Spec.wordsTried]
      by_cases hbs : Spec.IsWhiteSpace b
      · have hne : w ≠ [] := by
          rintro rfl
          exact hus b rest rfl hbs
        rw [if_pos hbs, if_neg hne]
        obtain ⟨r1, e1, q1⟩ := readWord_space D native e sp w b rest hsp' hne hw'
          (hsp b (by simp) hbs) hi' fuel s (by omega) h'
        obtain ⟨r2, e2, q2⟩ := ih rest _ (by omega) (by omega) ha' q1
        exact ⟨r2, M.runList_cons (tried_ok e1) e2, q2⟩
      · have hbr : Refused e b := by
          by_contra hh
          exact hb ⟨hbs, hh⟩
        rw [if_neg hbs, if_pos hbr]
        obtain ⟨r1, e1, q1⟩ := readWord_refused D native e sp w b rest hsp' hw'
          (hns b (by simp) hbs) hi' hbr fuel s (by omega) h'
        obtain ⟨r2, e2, q2⟩ := ih rest _ (by omega) (by omega) ha' q1
        exact ⟨r2, M.runList_cons (tried_refused e1) e2, q2⟩

end Streams

section All

variable (S P Q : Nat → Prop) [DecidablePred S] [DecidablePred P]

theorem linesTried_all : ∀ ts sofar : List Nat, (∀ c ∈ sofar, Q c) → (∀ c ∈ ts, Q c) →
    ∀ l, some l ∈ Spec.linesTried P sofar ts → ∀ c ∈ l, Q c := by
  intro ts
  induction ts with
  | nil =>
    intro sofar h _ l hl
    simp only [Spec.linesTried, List.mem_singleton, Option.some.injEq] at hl
    exact hl ▸ h
  | cons t ts ih =>
    intro sofar h ht l hl
    have ht' : ∀ c ∈ ts, Q c := fun c hc => ht c (by simp [hc])
    rw [Spec.linesTried] at hl
    split_ifs at hl
    · rcases List.mem_cons.mp hl with hl | hl
      · injection hl with hl
        exact hl ▸ h
      · exact ih [] (by simp) ht' l hl
    · exact ih [] (by simp) ht' l (by simpa using hl)
    · refine ih _ (fun c hc => ?_) ht' l hl
      rcases List.mem_append.mp hc with hc | hc
      · exact h c hc
      · exact ht c (by simpa using Or.inl (List.mem_singleton.mp hc))

theorem allTried_all : ∀ ts sofar : List Nat, (∀ c ∈ sofar, Q c) → (∀ c ∈ ts, Q c) →
    ∀ l, some l ∈ Spec.allTried P sofar ts → ∀ c ∈ l, Q c := by
  intro ts
  induction ts with
  | nil =>
    intro sofar h _ l hl
    simp only [Spec.allTried, List.mem_singleton, Option.some.injEq] at hl
    exact hl ▸ h
  | cons t ts ih =>
    intro sofar h ht l hl
    have ht' : ∀ c ∈ ts, Q c := fun c hc => ht c (by simp [hc])
    rw [Spec.allTried] at hl
    split_ifs at hl
    · exact ih [] (by simp) ht' l (by simpa using hl)
    · refine ih _ (fun c hc => ?_) ht' l hl
      rcases List.mem_append.mp hc with hc | hc
      · exact h c hc
      · exact ht c (by simpa using Or.inl (List.mem_singleton.mp hc))

theorem wordsTried_all : ∀ ts sofar : List Nat, (∀ c ∈ sofar, Q c) → (∀ c ∈ ts, Q c) →
    ∀ l, some l ∈ Spec.wordsTried S P sofar ts → ∀ c ∈ l, Q c := by
  intro ts
  induction ts with
  | nil =>
    intro sofar h _ l hl
    rw [Spec.wordsTried] at hl
    split_ifs at hl
    · simp at hl
      simp [hl]
    · simp at hl
      rcases hl with rfl | rfl
      · exact h
      · simp
  | cons t ts ih =>
    intro sofar h ht l hl
    have ht' : ∀ c ∈ ts, Q c := fun c hc => ht c (by simp [hc])
    rw [Spec.wordsTried] at hl
    split_ifs at hl
    · exact ih [] (by simp) ht' l hl
    · rcases List.mem_cons.mp hl with hl | hl
      · injection hl with hl
        exact hl ▸ h
      · exact ih [] (by simp) ht' l hl
    · exact ih [] (by simp) ht' l (by simpa using hl)
    · refine ih _ (fun c hc => ?_) ht' l hl
      rcases List.mem_append.mp hc with hc | hc
      · exact h c hc
      · exact ht c (by simpa using Or.inl (List.mem_singleton.mp hc))

end All

/-- The code units of strings that were read. -/
theorem units_tried (e : Enc) (os : List (Option (List Nat))) (ts : List Nat) (ht : Spec.IsText ts)
    (hn : e = .narrow → ∀ c ∈ ts, c < 128) (h : ∀ l, some l ∈ os → ∀ c ∈ l, c ∈ ts) :
    (os.map (Option.map (encs e))).map (Option.map units) = os.map (Option.map e.form.encode) := by
  rw [List.map_map]
  apply List.map_congr_left
  intro o ho
  cases o with
  | none => rfl
  | some l =>
    simp only [Function.comp_apply, Option.map_some, Option.some.injEq]
    exact units_encs e l (fun c hc => ht c (h l ho c hc)) (fun hh c hc => hn hh c (h l ho c hc))

section

variable {ρ : Type} {R : Reader ρ} {sizes : Nat → Prop} {left : List Byte → ρ → Prop}

/-- Lines of every text from every resource that knows its end: with carriage returns anywhere and
with characters that the string type refuses.  A `std::string` is given ASCII.  The program goes on
reading lines when an exception has told that a character is refused; at the end nothing is left. -/
theorem C54_exact (D : R.Delivers sizes true left) (native : Endian) (s : InStream ρ)
    (hs : sizes s.form.form.unitSize) (e : Enc) (fuel : Nat) (cs : List Nat) (ht : Spec.IsText cs)
    (hn : e = .narrow → ∀ c ∈ cs, c < 128) (hfuel : cs.length < fuel)
    (h : left (asBytes (s.form.form.serialize s.endian.order cs)) s.res) :
    ∃ strings s', M.runList (fun _ => tried (readLine native R e fuel))
        (List.replicate (Spec.linesTried (Refused e) [] (Spec.loseReturns cs)).length ()) s
        = (.ok strings, s')
      ∧ strings.map (Option.map units)
        = (Spec.linesTried (Refused e) [] (Spec.loseReturns cs)).map (Option.map e.form.encode)
      ∧ InStream.isAtEnd R s' = (.ok true, s') := by
  have hm := loseReturns_mem cs
  have ht' : Spec.IsText (Spec.loseReturns cs) := fun c hc => ht c (hm c hc)
  have hn' : e = .narrow → ∀ c ∈ Spec.loseReturns cs, c < 128 := fun hh c hc => hn hh c (hm c hc)
  obtain ⟨r, e1, q⟩ := readLines_tried D native e fuel _ (Spec.loseReturns cs) s (Nat.le_refl _)
    (Nat.lt_of_le_of_lt (loseReturns_length cs) hfuel) hn'
    ⟨hs, cs, ht, .inl rfl, filt_eq_loseReturns cs, h⟩
  exact ⟨_, _, e1, units_tried e _ _ ht' hn' (linesTried_all _ _ _ _ (by simp) (fun c hc => hc)),
    hasText_end D q⟩

/-- All that is left of a stream, for every text from every resource that knows its end.  Where the
string type refuses nothing of it, one attempt gives the whole text without the lost carriage
returns. -/
theorem C55_exact (D : R.Delivers sizes true left) (native : Endian) (s : InStream ρ)
    (hs : sizes s.form.form.unitSize) (e : Enc) (fuel : Nat) (cs : List Nat) (ht : Spec.IsText cs)
    (hn : e = .narrow → ∀ c ∈ cs, c < 128) (hfuel : cs.length < fuel)
    (h : left (asBytes (s.form.form.serialize s.endian.order cs)) s.res) :
    ∃ strings s', M.runList (fun _ => tried (readAll native R e fuel))
        (List.replicate (Spec.allTried (Refused e) [] (Spec.loseReturns cs)).length ()) s
        = (.ok strings, s')
      ∧ strings.map (Option.map units)
        = (Spec.allTried (Refused e) [] (Spec.loseReturns cs)).map (Option.map e.form.encode)
      ∧ InStream.isAtEnd R s' = (.ok true, s') := by
  have hm := loseReturns_mem cs
  have ht' : Spec.IsText (Spec.loseReturns cs) := fun c hc => ht c (hm c hc)
  have hn' : e = .narrow → ∀ c ∈ Spec.loseReturns cs, c < 128 := fun hh c hc => hn hh c (hm c hc)
  obtain ⟨r, e1, q⟩ := readAlls_tried D native e fuel _ (Spec.loseReturns cs) s (Nat.le_refl _)
    (Nat.lt_of_le_of_lt (loseReturns_length cs) hfuel) hn'
    ⟨hs, cs, ht, .inl rfl, filt_eq_loseReturns cs, h⟩
  exact ⟨_, _, e1, units_tried e _ _ ht' hn' (allTried_all _ _ _ _ (by simp) (fun c hc => hc)),
    hasText_end D q⟩

/-- Words of every text from every resource that knows its end. -/
theorem C56_exact (D : R.Delivers sizes true left) (native : Endian) (s : InStream ρ)
    (hs : sizes s.form.form.unitSize) (e : Enc) (fuel : Nat) (cs : List Nat) (ht : Spec.IsText cs)
    (hn : e = .narrow → ∀ c ∈ cs, c < 128) (hfuel : cs.length < fuel)
    (h : left (asBytes (s.form.form.serialize s.endian.order cs)) s.res) :
    ∃ strings s', M.runList (fun _ => tried (readWord native R e fuel))
        (List.replicate
          (Spec.wordsTried Spec.IsWhiteSpace (Refused e) [] (Spec.loseReturns cs)).length ()) s
        = (.ok strings, s')
      ∧ strings.map (Option.map units)
        = (Spec.wordsTried Spec.IsWhiteSpace (Refused e) [] (Spec.loseReturns cs)).map
          (Option.map e.form.encode)
      ∧ InStream.isAtEnd R s' = (.ok true, s') := by
  have hm := loseReturns_mem cs
  have ht' : Spec.IsText (Spec.loseReturns cs) := fun c hc => ht c (hm c hc)
  have hn' : e = .narrow → ∀ c ∈ Spec.loseReturns cs, c < 128 := fun hh c hc => hn hh c (hm c hc)
  obtain ⟨r, e1, q⟩ := readWords_tried D native e fuel _ (Spec.loseReturns cs) s (Nat.le_refl _)
    (Nat.lt_of_le_of_lt (loseReturns_length cs) hfuel) hn'
    ⟨hs, cs, ht, .inl rfl, filt_eq_loseReturns cs, h⟩
  exact ⟨_, _, e1, units_tried e _ _ ht' hn' (wordsTried_all _ _ _ _ _ (by simp) (fun c hc => hc)),
    hasText_end D q⟩

end

/-- The hypotheses are met by containers: `a CR b U+1D800 c LF d CR` in UTF-16, of which a
`std::u8string` refuses one character. -/
example : Spec.IsText [0x61, 13, 0x62, 0x1D800, 0x63, 10, 0x64, 13]
    ∧ (∀ c ∈ [0x61, 13, 0x62, 0x1D800, 0x63, 10, 0x64, 13], Refused .char8 c ↔ c = 0x1D800)
    ∧ RoomFor .utf16 4
    ∧ Spec.linesTried (Refused .char8) [] (Spec.loseReturns [0x61, 13, 0x62, 0x1D800, 0x63, 10, 0x64, 13])
      = [none, some [0x63], some [0x64, 13]]
    ∧ Spec.allTried (Refused .char8) [] (Spec.loseReturns [0x61, 13, 0x62, 0x1D800, 0x63, 10, 0x64, 13])
      = [none, some [0x63, 10, 0x64, 13]]
    ∧ Spec.wordsTried Spec.IsWhiteSpace (Refused .char32) []
      (Spec.loseReturns [0x61, 13, 0x62, 0x1D800, 0x63, 10, 0x64, 13])
      = [some [0x61, 0x62, 0x1D800, 0x63], some [0x64], some []] := by
  refine ⟨by unfold Spec.IsText; decide, by decide, by decide, by decide, by decide, by decide⟩

example : received 4 (asBytes (EncodingForm.utf16.form.serialize Endian.big.order
      [0x61, 13, 0x62, 0x1D800, 0x63, 10, 0x64, 13])) .big .utf16
      (M.runList (fun _ => tried (readLine .little Ctr.reader .char8 10)) [(), (), ()])
    = .ok [none, some [0x63#8], some [0x64#8, 13#8]] := by
  decide +kernel

example (cap : Nat) (o : Endian) (form : EncodingForm) (hcap : RoomFor form cap) (cs : List Nat) :
    (fun n => n ≤ cap ∨ cap = 0) form.form.unitSize
    ∧ (fun bs r => ∃ p, bs = (textBytes form o cs).drop p ∧
        Ctr.Reading cap (textBytes form o cs) 1 p r)
      (asBytes (form.form.serialize o.order cs)) (freshCtr cap 1 (textBytes form o cs)) :=
  ⟨hcap, Ctr.left_fresh cap 1 _⟩

/-! ### C102 -/

section

variable {ρ ω : Type} {R : Reader ρ} {W : Writer ω} {sizes : Nat → Prop}
  {left : List Byte → ρ → Prop} {fits : List Byte → Prop} {got out : List Byte → ω → Prop}

theorem M.onFst_apply {σ τ α : Type} (x : M σ α) (s : σ) (t : τ) :
    M.onFst x (s, t) = ((x s).1, ((x s).2, t)) := rfl

/-- The copy stops at a code point that the target cannot take. -/
theorem transcode_refused (D : R.Delivers sizes true left) (C : W.Collects fits got out)
    (native : Endian) (as : List Nat) (c : Nat) (bs : List Nat) (hc : LowSurrogate c) :
    ∀ (fuel : Nat) (sofar : List Byte) (s : InStream ρ) (w : OutStream ω), as.length < fuel →
      w.form = .utf8 → (∀ x ∈ as, ¬ LowSurrogate x) →
      fits (sofar ++ textBytes w.form w.endian as) →
      HasText sizes true left s (as ++ c :: bs) → got sofar w.res →
      ∃ r' w', transcode native R W fuel (s, w)
          = (.throw .invalidCodePoint, ({ s with res := r' }, { w with res := w' }))
        ∧ got (sofar ++ textBytes w.form w.endian as) w' := by
  induction as with
  | nil =>
    intro fuel sofar s w hfuel h8 _ _ hs hg
    obtain ⟨fuel, rfl⟩ : ∃ n, fuel = n + 1 := ⟨fuel - 1, by omega⟩
    obtain ⟨r', e, -⟩ := hasText_read D native hs
    refine ⟨r', w.res, ?_, by simpa [textBytes_nil] using hg⟩
    rw [transcode, M.bind_ok (M.onFst_ok w (hasText_end D hs))]
    simp only [List.nil_append, List.isEmpty_cons, Bool.and_false, Bool.false_eq_true, if_false]
    rw [M.bind_ok (M.onFst_ok w e), M.bind_apply]
    have : M.onSnd (writeCodePoint native W (BitVec.ofNat 32 c)) ({ s with res := r' }, w)
        = (.throw .invalidCodePoint, ({ s with res := r' }, w)) := by
      rw [M.onSnd, writeCodePoint_refused native W w h8 (hs.text c (by simp)) hc]
    rw [this]
  | cons a as ih =>
    intro fuel sofar s w hfuel h8 hl hf hs hg
    obtain ⟨fuel, rfl⟩ : ∃ n, fuel = n + 1 := ⟨fuel - 1, by omega⟩
    obtain ⟨r', e, hs'⟩ := hasText_read D native hs
    rw [textBytes_cons, ← List.append_assoc] at hf ⊢
    obtain ⟨w', e', hg'⟩ := writeCodePoint_eq C native w a
      (writeOk_of (hs.text a (by simp)) fun _ => hl a (by simp)) sofar (C.shorter _ _ hf) hg
    obtain ⟨r'', w'', e'', ho⟩ := ih fuel (sofar ++ cpBytes w.form w.endian a) { s with res := r' }
      { w with res := w' } (by simpa using hfuel) h8 (fun c hc => hl c (by simp [hc])) hf hs' hg'
    refine ⟨r'', w'', ?_, ho⟩
    rw [transcode, M.bind_ok (M.onFst_ok w (hasText_end D hs))]
    simp only [List.cons_append, List.isEmpty_cons, Bool.and_false, Bool.false_eq_true, if_false]
    rw [M.bind_ok (M.onFst_ok w e), M.bind_ok (M.onSnd_ok _ e')]
    exact e''

/-- The copy of every text between any two resources: the target holds the text without the carriage
returns that had a character behind them; or the target is in UTF-8, it has been given what comes
before a code point whose low 16 bits are a surrogate value, and there the copy ends in an
exception. -/
theorem C102_exact (D : R.Delivers sizes true left) (C : W.Collects fits got out) (native : Endian)
    (fuel : Nat) (cs : List Nat) (s : InStream ρ) (w : OutStream ω) (hfuel : cs.length < fuel)
    (ht : Spec.IsText cs) (hs : sizes s.form.form.unitSize)
    (hf : fits (asBytes (w.form.form.serialize w.endian.order (Spec.loseReturns cs))))
    (hl : left (asBytes (s.form.form.serialize s.endian.order cs)) s.res) (hg : got [] w.res) :
    (∃ r' w', transcode native R W fuel (s, w)
          = (.ok (), ({ s with res := r' }, { w with res := w' }))
        ∧ out (asBytes (w.form.form.serialize w.endian.order (Spec.loseReturns cs))) w'
        ∧ (w.form = .utf8 → ∀ c ∈ cs, ¬ LowSurrogate c))
    ∨ ∃ as c bs r' w', Spec.loseReturns cs = as ++ c :: bs ∧ w.form = .utf8
        ∧ (∀ x ∈ as, ¬ LowSurrogate x) ∧ LowSurrogate c
        ∧ transcode native R W fuel (s, w)
          = (.throw .invalidCodePoint, ({ s with res := r' }, { w with res := w' }))
        ∧ got (asBytes (w.form.form.serialize w.endian.order as)) w' := by
  have hlen := loseReturns_length cs
  have hm := loseReturns_mem cs
  have hH : HasText sizes true left s (Spec.loseReturns cs) :=
    ⟨hs, cs, ht, .inl rfl, filt_eq_loseReturns cs, hl⟩
  rcases split_first (fun c => ¬ (w.form = .utf8 ∧ LowSurrogate c)) (Spec.loseReturns cs) with
    hno | ⟨as, c, bs, hcs, hno, hc⟩
  · left
    obtain ⟨r', w', e, ho⟩ := transcode_eq D C native fuel (Spec.loseReturns cs) [] s w (by omega)
      (fun c hc => writeOk_of (ht c (hm c hc)) fun h8 hh => hno c hc ⟨h8, hh⟩)
      (by rw [List.nil_append]; exact hf) hH hg
    rw [List.nil_append] at ho
    refine ⟨r', w', e, ho, fun h8 c hc hlow => ?_⟩
    refine hno c ?_ ⟨h8, hlow⟩
    have h13 : c ≠ 13 := by
      rintro rfl
      exact absurd hlow (by decide)
    exact loseReturns_keeps cs c hc h13
  · right
    obtain ⟨h8, hlow⟩ := not_not.mp hc
    rw [hcs] at hH hf hlen
    have hf' : fits ([] ++ textBytes w.form w.endian as) := by
      have hf : fits (textBytes w.form w.endian (as ++ c :: bs)) := hf
      rw [textBytes_snoc] at hf
      exact C.shorter _ _ hf
    rw [List.length_append] at hlen
    have hno' : ∀ x ∈ as, ¬ LowSurrogate x := fun x hx hh => hno x hx ⟨h8, hh⟩
    obtain ⟨r', w', e, hg'⟩ := transcode_refused D C native as c bs hlow fuel [] s w (by omega) h8
      hno' hf' hH hg
    rw [List.nil_append] at hg'
    exact ⟨as, c, bs, r', w', hcs, h8, hno', hlow, e, hg'⟩

end

/-- The target is left without the line break that a copy of `a CR b` loses, and the copy of
`a U+1D800` to UTF-8 ends in an exception. -/
example : Spec.IsText [0x61, 13, 0x62] ∧ Spec.loseReturns [0x61, 13, 0x62] = [0x61, 0x62]
    ∧ (transcode .little Ctr.reader Ctr.writer 4
        (⟨freshCtr 4 1 (textBytes .utf16 .big [0x61, 13, 0x62]), .big, .utf16⟩,
          ⟨freshCtr 0 1 [], .little, .utf8⟩)).2.2.res.dev.content = [0x61, 0x62]
    ∧ (transcode .little Ctr.reader Ctr.writer 4
        (⟨freshCtr 4 1 (textBytes .utf16 .big [0x61, 0x1D800]), .big, .utf16⟩,
          ⟨freshCtr 0 1 [], .little, .utf8⟩)).2.2.res.dev.content = [0x61] := by
  refine ⟨by unfold Spec.IsText; decide, by decide, by decide +kernel, by decide +kernel⟩

/-! ### C26 -/

theorem encs8_inj {cs xs : List Nat} {s : Str .char8} (h : Spec.IsText cs) (hx : TextOf .char8 s xs) :
    encs .char8 cs = s ↔ cs = xs := by
  constructor
  · intro heq
    have h8 : TextOf .char8 (encs .char8 cs) cs := textOf_encs .char8 cs h (by simp)
    have e1 := C06_utf8_forward _ cs h8.1
    have e2 := C06_utf8_forward _ xs hx.1
    rw [heq, e2] at e1
    have e3 : xs.map (BitVec.ofNat 32) = cs.map (BitVec.ofNat 32) := by
      injection e1
    have hback : ∀ l : List Nat, Spec.IsText l → (l.map (BitVec.ofNat 32)).map BitVec.toNat = l := by
      intro l hl
      rw [List.map_map]
      conv => rhs; rw [← List.map_id l]
      apply List.map_congr_left
      intro c hc'
      have := (hl c hc').1
      simp only [Function.comp_apply, BitVec.toNat_ofNat, id]
      omega
    rw [← hback cs h, ← hback xs hx.1.1, e3]
  · rintro rfl
    exact hx.eq.symm

/-- The answer to a text, given the texts of the two truth values. -/
def boolAnswer (ts fs cs : List Nat) : Outcome Bool :=
  if cs = ts then .ok true
  else if cs = fs then .ok false
  else .throw (.parseFailed .neitherBoolean)

/-- Truth values for every pair of texts in the format, also equal or empty ones, and every text given
to the parser.  A truth value comes out as its text, unless it goes into a `std::u8string` and has a
code point whose low 16 bits are a surrogate value.  A text is compared with the two texts, unless it
is not a `std::u8string` and cannot be converted to one. -/
theorem C26_exact (e : Enc) (f : BoolFormat) (ts fs : List Nat)
    (ht : Spec.Denotes .utf8 (units f.trueString) ts)
    (hf : Spec.Denotes .utf8 (units f.falseString) fs)
    (hn : e = .narrow → ∀ c ∈ ts ++ fs, c < 128) :
    (∀ b : Bool,
      (∃ s, formatBool e b f = .ok s ∧ TextOf e s (if b then ts else fs)
        ∧ ∀ c ∈ (if b then ts else fs), ¬ Refused e c)
      ∨ (formatBool e b f = .throw .invalidCodePoint ∧ ∃ c ∈ (if b then ts else fs), Refused e c))
    ∧ (∀ s cs, TextOf e s cs → cs ≠ [] →
      (parseBool e s f = boolAnswer ts fs cs
        ∧ (e ≠ .char8 → ∀ c ∈ cs, (e.form = .utf16 → Spec.IsBmp c) ∧ ¬ LowSurrogate c))
      ∨ (parseBool e s f = .throw .invalidUnicodeEncoding ∧ e.form = .utf16 ∧ ∃ c ∈ cs, ¬ Spec.IsBmp c)
      ∨ (parseBool e s f = .throw .invalidCodePoint ∧ e ≠ .char8 ∧ ∃ c ∈ cs, LowSurrogate c))
    ∧ parseBool e [] f = .throw (.parseFailed .emptyInput) := by
  have ht8 : TextOf .char8 f.trueString ts := ⟨ht, by simp⟩
  have hf8 : TextOf .char8 f.falseString fs := ⟨hf, by simp⟩
  refine ⟨fun b => ?_, fun s cs h hne => ?_, rfl⟩
  · have key : ∀ xs (s8 : Str .char8), TextOf .char8 s8 xs → (e = .narrow → ∀ c ∈ xs, c < 128) →
        (∃ s, convertString .char8 e s8 = .ok s ∧ TextOf e s xs ∧ ∀ c ∈ xs, ¬ Refused e c)
        ∨ (convertString .char8 e s8 = .throw .invalidCodePoint ∧ ∃ c ∈ xs, Refused e c) := by
      intro xs s8 h8 hnx
      rcases C11_exact .char8 e s8 xs h8 hnx with ⟨⟨t, e1, q1⟩, -, hl⟩ | ⟨-, h16, -⟩ | ⟨e1, he, c, hc, hl⟩
      · exact .inl ⟨t, e1, q1, fun c hc hr => hl hr.1 c hc hr.2⟩
      · exact absurd h16 (by decide)
      · exact .inr ⟨e1, c, hc, he, hl⟩
    cases b with
    | true => exact key ts _ ht8 (fun hh c hc => hn hh c (by simp [hc]))
    | false => exact key fs _ hf8 (fun hh c hc => hn hh c (by simp [hc]))
  · have hlen : s.length ≠ 0 := by
      rw [h.eq]
      have := encs_length_ge e cs
      have := List.length_pos_iff.mpr hne
      omega
    have hpos : ∀ α (a b : α), (if s.length = 0 then a else b) = b := fun _ a b => if_neg hlen
    have hcmp : parseBool.compare f (encs .char8 cs) = boolAnswer ts fs cs := by
      rw [parseBool.compare, boolAnswer]
      simp only [encs8_inj h.1.1 ht8, encs8_inj h.1.1 hf8]
    by_cases he : e = .char8
    · subst he
      refine .inl ⟨?_, fun hh => absurd rfl hh⟩
      rw [parseBool.eq_def, hpos]
      simp only
      rw [← hcmp, ← h.eq]
    · have hp : parseBool e s f = (convertString e .char8 s >>= parseBool.compare f) := by
        cases e with
        | char8 => exact absurd rfl he
        | narrow => rw [parseBool.eq_def, hpos]
        | char16 => rw [parseBool.eq_def, hpos]
        | char32 => rw [parseBool.eq_def, hpos]
        | wide2 => rw [parseBool.eq_def, hpos]
        | wide4 => rw [parseBool.eq_def, hpos]
      rw [hp]
      rcases C11_exact e .char8 s cs h (by simp) with ⟨⟨t, e1, q1⟩, hb, hl⟩ | ⟨e1, h16, hx⟩ | ⟨e1, -, hx⟩
      · refine .inl ⟨?_, fun _ c hc => ⟨fun h16 => hb h16 c hc, hl rfl c hc⟩⟩
        rw [e1, Outcome.ok_bind, q1.eq]
        exact hcmp
      · exact .inr (.inl ⟨by rw [e1]; rfl, h16, hx⟩)
      · exact .inr (.inr ⟨by rw [e1]; rfl, he, hx⟩)

example : Spec.Denotes .utf8 (units [0xF0#8, 0x9D#8, 0xA0#8, 0x80#8]) [0x1D800]
    ∧ Spec.Denotes .utf8 (units [0x79#8, 0xC3#8, 0xA9#8]) [0x79, 0xE9]
    ∧ Refused .char8 0x1D800
    ∧ parseBool .char8 [0xF0#8, 0x9D#8, 0xA0#8, 0x80#8]
        ⟨[0xF0#8, 0x9D#8, 0xA0#8, 0x80#8], [0x79#8, 0xC3#8, 0xA9#8]⟩ = .ok true
    ∧ parseBool .char32 [0x1D800#32]
        ⟨[0xF0#8, 0x9D#8, 0xA0#8, 0x80#8], [0x79#8, 0xC3#8, 0xA9#8]⟩ = .throw .invalidCodePoint :=
  ⟨⟨by unfold Spec.IsText; decide, by decide⟩, ⟨by unfold Spec.IsText; decide, by decide⟩, by decide,
    by decide +kernel, by decide +kernel⟩

end Cmp
