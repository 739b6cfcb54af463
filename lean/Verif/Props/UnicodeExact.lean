import Verif.Props.Unicode
import Mathlib.Tactic.ByContra

/-
What the code does on exactly those inputs for which C01, C02, C05, C11, C12 and C14 fail: the test
for scalar values errs on supplementary code points whose low 16 bits are a surrogate value, and
moving forward in UTF-16 goes over one unit of a surrogate pair only.
-/

namespace Cmp

/-! ### Surrogate pairs -/

/-- A text up to its first supplementary code point. -/
theorem split_bmp (cs : List Nat) :
    (∀ c ∈ cs, Spec.IsBmp c)
      ∨ ∃ as c bs, cs = as ++ c :: bs ∧ (∀ x ∈ as, Spec.IsBmp x) ∧ ¬ Spec.IsBmp c := by
  induction cs with
  | nil => exact .inl (by simp)
  | cons c cs ih =>
    by_cases hc : Spec.IsBmp c
    · rcases ih with h | ⟨as, d, bs, rfl, h1, h2⟩
      · left
        intro x hx
        rcases List.mem_cons.mp hx with rfl | hx
        · exact hc
        · exact h x hx
      · refine .inr ⟨c :: as, d, bs, rfl, ?_, h2⟩
        intro x hx
        rcases List.mem_cons.mp hx with rfl | hx
        · exact hc
        · exact h1 x hx
    · exact .inr ⟨[], c, cs, rfl, by simp, hc⟩

/-- The first unit of a surrogate pair. -/
def leadOf (c : Nat) : Char16 := BitVec.ofNat 16 (0xD800 + (c - 0x10000) / 1024)

/-- The second unit of a surrogate pair. -/
def trailOf (c : Nat) : Char16 := BitVec.ofNat 16 (0xDC00 + (c - 0x10000) % 1024)

theorem pair_units {c : Nat} (hc : ¬ Spec.IsBmp c) :
    (Spec.utf16 c).map (BitVec.ofNat 16) = [leadOf c, trailOf c] := by
  rw [Spec.utf16, if_neg (by unfold Spec.IsBmp at hc; omega)]
  rfl

theorem trailOf_trailing (c : Nat) : isTrailingSurrogate (trailOf c) = true := by
  rw [isTrailingSurrogate_eq, trailOf, BitVec.toNat_ofNat, decide_eq_true_eq]
  omega

theorem trailOf_start (c : Nat) :
    initializeUtf16Sequence (trailOf c) = .throw .invalidUnicodeEncoding := by
  have h : isLeadingSurrogate (trailOf c) = false := by
    rw [isLeadingSurrogate_eq, trailOf, BitVec.toNat_ofNat, decide_eq_false_iff_not]
    omega
  rw [initializeUtf16Sequence, h, trailOf_trailing]
  rfl

theorem leadOf_start {c : Nat} (hs : c ≤ 0x10FFFF) :
    ∃ v, initializeUtf16Sequence (leadOf c) = .ok (2, v) := by
  have h : isLeadingSurrogate (leadOf c) = true := by
    rw [isLeadingSurrogate_eq, leadOf, BitVec.toNat_ofNat, decide_eq_true_eq]
    omega
  exact ⟨_, by rw [initializeUtf16Sequence, h]; rfl⟩

theorem unitAt_pre {α : Type} (pre post : List α) (a : α) :
    unitAt (pre ++ a :: post) pre.length = .ok a := by
  simp [unitAt]

theorem unitAt_pre_succ {α : Type} (pre post : List α) (a b : α) :
    unitAt (pre ++ a :: b :: post) (pre.length + 1) = .ok b := by
  simp [unitAt]

theorem utf16_pair (pre post : List Char16) {c : Nat} (hs : c ≤ 0x10FFFF) :
    Utf16.advance (pre ++ leadOf c :: trailOf c :: post) pre.length = .ok (pre.length + 1)
    ∧ Utf16.advance (pre ++ leadOf c :: trailOf c :: post) (pre.length + 1)
        = .throw .invalidUnicodeEncoding
    ∧ Utf16.deref (pre ++ leadOf c :: trailOf c :: post) (pre.length + 1)
        = .throw .invalidUnicodeEncoding := by
  obtain ⟨v, hv⟩ := leadOf_start hs
  refine ⟨?_, ?_, ?_⟩
  · rw [Utf16.advance, unitAt_pre, Outcome.ok_bind, hv, Outcome.ok_bind]
    simp only [if_true]
    rw [if_neg (by simp), unitAt_pre_succ, Outcome.ok_bind, trailOf_trailing]
    rfl
  · rw [Utf16.advance, unitAt_pre_succ, Outcome.ok_bind, trailOf_start]
    rfl
  · rw [Utf16.deref, if_neg (by simp), unitAt_pre_succ, Outcome.ok_bind, trailOf_start]
    rfl

/-- On a surrogate pair an iterator stops between the two units, where it is stuck. -/
theorem pair_steps (e : Enc) (he : e.form = .utf16) (pre post : Str e) {c : Nat}
    (hs : c ≤ 0x10FFFF) (hc : ¬ Spec.IsBmp c) :
    (encU e c).length = 2
    ∧ advance e (pre ++ (encU e c ++ post)) pre.length = .ok (pre.length + 1)
    ∧ advance e (pre ++ (encU e c ++ post)) (pre.length + 1) = .throw .invalidUnicodeEncoding
    ∧ deref e (pre ++ (encU e c ++ post)) (pre.length + 1) = .throw .invalidUnicodeEncoding := by
  have key := utf16_pair
  cases e with
  | narrow => cases he
  | char8 => cases he
  | char32 => cases he
  | wide4 => cases he
  | char16 =>
    have hu : encU .char16 c = [leadOf c, trailOf c] := pair_units hc
    rw [hu]
    exact ⟨rfl, key pre post hs⟩
  | wide2 =>
    have hu : encU .wide2 c = [leadOf c, trailOf c] := pair_units hc
    rw [hu]
    exact ⟨rfl, key pre post hs⟩

/-- A loop over UTF-16 text is left by an exception after the first supplementary code point. -/
theorem forEachFrom_pair (e : Enc) (he : e.form = .utf16) {σ : Type} (f : σ → Char32 → Outcome σ)
    (as : List Nat) (c : Nat) (bs : List Nat) (hs : Spec.IsScalar c) (hc : ¬ Spec.IsBmp c) :
    ∀ (pre : Str e) (fuel : Nat) (acc : σ), (∀ x ∈ as, FwdOk e x) → as.length + 1 < fuel →
      forEachFrom e (pre ++ encs e (as ++ c :: bs)) f fuel pre.length acc
        = ((as ++ [c]).foldlM (fun a c => f a (BitVec.ofNat 32 c)) acc
            >>= fun _ => .throw .invalidUnicodeEncoding) := by
  induction as with
  | nil =>
    intro pre fuel acc _ hf
    obtain ⟨n, rfl⟩ : ∃ n, fuel = n + 2 := ⟨fuel - 2, by simp at hf; omega⟩
    obtain ⟨h2, p1, -, p3⟩ := pair_steps e he pre (encs e bs) hs.1 hc
    have hb : BwdOk e c := by cases e <;> first | (cases he; done) | exact hs
    rw [List.nil_append, forEachFrom, encs_cons,
      if_neg (by rw [List.length_append, List.length_append]; omega),
      deref_enc e c hb, Outcome.ok_bind, List.nil_append, List.foldlM_cons]
    cases hfa : f acc (BitVec.ofNat 32 c) with
    | ok acc' =>
      rw [Outcome.ok_bind, p1, Outcome.ok_bind, forEachFrom,
        if_neg (by rw [List.length_append, List.length_append]; omega), p3]
      rfl
    | throw x => rfl
    | terminate => rfl
    | ub => rfl
    | hang => rfl
  | cons a as ih =>
    intro pre fuel acc hok hf
    obtain ⟨n, rfl⟩ : ∃ n, fuel = n + 1 := ⟨fuel - 1, by omega⟩
    have ha : FwdOk e a := hok a (by simp)
    have hpos := encU_length_pos e a
    rw [List.cons_append, forEachFrom,
      if_neg (by rw [encs_cons, List.length_append, List.length_append]; omega),
      encs_cons, deref_enc e a ha.bwd, Outcome.ok_bind, List.cons_append, List.foldlM_cons]
    cases hfa : f acc (BitVec.ofNat 32 a) with
    | ok acc' =>
      rw [Outcome.ok_bind, Outcome.ok_bind, advance_enc e a ha, Outcome.ok_bind]
      have := ih (pre ++ encU e a) n acc' (fun x hx => hok x (by simp [hx]))
        (by simp at hf; omega)
      simpa using this
    | throw x => rfl
    | terminate => rfl
    | ub => rfl
    | hang => rfl

theorem forEach_pair (e : Enc) (he : e.form = .utf16) {σ : Type} (f : σ → Char32 → Outcome σ)
    (as : List Nat) (c : Nat) (bs : List Nat) (acc : σ) (hok : ∀ x ∈ as, FwdOk e x)
    (hs : Spec.IsScalar c) (hc : ¬ Spec.IsBmp c) :
    forEach e (encs e (as ++ c :: bs)) f acc
      = ((as ++ [c]).foldlM (fun a c => f a (BitVec.ofNat 32 c)) acc
          >>= fun _ => .throw .invalidUnicodeEncoding) := by
  have h := forEachFrom_pair e he f as c bs hs hc [] ((encs e (as ++ c :: bs)).length + 1) acc hok (by
    have h1 := encs_length_ge e as
    have h2 := (pair_steps e he [] [] hs.1 hc).1
    rw [encs_append, encs_cons, List.length_append, List.length_append]
    omega)
  simpa [forEach] using h

theorem fwd_of_bmp {e : Enc} {s : Str e} {as cs : List Nat} (h : TextOf e s cs)
    (hsub : ∀ c ∈ as, c ∈ cs) (hb : ∀ c ∈ as, Spec.IsBmp c) : ∀ c ∈ as, FwdOk e c := by
  have ht : TextOf e (encs e as) as := textOf_encs e as (fun c hc => h.1.1 c (hsub c hc))
    (fun he c hc => h.2 he c (hsub c hc))
  exact ht.fwd (fun _ => hb)

/-! ### C02 -/

/-- The test is right but for supplementary code points whose low 16 bits are a surrogate value,
all of which it rejects. -/
theorem C02_exact (c : Char32) :
    isCodePointValid c = true
      ↔ Spec.IsScalar c.toNat ∧ ¬ (0x10000 ≤ c.toNat ∧ LowSurrogate c.toNat) := by
  rw [isCodePointValid_eq, decide_eq_true_iff]
  unfold Spec.IsScalar LowSurrogate
  omega

/-! ### C01 -/

theorem appendCP_refused (s : Str .char8) {c : Nat} (hs : Spec.IsScalar c) (hl : LowSurrogate c) :
    appendCP .char8 s (BitVec.ofNat 32 c) = .throw .invalidCodePoint := by
  have hr : rejected .char8 (BitVec.ofNat 32 c) = true := by
    have h1 := hs.1
    have h2 : (BitVec.ofNat 32 c).toNat = c := by
      rw [BitVec.toNat_ofNat, Nat.mod_eq_of_lt (by omega)]
    simp only [rejected, Bool.not_eq_true', isCodePointValid_eq, decide_eq_false_iff_not, h2]
    unfold LowSurrogate at hl
    omega
  rw [appendCP, appendCodePoint, insertCodePoint_rejected _ _ _ _ hr]

theorem foldlM_appendCP_refused (cs : List Nat) (ht : Spec.IsText cs)
    (hl : ∃ c ∈ cs, LowSurrogate c) :
    ∀ s : Str .char8, cs.foldlM (fun a c => appendCP .char8 a (BitVec.ofNat 32 c)) s
      = .throw .invalidCodePoint := by
  induction cs with
  | nil => simp at hl
  | cons c cs ih =>
    intro s
    rw [List.foldlM_cons]
    by_cases hc : LowSurrogate c
    · rw [appendCP_refused s (ht c (by simp)) hc]
      rfl
    · rw [appendCP_enc .char8 c ⟨ht c (by simp), hc⟩, Outcome.ok_bind]
      refine ih (fun x hx => ht x (by simp [hx])) ?_ _
      obtain ⟨x, hx, hxl⟩ := hl
      rcases List.mem_cons.mp hx with rfl | hx
      · exact absurd hxl hc
      · exact ⟨x, hx, hxl⟩

/-- A text can be assembled and comes back, or it contains a code point whose low 16 bits are a
surrogate value, and assembling it throws. -/
theorem C01_exact (cs : List Nat) (ht : Spec.IsText cs) :
    ((∀ c ∈ cs, ¬ LowSurrogate c) ∧ ∃ s, appendAll8 cs = .ok s ∧ Spec.Denotes .utf8 (units s) cs
      ∧ codePoints .char8 s = .ok (cs.map (BitVec.ofNat 32)))
    ∨ ((∃ c ∈ cs, LowSurrogate c) ∧ appendAll8 cs = .throw .invalidCodePoint) := by
  by_cases hl : ∃ c ∈ cs, LowSurrogate c
  · exact .inr ⟨hl, foldlM_appendCP_refused cs ht hl []⟩
  · have hl' : ∀ c ∈ cs, ¬ LowSurrogate c := fun c hc h => hl ⟨c, hc, h⟩
    exact .inl ⟨hl', C01_partial cs ht hl'⟩

/-! ### C05 -/

/-- Iterating over UTF-16 text: all code points if they are in the Basic Multilingual Plane;
otherwise those up to and including the first that is not, and then an exception.  `f` is whatever
the program does with each of them. -/
theorem C05_exact (e : Enc) (he : e.form = .utf16) (s : Str e) (cs : List Nat)
    (h : TextOf e s cs) :
    ((∀ c ∈ cs, Spec.IsBmp c) ∧ codePoints e s = .ok (cs.map (BitVec.ofNat 32)))
    ∨ ∃ as c bs, cs = as ++ c :: bs ∧ (∀ x ∈ as, Spec.IsBmp x) ∧ ¬ Spec.IsBmp c
      ∧ codePoints e s = .throw .invalidUnicodeEncoding
      ∧ ∀ {σ : Type} (f : σ → Char32 → Outcome σ) (acc : σ), forEach e s f acc
          = ((as ++ [c]).foldlM (fun a c => f a (BitVec.ofNat 32 c)) acc
              >>= fun _ => .throw .invalidUnicodeEncoding) := by
  rcases split_bmp cs with hb | ⟨as, c, bs, rfl, hb, hc⟩
  · left
    rw [h.eq]
    exact ⟨hb, codePoints_enc e cs (h.fwd (fun _ => hb))⟩
  · right
    have key : ∀ {σ : Type} (f : σ → Char32 → Outcome σ) (acc : σ), forEach e s f acc
        = ((as ++ [c]).foldlM (fun a c => f a (BitVec.ofNat 32 c)) acc
            >>= fun _ => .throw .invalidUnicodeEncoding) := by
      intro σ f acc
      rw [h.eq]
      exact forEach_pair e he f as c bs acc (fwd_of_bmp h (fun x hx => by simp [hx]) hb)
        (h.1.1 c (by simp)) hc
    refine ⟨as, c, bs, rfl, hb, hc, ?_, key⟩
    rw [codePoints, key, foldlM_collect]
    rfl

example : TextOf .wide2 [0x48#16, 0xD83D#16, 0xDE00#16] [0x48, 0x1F600] :=
  ⟨⟨by unfold Spec.IsText; decide, by decide⟩, by simp⟩

/-! ### C11 -/

/-- Conversion of text: it gives the text in the other encoding or throws, and it throws exactly
for supplementary code points in UTF-16 sources and, where the target is UTF-8, for code points
whose low 16 bits are a surrogate value. -/
theorem C11_exact (src dst : Enc) (s : Str src) (cs : List Nat) (h : TextOf src s cs)
    (hn : dst = .narrow → ∀ c ∈ cs, c < 128) :
    (∃ t, convertString src dst s = .ok t ∧ TextOf dst t cs)
      ∧ (src.form = .utf16 → ∀ c ∈ cs, Spec.IsBmp c) ∧ (dst = .char8 → ∀ c ∈ cs, ¬ LowSurrogate c)
    ∨ (convertString src dst s = .throw .invalidUnicodeEncoding
        ∧ src.form = .utf16 ∧ ∃ c ∈ cs, ¬ Spec.IsBmp c)
    ∨ (convertString src dst s = .throw .invalidCodePoint
        ∧ dst = .char8 ∧ ∃ c ∈ cs, LowSurrogate c) := by
  have hins : ∀ as : List Nat, (∀ c ∈ as, c ∈ cs) → (dst = .char8 → ∀ c ∈ as, ¬ LowSurrogate c) →
      ∀ c ∈ as, InsOk dst c := by
    intro as hsub hl c hc
    have h1 := h.1.1 c (hsub c hc)
    cases dst with
    | narrow => exact hn rfl c (hsub c hc)
    | char8 => exact ⟨h1, hl rfl c hc⟩
    | char16 => exact h1
    | wide2 => exact h1
    | char32 => have := h1.1; show c < 2 ^ 32; omega
    | wide4 => have := h1.1; show c < 2 ^ 32; omega
  have fold : ∀ as : List Nat, (∀ c ∈ as, c ∈ cs) →
      (∃ t, as.foldlM (fun a c => appendCP dst a (BitVec.ofNat 32 c)) [] = .ok t
        ∧ (dst = .char8 → ∀ c ∈ as, ¬ LowSurrogate c))
      ∨ (as.foldlM (fun a c => appendCP dst a (BitVec.ofNat 32 c)) [] = .throw .invalidCodePoint
        ∧ dst = .char8 ∧ ∃ c ∈ as, LowSurrogate c) := by
    intro as hsub
    by_cases hl : dst = .char8 ∧ ∃ c ∈ as, LowSurrogate c
    · obtain ⟨rfl, hl⟩ := hl
      exact .inr ⟨foldlM_appendCP_refused as (fun c hc => h.1.1 c (hsub c hc)) hl [], rfl, hl⟩
    · have hl' : dst = .char8 → ∀ c ∈ as, ¬ LowSurrogate c := fun hd c hc hh => hl ⟨hd, c, hc, hh⟩
      exact .inl ⟨_, foldlM_appendCP dst as [] (hins as hsub hl'), hl'⟩
  by_cases hu : src.form = .utf16 ∧ ∃ c ∈ cs, ¬ Spec.IsBmp c
  · right
    obtain ⟨he, x, hx, hxb⟩ := hu
    rcases split_bmp cs with hb | ⟨as, c, bs, rfl, hb, hc⟩
    · exact absurd (hb x hx) hxb
    · have hsub : ∀ y ∈ as ++ [c], y ∈ as ++ c :: bs := by
        intro y hy
        simp at hy ⊢
        rcases hy with hy | hy
        · exact .inl hy
        · exact .inr (.inl hy)
      have key : convertString src dst s
          = ((as ++ [c]).foldlM (fun a c => appendCP dst a (BitVec.ofNat 32 c)) []
              >>= fun _ => .throw .invalidUnicodeEncoding) := by
        rw [h.eq, convertString]
        exact forEach_pair src he _ as c bs _ (fwd_of_bmp h (fun y hy => by simp [hy]) hb)
          (h.1.1 c (by simp)) hc
      rcases fold (as ++ [c]) hsub with ⟨t, e1, -⟩ | ⟨e1, hd, y, hy, hyl⟩
      · exact .inl ⟨by rw [key, e1]; rfl, he, c, by simp, hc⟩
      · exact .inr ⟨by rw [key, e1]; rfl, hd, y, hsub y hy, hyl⟩
  · have hs : src.form = .utf16 → ∀ c ∈ cs, Spec.IsBmp c := by
      intro he c hc
      by_contra hcon
      exact hu ⟨he, c, hc, hcon⟩
    by_cases hl : dst = .char8 ∧ ∃ c ∈ cs, LowSurrogate c
    · right; right
      refine ⟨?_, hl⟩
      obtain ⟨rfl, hl⟩ := hl
      rw [h.eq, convertString, forEach_enc src _ cs _ (h.fwd hs)]
      exact foldlM_appendCP_refused cs h.1.1 hl []
    · have hl' : dst = .char8 → ∀ c ∈ cs, ¬ LowSurrogate c := fun hd c hc hh => hl ⟨hd, c, hc, hh⟩
      exact .inl ⟨C11_partial src dst s cs h hn hs hl', hs, hl'⟩

/-! ### C12 -/

/-- Validation of UTF-16 text: the whole of it if it is in the Basic Multilingual Plane, and
otherwise up to the middle of the first surrogate pair. -/
theorem C12_exact (e : Enc) (he : e.form = .utf16) (s : Str e) (cs : List Nat)
    (h : TextOf e s cs) :
    ((∀ c ∈ cs, Spec.IsBmp c) ∧ validateString e s = .ok s.length)
    ∨ ∃ as c bs, cs = as ++ c :: bs ∧ (∀ x ∈ as, Spec.IsBmp x) ∧ ¬ Spec.IsBmp c
      ∧ validateString e s = .ok (as.length + 1) ∧ as.length + 1 < s.length := by
  rcases split_bmp cs with hb | ⟨as, c, bs, rfl, hb, hc⟩
  · exact .inl ⟨hb, (C12_partial e s).2 cs h (fun _ => hb)⟩
  · right
    have hs := h.1.1 c (by simp)
    have hfwd := fwd_of_bmp h (fun x hx => by simp [hx]) hb
    have hlen1 : ∀ x, Spec.IsBmp x → (encU e x).length = 1 := by
      intro x hx
      unfold Spec.IsBmp at hx
      cases e with
      | narrow => cases he
      | char8 => cases he
      | char32 => cases he
      | wide4 => cases he
      | char16 => simp [encU, Spec.utf16, hx]
      | wide2 => simp [encU, Spec.utf16, hx]
    have hlen : (encs e as).length = as.length := by
      clear hfwd h
      induction as with
      | nil => rfl
      | cons a as ih =>
        rw [encs_cons, List.length_append, hlen1 a (hb a (by simp)),
          ih (fun x hx => hb x (by simp [hx])), List.length_cons]
        omega
    obtain ⟨h2, p1, -, p3⟩ := pair_steps e he (encs e as) (encs e bs) hs.1 hc
    have hbw : BwdOk e c := by cases e <;> first | (cases he; done) | exact hs
    have hsl : s.length = as.length + (2 + (encs e bs).length) := by
      rw [h.eq, encs_append, encs_cons, List.length_append, List.length_append, hlen, h2]
    refine ⟨as, c, bs, rfl, hb, hc, ?_, by omega⟩
    have hv := validateFrom_enc e (encU e c ++ encs e bs) as [] (s.length + 1 - as.length)
      (fun x hx => ⟨hfwd x hx, (h.1.1 x (by simp [hx])).1⟩)
    rw [List.nil_append, List.nil_append, List.length_nil,
      show as.length + (s.length + 1 - as.length) = s.length + 1 by omega] at hv
    obtain ⟨n, hn⟩ : ∃ n, s.length + 1 - as.length = n + 2 := ⟨s.length - 1 - as.length, by omega⟩
    have hmax : ¬ maximumCodePoint < BitVec.ofNat 32 c := by
      rw [maximumCodePoint, BitVec.lt_def, BitVec.toNat_ofNat, BitVec.toNat_ofNat]
      have := hs.1
      omega
    have hse : s = encs e as ++ (encU e c ++ encs e bs) := by
      rw [h.eq, encs_append, encs_cons]
    have e0 : validateString e s = validateFrom e (encs e as ++ (encU e c ++ encs e bs))
        (s.length + 1) 0 := congrArg (fun t => validateFrom e t (s.length + 1) 0) hse
    have hl2 : (encs e as ++ (encU e c ++ encs e bs)).length
        = (encs e as).length + (2 + (encs e bs).length) := by
      rw [List.length_append, List.length_append, h2]
    rw [e0, hv, hn, validateFrom, if_neg (by omega), deref_enc e c hbw]
    simp only
    rw [if_neg hmax, p1]
    simp only
    rw [validateFrom, if_neg (by omega), p3, hlen]

/-! ### C14 -/

theorem startsWithFrom_common (ec es : Enc) (a b : List Nat) (p : List Nat) :
    ∀ (P : Str ec) (Q : Str es) (fuel : Nat), (∀ c ∈ p, FwdOk ec c ∧ FwdOk es c) →
      startsWithFrom ec es (P ++ encs ec (p ++ a)) (Q ++ encs es (p ++ b)) (p.length + fuel) P.length
          Q.length
        = startsWithFrom ec es ((P ++ encs ec p) ++ encs ec a) ((Q ++ encs es p) ++ encs es b) fuel
          (P ++ encs ec p).length (Q ++ encs es p).length := by
  induction p with
  | nil => intro P Q fuel _; simp
  | cons c p ih =>
    intro P Q fuel hp
    have hc := hp c (by simp)
    have hpos := encU_length_pos ec c
    have hpos' := encU_length_pos es c
    rw [List.length_cons, show p.length + 1 + fuel = (p.length + fuel) + 1 by omega, startsWithFrom,
      List.cons_append, List.cons_append, encs_cons, encs_cons,
      if_neg (by rw [List.length_append, List.length_append]; omega),
      if_neg (by rw [List.length_append, List.length_append]; omega),
      advance_enc ec c hc.1, Outcome.ok_bind, deref_enc ec c hc.1.bwd, Outcome.ok_bind,
      advance_enc es c hc.2, Outcome.ok_bind, deref_enc es c hc.2.bwd, Outcome.ok_bind, if_pos rfl]
    have := ih (P ++ encU ec c) (Q ++ encU es c) fuel (fun x hx => hp x (by simp [hx]))
    simpa using this

/-- Two texts up to where they differ or both have the same supplementary code point. -/
theorem split_common (a b : List Nat) :
    ∃ p a' b', a = p ++ a' ∧ b = p ++ b' ∧ (∀ c ∈ p, Spec.IsBmp c)
      ∧ ((a' = [] ∨ b' = [] ∨ a'.head? ≠ b'.head?)
        ∨ ∃ c a'' b'', a' = c :: a'' ∧ b' = c :: b'' ∧ ¬ Spec.IsBmp c) := by
  induction a generalizing b with
  | nil => exact ⟨[], [], b, rfl, rfl, by simp, .inl (.inl rfl)⟩
  | cons x a ih =>
    cases b with
    | nil => exact ⟨[], _, [], rfl, rfl, by simp, .inl (.inr (.inl rfl))⟩
    | cons y b =>
      by_cases hxy : x = y
      · subst hxy
        by_cases hx : Spec.IsBmp x
        · obtain ⟨p, a', b', rfl, rfl, hp, hrest⟩ := ih b
          refine ⟨x :: p, a', b', rfl, rfl, ?_, hrest⟩
          intro c hc
          rcases List.mem_cons.mp hc with rfl | hc
          · exact hx
          · exact hp c hc
        · exact ⟨[], _, _, rfl, rfl, by simp, .inr ⟨x, a, b, rfl, rfl, hx⟩⟩
      · exact ⟨[], _, _, rfl, rfl, by simp, .inl (.inr (.inr (by simpa using hxy)))⟩

/-- Moving on from a code point always succeeds; it is right in the Basic Multilingual Plane and in
the other encodings. -/
theorem advance_some (e : Enc) {c : Nat} (h : BwdOk e c) (pre post : Str e) :
    ∃ j, advance e (pre ++ (encU e c ++ post)) pre.length = .ok j := by
  by_cases hf : FwdOk e c
  · exact ⟨_, advance_enc e c hf pre post⟩
  · have he : e.form = .utf16 := by cases e <;> first | rfl | exact absurd h hf
    have hc : ¬ Spec.IsBmp c ∧ c ≤ 0x10FFFF := by
      unfold Spec.IsBmp
      cases e with
      | narrow => cases he
      | char8 => cases he
      | char32 => cases he
      | wide4 => cases he
      | char16 => exact ⟨fun hh => hf ⟨h, hh⟩, h.1⟩
      | wide2 => exact ⟨fun hh => hf ⟨h, hh⟩, h.1⟩
    exact ⟨_, (pair_steps e he pre post hc.2 hc.1).2.1⟩

/-- `starts_with` where an operand is UTF-16.  `p` is what the texts have in common up to the first
difference or the first supplementary code point.  In the first case the answer is right.  In the
second, where both texts have the same supplementary code point `c`, the program is terminated, with
two exceptions: if only the content is UTF-16 and the searched text ends with `c`, the answer is `true`,
which is right; if only the searched text is UTF-16 and the content ends with `c`, the answer is
`false`, which is wrong if the searched text ends there too. -/
theorem C14_exact (ec es : Enc) (content : Str ec) (sub : Str es) (a b : List Nat)
    (ha : TextOf ec content a) (hb : TextOf es sub b)
    (hform : ec.form = .utf16 ∨ es.form = .utf16) :
    ∃ p a' b', a = p ++ a' ∧ b = p ++ b' ∧ (∀ c ∈ p, Spec.IsBmp c)
      ∧ ((a' = [] ∨ b' = [] ∨ a'.head? ≠ b'.head?)
          ∧ startsWith ec es content sub = .ok (decide (b <+: a))
        ∨ ∃ c a'' b'', a' = c :: a'' ∧ b' = c :: b'' ∧ ¬ Spec.IsBmp c
          ∧ startsWith ec es content sub
              = if es.form ≠ .utf16 ∧ b'' = [] then .ok true
                else if ec.form ≠ .utf16 ∧ a'' = [] then .ok false else .terminate) := by
  obtain ⟨p, a', b', rfl, rfl, hp, hrest⟩ := split_common a b
  refine ⟨p, a', b', rfl, rfl, hp, ?_⟩
  have hpa := fwd_of_bmp ha (fun x hx => by simp [hx]) hp
  have hpb := fwd_of_bmp hb (fun x hx => by simp [hx]) hp
  have hla := encs_length_ge ec p
  have hcom := startsWithFrom_common ec es a' b' p [] [] (content.length + 1 - p.length)
    (fun c hc => ⟨hpa c hc, hpb c hc⟩)
  have hcl : content.length = (encs ec p).length + (encs ec a').length := by
    rw [ha.eq, encs_append, List.length_append]
  rw [List.nil_append, List.nil_append, List.nil_append, List.nil_append, List.length_nil,
    List.length_nil, show p.length + (content.length + 1 - p.length) = content.length + 1 by omega]
    at hcom
  have hstart : startsWith ec es content sub
      = (startsWithFrom ec es (encs ec p ++ encs ec a') (encs es p ++ encs es b')
          (content.length + 1 - p.length) (encs ec p).length (encs es p).length).noexcept := by
    rw [← hcom, startsWith, ← ha.eq, ← hb.eq]
  have hdec : ∀ x y : List Nat, decide (p ++ y <+: p ++ x) = decide (y <+: x) := by
    intro x y
    rw [decide_eq_decide]
    exact List.prefix_append_right_inj p
  obtain ⟨n, hn⟩ : ∃ n, content.length + 1 - p.length = n + 1 := ⟨content.length - p.length, by omega⟩
  rw [hstart, hn, hdec, startsWithFrom]
  cases b' with
  | nil =>
    left
    refine ⟨.inr (.inl rfl), ?_⟩
    rw [if_pos (by simp)]
    simp
  | cons y b' =>
    have hby : BwdOk es y := hb.bwd y (by simp)
    have hposy := encU_length_pos es y
    rw [if_neg (by rw [encs_cons, List.length_append, List.length_append]; omega)]
    cases a' with
    | nil =>
      left
      refine ⟨.inl rfl, ?_⟩
      rw [if_pos (by simp)]
      simp
    | cons x a' =>
      have hax : BwdOk ec x := ha.bwd x (by simp)
      have hposx := encU_length_pos ec x
      obtain ⟨j1, hj1⟩ := advance_some ec hax (encs ec p) (encs ec a')
      obtain ⟨j2, hj2⟩ := advance_some es hby (encs es p) (encs es b')
      have hx32 : x < 2 ^ 32 := by have := (ha.1.1 x (by simp)).1; omega
      have hy32 : y < 2 ^ 32 := by have := (hb.1.1 y (by simp)).1; omega
      rw [if_neg (by rw [encs_cons, List.length_append, List.length_append]; omega), encs_cons,
        encs_cons, hj1, Outcome.ok_bind, deref_enc ec x hax, Outcome.ok_bind, hj2, Outcome.ok_bind,
        deref_enc es y hby, Outcome.ok_bind]
      rcases hrest with h1 | ⟨c, a'', b'', h1, h2, hc⟩
      · left
        have hne : x ≠ y := by simpa using h1
        refine ⟨h1, ?_⟩
        rw [if_neg (by rw [ofNat32_inj hx32 hy32]; exact hne)]
        simp [List.cons_prefix_cons, Ne.symm hne]
      · right
        obtain ⟨rfl, rfl⟩ := List.cons.inj h1
        obtain ⟨hyx, rfl⟩ := List.cons.inj h2
        obtain rfl : x = y := hyx.symm
        refine ⟨x, a', b', rfl, rfl, hc, ?_⟩
        have hs : x ≤ 0x10FFFF := (ha.1.1 x (by simp)).1
        rw [if_pos rfl]
        obtain ⟨m, rfl⟩ : ∃ m, n = m + 1 := by
          refine ⟨n - 1, ?_⟩
          rw [encs_cons, List.length_append] at hcl
          omega
        rw [startsWithFrom]
        have stuck : ∀ (e : Enc), e.form = .utf16 → ∀ (P R : Str e) (j : Nat),
            advance e (P ++ (encU e x ++ R)) P.length = .ok j →
            j ≠ (P ++ (encU e x ++ R)).length
              ∧ advance e (P ++ (encU e x ++ R)) j = .throw .invalidUnicodeEncoding := by
          intro e he P R j hj
          obtain ⟨q0, q1, q2, -⟩ := pair_steps e he P R hs hc
          rw [q1] at hj
          cases hj
          refine ⟨?_, q2⟩
          rw [List.length_append, List.length_append]
          omega
        have moved : ∀ (e : Enc), e.form ≠ .utf16 → BwdOk e x → ∀ (P R : Str e) (j : Nat),
            advance e (P ++ (encU e x ++ R)) P.length = .ok j → j = (P ++ encU e x).length := by
          intro e he hb P R j hj
          have hf : FwdOk e x := by
            cases e <;> first | exact absurd rfl he | exact hb
          rw [advance_enc e x hf] at hj
          cases hj
          simp
        have atEnd : ∀ (e : Enc) (P : Str e) (l : List Nat),
            (P ++ encU e x).length = (P ++ (encU e x ++ encs e l)).length ↔ l = [] := by
          intro e P l
          have := encs_length_ge e l
          simp only [List.length_append]
          constructor
          · intro h
            exact List.eq_nil_of_length_eq_zero (by omega)
          · rintro rfl
            simp
        by_cases hes : es.form = .utf16
        · obtain ⟨k1, k2⟩ := stuck es hes _ _ _ hj2
          have g1 : ¬ (es.form ≠ .utf16 ∧ b' = []) := fun h => h.1 hes
          rw [if_neg k1, if_neg g1]
          by_cases hec : ec.form = .utf16
          · obtain ⟨l1, l2⟩ := stuck ec hec _ _ _ hj1
            have g2 : ¬ (ec.form ≠ .utf16 ∧ a' = []) := fun h => h.1 hec
            rw [if_neg l1, if_neg g2, l2]
            rfl
          · have l1 := moved ec hec hax _ _ _ hj1
            rw [l1]
            by_cases ha' : a' = []
            · rw [if_pos ((atEnd ec _ _).mpr ha'), if_pos ⟨hec, ha'⟩]
              rfl
            · have g3 : ¬ (ec.form ≠ .utf16 ∧ a' = []) := fun h => ha' h.2
              rw [if_neg (fun h => ha' ((atEnd ec _ _).mp h)), if_neg g3]
              cases a' with
              | nil => exact absurd rfl ha'
              | cons z a' =>
                have haz : BwdOk ec z := ha.bwd z (by simp)
                obtain ⟨j3, hj3⟩ := advance_some ec haz (encs ec p ++ encU ec x) (encs ec a')
                have hd := deref_enc ec z haz (encs ec p ++ encU ec x) (encs ec a')
                rw [List.append_assoc] at hj3 hd
                rw [encs_cons, hj3, Outcome.ok_bind, hd, Outcome.ok_bind, k2]
                rfl
        · have hec : ec.form = .utf16 := hform.resolve_right hes
          obtain ⟨l1, l2⟩ := stuck ec hec _ _ _ hj1
          have k1 := moved es hes hby _ _ _ hj2
          rw [k1]
          by_cases hb' : b' = []
          · rw [if_pos ((atEnd es _ _).mpr hb'), if_pos ⟨hes, hb'⟩]
            rfl
          · have g1 : ¬ (es.form ≠ .utf16 ∧ b' = []) := fun h => hb' h.2
            have g2 : ¬ (ec.form ≠ .utf16 ∧ a' = []) := fun h => h.1 hec
            rw [if_neg (fun h => hb' ((atEnd es _ _).mp h)), if_neg g1, if_neg l1, if_neg g2, l2]
            rfl

example : TextOf .char8 [0xF0#8, 0x9F#8, 0x98#8, 0x80#8] [0x1F600]
    ∧ TextOf .char16 [0xD83D#16, 0xDE00#16, 0x41#16] [0x1F600, 0x41] ∧ ¬ Spec.IsBmp 0x1F600
    ∧ startsWith .char16 .char8 [0xD83D#16, 0xDE00#16, 0x41#16] [0xF0#8, 0x9F#8, 0x98#8, 0x80#8]
        = .ok true :=
  ⟨⟨⟨by unfold Spec.IsText; decide, by decide⟩, by simp⟩,
    ⟨⟨by unfold Spec.IsText; decide, by decide⟩, by simp⟩, by unfold Spec.IsBmp; decide, by decide⟩

/-- A text does not start with itself. -/
example : TextOf .char8 [0xF0#8, 0x9F#8, 0x98#8, 0x80#8] [0x1F600]
    ∧ TextOf .char16 [0xD83D#16, 0xDE00#16] [0x1F600]
    ∧ startsWith .char8 .char16 [0xF0#8, 0x9F#8, 0x98#8, 0x80#8] [0xD83D#16, 0xDE00#16]
        = .ok false :=
  ⟨⟨⟨by unfold Spec.IsText; decide, by decide⟩, by simp⟩,
    ⟨⟨by unfold Spec.IsText; decide, by decide⟩, by simp⟩, by decide⟩

end Cmp
