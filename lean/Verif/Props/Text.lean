import Verif.Props.Stream
import Verif.Props.Unicode
import Verif.Props.Number
import Verif.Proofs.TextLines
import Verif.Proofs.TextBom

/-
Properties C50 to C57 and C75: text streams.

The host's byte order is `native` throughout.  The end to end theorems are on byte containers with
buffers of any capacity that can hold a code unit, or none; loops have any fuel above the length of
the text.
-/

namespace Cmp

open InStream OutStream

/-- A buffer from which code units can be read. -/
abbrev RoomFor (form : EncodingForm) (cap : Nat) : Prop := form.form.unitSize ≤ cap ∨ cap = 0

/-- Writing code points with `operator <<`. -/
abbrev writeText (native : Endian) (cs : List Nat) : M (OutStream (Res Ctr)) (List Unit) :=
  M.runList (fun c => writeCodePoint native Ctr.writer (BitVec.ofNat 32 c)) cs

/-- Reading `n` code points with `operator >>`. -/
abbrev readText (native : Endian) (n : Nat) : M (InStream (Res Ctr)) (List Char32) :=
  M.runList (fun _ => readFiltered native Ctr.reader) (List.replicate n ())

theorem writeOk_of {form : EncodingForm} {c : Nat} (h : Spec.IsScalar c)
    (h8 : form = .utf8 → ¬ LowSurrogate c) : WriteOk form c := by
  cases form
  · exact ⟨h, h8 rfl⟩
  · exact h
  · exact h

theorem written_text (native e : Endian) (form : EncodingForm) (cap : Nat) (cs : List Nat)
    (ht : Spec.IsText cs) (h8 : form = .utf8 → ∀ c ∈ cs, ¬ LowSurrogate c) :
    written cap e form (writeText native cs) = .ok (textBytes form e cs) := by
  obtain ⟨us, r', e1, q1⟩ := writeCodePoints_eq (Ctr.collects cap []) native cs
    ⟨freshCtr cap 1 [], e, form⟩ [] (fun c hc => writeOk_of (ht c hc) (fun h => h8 h c hc))
    trivial (Ctr.got_fresh cap)
  exact written_eq cap e form _ us _ r' e1 q1

/-- What a stream on a container is about to deliver. -/
theorem fresh_hasText (e : Endian) (form : EncodingForm) (cap : Nat) (hcap : RoomFor form cap)
    (cs : List Nat) (ht : Spec.IsText cs) :
    HasText (fun n => n ≤ cap ∨ cap = 0) true
      (fun bs r => ∃ p, bs = (textBytes form e cs).drop p ∧
        Ctr.Reading cap (textBytes form e cs) 1 p r)
      ⟨freshCtr cap 1 (textBytes form e cs), e, form⟩ (filt cs) :=
  ⟨hcap, cs, ht, .inl rfl, rfl, Ctr.left_fresh cap 1 _⟩

/-- Every stream on a container delivers. -/
theorem ctr_delivers (cap : Nat) (content : List Byte) :
    Ctr.reader.Delivers (fun n => n ≤ cap ∨ cap = 0) true
      (fun bs r => ∃ p, bs = content.drop p ∧ Ctr.Reading cap content 1 p r) :=
  Ctr.delivers cap 1 content (.inl rfl) (Nat.one_dvd _)

section Reading

variable {ρ : Type} {R : Reader ρ} {sizes : Nat → Prop} {tells : Bool}
  {left : List Byte → ρ → Prop}

theorem readCodePoints_eq (D : R.Delivers sizes tells left) (native : Endian) (ts : List Nat) :
    ∀ (s : InStream ρ) (rest : List Nat), HasText sizes tells left s (ts ++ rest) →
      ∃ r', M.runList (fun _ => readFiltered native R) (List.replicate ts.length ()) s =
          (.ok (ts.map (BitVec.ofNat 32)), { s with res := r' }) ∧
        HasText sizes tells left { s with res := r' } rest := by
  induction ts with
  | nil => intro s rest h; exact ⟨s.res, rfl, h⟩
  | cons t ts ih =>
    intro s rest h
    obtain ⟨r1, e1, q1⟩ := hasText_read D native h
    obtain ⟨r2, e2, q2⟩ := ih _ rest q1
    exact ⟨r2, M.runList_cons e1 e2, q2⟩

end Reading

/-! ### C51 -/

/-- The full claim fails: U+1D800 is rejected by the UTF-8 encoder. -/
theorem C51_violated :
    ¬ ∀ (native e : Endian) (form : EncodingForm) (cap : Nat) (cs : List Nat), Spec.IsText cs →
      written cap e form (writeText native cs) = .ok (asBytes (form.form.serialize e.order cs)) := by
  intro h
  have := h .little .little .utf8 0 [0x1D800] (by unfold Spec.IsText; decide)
  revert this
  decide +kernel

/-- C51 on every output resource: whatever was written before, the bytes added are the encoding
scheme's, for every host.  Missing: code points whose low 16 bits are a surrogate value, in
UTF-8. -/
theorem C51_partial {ρ : Type} {W : Writer ρ} {fits : List Byte → Prop}
    {got out : List Byte → ρ → Prop}
    (C : W.Collects fits got out) (native : Endian) (s : OutStream ρ) (sofar : List Byte)
    (cs : List Nat) (ht : Spec.IsText cs) (h8 : s.form = .utf8 → ∀ c ∈ cs, ¬ LowSurrogate c)
    (hf : fits (sofar ++ asBytes (s.form.form.serialize s.endian.order cs)))
    (h : got sofar s.res) :
    ∃ us r', M.runList (fun c => writeCodePoint native W (BitVec.ofNat 32 c)) cs s =
        (.ok us, { s with res := r' }) ∧
      got (sofar ++ asBytes (s.form.form.serialize s.endian.order cs)) r' :=
  writeCodePoints_eq C native cs s sofar (fun c hc => writeOk_of (ht c hc) (fun h => h8 h c hc)) hf h

/-- The same on containers. -/
theorem C51_partial_container (native e : Endian) (form : EncodingForm) (cap : Nat) (cs : List Nat)
    (ht : Spec.IsText cs) (h8 : form = .utf8 → ∀ c ∈ cs, ¬ LowSurrogate c) :
    written cap e form (writeText native cs) = .ok (asBytes (form.form.serialize e.order cs)) :=
  written_text native e form cap cs ht h8

example : written 3 .big .utf16 (writeText .little [0x41, 0x20AC, 0x1F600]) =
      .ok [0, 0x41, 0x20, 0xAC, 0xD8, 0x3D, 0xDE, 0]
    ∧ written 3 .little .utf32 (writeText .big [0x41, 0x1F600]) =
      .ok [0x41, 0, 0, 0, 0, 0xF6, 1, 0] := by decide +kernel

/-! ### C50 -/

/-- The full claim fails: U+1D800 is rejected by the UTF-8 encoder. -/
theorem C50_violated :
    ¬ ∀ (native e : Endian) (form : EncodingForm) (cap cap' : Nat) (cs : List Nat),
      Spec.IsText cs → 13 ∉ cs → RoomFor form cap' →
      ∃ wire, written cap e form (writeText native cs) = .ok wire ∧
        received cap' wire e form (readText native cs.length) =
          .ok (cs.map (BitVec.ofNat 32)) := by
  intro h
  obtain ⟨wire, h1, -⟩ := h .little .little .utf8 0 0 [0x1D800] (by unfold Spec.IsText; decide)
    (by decide) (by decide)
  revert h1
  have : written 0 .little .utf8 (writeText .little [0x1D800]) = .throw .invalidCodePoint := by
    decide +kernel
  rw [this]
  simp

/-- C50 for UTF-16 and UTF-32 completely, and for UTF-8 without code points whose low 16 bits are a
surrogate value, which cannot be written. -/
theorem C50_partial (native e : Endian) (form : EncodingForm) (cap cap' : Nat) (cs : List Nat)
    (ht : Spec.IsText cs) (h13 : 13 ∉ cs) (hcap : RoomFor form cap')
    (h8 : form = .utf8 → ∀ c ∈ cs, ¬ LowSurrogate c) :
    ∃ wire, written cap e form (writeText native cs) = .ok wire ∧
      received cap' wire e form (readText native cs.length) = .ok (cs.map (BitVec.ofNat 32)) := by
  refine ⟨_, written_text native e form cap cs ht h8, ?_⟩
  have h := fresh_hasText e form cap' hcap cs ht
  rw [filt_eq_self cs h13] at h
  obtain ⟨r', e', -⟩ := readCodePoints_eq (ctr_delivers cap' _) native cs _ []
    (by rw [List.append_nil]; exact h)
  exact congrArg Prod.fst e'

example : Spec.IsText [0x41, 0x20AC, 0x1F600, 10] ∧ 13 ∉ [0x41, 0x20AC, 0x1F600, 10]
    ∧ RoomFor .utf16 5 ∧ ∀ c ∈ [0x41, 0x20AC, 0x1F600, 10], ¬ LowSurrogate c := by
  unfold Spec.IsText
  decide

/-! ### C52 -/

/-- On every resource: the mark in either byte order is returned and sets the byte order; what
follows is left to be read. -/
theorem C52_mark {ρ : Type} {R : Reader ρ} {sizes : Nat → Prop} {tells : Bool}
    {left : List Byte → ρ → Prop} (D : R.Delivers sizes tells left) (native : Endian)
    (s : InStream ρ) (hf : s.form ≠ .utf8) (hs : sizes 1) (o : Endian) (cs : List Nat)
    (h : left (asBytes (s.form.form.serialize o.order (0xFEFF :: cs))) s.res) :
    ∃ r', readBom native R s = (.ok bom, { s with res := r', endian := o }) ∧
      left (asBytes (s.form.form.serialize o.order cs)) r' := by
  have h' : left (textBytes s.form o (0xFEFF :: cs)) s.res := h
  rw [textBytes_cons] at h'
  exact readBom_mark D native s hf hs o _ h'

/-- End to end: whatever byte order was configured, after `read_bom` the text is read. -/
theorem C52_text (native configured o : Endian) (form : EncodingForm) (cap cap' : Nat)
    (cs : List Nat) (hf : form ≠ .utf8) (ht : Spec.IsText cs) (h13 : 13 ∉ cs)
    (hcap : RoomFor form cap') :
    ∃ wire, written cap o form (do
        writeBom native Ctr.writer
        writeText native cs) = .ok wire ∧
      received cap' wire configured form (do
        let mark ← readBom native Ctr.reader
        let text ← readText native cs.length
        pure (mark, text)) = .ok (bom, cs.map (BitVec.ofNat 32)) := by
  have hmark : Spec.IsScalar 0xFEFF := by decide
  have hw : written cap o form (do
        writeBom native Ctr.writer
        writeText native cs) = .ok (textBytes form o (0xFEFF :: cs)) := by
    obtain ⟨r1, e1, q1⟩ := writeCodePoint_eq (Ctr.collects cap []) native
      ⟨freshCtr cap 1 [], o, form⟩ 0xFEFF (writeOk_of hmark (fun h => absurd h hf)) []
      trivial (Ctr.got_fresh cap)
    obtain ⟨us, r2, e2, q2⟩ := writeCodePoints_eq (Ctr.collects cap []) native cs ⟨r1, o, form⟩ _
      (fun c hc => writeOk_of (ht c hc) (fun h => absurd h hf)) trivial q1
    refine written_eq cap o form _ us _ r2 ?_ (by rw [textBytes_cons]; exact q2)
    exact (M.bind_ok e1).trans e2
  refine ⟨_, hw, ?_⟩
  have D := ctr_delivers cap' (textBytes form o (0xFEFF :: cs))
  have hl := Ctr.left_fresh cap' 1 (textBytes form o (0xFEFF :: cs))
  have hone : 1 ≤ cap' ∨ cap' = 0 := by omega
  obtain ⟨r1, e1, q1⟩ := C52_mark D native
    ⟨freshCtr cap' 1 (textBytes form o (0xFEFF :: cs)), configured, form⟩ hf hone o cs hl
  obtain ⟨r2, e2, -⟩ := readCodePoints_eq D native cs ⟨r1, o, form⟩ []
    ⟨hcap, cs, ht, .inl rfl, by rw [filt_eq_self cs h13, List.append_nil], q1⟩
  unfold received
  rw [M.bind_ok e1, M.bind_ok e2]
  rfl

example : received 4 [0xFE, 0xFF, 0x20, 0xAC] .little .utf16 (do
      let mark ← readBom .little Ctr.reader
      let text ← readText .little 1
      pure (mark, text)) = .ok (bom, [0x20AC#32]) := by decide +kernel

/-! ### C53 -/

/-- A text that does not begin with the mark in either byte order. -/
def Unmarked (form : EncodingForm) (c : Nat) : Prop := c ≠ 0xFEFF ∧ (form = .utf16 → c ≠ 0xFFFE)

instance (form : EncodingForm) (c : Nat) : Decidable (Unmarked form c) := by
  unfold Unmarked; infer_instance

/-- The full claim fails: on a UTF-16BE stream that begins with U+0416, `read_bom` returns
U+0016. -/
theorem C53_violated :
    ¬ ∀ (native e : Endian) (form : EncodingForm) (cap : Nat) (c : Nat) (cs : List Nat),
      Spec.IsText (c :: cs) → Unmarked form c → RoomFor form cap →
      received cap (asBytes (form.form.serialize e.order (c :: cs))) e form
        (readBom native Ctr.reader) = .ok (BitVec.ofNat 32 c) := by
  intro h
  have := h .little .big .utf16 0 0x416 [] (by unfold Spec.IsText; decide) (by decide) (by decide)
  revert this
  decide +kernel

/-- It fails for every first code point from U+0100 on in UTF-32, and in UTF-16 for those of the
Basic Multilingual Plane: only the lowest byte is returned. -/
theorem C53_violated_always (native e : Endian) (form : EncodingForm) (cap : Nat) (c : Nat)
    (cs : List Nat) (hc : Spec.IsText (c :: cs)) (hu : Unmarked form c) (hcap : RoomFor form cap)
    (hf : form = .utf32 ∨ form = .utf16 ∧ c < 0x10000) :
    received cap (asBytes (form.form.serialize e.order (c :: cs))) e form
      (readBom native Ctr.reader) = .ok (BitVec.ofNat 32 (c % 256)) := by
  have hsc : Spec.IsScalar c := hc c (by simp)
  have hl := Ctr.left_fresh cap 1 (textBytes form e (c :: cs))
  have D := ctr_delivers cap (textBytes form e (c :: cs))
  have hone : 1 ≤ cap ∨ cap = 0 := by omega
  rcases hf with rfl | ⟨rfl, hb⟩
  · have h32 : cpBytes .utf32 e c = objectBytes e 4 c := by
      rw [objectBytes_eq]
      simp [cpBytes, EncodingForm.form, Spec.Form.encode1, Spec.Form.unitSize, Spec.utf32]
    obtain ⟨r', e', -⟩ := readBom_unmarked32 D native
      ⟨freshCtr cap 1 (textBytes .utf32 e (c :: cs)), e, .utf32⟩ rfl hone c hsc.1 hu.1
      (textBytes .utf32 e cs) (by
        show ∃ p, _ ∧ _
        rw [← h32, ← textBytes_cons]
        exact hl)
    unfold received
    exact congrArg Prod.fst e'
  · have h16 : cpBytes .utf16 e c = objectBytes e 2 c := by
      rw [objectBytes_eq]
      simp [cpBytes, EncodingForm.form, Spec.Form.encode1, Spec.Form.unitSize, Spec.utf16, hb]
    obtain ⟨r', e', -⟩ := readBom_unmarked16 D native
      ⟨freshCtr cap 1 (textBytes .utf16 e (c :: cs)), e, .utf16⟩ rfl hone c
      (by have := hu.1; omega) (by have := hu.2 rfl; omega)
      (textBytes .utf16 e cs) (by
        show ∃ p, _ ∧ _
        rw [← h16, ← textBytes_cons]
        exact hl)
    unfold received
    exact congrArg Prod.fst e'

/-- C53 for UTF-8, and in UTF-16 and UTF-32 for code points below U+0100.  Missing: all others. -/
theorem C53_partial (native e : Endian) (form : EncodingForm) (cap : Nat) (c : Nat)
    (cs : List Nat) (hc : Spec.IsText (c :: cs)) (hcap : RoomFor form cap)
    (hf : form = .utf8 ∨ c < 0x100) :
    received cap (asBytes (form.form.serialize e.order (c :: cs))) e form
      (readBom native Ctr.reader) = .ok (BitVec.ofNat 32 c) := by
  have hsc : Spec.IsScalar c := hc c (by simp)
  by_cases h8 : form = .utf8
  · subst h8
    have hl := Ctr.left_fresh cap 1 (textBytes .utf8 e (c :: cs))
    have D := ctr_delivers cap (textBytes .utf8 e (c :: cs))
    obtain ⟨r', e', -⟩ := readCodePoint_text D native
      ⟨freshCtr cap 1 (textBytes .utf8 e (c :: cs)), e, .utf8⟩ hcap c hsc (textBytes .utf8 e cs)
      (by
        show ∃ p, _ ∧ _
        rw [← textBytes_cons]
        exact hl)
    unfold received
    rw [readBom, M.bind_ok (M.get_apply _)]
    exact congrArg Prod.fst e'
  · have h : c < 0x100 := by
      rcases hf with h | h
      · exact absurd h h8
      · exact h
    have := C53_violated_always native e form cap c cs hc ⟨by omega, fun _ => by omega⟩ hcap (by
      cases form
      · exact absurd rfl h8
      · exact .inr ⟨rfl, by omega⟩
      · exact .inl rfl)
    rwa [Nat.mod_eq_of_lt h] at this

example : Spec.IsText [0x20AC, 0x41] ∧ RoomFor .utf8 1 ∧ Spec.IsText [0xE9, 0x20AC]
    ∧ RoomFor .utf16 2 ∧ 0xE9 < 0x100 := by
  unfold Spec.IsText
  decide

/-! ### C54 -/

/-- Reading `n` lines. -/
abbrev readLines (native : Endian) (e : Enc) (fuel n : Nat) : M (InStream (Res Ctr)) (List (Str e)) :=
  M.runList (fun _ => readLine native Ctr.reader e fuel) (List.replicate n ())

theorem units_encs (e : Enc) (cs : List Nat) (h : Spec.IsText cs)
    (hn : e = .narrow → ∀ c ∈ cs, c < 128) : units (encs e cs) = e.form.encode cs :=
  (textOf_encs e cs h hn).1.2

theorem filt_append (a b : List Nat) (h : 13 ∉ a) : filt (a ++ b) = a ++ filt b := by
  induction a with
  | nil => rfl
  | cons c a ih =>
    rw [List.cons_append, filt_cons_ne c _ (by rintro rfl; simp at h),
      ih (fun x => h (by simp [x]))]
    rfl

theorem filt_joinLines (lines : List (List Nat × Spec.Newline)) (rest : List Nat)
    (h : ∀ l ∈ lines, 13 ∉ l.1) :
    filt (Spec.joinLines lines ++ rest) = lines.flatMap (fun l => l.1 ++ [10]) ++ filt rest := by
  induction lines with
  | nil => rfl
  | cons l ls ih =>
    have h1 : filt (l.2.text ++ (Spec.joinLines ls ++ rest)) =
        10 :: filt (Spec.joinLines ls ++ rest) := by
      cases l.2 with
      | lf => exact filt_cons_ne 10 _ (by decide)
      | crlf => simp [Spec.Newline.text, filt]
    rw [Spec.joinLines, List.flatMap_cons, ← Spec.joinLines, List.append_assoc, List.append_assoc,
      filt_append _ _ (h l (by simp)), h1, ih (fun x hx => h x (by simp [hx])), List.flatMap_cons]
    simp

section Lines

variable {ρ : Type} {R : Reader ρ} {sizes : Nat → Prop} {tells : Bool}
  {left : List Byte → ρ → Prop}

theorem readLines_eq (D : R.Delivers sizes tells left) (native : Endian) (e : Enc) (fuel : Nat)
    (lines : List (List Nat)) (h10 : ∀ l ∈ lines, 10 ∉ l)
    (hi : ∀ l ∈ lines, ∀ c ∈ l, InsOk e c) (hf : ∀ l ∈ lines, l.length < fuel) :
    ∀ (s : InStream ρ) (rest : List Nat),
      HasText sizes tells left s (lines.flatMap (fun l => l ++ [10]) ++ rest) →
      ∃ r', M.runList (fun _ => readLine native R e fuel) (List.replicate lines.length ()) s =
          (.ok (lines.map (encs e)), { s with res := r' }) ∧
        HasText sizes tells left { s with res := r' } rest := by
  induction lines with
  | nil => intro s rest h; exact ⟨s.res, rfl, h⟩
  | cons l ls ih =>
    intro s rest h
    obtain ⟨r1, e1, q1⟩ := appendLine_lf D native e l (ls.flatMap (fun l => l ++ [10]) ++ rest)
      (h10 l (by simp)) (hi l (by simp)) fuel [] s (hf l (by simp)) (by simpa using h)
    obtain ⟨r2, e2, q2⟩ := ih (fun x hx => h10 x (by simp [hx])) (fun x hx => hi x (by simp [hx]))
      (fun x hx => hf x (by simp [hx])) _ rest q1
    rw [List.nil_append] at e1
    exact ⟨r2, M.runList_cons e1 e2, q2⟩

end Lines

/-- Lines have no carriage returns and line feeds. -/
def IsLine (l : List Nat) : Prop := Spec.IsText l ∧ 13 ∉ l ∧ 10 ∉ l

instance (l : List Nat) : Decidable (IsLine l) := by
  unfold IsLine Spec.IsText
  infer_instance

/-- The string type can hold the text. -/
def Holds (e : Enc) (cs : List Nat) : Prop :=
  (e = .narrow → ∀ c ∈ cs, c < 128) ∧ (e = .char8 → ∀ c ∈ cs, ¬ LowSurrogate c)

instance (e : Enc) (cs : List Nat) : Decidable (Holds e cs) := by unfold Holds; infer_instance

theorem Holds.insOk {e : Enc} {cs : List Nat} (h : Holds e cs) (ht : Spec.IsText cs) :
    ∀ c ∈ cs, InsOk e c := by
  intro c hc
  cases e with
  | narrow => exact h.1 rfl c hc
  | char8 => exact ⟨ht c hc, h.2 rfl c hc⟩
  | char16 => exact ht c hc
  | wide2 => exact ht c hc
  | char32 => exact isScalar_lt (ht c hc)
  | wide4 => exact isScalar_lt (ht c hc)

/-- The full claim fails: a line with U+1D800 cannot be read into a `std::u8string`. -/
theorem C54_violated :
    ¬ ∀ (native o : Endian) (form : EncodingForm) (e : Enc) (cap fuel : Nat)
      (lines : List (List Nat × Spec.Newline)) (last : List Nat), RoomFor form cap →
      (∀ l ∈ lines, IsLine l.1) → IsLine last →
      (e = .narrow → ∀ l ∈ last :: lines.map (·.1), ∀ c ∈ l, c < 128) →
      (Spec.joinLines lines ++ last).length < fuel →
      ∃ strings, received cap (asBytes (form.form.serialize o.order (Spec.joinLines lines ++ last)))
          o form (readLines native e fuel (lines.length + 1)) = .ok strings ∧
        strings.map units = lines.map (fun l => e.form.encode l.1) ++ [e.form.encode last] := by
  intro h
  obtain ⟨strings, h1, -⟩ := h .little .little .utf16 .char8 0 2 [] [0x1D800] (by decide) (by decide)
    (by decide) (by decide) (by decide)
  have : received 0 (asBytes (EncodingForm.utf16.form.serialize Endian.little.order
      (Spec.joinLines [] ++ [0x1D800]))) .little .utf16 (readLines .little .char8 2 1) =
      .throw .invalidCodePoint := by decide +kernel
  rw [show ([] : List (List Nat × Spec.Newline)).length + 1 = 1 from rfl, this] at h1
  simp at h1

/-- C54 for lines the string type of the library can hold (a `std::u8string` cannot be given code
points whose low 16 bits are a surrogate value; a `std::string` is ASCII).  The last line has no
terminator; when the text ends with one, it is empty. -/
theorem C54_partial (native o : Endian) (form : EncodingForm) (e : Enc) (cap fuel : Nat)
    (lines : List (List Nat × Spec.Newline)) (last : List Nat) (hcap : RoomFor form cap)
    (hl : ∀ l ∈ lines, IsLine l.1) (hlast : IsLine last)
    (hh : ∀ l ∈ lines, Holds e l.1) (hhl : Holds e last)
    (hfuel : (Spec.joinLines lines ++ last).length < fuel) :
    ∃ strings, received cap (asBytes (form.form.serialize o.order (Spec.joinLines lines ++ last)))
        o form (readLines native e fuel (lines.length + 1)) = .ok strings ∧
      strings.map units = lines.map (fun l => e.form.encode l.1) ++ [e.form.encode last] := by
  have ht : Spec.IsText (Spec.joinLines lines ++ last) := by
    intro c hc
    rcases List.mem_append.mp hc with hc | hc
    · obtain ⟨l, hx, hc⟩ := List.mem_flatMap.mp hc
      rcases List.mem_append.mp hc with hc | hc
      · exact (hl l hx).1 c hc
      · cases h2 : l.2 <;> rw [h2] at hc <;> simp [Spec.Newline.text] at hc
        · subst hc; decide
        · rcases hc with rfl | rfl <;> decide
    · exact hlast.1 c hc
  have hlen : ∀ l ∈ lines.map (·.1), l.length < fuel := by
    intro l hx
    obtain ⟨p, hp, rfl⟩ := List.mem_map.mp hx
    obtain ⟨a, b, rfl⟩ := List.append_of_mem hp
    simp only [Spec.joinLines, List.flatMap_append, List.flatMap_cons, List.length_append] at hfuel
    omega
  have h := fresh_hasText o form cap hcap _ ht
  have hfl : filt (Spec.joinLines lines ++ last) =
      (lines.map (·.1)).flatMap (fun l => l ++ [10]) ++ last := by
    rw [filt_joinLines lines last (fun l hx => (hl l hx).2.1), filt_eq_self last hlast.2.1,
      List.flatMap_map]
  rw [hfl] at h
  have D := ctr_delivers cap (textBytes form o (Spec.joinLines lines ++ last))
  obtain ⟨r1, e1, q1⟩ := readLines_eq D native e fuel (lines.map (·.1))
    (by
      intro l hx
      obtain ⟨p, hp, rfl⟩ := List.mem_map.mp hx
      exact (hl p hp).2.2)
    (by
      intro l hx
      obtain ⟨p, hp, rfl⟩ := List.mem_map.mp hx
      exact (hh p hp).insOk (hl p hp).1) hlen _ last h
  obtain ⟨r2, e2, -⟩ := appendLine_end D native e last hlast.2.2 (hhl.insOk hlast.1) fuel [] _
    (by rw [List.length_append] at hfuel; omega) q1
  rw [List.length_map] at e1
  have e3 := M.runList_append e1 (M.runList_cons (i := ()) e2 (M.runList_nil _ _))
  rw [← List.replicate_succ'] at e3
  refine ⟨_, congrArg Prod.fst e3, ?_⟩
  rw [List.map_append, List.map_map, List.map_map, List.map_cons, List.map_nil, List.nil_append,
    units_encs e last hlast.1 hhl.1]
  congr 1
  apply List.map_congr_left
  intro p hp
  exact units_encs e p.1 (hl p hp).1 (hh p hp).1

/-- C54 on every resource, also one that cannot tell that it is at its end, such as standard input:
terminated lines are read one by one, and the text `more` that follows them is left. -/
theorem C54_partial_any {ρ : Type} {R : Reader ρ} {sizes : Nat → Prop} {tells : Bool}
    {left : List Byte → ρ → Prop} (D : R.Delivers sizes tells left) (native : Endian)
    (s : InStream ρ) (hs : sizes s.form.form.unitSize) (e : Enc) (fuel : Nat)
    (lines : List (List Nat × Spec.Newline)) (more : List Nat) (hl : ∀ l ∈ lines, IsLine l.1)
    (hm : Spec.IsText more) (hme : EndOk tells more)
    (hh : ∀ l ∈ lines, Holds e l.1) (hfuel : ∀ l ∈ lines, l.1.length < fuel)
    (h : left (asBytes (s.form.form.serialize s.endian.order (Spec.joinLines lines ++ more))) s.res) :
    ∃ strings s', M.runList (fun _ => readLine native R e fuel) (List.replicate lines.length ()) s =
        (.ok strings, s') ∧
      strings.map units = lines.map (fun l => e.form.encode l.1)
      ∧ HasText sizes tells left s' (filt more) := by
  have ht : Spec.IsText (Spec.joinLines lines ++ more) := by
    intro c hc
    rcases List.mem_append.mp hc with hc | hc
    · obtain ⟨l, hx, hc⟩ := List.mem_flatMap.mp hc
      rcases List.mem_append.mp hc with hc | hc
      · exact (hl l hx).1 c hc
      · cases h2 : l.2 <;> rw [h2] at hc <;> simp [Spec.Newline.text] at hc
        · subst hc; decide
        · rcases hc with rfl | rfl <;> decide
    · exact hm c hc
  have hend : EndOk tells (Spec.joinLines lines ++ more) := by
    rcases hme with hme | hme
    · exact .inl hme
    right
    cases more with
    | cons c more =>
      rw [List.getLast?_append_of_ne_nil _ (by simp)]
      exact hme
    | nil =>
      rw [List.append_nil]
      rcases List.eq_nil_or_concat lines with rfl | ⟨init, l, rfl⟩
      · simp [Spec.joinLines]
      · obtain ⟨l, t⟩ := l
        cases t <;> simp [Spec.joinLines, Spec.Newline.text, List.getLast?_append]
  have hfl : filt (Spec.joinLines lines ++ more) =
      (lines.map (·.1)).flatMap (fun l => l ++ [10]) ++ filt more := by
    have := filt_joinLines lines more (fun l hx => (hl l hx).2.1)
    rw [this, List.flatMap_map]
  obtain ⟨r1, e1, q1⟩ := readLines_eq D native e fuel (lines.map (·.1))
    (by
      intro l hx
      obtain ⟨p, hp, rfl⟩ := List.mem_map.mp hx
      exact (hl p hp).2.2)
    (by
      intro l hx
      obtain ⟨p, hp, rfl⟩ := List.mem_map.mp hx
      exact (hh p hp).insOk (hl p hp).1)
    (by
      intro l hx
      obtain ⟨p, hp, rfl⟩ := List.mem_map.mp hx
      exact hfuel p hp) s (filt more) ⟨hs, _, ht, hend, hfl, h⟩
  rw [List.length_map] at e1
  refine ⟨_, _, e1, ?_, q1⟩
  rw [List.map_map, List.map_map]
  apply List.map_congr_left
  intro p hp
  exact units_encs e p.1 (hl p hp).1 (hh p hp).1

example : (∀ l ∈ [([0x41, 0x20AC], Spec.Newline.crlf), ([], .lf)], IsLine l.1 ∧ Holds .char8 l.1)
    ∧ IsLine [0x1F600] ∧ Holds .char8 [0x1F600] ∧ RoomFor .utf16 4
    ∧ (Spec.joinLines [([0x41, 0x20AC], Spec.Newline.crlf), ([], .lf)] ++ [0x1F600]).length < 10 := by
  decide

example : received 4 (asBytes (EncodingForm.utf16.form.serialize Endian.big.order
      (Spec.joinLines [([0x41, 0x20AC], Spec.Newline.crlf), ([], .lf)] ++ [0x1F600]))) .big .utf16
      (readLines .little .char32 10 3) = .ok [[0x41#32, 0x20AC#32], [], [0x1F600#32]] := by
  decide +kernel

/-! ### C55 -/

theorem filt_eq_crlfToLf (cs : List Nat) (h : Spec.NoLoneCR cs) : filt cs = Spec.crlfToLf cs := by
  suffices ∀ n (cs : List Nat), cs.length ≤ n → Spec.NoLoneCR cs → filt cs = Spec.crlfToLf cs from
    this _ _ (Nat.le_refl _) h
  intro n
  induction n with
  | zero =>
    intro cs hn _
    cases cs with
    | nil => rfl
    | cons => simp at hn
  | succ n ih =>
    intro cs hn h
    match cs, hn, h with
    | [], _, _ => rfl
    | [c], _, _ => simp [filt, Spec.crlfToLf]
    | c :: d :: cs, hn, h =>
      simp only [List.length_cons] at hn
      by_cases hc : c = 13
      · subst hc
        have hd := h [] d cs rfl
        subst hd
        rw [filt, if_pos rfl, Spec.crlfToLf, ih cs (by omega)]
        intro pre x post hx
        exact h (13 :: 10 :: pre) x post (by simp [hx])
      · rw [filt, if_neg hc, Spec.crlfToLf, ih (d :: cs) (by simp; omega)]
        · intro pre x post hx
          exact h (c :: pre) x post (by simp [hx])
        · intro x hx
          exact absurd hx hc

theorem crlfToLf_length (cs : List Nat) : (Spec.crlfToLf cs).length ≤ cs.length := by
  suffices ∀ n (cs : List Nat), cs.length ≤ n → (Spec.crlfToLf cs).length ≤ cs.length from
    this _ _ (Nat.le_refl _)
  intro n
  induction n with
  | zero =>
    intro cs hn
    cases cs with
    | nil => simp [Spec.crlfToLf]
    | cons => simp at hn
  | succ n ih =>
    intro cs hn
    unfold Spec.crlfToLf
    split
    · next cs =>
      simp only [List.length_cons] at hn ⊢
      have := ih cs (by omega)
      omega
    · next c cs _ =>
      simp only [List.length_cons] at hn ⊢
      have := ih cs (by omega)
      omega
    · simp

/-- The full claim fails: a carriage return in front of another character is lost. -/
theorem C55_violated :
    ¬ ∀ (native o : Endian) (form : EncodingForm) (cap fuel : Nat) (cs : List Nat),
      RoomFor form cap → Spec.IsText cs → cs.length < fuel →
      ∃ s, received cap (asBytes (form.form.serialize o.order cs)) o form
          (readAll native Ctr.reader .char32 fuel) = .ok s ∧
        units s = Spec.crlfToLf cs := by
  intro h
  obtain ⟨s, h1, h2⟩ := h .little .little .utf8 0 4 [0x61, 13, 0x62] (by decide)
    (by unfold Spec.IsText; decide) (by decide)
  have : received 0 (asBytes (EncodingForm.utf8.form.serialize Endian.little.order
      [0x61, 13, 0x62])) .little .utf8 (readAll .little Ctr.reader .char32 4) =
      .ok [0x61#32, 0x62#32] := by decide +kernel
  rw [this] at h1
  simp only [Outcome.ok.injEq] at h1
  subst h1
  revert h2
  decide

/-- C55 for texts in which every carriage return is part of CR LF or is the last character.
Missing: other carriage returns, which are lost. -/
theorem C55_partial (native o : Endian) (form : EncodingForm) (e : Enc) (cap fuel : Nat)
    (cs : List Nat) (hcap : RoomFor form cap) (ht : Spec.IsText cs) (hh : Holds e (Spec.crlfToLf cs))
    (hcr : Spec.NoLoneCR cs) (hfuel : cs.length < fuel) :
    ∃ s, received cap (asBytes (form.form.serialize o.order cs)) o form
        (readAll native Ctr.reader e fuel) = .ok s ∧
      units s = e.form.encode (Spec.crlfToLf cs) := by
  have h := fresh_hasText o form cap hcap cs ht
  rw [filt_eq_crlfToLf cs hcr] at h
  have hlen := crlfToLf_length cs
  obtain ⟨r', e', -⟩ := appendAll_end (ctr_delivers cap (textBytes form o cs)) native e
    (Spec.crlfToLf cs) (hh.insOk h.text) fuel [] _ (by omega) h
  refine ⟨_, congrArg Prod.fst e', ?_⟩
  rw [List.nil_append]
  exact units_encs e _ h.text hh.1

example : RoomFor .utf16 2 ∧ Spec.IsText [0x61, 13, 10, 0x62, 13]
    ∧ Holds .char8 (Spec.crlfToLf [0x61, 13, 10, 0x62, 13]) := by
  unfold Spec.IsText
  decide

example : Spec.NoLoneCR [0x61, 13, 10, 0x62, 13] := by
  intro pre c post h
  match pre, h with
  | [], h => simp at h
  | [_], h => simp at h; exact h.2.1.symm
  | [_, _], h => simp at h
  | [_, _, _], h => simp at h
  | [_, _, _, _], h => simp at h
  | _ :: _ :: _ :: _ :: _ :: _, h => simp at h

/-! ### C56 -/

/-- Extracting `n` words. -/
abbrev readWords (native : Endian) (e : Enc) (fuel n : Nat) : M (InStream (Res Ctr)) (List (Str e)) :=
  M.runList (fun _ => readWord native Ctr.reader e fuel) (List.replicate n ())

/-- The words of a text, computed from left to right. -/
def wordsFrom (sep : Nat → Bool) : List Nat → List Nat → List (List Nat)
  | acc, [] => if acc = [] then [] else [acc]
  | acc, c :: cs =>
    if sep c then if acc = [] then wordsFrom sep [] cs else acc :: wordsFrom sep [] cs
    else wordsFrom sep (acc ++ [c]) cs

theorem wordsFrom_seps (sep : Nat → Bool) (s cs : List Nat) (h : ∀ c ∈ s, sep c = true) :
    wordsFrom sep [] (s ++ cs) = wordsFrom sep [] cs := by
  induction s with
  | nil => rfl
  | cons c s ih =>
    rw [List.cons_append, wordsFrom, if_pos (h c (by simp)), if_pos rfl,
      ih (fun x hx => h x (by simp [hx]))]

theorem wordsFrom_word (sep : Nat → Bool) (acc w cs : List Nat) (h : ∀ c ∈ w, sep c = false) :
    wordsFrom sep acc (w ++ cs) = wordsFrom sep (acc ++ w) cs := by
  induction w generalizing acc with
  | nil => simp
  | cons c w ih =>
    rw [List.cons_append, wordsFrom, if_neg (by simp [h c (by simp)]),
      ih _ (fun x hx => h x (by simp [hx]))]
    simp

theorem words_unique (sep : Nat → Bool) (cs : List Nat) (ws : List (List Nat))
    (h : Spec.Words (fun c => sep c = true) cs ws) : wordsFrom sep [] cs = ws := by
  induction h with
  | none s hs => simpa [wordsFrom] using wordsFrom_seps sep s [] hs
  | last s w hs hw hn =>
    rw [wordsFrom_seps sep s w hs]
    have := wordsFrom_word sep [] w [] (by simpa using hn)
    simpa [wordsFrom, hw] using this
  | next s w b cs ws hs hw hn hb h ih =>
    rw [List.append_assoc, wordsFrom_seps sep s _ hs, wordsFrom_word sep [] w _ (by simpa using hn),
      List.nil_append, wordsFrom, if_pos hb, if_neg hw, ih]

theorem words_exist (sep : Nat → Bool) (n : Nat) (cs : List Nat) (hn : cs.length ≤ n) :
    Spec.Words (fun c => sep c = true) cs (wordsFrom sep [] cs) := by
  induction n generalizing cs with
  | zero =>
    have : cs = [] := List.length_eq_zero_iff.mp (by omega)
    subst this
    exact .none [] (by simp)
  | succ n ih =>
    have hs : ∀ c ∈ cs.takeWhile sep, sep c = true := fun c hc => by
      have := List.all_takeWhile (p := sep) (l := cs)
      exact List.all_eq_true.mp this c hc
    have e1 : cs = cs.takeWhile sep ++ cs.dropWhile sep := (List.takeWhile_append_dropWhile).symm
    generalize cs.takeWhile sep = s at e1 hs
    have hd : ∀ c l, cs.dropWhile sep = c :: l → sep c = false := by
      intro c l h
      have := List.head?_dropWhile_not sep cs
      rw [h] at this
      simpa using this
    generalize cs.dropWhile sep = r at e1 hd
    have hw : ∀ c ∈ r.takeWhile (fun c => !sep c), ¬ sep c = true := by
      intro c hc
      have := List.all_eq_true.mp (List.all_takeWhile (p := fun c => !sep c) (l := r)) c hc
      simpa using this
    have e2 : r = r.takeWhile (fun c => !sep c) ++ r.dropWhile (fun c => !sep c) :=
      (List.takeWhile_append_dropWhile).symm
    have hd2 : ∀ c l, r.dropWhile (fun c => !sep c) = c :: l → sep c = true := by
      intro c l h
      have := List.head?_dropWhile_not (fun c => !sep c) r
      rw [h] at this
      simpa using this
    have hr : r = [] ∨ r.takeWhile (fun c => !sep c) ≠ [] := by
      cases r with
      | nil => exact .inl rfl
      | cons c l =>
        right
        rw [List.takeWhile_cons, if_pos (by simpa using hd c l rfl)]
        simp
    generalize r.takeWhile (fun c => !sep c) = w at e2 hw hr
    generalize r.dropWhile (fun c => !sep c) = t at e2 hd2
    rcases hr with rfl | hne
    · rw [e1, wordsFrom_seps sep s _ hs, List.append_nil]
      exact .none s hs
    · cases t with
      | nil =>
        have : wordsFrom sep [] (s ++ w) = [w] := words_unique sep _ _ (.last s w hs hne hw)
        rw [List.append_nil] at e2
        rw [e1, e2, this]
        exact .last s w hs hne hw
      | cons b t =>
        have hlen : t.length ≤ n := by
          have := congrArg List.length e1
          rw [e2] at this
          simp at this
          omega
        have hb := hd2 b t rfl
        have h := ih t hlen
        have e3 : cs = s ++ w ++ b :: t := by rw [e1, e2, List.append_assoc]
        have := words_unique sep _ _ (.next s w b t _ hs hne hw hb h)
        rw [e3, this]
        exact .next s w b t _ hs hne hw hb h

theorem wordsFrom_crlf (sep : Nat → Bool) (h13 : sep 13 = true) (h10 : sep 10 = true) (n : Nat) :
    ∀ (cs acc : List Nat), cs.length ≤ n →
      wordsFrom sep acc (Spec.crlfToLf cs) = wordsFrom sep acc cs := by
  induction n with
  | zero =>
    intro cs acc hn
    have : cs = [] := List.length_eq_zero_iff.mp (by omega)
    subst this
    rfl
  | succ n ih =>
    intro cs acc hn
    unfold Spec.crlfToLf
    split
    · next cs =>
      simp only [List.length_cons] at hn
      rw [wordsFrom, wordsFrom, if_pos h10, if_pos h13, wordsFrom, if_pos h10, if_pos rfl,
        ih cs [] (by omega)]
    · next c cs _ =>
      simp only [List.length_cons] at hn
      rw [wordsFrom, wordsFrom, ih cs [] (by omega), ih cs (acc ++ [c]) (by omega)]
    · rfl

section Words

variable {ρ : Type} {R : Reader ρ} {sizes : Nat → Prop} {left : List Byte → ρ → Prop}

/-- The words of what the stream delivers, and then an empty string. -/
theorem readWords_eq (D : R.Delivers sizes true left) (native : Endian) (e : Enc) (fuel : Nat)
    (ts : List Nat) (ws : List (List Nat))
    (hw : Spec.Words (fun c => isWhitespace (BitVec.ofNat 32 c) = true) ts ws)
    (hi : ∀ w ∈ ws, ∀ c ∈ w, InsOk e c) (hf : ts.length < fuel) :
    ∀ (s : InStream ρ), HasText sizes true left s ts →
      ∃ r', M.runList (fun _ => readWord native R e fuel) (List.replicate (ws.length + 1) ()) s =
          (.ok (ws.map (encs e) ++ [[]]), { s with res := r' }) := by
  have htail : ∀ s, HasText sizes true left s [] →
      ∃ r', M.runList (fun _ => readWord native R e fuel) (List.replicate 1 ()) s =
        (.ok [[]], { s with res := r' }) := by
    intro s h
    obtain ⟨r, e', -⟩ := readWord_end D native e [] [] (by simp) (by simp) (by simp) fuel s
      (by simp; omega) h
    exact ⟨r, M.runList_cons e' (M.runList_nil _ _)⟩
  induction hw with
  | none sp hs =>
    intro s h
    obtain ⟨r, e', -⟩ := readWord_end D native e sp [] hs (by simp) (by simp) fuel s
      (by simpa using hf) (by simpa using h)
    exact ⟨r, M.runList_cons e' (M.runList_nil _ _)⟩
  | last sp w hs hne hn =>
    intro s h
    obtain ⟨r, e', q⟩ := readWord_end D native e sp w hs (by simpa using hn)
      (hi w (by simp)) fuel s (by simpa using hf) h
    obtain ⟨r2, e2⟩ := htail _ q
    exact ⟨r2, M.runList_cons e' e2⟩
  | next sp w b cs ws hs hne hn hb hws ih =>
    intro s h
    simp only [List.length_append, List.length_cons] at hf
    obtain ⟨r, e', q⟩ := readWord_space D native e sp w b cs hs hne (by simpa using hn) hb
      (hi w (by simp)) fuel s (by omega) h
    obtain ⟨r2, e2⟩ := ih (fun x hx => hi x (by simp [hx])) (by omega) _ q
    exact ⟨r2, M.runList_cons e' e2⟩

end Words

theorem isWhitespace_iff (c : Nat) (h : c < 2 ^ 32) :
    isWhitespace (BitVec.ofNat 32 c) = true ↔ Spec.IsWhiteSpace c := by
  rw [C17_whitespace, BitVec.toNat_ofNat, Nat.mod_eq_of_lt h]

instance : DecidablePred Spec.IsWhiteSpace := fun n => by
  unfold Spec.IsWhiteSpace
  infer_instance

/-- The full claim fails: `a CR b` is one word `ab`. -/
theorem C56_violated :
    ¬ ∀ (native o : Endian) (form : EncodingForm) (e : Enc) (cap fuel : Nat) (cs : List Nat)
      (ws : List (List Nat)), RoomFor form cap → Spec.IsText cs → Holds e cs → cs.length < fuel →
      Spec.Words Spec.IsWhiteSpace cs ws →
      ∃ strings, received cap (asBytes (form.form.serialize o.order cs)) o form
          (readWords native e fuel (ws.length + 1)) = .ok strings ∧
        strings.map units = ws.map e.form.encode ++ [[]] := by
  intro h
  obtain ⟨strings, h1, h2⟩ := h .little .little .utf8 .char8 0 4 [0x61, 13, 0x62] [[0x61], [0x62]]
    (by decide) (by unfold Spec.IsText; decide) (by decide) (by decide)
    (.next [] [0x61] 13 [0x62] [[0x62]] (by simp) (by simp) (by decide) (by decide)
      (.last [] [0x62] (by simp) (by simp) (by decide)))
  have : received 0 (asBytes (EncodingForm.utf8.form.serialize Endian.little.order
      [0x61, 13, 0x62])) .little .utf8 (readWords .little .char8 4 3) =
      .ok [[0x61#8, 0x62#8], [], []] := by decide +kernel
  rw [show ([[0x61], [0x62]] : List (List Nat)).length + 1 = 3 from rfl, this] at h1
  simp only [Outcome.ok.injEq] at h1
  subst h1
  revert h2
  decide

/-- C56 for texts without lone carriage returns: the words come one by one, and an empty string
after them.  Missing: texts with a carriage return that is neither part of CR LF nor last; code
points that the string type of the library cannot be given. -/
theorem C56_partial (native o : Endian) (form : EncodingForm) (e : Enc) (cap fuel : Nat)
    (cs : List Nat) (ws : List (List Nat)) (hcap : RoomFor form cap) (ht : Spec.IsText cs)
    (hh : ∀ w ∈ ws, Holds e w) (hcr : Spec.NoLoneCR cs) (hfuel : cs.length < fuel)
    (hw : Spec.Words Spec.IsWhiteSpace cs ws) :
    ∃ strings, received cap (asBytes (form.form.serialize o.order cs)) o form
        (readWords native e fuel (ws.length + 1)) = .ok strings ∧
      strings.map units = ws.map e.form.encode ++ [[]] := by
  have h := fresh_hasText o form cap hcap cs ht
  rw [filt_eq_crlfToLf cs hcr] at h
  -- the words with the library's notion of whitespace, after the translation of line ends
  have hwmem : ∀ w ∈ ws, ∀ c ∈ w, c ∈ cs := by
    clear hh h ht hcr hfuel
    induction hw with
    | none => simp
    | last s w _ _ _ =>
      intro x hx c hc
      simp at hx
      subst hx
      simp [hc]
    | next s w b cs ws _ _ _ _ _ ih =>
      intro x hx c hc
      rcases List.mem_cons.mp hx with rfl | hx
      · simp [hc]
      · have := ih x hx c hc
        simp [this]
  have hmono : ∀ (P Q : Nat → Prop) (cs : List Nat) (ws : List (List Nat)),
      (∀ c ∈ cs, P c ↔ Q c) → Spec.Words P cs ws → Spec.Words Q cs ws := by
    intro P Q cs ws hpq hw
    induction hw with
    | none s hs => exact .none s (fun c hc => (hpq c hc).mp (hs c hc))
    | last s w hs hne hn =>
      exact .last s w (fun c hc => (hpq c (by simp [hc])).mp (hs c hc)) hne
        (fun c hc hq => hn c hc ((hpq c (by simp [hc])).mpr hq))
    | next s w b cs ws hs hne hn hb _ ih =>
      exact .next s w b cs ws (fun c hc => (hpq c (by simp [hc])).mp (hs c hc)) hne
        (fun c hc hq => hn c hc ((hpq c (by simp [hc])).mpr hq)) ((hpq b (by simp)).mp hb)
        (ih (fun c hc => hpq c (by simp [hc])))
  have hw1 := hmono _ (fun c => isWhitespace (BitVec.ofNat 32 c) = true) cs ws
    (fun c hc => (isWhitespace_iff c (isScalar_lt (ht c hc))).symm) hw
  have hw2 : Spec.Words (fun c => isWhitespace (BitVec.ofNat 32 c) = true) (Spec.crlfToLf cs) ws := by
    have h1 := words_unique (fun c => isWhitespace (BitVec.ofNat 32 c)) _ _ hw1
    have h2 := words_exist (fun c => isWhitespace (BitVec.ofNat 32 c)) _ (Spec.crlfToLf cs)
      (Nat.le_refl _)
    rwa [wordsFrom_crlf _ (by decide) (by decide) _ cs [] (Nat.le_refl _), h1] at h2
  have hlen := crlfToLf_length cs
  have htw : ∀ w ∈ ws, Spec.IsText w := fun w hx c hc => ht c (hwmem w hx c hc)
  obtain ⟨r', e'⟩ := readWords_eq (ctr_delivers cap (textBytes form o cs)) native e fuel _ ws hw2
    (fun w hx => (hh w hx).insOk (htw w hx)) (by omega) _ h
  refine ⟨_, congrArg Prod.fst e', ?_⟩
  rw [List.map_append, List.map_map, List.map_cons, List.map_nil]
  congr 1
  apply List.map_congr_left
  intro w hx
  exact units_encs e w (htw w hx) (hh w hx).1

example : RoomFor .utf8 1 ∧ Spec.IsText [32, 0x61, 0x20AC, 13, 10, 0x3000, 0x62]
    ∧ ∀ w ∈ [[0x61, 0x20AC], [0x62]], Holds .char8 w := by
  unfold Spec.IsText
  decide

example : Spec.Words Spec.IsWhiteSpace [32, 0x61, 0x20AC, 13, 10, 0x3000, 0x62]
    [[0x61, 0x20AC], [0x62]] :=
  .next [32] [0x61, 0x20AC] 13 [10, 0x3000, 0x62] [[0x62]] (by decide) (by simp) (by decide)
    (by decide) (.last [10, 0x3000] [0x62] (by decide) (by simp) (by decide))

end Cmp
