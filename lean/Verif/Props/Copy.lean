import Verif.Props.FileLife

/-
Properties C101 and C102: programs that copy from one resource to another.  Source and target are
independent of each other.
-/

namespace Cmp

open InStream OutStream

namespace M

variable {σ τ α : Type}

/-- Run an operation of the source. -/
def onFst (x : M σ α) : M (σ × τ) α := fun s => ((x s.1).1, ((x s.1).2, s.2))

/-- Run an operation of the target. -/
def onSnd (x : M τ α) : M (σ × τ) α := fun s => ((x s.2).1, (s.1, (x s.2).2))

theorem onFst_ok {x : M σ α} {s s' : σ} {a : α} (t : τ) (h : x s = (.ok a, s')) :
    onFst x (s, t) = (.ok a, (s', t)) := by simp only [onFst, h]

theorem onSnd_ok {x : M τ α} {t t' : τ} {a : α} (s : σ) (h : x t = (.ok a, t')) :
    onSnd x (s, t) = (.ok a, (s, t')) := by simp only [onSnd, h]

end M

/-! ### C101 -/

variable {ρ ω : Type}

/-- A program that copies in portions of `k` bytes until the source is at its end. -/
def copyAll (R : Reader ρ) (W : Writer ω) (k : Nat) : Nat → M (ρ × ω) Unit
  | 0 => M.hang
  | fuel + 1 => do
    let s ← M.get
    let atEnd ← M.lift (R.isAtEnd s.1)
    if atEnd then M.onSnd W.flush
    else do
      let got ← M.onFst (R.read k)
      let _ ← M.onSnd (W.write (got.bytes.take got.count))
      copyAll R W k fuel

/-- The claim for two containers of bytes: the target becomes a copy. -/
def CopiesContainer (cap cap' k : Nat) (content : List Byte) : Prop :=
  ∃ s, copyAll Ctr.reader Ctr.writer k (content.length + 1)
      (freshCtr cap 1 content, freshCtr cap' 1 []) = (.ok (), s)
    ∧ s.1.dev.content = content ∧ s.2.dev.content = content

/-- With portions that are larger than the buffer the beginning is copied twice. -/
theorem C101_violated : ¬ ∀ cap cap' k content, 0 < k → CopiesContainer cap cap' k content := by
  intro h
  obtain ⟨s, e, -, q⟩ := h 1 0 3 [1, 2, 3, 4] (by decide)
  have h0 : (copyAll Ctr.reader Ctr.writer 3 5 (freshCtr 1 1 [1, 2, 3, 4], freshCtr 0 1 [])).2.2.dev.content
      = s.2.dev.content := by
    have e' : copyAll Ctr.reader Ctr.writer 3 5 (freshCtr 1 1 [1, 2, 3, 4], freshCtr 0 1 []) = _ := e
    rw [e']
  rw [q] at h0
  clear e q
  revert h0
  decide +kernel

/-- Copying between any two resources that deliver and collect. -/
theorem copyAll_eq {R : Reader ρ} {W : Writer ω} {sizes : Nat → Prop} {left : List Byte → ρ → Prop}
    {fits : List Byte → Prop} {got out : List Byte → ω → Prop} (D : R.Delivers sizes true left)
    (C : W.Collects fits got out) (k : Nat) (hk : 0 < k) (hs : sizes k) (fuel : Nat)
    (bytes sofar : List Byte) (hfuel : bytes.length < fuel) (hf : fits (sofar ++ bytes))
    (r : ρ) (w : ω) (hl : left bytes r) (hg : got sofar w) :
    ∃ r' w', copyAll R W k fuel (r, w) = (.ok (), (r', w')) ∧ left [] r' ∧ out (sofar ++ bytes) w' := by
  induction fuel generalizing bytes sofar r w with
  | zero => omega
  | succ fuel ih =>
    rw [copyAll, M.bind_ok (M.get_apply _)]
    simp only
    rw [D.isAtEnd bytes r hl, M.bind_ok (M.lift_apply _ _)]
    cases bytes with
    | nil =>
      obtain ⟨w', e, ho⟩ := C.flush sofar w hg
      exact ⟨r, w', M.onSnd_ok r e, hl, by simpa using ho⟩
    | cons b bytes =>
      obtain ⟨r', e, hl'⟩ := D.read (b :: bytes) r k hs hl
      have hsplit : sofar ++ (b :: bytes) = sofar ++ (b :: bytes).take k ++ (b :: bytes).drop k := by
        rw [List.append_assoc, List.take_append_drop]
      rw [hsplit] at hf
      obtain ⟨n, w', e', hg'⟩ := C.write sofar w ((b :: bytes).take k) (C.shorter _ _ hf) hg
      obtain ⟨r'', w'', e'', h1, h2⟩ := ih ((b :: bytes).drop k) (sofar ++ (b :: bytes).take k)
        (by simp only [List.length_drop, List.length_cons] at hfuel ⊢; omega) hf r' w' hl' hg'
      refine ⟨r'', w'', ?_, h1, by rw [hsplit]; exact h2⟩
      simp only [List.isEmpty_cons, Bool.and_false, Bool.false_eq_true, if_false]
      rw [M.bind_ok (M.onFst_ok w e)]
      simp only [List.take_length]
      rw [M.bind_ok (M.onSnd_ok r' e')]
      exact e''

/-- Between containers of bytes, with portions no larger than the source's buffer, if it has one.
Missing: larger portions. -/
theorem C101_partial (cap cap' k : Nat) (content : List Byte) (hk : 0 < k) (hn : k ≤ cap ∨ cap = 0) :
    CopiesContainer cap cap' k content := by
  obtain ⟨r, w, e, ⟨p, -, hr⟩, hw⟩ := copyAll_eq (Ctr.delivers cap 1 content (.inl rfl) (Nat.one_dvd _))
    (Ctr.collects cap' []) k hk hn (content.length + 1) content [] (by omega) trivial
    (freshCtr cap 1 content) (freshCtr cap' 1 []) (Ctr.left_fresh cap 1 content) (Ctr.got_fresh cap')
  exact ⟨(r, w), e, (Ctr.reading_content hr).1, by simpa using hw⟩

example : CopiesContainer 4 3 2 [1, 2, 3, 4, 5] := C101_partial _ _ _ _ (by decide) (by decide)

/-- From a file to a new file on another file system, through objects of the same or of different
platforms.  Other files stay as they are. -/
theorem C101_partial_files (P P' : FilePlatform) (cap cap' k : Nat)
    (files files' : Nat → Option (List Byte)) (reads reads' : List Nat) (path path' : Nat)
    (mode mode' : AccessMode) (content : List Byte) (hc : files path = some content)
    (hn : files' path' = none) (hm : mode ≠ .writeOnly) (hm' : mode' ≠ .readOnly) (hr : P.Steady reads)
    (hcap : cap ≤ P.most) (hcap' : cap' ≤ P'.most) (hsize : content.length ≤ P'.most)
    (hk : 0 < k) (hkm : k ≤ P.most) (hkc : k ≤ cap ∨ cap = 0) :
    ∃ f g, copyAll (FileObj.reader P) (FileObj.writer P') k (content.length + 1)
        (FileObj.make P cap files reads path mode .fail,
          FileObj.make P' cap' files' reads' path' mode' .create) = (.ok (), (f, g))
      ∧ f.res.dev.files = files
      ∧ g.res.dev.files path' = some content ∧ ∀ p, p ≠ path' → g.res.dev.files p = files' p := by
  obtain ⟨f, g, e, ⟨p, -, -, hf⟩, hg, -⟩ := copyAll_eq
    (FileObj.delivers P cap files path mode content hm hcap)
    (FileObj.collects P' cap' files' path' mode' [] reads' hm' hcap') k hk ⟨hkm, hkc⟩
    (content.length + 1) content [] (by omega) (by simpa using hsize)
    (FileObj.make P cap files reads path mode .fail)
    (FileObj.make P' cap' files' reads' path' mode' .create)
    (FileObj.left_fresh P cap files reads path mode content hc hr) (by
      have := FileObj.saving_make P' cap' files' reads' path' mode'
      rw [hn] at this
      exact this)
  refine ⟨f, g, e, ?_, ?_, fun p hp => ?_⟩
  · rw [FileObj.reads_file hf]
    funext p
    by_cases hp : p = path <;> simp [FileDev.withFile, hp, hc]
  · rw [hg]
    simp [FileDev.withFile, Res.overlay]
  · rw [hg]
    simp [FileDev.withFile, hp]

example : ∀ P, twoFiles 0 = some [1, 2, 3, 4] → ∃ f g,
    copyAll (FileObj.reader P) (FileObj.writer .unix) 2 5 (FileObj.make P 3 twoFiles [] 0 .readOnly .fail,
      FileObj.make .unix 1 (fun _ => none) [] 7 .writeOnly .create) = (.ok (), (f, g))
      ∧ f.res.dev.files = twoFiles ∧ g.res.dev.files 7 = some [1, 2, 3, 4]
      ∧ ∀ p, p ≠ 7 → g.res.dev.files p = none := by
  intro P h
  exact C101_partial_files P .unix 3 1 2 twoFiles (fun _ => none) [] [] 0 7 .readOnly .writeOnly _ h rfl
    (by decide) (by decide) (by cases P <;> first | rfl | trivial) (by cases P <;> decide) (by decide)
    (by decide) (by decide) (by cases P <;> decide) (by decide)

/-! ### C102 -/

/-- A program that copies a text, code point by code point, until the source is at its end. -/
def transcode (native : Endian) (R : Reader ρ) (W : Writer ω) :
    Nat → M (InStream ρ × OutStream ω) Unit
  | 0 => M.hang
  | fuel + 1 => do
    let atEnd ← M.onFst (InStream.isAtEnd R)
    if atEnd then M.onSnd (OutStream.flush W)
    else do
      let c ← M.onFst (readFiltered native R)
      M.onSnd (writeCodePoint native W c)
      transcode native R W fuel

/-- The claim on containers: the target holds the text in its encoding form and byte order, with the
line ends the stream makes of CR LF. -/
def Transcodes (native : Endian) (cap cap' : Nat) (f f' : EncodingForm) (o o' : Endian)
    (cs : List Nat) : Prop :=
  ∃ s, transcode native Ctr.reader Ctr.writer (cs.length + 1)
      (⟨freshCtr cap 1 (textBytes f o cs), o, f⟩, ⟨freshCtr cap' 1 [], o', f'⟩) = (.ok (), s)
    ∧ s.2.res.dev.content = textBytes f' o' (Spec.crlfToLf cs)

/-- A lone carriage return is lost; and U+1D800 cannot be written in UTF-8. -/
theorem C102_violated (native : Endian) :
    ¬ Transcodes native 0 0 .utf8 .utf16 .big .little [65, 13, 66]
    ∧ ¬ Transcodes native 0 0 .utf16 .utf8 .big .little [0x1D800] := by
  constructor
  · rintro ⟨s, e, q⟩
    have h0 : (transcode native Ctr.reader Ctr.writer 4
        (⟨freshCtr 0 1 (textBytes .utf8 .big [65, 13, 66]), .big, .utf8⟩,
          ⟨freshCtr 0 1 [], .little, .utf16⟩)).2.2.res.dev.content = s.2.res.dev.content := by
      have e' : transcode native Ctr.reader Ctr.writer 4
        (⟨freshCtr 0 1 (textBytes .utf8 .big [65, 13, 66]), .big, .utf8⟩,
          ⟨freshCtr 0 1 [], .little, .utf16⟩) = _ := e
      rw [e']
    rw [q] at h0
    clear e q
    revert h0
    cases native <;> decide +kernel
  · rintro ⟨s, e, -⟩
    have := congrArg Prod.fst e
    clear e
    revert this
    simp only
    cases native <;> decide +kernel

theorem transcode_eq {R : Reader ρ} {W : Writer ω} {sizes : Nat → Prop}
    {left : List Byte → ρ → Prop} {fits : List Byte → Prop} {got out : List Byte → ω → Prop}
    (D : R.Delivers sizes true left) (C : W.Collects fits got out) (native : Endian) (fuel : Nat)
    (ts : List Nat) (sofar : List Byte) (s : InStream ρ) (w : OutStream ω) (hfuel : ts.length < fuel)
    (h8 : ∀ c ∈ ts, WriteOk w.form c) (hf : fits (sofar ++ textBytes w.form w.endian ts))
    (hs : HasText sizes true left s ts) (hg : got sofar w.res) :
    ∃ r' w', transcode native R W fuel (s, w) = (.ok (), ({ s with res := r' }, { w with res := w' }))
      ∧ out (sofar ++ textBytes w.form w.endian ts) w' := by
  induction fuel generalizing ts sofar s w with
  | zero => omega
  | succ fuel ih =>
    rw [transcode, M.bind_ok (M.onFst_ok w (hasText_end D hs))]
    cases ts with
    | nil =>
      obtain ⟨w', e, ho⟩ := flush_eq C w sofar hg
      exact ⟨s.res, w', M.onSnd_ok s e, by simpa [textBytes_nil] using ho⟩
    | cons c ts =>
      simp only [List.isEmpty_cons, Bool.and_false, Bool.false_eq_true, if_false]
      obtain ⟨r', e, hs'⟩ := hasText_read D native hs
      rw [textBytes_cons, ← List.append_assoc] at hf ⊢
      obtain ⟨w', e', hg'⟩ := writeCodePoint_eq C native w c (h8 c (by simp)) sofar (C.shorter _ _ hf) hg
      obtain ⟨r'', w'', e'', ho⟩ := ih ts (sofar ++ cpBytes w.form w.endian c) { s with res := r' }
        { w with res := w' } (by simpa using hfuel) (fun c hc => h8 c (by simp [hc])) hf hs' hg'
      refine ⟨r'', w'', ?_, ho⟩
      rw [M.bind_ok (M.onFst_ok w e), M.bind_ok (M.onSnd_ok _ e')]
      exact e''

theorem crlfToLf_mem (cs : List Nat) : ∀ c ∈ Spec.crlfToLf cs, c ∈ cs := by
  fun_induction Spec.crlfToLf cs with
  | case1 cs ih =>
    intro c hc
    rcases List.mem_cons.mp hc with rfl | hc
    · simp
    · simp [ih c hc]
  | case2 c cs _ ih =>
    intro d hd
    rcases List.mem_cons.mp hd with rfl | hd
    · simp
    · simp [ih d hd]
  | case3 => simp

/-- C102 between any two resources: every text without lone carriage returns, every encoding form and
byte order on both sides.  Missing: lone carriage returns; code points whose low 16 bits are a
surrogate value, if the target is in UTF-8. -/
theorem C102_partial {R : Reader ρ} {W : Writer ω} {sizes : Nat → Prop}
    {left : List Byte → ρ → Prop} {fits : List Byte → Prop} {got out : List Byte → ω → Prop}
    (D : R.Delivers sizes true left) (C : W.Collects fits got out) (native : Endian) (fuel : Nat)
    (cs : List Nat) (s : InStream ρ) (w : OutStream ω) (hfuel : cs.length < fuel)
    (ht : Spec.IsText cs) (hcr : Spec.NoLoneCR cs) (h8 : w.form = .utf8 → ∀ c ∈ cs, ¬ LowSurrogate c)
    (hs : sizes s.form.form.unitSize)
    (hf : fits (textBytes w.form w.endian (Spec.crlfToLf cs)))
    (hl : left (textBytes s.form s.endian cs) s.res) (hg : got [] w.res) :
    ∃ r' w', transcode native R W fuel (s, w) = (.ok (), ({ s with res := r' }, { w with res := w' }))
      ∧ out (textBytes w.form w.endian (Spec.crlfToLf cs)) w' := by
  have := transcode_eq D C native fuel (Spec.crlfToLf cs) [] s w
    (Nat.lt_of_le_of_lt (crlfToLf_length cs) hfuel)
    (fun c hc => writeOk_of (ht c (crlfToLf_mem cs c hc)) fun h => h8 h c (crlfToLf_mem cs c hc))
    (by simpa using hf) ⟨hs, cs, ht, .inl rfl, filt_eq_crlfToLf cs hcr, hl⟩ hg
  simpa using this

/-- The same on containers. -/
theorem C102_partial_container (native : Endian) (cap cap' : Nat) (f f' : EncodingForm) (o o' : Endian)
    (cs : List Nat) (ht : Spec.IsText cs) (hcr : Spec.NoLoneCR cs)
    (h8 : f' = .utf8 → ∀ c ∈ cs, ¬ LowSurrogate c) (hcap : RoomFor f cap) :
    Transcodes native cap cap' f f' o o' cs := by
  obtain ⟨r, w, e, h⟩ := C102_partial (ctr_delivers cap (textBytes f o cs)) (Ctr.collects cap' []) native
    (cs.length + 1) cs ⟨freshCtr cap 1 (textBytes f o cs), o, f⟩ ⟨freshCtr cap' 1 [], o', f'⟩ (by omega)
    ht hcr h8 hcap trivial (Ctr.left_fresh cap 1 _) (Ctr.got_fresh cap')
  exact ⟨_, e, by simpa using h⟩

/-- A program that copies the byte order mark and then the text. -/
def transcodeMarked (native : Endian) (R : Reader ρ) (W : Writer ω) (fuel : Nat) :
    M (InStream ρ × OutStream ω) Unit := do
  let mark ← M.onFst (readBom native R)
  M.onSnd (writeCodePoint native W mark)
  transcode native R W fuel

/-- The same for marked texts, whatever byte order was assumed for the source: the target is marked in
its own byte order. -/
theorem C102_partial_marked {R : Reader ρ} {W : Writer ω} {sizes : Nat → Prop}
    {left : List Byte → ρ → Prop} {fits : List Byte → Prop} {got out : List Byte → ω → Prop}
    (D : R.Delivers sizes true left) (C : W.Collects fits got out) (native : Endian) (fuel : Nat)
    (cs : List Nat) (o : Endian) (s : InStream ρ) (w : OutStream ω) (hfuel : cs.length < fuel)
    (ht : Spec.IsText cs) (hcr : Spec.NoLoneCR cs) (h8 : w.form = .utf8 → ∀ c ∈ cs, ¬ LowSurrogate c)
    (h1 : sizes 1) (hs : sizes s.form.form.unitSize)
    (hf : fits (textBytes w.form w.endian (0xFEFF :: Spec.crlfToLf cs)))
    (hl : left (textBytes s.form o (0xFEFF :: cs)) s.res) (hg : got [] w.res) :
    ∃ s' w', transcodeMarked native R W fuel (s, w) = (.ok (), (s', { w with res := w' }))
      ∧ out (textBytes w.form w.endian (0xFEFF :: Spec.crlfToLf cs)) w' := by
  obtain ⟨r, e, h, hr⟩ := readBom_any D native s h1 o cs hl
  rw [textBytes_cons] at hf ⊢
  obtain ⟨w1, e1, hg1⟩ := writeCodePoint_eq C native w 0xFEFF
    (writeOk_of (by decide) fun _ => by decide) [] (C.shorter _ _ (by simpa using hf)) hg
  obtain ⟨r', w', e', ho⟩ := transcode_eq D C native fuel (Spec.crlfToLf cs)
    (cpBytes w.form w.endian 0xFEFF) { s with res := r, endian := e } { w with res := w1 }
    (Nat.lt_of_le_of_lt (crlfToLf_length cs) hfuel)
    (fun c hc => writeOk_of (ht c (crlfToLf_mem cs c hc)) fun h => h8 h c (crlfToLf_mem cs c hc))
    hf ⟨hs, cs, ht, .inl rfl, filt_eq_crlfToLf cs hcr, hr⟩ (by simpa using hg1)
  refine ⟨{ s with res := r', endian := e }, w', ?_, ho⟩
  have hb : bom = BitVec.ofNat 32 0xFEFF := rfl
  rw [transcodeMarked, M.bind_ok (M.onFst_ok w h), hb, M.bind_ok (M.onSnd_ok _ e1)]
  exact e'

/-- A text with a character outside of the basic plane and both kinds of line ends. -/
example : Spec.IsText [65, 13, 10, 0x1F600, 10, 13] ∧ Spec.NoLoneCR [65, 13, 10, 0x1F600, 10, 13]
    ∧ (∀ c ∈ [65, 13, 10, 0x1F600, 10, 13], ¬ LowSurrogate c) ∧ RoomFor .utf16 3
    ∧ textBytes .utf16 .big (Spec.crlfToLf [65, 13, 10, 0x1F600, 10, 13]) =
      [0, 65, 0, 10, 0xD8, 0x3D, 0xDE, 0, 0, 10, 0, 13] := by
  refine ⟨by unfold Spec.IsText; decide, ?_, by decide, by decide, by decide +kernel⟩
  intro pre c post h
  have hl := congrArg List.length h
  simp only [List.length_append, List.length_cons, List.length_nil] at hl
  match pre, h with
  | [], h => simp at h
  | [_], h => simp at h; exact h.2.1.symm
  | [_, _], h => simp at h
  | [_, _, _], h => simp at h
  | [_, _, _, _], h => simp at h
  | [_, _, _, _, _], h => simp at h
  | _ :: _ :: _ :: _ :: _ :: _ :: _, h => simp at hl; omega

end Cmp
