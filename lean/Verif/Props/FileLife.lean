import Verif.Proofs.NoFile
import Verif.Props.TextOutput
import Verif.Props.Console

/-
Properties C95 to C98: opening a file object later or not at all, saving and loading.
-/

namespace Cmp

open InStream OutStream

/-! ### C95 -/

/-- What a program sees of an operation on a file object. -/
structure Seen where
  bytes : List Byte
  count : Nat
  opened : Bool
  position : Outcome Int
  isOpen : Bool
  mode : AccessMode
  deriving DecidableEq

/-- Perform an operation: bytes read, count returned, result of opening. -/
def FileObj.act (P : FilePlatform) : FileOp → M FileObj (List Byte × Nat × Bool)
  | .read n => do
    let got ← FileObj.read P n
    pure (got.bytes, got.count, false)
  | .write bytes => do
    let n ← FileObj.write P bytes
    pure ([], n, false)
  | .flush => do
    FileObj.flush P
    pure ([], 0, false)
  | .setPosition p pr => do
    FileObj.setPosition P p pr
    pure ([], 0, false)
  | .close => do
    FileObj.close P
    pure ([], 0, false)
  | .open path mode absent => do
    let b ← FileObj.openFile P path mode absent
    pure ([], 0, b)

/-- Perform an operation and look at the object. -/
def FileObj.look (P : FilePlatform) (op : FileOp) : M FileObj Seen := do
  let x ← FileObj.act P op
  let f ← M.get
  pure ⟨x.1, x.2.1, x.2.2, FileObj.getPosition P f, FileObj.isOpen f, FileObj.getAccessMode f⟩

/-- The claim: no program can tell the two objects apart, whatever it does with them and whatever
exceptions it catches. -/
def SameBehaviour (P : FilePlatform) (f g : FileObj) : Prop :=
  ∀ ops, M.outcomes (FileObj.look P) f ops = M.outcomes (FileObj.look P) g ops
    ∧ FileObj.isAtEnd P (M.stateAfter (FileObj.look P) f ops) =
      FileObj.isAtEnd P (M.stateAfter (FileObj.look P) g ops)

/-- Asked whether it is at the end, an object that was made without a path terminates the program. -/
theorem C95_violated (P : FilePlatform) :
    ¬ ∀ (cap : Nat) (files : Nat → Option (List Byte)) (reads : List Nat) (path : Nat)
      (mode : AccessMode) (absent : IfNotThere),
      (FileObj.openFile P path mode absent (FileObj.default cap files reads)).1 = .ok true →
      SameBehaviour P (FileObj.openFile P path mode absent (FileObj.default cap files reads)).2
        (FileObj.make P cap files reads path mode absent) := by
  intro h
  have := (h 4 twoFiles [] 0 .readOnly .fail (by cases P <;> decide +kernel) []).2
  revert this
  cases P <;> decide +kernel

theorem FileObj.blind_look (P : FilePlatform) (op : FileOp) : FileObj.Blind (FileObj.look P op) := by
  refine FileObj.blind_bind ?_ fun x =>
    FileObj.blind_get (fun _ _ => rfl) fun _ => FileObj.blind_pure _
  cases op with
  | read n => exact FileObj.blind_bind (FileObj.blind_read P n) fun _ => FileObj.blind_pure _
  | write bytes => exact FileObj.blind_bind (FileObj.blind_write P bytes) fun _ => FileObj.blind_pure _
  | flush => exact FileObj.blind_bind (FileObj.blind_flush P) fun _ => FileObj.blind_pure _
  | setPosition p pr => exact FileObj.blind_bind (FileObj.blind_onRes _) fun _ => FileObj.blind_pure _
  | close => exact FileObj.blind_bind (FileObj.blind_close P) fun _ => FileObj.blind_pure _
  | «open» path mode absent =>
    exact FileObj.blind_bind (FileObj.blind_openFile P path mode absent) fun _ => FileObj.blind_pure _

theorem FileObj.blind_stateAfter {ι ρ : Type} {step : ι → M FileObj ρ}
    (h : ∀ i, FileObj.Blind (step i)) (is : List ι) : ∀ (p : Option Nat) (f : FileObj),
      M.stateAfter step { f with path := p } is = { M.stateAfter step f is with path := p } := by
  induction is with
  | nil => intro p f; rfl
  | cons i is ih =>
    intro p f
    show M.stateAfter step (step i { f with path := p }).2 is = _
    rw [h i p f]
    exact ih p _

/-- An object that was made without a path and opened later, and one that was made with the path, do
the same in every program, until they are asked whether they are at the end.  Missing: that
question. -/
theorem C95_partial (P : FilePlatform) (cap : Nat) (files : Nat → Option (List Byte))
    (reads : List Nat) (path : Nat) (mode : AccessMode) (absent : IfNotThere)
    (opened : (FileObj.openFile P path mode absent (FileObj.default cap files reads)).1 = .ok true)
    (ops : List FileOp) :
    M.outcomes (FileObj.look P)
        (FileObj.openFile P path mode absent (FileObj.default cap files reads)).2 ops =
      M.outcomes (FileObj.look P) (FileObj.make P cap files reads path mode absent) ops := by
  rw [FileObj.openFile_default P cap files reads path mode absent opened]
  exact FileObj.blind_outcomes (FileObj.blind_look P) ops none _

/-- C95 in full: apart from that question the two objects do the same, and asked whether it is at the
end, the object that was opened later never answers: whatever was done before, the program terminates,
or the question is undefined if the file was closed on Windows. -/
theorem C95_exact (P : FilePlatform) (cap : Nat) (files : Nat → Option (List Byte))
    (reads : List Nat) (path : Nat) (mode : AccessMode) (absent : IfNotThere)
    (opened : (FileObj.openFile P path mode absent (FileObj.default cap files reads)).1 = .ok true)
    (ops : List FileOp) :
    let f := (FileObj.openFile P path mode absent (FileObj.default cap files reads)).2
    let g := FileObj.make P cap files reads path mode absent
    M.outcomes (FileObj.look P) f ops = M.outcomes (FileObj.look P) g ops
    ∧ FileObj.isOpen (M.stateAfter (FileObj.look P) f ops)
      = FileObj.isOpen (M.stateAfter (FileObj.look P) g ops)
    ∧ (M.stateAfter (FileObj.look P) f ops).res.dev.files
      = (M.stateAfter (FileObj.look P) g ops).res.dev.files
    ∧ FileObj.isAtEnd P (M.stateAfter (FileObj.look P) f ops) =
      (if P = .windows ∧ FileObj.isOpen (M.stateAfter (FileObj.look P) g ops) = false then .ub
       else .terminate) := by
  intro f g
  have hf : f = { g with path := none } := FileObj.openFile_default P cap files reads path mode absent
    opened
  have hst : M.stateAfter (FileObj.look P) f ops =
      { M.stateAfter (FileObj.look P) g ops with path := none } := by
    rw [hf]
    exact FileObj.blind_stateAfter (FileObj.blind_look P) ops none g
  refine ⟨C95_partial P cap files reads path mode absent opened ops, by rw [hst]; rfl, by rw [hst], ?_⟩
  rw [hst]
  generalize M.stateAfter (FileObj.look P) g ops = h
  obtain ⟨⟨buf, ⟨fs, fd, off, rs⟩⟩, p, m⟩ := h
  cases fd <;> cases P <;> simp [FileObj.isAtEnd, FileObj.getPosition, FileObj.isOpen]

/-- Reading, a write that is refused, seeking, opening another file, reading it. -/
example : ∀ P, (FileObj.openFile P 0 .readOnly .fail (FileObj.default 4 twoFiles [])).1 = .ok true
    ∧ M.outcomes (FileObj.look P)
      (FileObj.openFile P 0 .readOnly .fail (FileObj.default 4 twoFiles [])).2
      [.read 3, .write [7], .setPosition 1 .begin, .open 1 .readAndWrite .fail, .read 2, .close] =
      [.ok ⟨[1, 2, 3], 3, false, .ok 3, true, .readOnly⟩, .throw .invalidAccessMode,
        .ok ⟨[], 0, false, .ok 1, true, .readOnly⟩, .ok ⟨[], 0, true, .ok 0, true, .readAndWrite⟩,
        .ok ⟨[11, 12], 2, false, .ok 2, true, .readAndWrite⟩,
        .ok ⟨[], 0, false, if P = .unix then .ok 1 else .ub, false, .readAndWrite⟩] := by
  intro P
  cases P <;> decide +kernel

/-! ### C96 -/

/-- Write or flush. -/
def FileObj.doOut (P : FilePlatform) : OutOp → M FileObj Nat
  | .write bytes => FileObj.write P bytes
  | .flush => do
    FileObj.flush P
    pure 0

/-- The claim: what is written to a file that is made for the purpose is what is read from it after
it is closed, and there is nothing else in it; other files are not affected. -/
def SavesAndLoads (P : FilePlatform) (cap cap' : Nat) (files : Nat → Option (List Byte))
    (reads reads' : List Nat) (path : Nat) (mode mode' : AccessMode) (ops : List OutOp)
    (ns : List Nat) : Prop :=
  ∃ f f' outs g, M.runList (FileObj.doOut P) ops (FileObj.make P cap files reads path mode .create) =
      (.ok (ops.map (·.bytes.length)), f)
    ∧ FileObj.close P f = (.ok (), f')
    ∧ (∀ p, p ≠ path → f'.res.dev.files p = files p)
    ∧ M.runList (FileObj.read P) ns (FileObj.make P cap' f'.res.dev.files reads' path mode' .fail) =
      (.ok outs, g)
    ∧ (outs.map (·.bytes)).flatten = (ops.flatMap (·.bytes)).take ns.sum
    ∧ ∀ out ∈ outs, out.count = out.bytes.length

/-- A file that was there before and is longer is not truncated: saving one byte over four leaves
the other three. -/
theorem C96_violated (P : FilePlatform) :
    ¬ ∀ (cap cap' : Nat) (files : Nat → Option (List Byte)) (path : Nat) (mode mode' : AccessMode)
      (ops : List OutOp) (ns : List Nat), mode ≠ .readOnly → mode' ≠ .writeOnly →
      SavesAndLoads P cap cap' files [] [] path mode mode' ops ns := by
  intro h
  obtain ⟨f, f', outs, g, e1, e2, -, e3, q, -⟩ := h 0 0 twoFiles 0 .writeOnly .readOnly [.write [9]] [4]
    (by decide) (by decide)
  have h1 : (M.runList (FileObj.read P) [4] (FileObj.make P 0 (FileObj.close P
      (M.runList (FileObj.doOut P) [.write [9]]
        (FileObj.make P 0 twoFiles [] 0 .writeOnly .create)).2).2.res.dev.files [] 0 .readOnly
      .fail)).1 = .ok [⟨[9, 2, 3, 4], 4⟩] := by
    cases P <;> decide +kernel
  rw [e1] at h1
  change (M.runList (FileObj.read P) [4] (FileObj.make P 0 (FileObj.close P f).2.res.dev.files [] 0
    .readOnly .fail)).1 = _ at h1
  rw [e2] at h1
  change (M.runList (FileObj.read P) [4] (FileObj.make P 0 f'.res.dev.files [] 0
    .readOnly .fail)).1 = _ at h1
  rw [e3] at h1
  change Outcome.ok outs = _ at h1
  simp only [Outcome.ok.injEq] at h1
  subst h1
  revert q
  decide

/-- What is in the file after saving: what was written, and behind it what was there before. -/
theorem saved (P : FilePlatform) (cap : Nat) (files : Nat → Option (List Byte)) (reads : List Nat)
    (path : Nat) (mode : AccessMode) (hm : mode ≠ .readOnly) (hcap : cap ≤ P.most) (ops : List OutOp)
    (hlim : ∀ op ∈ ops, op.bytes.length ≤ P.most) :
    ∃ f f', M.runList (FileObj.doOut P) ops (FileObj.make P cap files reads path mode .create) =
        (.ok (ops.map (·.bytes.length)), f)
      ∧ FileObj.close P f = (.ok (), f')
      ∧ f'.res.dev.files = FileDev.withFile files path (ops.flatMap (·.bytes) ++
          ((files path).getD []).drop (ops.flatMap (·.bytes)).length) := by
  have run : ∀ (ops : List OutOp) (w : List Byte) (f : FileObj),
      (∀ op ∈ ops, op.bytes.length ≤ P.most) →
      FileObj.Saving files path cap mode ((files path).getD []) reads w f →
      ∃ f', M.runList (FileObj.doOut P) ops f = (.ok (ops.map (·.bytes.length)), f') ∧
        FileObj.Saving files path cap mode ((files path).getD []) reads
          (w ++ ops.flatMap (·.bytes)) f' := by
    intro ops
    induction ops with
    | nil => intro w f _ h; exact ⟨f, rfl, by simpa using h⟩
    | cons op ops ih =>
      intro w f hl h
      have h1 : ∃ f', FileObj.doOut P op f = (.ok op.bytes.length, f') ∧
          FileObj.Saving files path cap mode ((files path).getD []) reads (w ++ op.bytes) f' := by
        cases op with
        | write bytes => exact FileObj.write_saving hm hcap h bytes (hl (.write bytes) (by simp))
        | flush =>
          obtain ⟨f', e, h', -⟩ := FileObj.flush_saving (P := P) hm hcap h
          exact ⟨f', by rw [FileObj.doOut, M.bind_ok e]; rfl, by simpa [OutOp.bytes] using h'⟩
      obtain ⟨f', e, h'⟩ := h1
      obtain ⟨f'', e', h''⟩ := ih _ f' (fun op h => hl op (by simp [h])) h'
      exact ⟨f'', M.runList_cons e e', by simpa using h''⟩
  obtain ⟨f, e, h⟩ := run ops [] _ hlim (FileObj.saving_make P cap files reads path mode)
  obtain ⟨f', e', -, q⟩ := FileObj.close_saving (P := P) hm hcap h
  refine ⟨f, f', e, e', ?_⟩
  rw [q]
  simp [Res.overlay]

/-- C96 in general: what is loaded is what was written, and behind it what an older, longer file
held there.  On Unix without short counts, with pieces no larger than the system takes at once and
reads no larger than the buffer. -/
theorem C96_exact (P : FilePlatform) (cap cap' : Nat) (files : Nat → Option (List Byte))
    (reads reads' : List Nat) (path : Nat) (mode mode' : AccessMode) (ops : List OutOp)
    (ns : List Nat) (hm : mode ≠ .readOnly) (hm' : mode' ≠ .writeOnly) (hcap : cap ≤ P.most)
    (hcap' : cap' ≤ P.most) (hlim : ∀ op ∈ ops, op.bytes.length ≤ P.most)
    (hns : ∀ n ∈ ns, n ≤ P.most) (hn : cap' = 0 ∨ ∀ n ∈ ns, n ≤ cap') (hs : P.Steady reads') :
    ∃ f f' outs g,
      M.runList (FileObj.doOut P) ops (FileObj.make P cap files reads path mode .create) =
        (.ok (ops.map (·.bytes.length)), f)
      ∧ FileObj.close P f = (.ok (), f')
      ∧ (∀ p, p ≠ path → f'.res.dev.files p = files p)
      ∧ M.runList (FileObj.read P) ns (FileObj.make P cap' f'.res.dev.files reads' path mode' .fail) =
        (.ok outs, g)
      ∧ (outs.map (·.bytes)).flatten = (ops.flatMap (·.bytes) ++
          ((files path).getD []).drop (ops.flatMap (·.bytes)).length).take ns.sum
      ∧ ∀ out ∈ outs, out.count = out.bytes.length := by
  obtain ⟨f, f', e, e', q⟩ := saved P cap files reads path mode hm hcap ops hlim
  obtain ⟨outs, g, e'', h1, h2⟩ := C45_partial P cap' (ops.flatMap (·.bytes) ++
    ((files path).getD []).drop (ops.flatMap (·.bytes)).length) reads' ns hs hcap' hns hn f'.res.dev.files path
    mode' (by rw [q, FileDev.withFile, if_pos rfl]) hm'
  refine ⟨f, f', outs, g, e, e', fun p hp => ?_, e'', h1, h2⟩
  rw [q]
  simp [FileDev.withFile, hp]

/-- C96 where there was no file or none that is longer than what is written.  Missing: longer files,
which keep their old end, and the limits of C45. -/
theorem C96_partial (P : FilePlatform) (cap cap' : Nat) (files : Nat → Option (List Byte))
    (reads reads' : List Nat) (path : Nat) (mode mode' : AccessMode) (ops : List OutOp)
    (ns : List Nat) (hm : mode ≠ .readOnly) (hm' : mode' ≠ .writeOnly) (hcap : cap ≤ P.most)
    (hcap' : cap' ≤ P.most) (hlim : ∀ op ∈ ops, op.bytes.length ≤ P.most)
    (hns : ∀ n ∈ ns, n ≤ P.most) (hn : cap' = 0 ∨ ∀ n ∈ ns, n ≤ cap') (hs : P.Steady reads')
    (hold : ∀ old, files path = some old → old.length ≤ (ops.flatMap (·.bytes)).length) :
    SavesAndLoads P cap cap' files reads reads' path mode mode' ops ns := by
  obtain ⟨f, f', outs, g, e, e', hp, e'', h1, h2⟩ := C96_exact P cap cap' files reads reads' path mode
    mode' ops ns hm hm' hcap hcap' hlim hns hn hs
  refine ⟨f, f', outs, g, e, e', hp, e'', ?_, h2⟩
  rw [h1]
  have : ((files path).getD []).drop (ops.flatMap (·.bytes)).length = [] := by
    cases hc : files path with
    | none => simp
    | some old => exact List.drop_eq_nil_of_le (hold old hc)
  rw [this, List.append_nil]

/-- Three bytes in place of two, through buffers of two bytes; a file that was not there. -/
example : (∀ old, twoFiles 1 = some old →
      old.length ≤ (([.write [5, 6], .flush, .write [7]] : List OutOp).flatMap (·.bytes)).length)
    ∧ (∀ old, twoFiles 7 = some old → old.length ≤ ([].flatMap (OutOp.bytes)).length)
    ∧ ∀ P, (M.runList (FileObj.read P) [2, 2] (FileObj.make P 2 (FileObj.close P
      (M.runList (FileObj.doOut P) [.write [5, 6], .flush, .write [7]]
        (FileObj.make P 2 twoFiles [] 1 .writeOnly .create)).2).2.res.dev.files [] 1 .readOnly
      .fail)).1 = .ok [⟨[5, 6], 2⟩, ⟨[7], 1⟩] := by
  refine ⟨fun old h => ?_, fun old h => by simp [twoFiles] at h,
    fun P => by cases P <;> decide +kernel⟩
  simp only [twoFiles, Option.some.injEq] at h
  subst h
  decide

/-! ### C97 -/

/-- A program that saves a text: a mark, then whatever it prints, then it closes the file. -/
def saveText (P : FilePlatform) (native : Endian) (items : List Printed) :
    M (OutStream FileObj) Unit := do
  writeBom native (FileObj.writer P)
  let _ ← printAll native (FileObj.writer P) items
  OutStream.flush (FileObj.writer P)
  OutStream.onRes (FileObj.close P)

/-- A program that loads `n` lines: it reads the mark, which tells it the byte order. -/
def loadLines (P : FilePlatform) (native : Endian) (e : Enc) (fuel n : Nat) :
    M (InStream FileObj) (Char32 × List (Str e)) := do
  let mark ← readBom native (FileObj.reader P)
  let lines ← M.runList (fun _ => readLine native (FileObj.reader P) e fuel) (List.replicate n ())
  pure (mark, lines)

/-- The claim: the file holds the mark and the text and nothing else, other files are as they were,
and the lines that were printed are the lines that are read, on whatever machines and with whatever
byte order the reader assumes. -/
def TextSurvives (P P' : FilePlatform) (native native' o configured : Endian) (form : EncodingForm)
    (cap cap' : Nat) (files : Nat → Option (List Byte)) (reads reads' : List Nat) (path : Nat)
    (mode mode' : AccessMode) (items : List (Printed × List Nat))
    (lines : List (List Nat × Spec.Newline)) (e : Enc) (fuel : Nat) : Prop :=
  ∃ s, saveText P native (items.map (·.1)) ⟨FileObj.make P cap files reads path mode .create, o, form⟩ =
      (.ok (), s)
    ∧ s.res.res.dev.files path =
      some (asBytes (form.form.serialize o.order (0xFEFF :: items.flatMap (·.2))))
    ∧ (∀ p, p ≠ path → s.res.res.dev.files p = files p)
    ∧ ∃ strings s', loadLines P' native' e fuel lines.length
        ⟨FileObj.make P' cap' s.res.res.dev.files reads' path mode' .fail, configured, form⟩ =
        (.ok (bom, strings), s')
      ∧ strings.map units = lines.map fun l => e.form.encode l.1

/-- The mark is read in every encoding form and whatever byte order was assumed. -/
theorem readBom_any {ρ : Type} {R : Reader ρ} {sizes : Nat → Prop} {tells : Bool}
    {left : List Byte → ρ → Prop} (D : R.Delivers sizes tells left) (native : Endian)
    (s : InStream ρ) (hs : sizes 1) (o : Endian) (cs : List Nat)
    (h : left (textBytes s.form o (0xFEFF :: cs)) s.res) :
    ∃ r' e', readBom native R s = (.ok bom, { s with res := r', endian := e' }) ∧
      left (textBytes s.form e' cs) r' := by
  by_cases hf : s.form = .utf8
  · rw [hf, textBytes_utf8 o s.endian, textBytes_cons] at h
    obtain ⟨r', e, q⟩ := readCodePoint_text D native s (by rw [hf]; exact hs) 0xFEFF (by decide) _
      (by rw [hf]; exact h)
    refine ⟨r', s.endian, ?_, by rw [hf]; exact q⟩
    rw [readBom, M.bind_ok (M.get_apply s)]
    simp only [hf]
    rw [e, hf]
    rfl
  · obtain ⟨r', e, q⟩ := C52_mark D native s hf hs o cs h
    exact ⟨r', o, e, q⟩

/-- Files that were there before and are longer are not truncated: an empty text, of which there is
only the mark, leaves the last byte of four. -/
theorem C97_violated (P : FilePlatform) :
    ¬ ∀ (P' : FilePlatform) (native native' o configured : Endian) (form : EncodingForm)
      (cap cap' : Nat) (files : Nat → Option (List Byte)) (path : Nat) (mode mode' : AccessMode)
      (items : List (Printed × List Nat)) (lines : List (List Nat × Spec.Newline)) (e : Enc)
      (fuel : Nat), mode ≠ .readOnly → mode' ≠ .writeOnly → RoomFor form cap' →
      (∀ i ∈ items, i.1.Means i.2) → (∀ i ∈ items, i.1.Supported native o form i.2) →
      items.flatMap (·.2) = Spec.joinLines lines → (∀ l ∈ lines, IsLine l.1) →
      (∀ l ∈ lines, Holds e l.1) → (∀ l ∈ lines, l.1.length < fuel) →
      TextSurvives P P' native native' o configured form cap cap' files [] [] path mode mode' items
        lines e fuel := by
  intro h
  obtain ⟨s, e, q, -⟩ := h P .little .little .little .little .utf8 0 0 twoFiles 0 .writeOnly .readOnly
    [] [] .char8 1 (by decide) (by decide) (.inr rfl) (by simp) (by simp) rfl (by simp) (by simp)
    (by simp)
  have h1 : (saveText P .little [] ⟨FileObj.make P 0 twoFiles [] 0 .writeOnly .create, .little,
      .utf8⟩).2.res.res.dev.files 0 = some [0xEF, 0xBB, 0xBF, 4] := by
    cases P <;> decide +kernel
  rw [List.map_nil] at e
  rw [e] at h1
  change s.res.res.dev.files 0 = _ at h1
  rw [h1] at q
  revert q
  decide +kernel

/-- What saving leaves in the file: the mark and the text, then the rest of what was there before. -/
theorem saved_text (P : FilePlatform) (native o : Endian)
    (form : EncodingForm) (cap : Nat) (files : Nat → Option (List Byte))
    (reads : List Nat) (path : Nat) (mode : AccessMode)
    (items : List (Printed × List Nat)) (hm : mode ≠ .readOnly) (hcap : cap ≤ P.most)
    (ht : ∀ i ∈ items, i.1.Means i.2) (hok : ∀ i ∈ items, i.1.Supported native o form i.2)
    (hlim : (textBytes form o (0xFEFF :: items.flatMap (·.2))).length ≤ P.most) :
    ∃ f, saveText P native (items.map (·.1))
        ⟨FileObj.make P cap files reads path mode .create, o, form⟩ = (.ok (), ⟨f, o, form⟩)
      ∧ f.res.dev.files = FileDev.withFile files path
        (textBytes form o (0xFEFF :: items.flatMap (·.2)) ++
          ((files path).getD []).drop (textBytes form o (0xFEFF :: items.flatMap (·.2))).length) := by
  have C := FileObj.collects P cap files path mode ((files path).getD []) reads hm hcap
  have hmark : Spec.IsScalar 0xFEFF := by decide
  have h8 : ¬ LowSurrogate 0xFEFF := by decide
  rw [textBytes_cons] at hlim ⊢
  obtain ⟨r1, e1, q1⟩ := writeCodePoint_eq C native
    ⟨FileObj.make P cap files reads path mode .create, o, form⟩ 0xFEFF
    (writeOk_of hmark (fun _ => h8)) []
    (by rw [List.nil_append]; rw [List.length_append] at hlim; simp only; omega)
    (FileObj.saving_make P cap files reads path mode)
  rw [List.nil_append] at q1
  simp only at q1
  obtain ⟨us, r2, e2, q2⟩ := C77_partial C native ⟨r1, o, form⟩ (cpBytes form o 0xFEFF) items ht hok
    hlim q1
  obtain ⟨r3, e3, -, q3⟩ := flush_eq C ⟨r2, o, form⟩ _ q2
  obtain ⟨f, e4, -, q4⟩ := FileObj.close_saving (P := P) hm hcap q3
  refine ⟨f, ?_, ?_⟩
  · have e1' : writeBom native (FileObj.writer P)
        ⟨FileObj.make P cap files reads path mode .create, o, form⟩ = (.ok (), ⟨r1, o, form⟩) := e1
    rw [saveText, M.bind_ok e1', M.bind_ok e2, M.bind_ok e3]
    simp only [OutStream.onRes, e4]
  · rw [q4]
    simp only [Res.overlay, List.take_zero, List.nil_append, Nat.zero_add]
    rfl

/-- The lines of a text with a mark are loaded, whatever text follows them. -/
theorem loaded_lines (P' : FilePlatform) (native' o configured : Endian)
    (form : EncodingForm) (cap' : Nat) (files : Nat → Option (List Byte))
    (reads' : List Nat) (path : Nat) (mode' : AccessMode)
    (lines : List (List Nat × Spec.Newline)) (more : List Nat) (e : Enc)
    (fuel : Nat) (hm' : mode' ≠ .writeOnly)
    (hcap' : cap' ≤ P'.most) (hroom : RoomFor form cap') (hs : P'.Steady reads')
    (hl : ∀ l ∈ lines, IsLine l.1) (hmore : Spec.IsText more)
    (hh : ∀ l ∈ lines, Holds e l.1) (hfuel : ∀ l ∈ lines, l.1.length < fuel)
    (hc : files path = some (textBytes form o (0xFEFF :: (Spec.joinLines lines ++ more)))) :
    ∃ strings s', loadLines P' native' e fuel lines.length
        ⟨FileObj.make P' cap' files reads' path mode' .fail, configured, form⟩ =
        (.ok (bom, strings), s')
      ∧ strings.map units = lines.map fun l => e.form.encode l.1 := by
  have D := FileObj.delivers P' cap' files path mode'
    (textBytes form o (0xFEFF :: (Spec.joinLines lines ++ more))) hm' hcap'
  have hleft := FileObj.left_fresh P' cap' files reads' path mode' _ hc hs
  have hbig : 4 ≤ P'.most := by cases P' <;> decide
  have hone : 1 ≤ P'.most ∧ (1 ≤ cap' ∨ cap' = 0) := ⟨by omega, by omega⟩
  have hunit : form.form.unitSize ≤ P'.most ∧ (form.form.unitSize ≤ cap' ∨ cap' = 0) := by
    refine ⟨?_, hroom⟩
    have : form.form.unitSize ≤ 4 := by cases form <;> decide
    omega
  obtain ⟨r, e', h1, h2⟩ := readBom_any D native'
    ⟨FileObj.make P' cap' files reads' path mode' .fail, configured, form⟩ hone o _ hleft
  obtain ⟨strings, s', h3, h4, -⟩ := C54_partial_any D native' ⟨r, e', form⟩ hunit e fuel lines more
    hl hmore (.inl rfl) hh hfuel h2
  refine ⟨strings, s', ?_, h4⟩
  rw [loadLines, M.bind_ok h1, M.bind_ok h3]
  rfl

/-- C97 where there was no file or none that is longer; for what can be printed (see C77) and held
in the strings (see C54).  Missing: longer files, and texts larger than the system takes at once. -/
theorem C97_partial (P P' : FilePlatform) (native native' o configured : Endian)
    (form : EncodingForm) (cap cap' : Nat) (files : Nat → Option (List Byte))
    (reads reads' : List Nat) (path : Nat) (mode mode' : AccessMode)
    (items : List (Printed × List Nat)) (lines : List (List Nat × Spec.Newline)) (e : Enc)
    (fuel : Nat) (hm : mode ≠ .readOnly) (hm' : mode' ≠ .writeOnly) (hcap : cap ≤ P.most)
    (hcap' : cap' ≤ P'.most) (hroom : RoomFor form cap') (hs : P'.Steady reads')
    (ht : ∀ i ∈ items, i.1.Means i.2) (hok : ∀ i ∈ items, i.1.Supported native o form i.2)
    (htext : items.flatMap (·.2) = Spec.joinLines lines) (hl : ∀ l ∈ lines, IsLine l.1)
    (hh : ∀ l ∈ lines, Holds e l.1) (hfuel : ∀ l ∈ lines, l.1.length < fuel)
    (hlim : (asBytes (form.form.serialize o.order (0xFEFF :: items.flatMap (·.2)))).length ≤ P.most)
    (hold : ∀ old, files path = some old → old.length ≤
      (asBytes (form.form.serialize o.order (0xFEFF :: items.flatMap (·.2)))).length) :
    TextSurvives P P' native native' o configured form cap cap' files reads reads' path mode mode'
      items lines e fuel := by
  obtain ⟨f, hsave, hfile⟩ := saved_text P native o form cap files reads path mode items hm hcap ht hok
    hlim
  have hd : ((files path).getD []).drop
      (textBytes form o (0xFEFF :: items.flatMap (·.2))).length = [] := by
    cases hc : files path with
    | none => simp
    | some old => exact List.drop_eq_nil_of_le (hold old hc)
  rw [hd, List.append_nil] at hfile
  refine ⟨_, hsave, ?_, fun p hp => ?_, ?_⟩
  · simp only
    rw [hfile]
    simp only [FileDev.withFile, if_true]
    rfl
  · simp only
    rw [hfile]
    simp [FileDev.withFile, hp]
  · refine loaded_lines P' native' o configured form cap' f.res.dev.files reads' path mode' lines [] e
      fuel hm' hcap' hroom hs hl (by simp [Spec.IsText]) hh hfuel ?_
    rw [hfile, htext]
    simp [FileDev.withFile]

/-- C97 in full, for what can be printed and held and texts the system takes at once: the mark and the
text are written over what was there before, so the claim holds exactly if no older file is longer;
and the lines are loaded even then, if what remains of the older file is text in the same form. -/
theorem C97_exact (P P' : FilePlatform) (native native' o configured : Endian)
    (form : EncodingForm) (cap cap' : Nat) (files : Nat → Option (List Byte))
    (reads reads' : List Nat) (path : Nat) (mode mode' : AccessMode)
    (items : List (Printed × List Nat)) (lines : List (List Nat × Spec.Newline)) (e : Enc)
    (fuel : Nat) (hm : mode ≠ .readOnly) (hm' : mode' ≠ .writeOnly) (hcap : cap ≤ P.most)
    (hcap' : cap' ≤ P'.most) (hroom : RoomFor form cap') (hs : P'.Steady reads')
    (ht : ∀ i ∈ items, i.1.Means i.2) (hok : ∀ i ∈ items, i.1.Supported native o form i.2)
    (htext : items.flatMap (·.2) = Spec.joinLines lines) (hl : ∀ l ∈ lines, IsLine l.1)
    (hh : ∀ l ∈ lines, Holds e l.1) (hfuel : ∀ l ∈ lines, l.1.length < fuel) (text rest : List Byte)
    (htb : text = asBytes (form.form.serialize o.order (0xFEFF :: items.flatMap (·.2))))
    (hrest : rest = ((files path).getD []).drop text.length) (hlim : text.length ≤ P.most) :
    (TextSurvives P P' native native' o configured form cap cap' files reads reads' path mode mode'
      items lines e fuel ↔ ((files path).getD []).length ≤ text.length)
    ∧ ∃ s, saveText P native (items.map (·.1))
        ⟨FileObj.make P cap files reads path mode .create, o, form⟩ = (.ok (), s)
      ∧ s.res.res.dev.files path = some (text ++ rest)
      ∧ (∀ p, p ≠ path → s.res.res.dev.files p = files p)
      ∧ ∀ more, Spec.IsText more → rest = asBytes (form.form.serialize o.order more) →
        ∃ strings s', loadLines P' native' e fuel lines.length
          ⟨FileObj.make P' cap' s.res.res.dev.files reads' path mode' .fail, configured, form⟩ =
          (.ok (bom, strings), s')
        ∧ strings.map units = lines.map fun l => e.form.encode l.1 := by
  obtain ⟨f, hsave, hfile⟩ := saved_text P native o form cap files reads path mode items hm hcap ht hok
    (by rw [htb] at hlim; exact hlim)
  have htb' : text = textBytes form o (0xFEFF :: items.flatMap (·.2)) := htb
  rw [← htb', ← hrest] at hfile
  have hpath : f.res.dev.files path = some (text ++ rest) := by
    rw [hfile]
    simp [FileDev.withFile]
  refine ⟨⟨?_, fun hlen => ?_⟩, _, hsave, hpath, fun p hp => ?_, fun more hmore hr => ?_⟩
  · rintro ⟨s, e1, e2, -⟩
    rw [hsave] at e1
    cases e1
    rw [show (⟨f, o, form⟩ : OutStream FileObj).res = f from rfl, hpath, ← htb] at e2
    have e3 : text ++ rest = text := Option.some.inj e2
    have e4 : rest = [] := by simpa using e3
    rw [hrest, List.drop_eq_nil_iff] at e4
    exact e4
  · exact C97_partial P P' native native' o configured form cap cap' files reads reads' path mode mode'
      items lines e fuel hm hm' hcap hcap' hroom hs ht hok htext hl hh hfuel (by rw [← htb]; exact hlim)
      (fun old ho => by rw [← htb]; rw [ho] at hlen; exact hlen)
  · simp only
    rw [hfile]
    simp [FileDev.withFile, hp]
  · refine loaded_lines P' native' o configured form cap' f.res.dev.files reads' path mode' lines more
      e fuel hm' hcap' hroom hs hl hmore hh hfuel ?_
    rw [hpath, htb', hr, htext]
    show some (textBytes form o _ ++ textBytes form o more) = _
    rw [← textBytes_append, List.cons_append]

/-- Two lines: `n = -17` and a character outside of the basic plane. -/
def savedItems : List (Printed × List Nat) :=
  [(.char 110, [110]), (.int .int (-17), [45, 49, 55]), (.char 10, [10]),
    (.codePoint 0x1F600, [0x1F600]), (.char 13, [13]), (.char 10, [10])]

def savedLines : List (List Nat × Spec.Newline) := [([110, 45, 49, 55], .lf), ([0x1F600], .crlf)]

example : savedItems.flatMap (·.2) = Spec.joinLines savedLines ∧ (∀ l ∈ savedLines, IsLine l.1)
    ∧ (∀ l ∈ savedLines, Holds .char16 l.1) ∧ (∀ l ∈ savedLines, l.1.length < 5)
    ∧ (∀ i ∈ savedItems, i.1.Means i.2)
    ∧ (∀ i ∈ savedItems, i.1.Supported .little .big .utf16 i.2)
    ∧ ∀ old, twoFiles 0 = some old → old.length ≤
      (asBytes (Spec.Form.utf16.serialize .big (0xFEFF :: savedItems.flatMap (·.2)))).length := by
  refine ⟨rfl, by decide, by decide, by decide, ?_, ?_, fun old h => ?_⟩
  · intro i hi
    simp only [savedItems, List.mem_cons, List.not_mem_nil, or_false] at hi
    rcases hi with rfl | rfl | rfl | rfl | rfl | rfl
    · exact ⟨by decide, rfl⟩
    · exact ⟨by decide, by decide, by decide +kernel⟩
    · exact ⟨by decide, rfl⟩
    · exact ⟨by decide, rfl⟩
    · exact ⟨by decide, rfl⟩
    · exact ⟨by decide, rfl⟩
  · intro i hi
    simp only [savedItems, List.mem_cons, List.not_mem_nil, or_false] at hi
    rcases hi with rfl | rfl | rfl | rfl | rfl | rfl
    · trivial
    · exact fun _ => by decide
    · trivial
    · exact fun _ => by decide
    · trivial
    · trivial
  · simp only [twoFiles, Option.some.injEq] at h
    subst h
    decide +kernel

/-- Saved as UTF-16 in big-endian order on a little-endian Unix host, loaded on a big-endian Windows
host by a program that assumes little-endian order. -/
example : (loadLines .windows .big .char16 5 2 ⟨FileObj.make .windows 4
    (saveText .unix .little (savedItems.map (·.1))
      ⟨FileObj.make .unix 3 twoFiles [] 0 .writeOnly .create, .big, .utf16⟩).2.res.res.dev.files
    [] 0 .readOnly .fail, .little, .utf16⟩).1 =
    .ok (bom, [[110, 45, 49, 55], [0xD83D, 0xDE00]]) := by
  decide +kernel

/-! ### C98 -/

/-- What a program should see of an object that has no file. -/
def noFile (P : FilePlatform) (mode : AccessMode) (op : FileOp) : Outcome Seen :=
  let nothing : Seen := ⟨[], 0, false, if P = .unix then .ok (-1) else .ub, false, mode⟩
  match op with
  | .read _ => if mode = .writeOnly then .throw .invalidAccessMode else .ok nothing
  | .write _ => if mode = .readOnly then .throw .invalidAccessMode else .ok nothing
  | _ => .ok nothing

/-- The claim: such an object delivers nothing, accepts nothing, and leaves all files alone. -/
def DoesNothing (P : FilePlatform) (mode : AccessMode) (f : FileObj) (ops : List FileOp) : Prop :=
  M.outcomes (FileObj.look P) f ops = ops.map (noFile P mode)
  ∧ (M.stateAfter (FileObj.look P) f ops).res.dev.files = f.res.dev.files

/-- With a buffer, writing to an object whose file could not be opened is reported as done. -/
theorem C98_violated (P : FilePlatform) :
    ¬ ∀ (cap : Nat) (files : Nat → Option (List Byte)) (reads : List Nat) (path : Nat)
      (mode : AccessMode) (ops : List FileOp), files path = none → (∀ op ∈ ops, ¬ op.IsOpen) →
      DoesNothing P mode (FileObj.make P cap files reads path mode .fail) ops := by
  intro h
  have := (h 4 twoFiles [] 7 .writeOnly [.write [1]] rfl (by simp [FileOp.IsOpen])).1
  revert this
  cases P <;> decide +kernel

theorem doesNothing {P : FilePlatform} {cap : Nat} {files : Nat → Option (List Byte)}
    {mode : AccessMode} {f : FileObj} (h : FileObj.Without cap files mode f)
    (hw : mode = .readOnly ∨ cap = 0) (ops : List FileOp) (hops : ∀ op ∈ ops, ¬ op.IsOpen) :
    M.outcomes (FileObj.look P) f ops = ops.map (noFile P mode)
    ∧ (M.stateAfter (FileObj.look P) f ops).res.dev.files = files := by
  induction ops generalizing f with
  | nil => exact ⟨rfl, h.files_eq⟩
  | cons op ops ih =>
    have see : ∀ op g, FileObj.act P op f = (.ok ([], 0, false), g) →
        FileObj.Without cap files mode g → FileObj.look P op f =
          (.ok ⟨[], 0, false, if P = .unix then .ok (-1) else .ub, false, mode⟩, g) := by
      intro op g e hg
      rw [FileObj.look, M.bind_ok e, M.bind_ok (M.get_apply g)]
      obtain ⟨h1, h2⟩ := FileObj.position_without (P := P) hg
      rw [h1, h2, FileObj.getAccessMode, hg.mode_eq]
      rfl
    have step : ∃ g, FileObj.look P op f = (noFile P mode op, g) ∧
        FileObj.Without cap files mode g := by
      cases op with
      | read n =>
        by_cases hm : mode = .writeOnly
        · have e : FileObj.read P n f = (.throw .invalidAccessMode, f) := by
            have := h.mode_eq
            rw [hm] at this
            rw [FileObj.read, M.bind_ok (M.get_apply f)]
            simp only [this]
            rfl
          refine ⟨f, ?_, h⟩
          simp only [FileObj.look, FileObj.act, noFile, if_pos hm, M.bind_apply, e]
        · obtain ⟨g, e, hg⟩ := FileObj.read_without (P := P) h hm n
          refine ⟨g, ?_, hg⟩
          simp only [noFile, if_neg hm]
          exact see _ g (by rw [FileObj.act, M.bind_ok e]; rfl) hg
      | write bytes =>
        by_cases hm : mode = .readOnly
        · have e : FileObj.write P bytes f = (.throw .invalidAccessMode, f) := by
            have := h.mode_eq
            rw [hm] at this
            rw [FileObj.write, M.bind_ok (M.get_apply f)]
            simp only [this]
            rfl
          refine ⟨f, ?_, h⟩
          simp only [FileObj.look, FileObj.act, noFile, if_pos hm, M.bind_apply, e]
        · have hc : cap = 0 := hw.resolve_left hm
          subst hc
          refine ⟨f, ?_, h⟩
          simp only [noFile, if_neg hm]
          exact see _ f (by rw [FileObj.act, M.bind_ok (FileObj.write_without h hm bytes)]; rfl) h
      | flush =>
        exact ⟨f, see _ f (by rw [FileObj.act, M.bind_ok (FileObj.flush_without h)]; rfl) h, h⟩
      | setPosition p pr =>
        obtain ⟨g, e, hg⟩ := FileObj.setPosition_without (P := P) h p pr
        exact ⟨g, see _ g (by rw [FileObj.act, M.bind_ok e]; rfl) hg, hg⟩
      | close =>
        exact ⟨f, see _ f (by rw [FileObj.act, M.bind_ok (FileObj.close_without h)]; rfl) h, h⟩
      | «open» path mode' absent =>
        exact absurd trivial (hops (.open path mode' absent) (by simp))
    obtain ⟨g, e, hg⟩ := step
    obtain ⟨h1, h2⟩ := ih hg fun op ho => hops op (by simp [ho])
    refine ⟨?_, ?_⟩
    · simp only [M.outcomes, List.map_cons, e, h1]
    · show (M.stateAfter (FileObj.look P) (FileObj.look P op f).2 ops).res.dev.files = files
      rw [e]
      exact h2

/-- C98 for objects without a path, for objects for reading only, and for objects without a buffer.
Missing: buffered objects for writing. -/
theorem C98_partial (P : FilePlatform) (cap : Nat) (files : Nat → Option (List Byte))
    (reads : List Nat) (ops : List FileOp) (hops : ∀ op ∈ ops, ¬ op.IsOpen) :
    DoesNothing P .readOnly (FileObj.default cap files reads) ops
    ∧ ∀ (path : Nat) (mode : AccessMode), files path = none → mode = .readOnly ∨ cap = 0 →
      DoesNothing P mode (FileObj.make P cap files reads path mode .fail) ops := by
  refine ⟨doesNothing (FileObj.without_make cap files reads none .readOnly) (.inl rfl) ops hops,
    fun path mode hp hm => ?_⟩
  have e : FileObj.make P cap files reads path mode .fail =
      ⟨⟨IoBuffer.make cap, ⟨files, none, 0, reads⟩⟩, some path, mode⟩ := by
    rw [FileObj.make, FileObj.openFile, M.noexcept_apply, M.bind_ok (M.get_apply _)]
    rw [if_neg (by simp [FileObj.isOpen])]
    rw [FileObj.openClosed, M.bind_ok (M.get_apply _), if_pos ⟨rfl, by simp only [hp]; rfl⟩]
    rfl
  rw [e]
  exact doesNothing (FileObj.without_make cap files reads (some path) mode) hm ops hops

example : (∀ op ∈ ([.read 3, .write [1], .setPosition 2 .begin, .flush, .close] : List FileOp),
    ¬ op.IsOpen) ∧ twoFiles 7 = none := by
  simp [FileOp.IsOpen, twoFiles]

end Cmp
