import Verif.Proofs.Whole

/-
Properties C44 to C46, C73 and C74: files.
-/

namespace Cmp

open Spec (ArrayCursor IoOp Disciplined)

/-- A file system with two files, for the examples. -/
def twoFiles : Nat → Option (List Byte)
  | 0 => some [1, 2, 3, 4]
  | 1 => some [11, 12]
  | _ => none

/-! ### C44 -/

/-- On both platforms and from any state whatsoever: once `open` has succeeded with a mode, and until the next `open`,
whatever is done (including operations that throw), the object reports
that mode, reading a file opened for writing only, and
writing one opened for reading only, throws and leaves the object, its buffer and all files
unchanged.  Moreover nothing done to an object opened for reading only changes any file. -/
theorem C44_access_mode (P : FilePlatform) (f₀ : FileObj) (path : Nat) (mode : AccessMode) (absent : IfNotThere)
    (opened : (FileObj.openFile P path mode absent f₀).1 = .ok true) (ops : List FileOp)
    (hops : ∀ op ∈ ops, ¬ op.IsOpen) :
    let f₁ := (FileObj.openFile P path mode absent f₀).2
    let f := M.stateAfter (FileObj.doFile P) f₁ ops
    FileObj.getAccessMode f = mode
    ∧ (mode = .writeOnly → ∀ n, FileObj.read P n f = (.throw .invalidAccessMode, f))
    ∧ (mode = .readOnly → ∀ bytes, FileObj.write P bytes f = (.throw .invalidAccessMode, f))
    ∧ (mode = .readOnly → f.res.dev.files = f₁.res.dev.files) := by
  intro f₁ f
  have hopen : ∃ g, FileObj.openClosed P path mode absent g = (.ok true, f₁) := by
    by_cases ho : FileObj.isOpen f₀ = true
    · obtain ⟨r, -, e⟩ := FileObj.openFile_open (f' := f₁) ho (Prod.ext opened rfl)
      exact ⟨_, e⟩
    · have e : FileObj.openFile P path mode absent f₀ =
          M.noexcept (FileObj.openClosed P path mode absent) f₀ := by
        simp only [FileObj.openFile, M.noexcept_apply]
        rw [M.bind_ok (M.get_apply f₀), if_neg ho]
      refine ⟨f₀, Prod.ext ?_ (by simp only [f₁, e]; rfl)⟩
      rw [e, M.noexcept_apply] at opened
      cases h : (FileObj.openClosed P path mode absent f₀).1 <;> simp_all [Outcome.noexcept]
  obtain ⟨g, hg⟩ := hopen
  obtain ⟨c, -, -, hfd, -, -, hmode, -⟩ := FileObj.openClosed_true hg
  have hm : f.mode = mode := M.keeps_stateAfter
    (fun op hop => FileObj.keeps_mode mode op (hops op hop)) f₁ hmode
  refine ⟨hm, fun h n => ?_, fun h bytes => ?_, fun h => ?_⟩
  · simp only [FileObj.read]
    rw [M.bind_ok (M.get_apply f), hm, h]
    rfl
  · simp only [FileObj.write]
    rw [M.bind_ok (M.get_apply f), hm, h]
    rfl
  · have h0 : FileDev.Protected f₁.res.dev.files f₁.res.dev := ⟨rfl, fun d hd => by
      rw [hfd] at hd
      simp only [Option.some.injEq] at hd
      rw [← hd]
      exact h⟩
    exact (M.keeps_stateAfter (fun op hop => FileObj.keeps_protected _ op (hops op hop)) f₁ h0).1

example : ∀ P, (FileObj.openFile P 1 .readOnly .fail
    (FileObj.make P 2 twoFiles [] 0 .readAndWrite .fail)).1 = .ok true := by
  intro P
  cases P <;> decide +kernel

/-! ### C45 -/

/-- A file as opened by the constructor. -/
def freshFile (P : FilePlatform) (cap : Nat) (files : Nat → Option (List Byte)) (reads : List Nat)
    (path : Nat) (mode : AccessMode) : FileObj := FileObj.make P cap files reads path mode .fail

/-- The claim: the reads give the next bytes of the file in order, and all that were asked for. -/
def FileInOrder (P : FilePlatform) (cap : Nat) (content : List Byte) (reads : List Nat)
    (ns : List Nat) : Prop :=
  ∀ files path mode, files path = some content → mode ≠ .writeOnly →
    ∃ outs f, M.runList (FileObj.read P) ns (freshFile P cap files reads path mode) = (.ok outs, f)
      ∧ (outs.map (·.bytes)).flatten = content.take ns.sum
      ∧ ∀ g ∈ outs, g.count = g.bytes.length

/-- Two short reads of two bytes on Unix: the second overwrites the first, and the caller is told
that four bytes were read. -/
theorem C45_violated : ¬ ∀ P cap content reads ns, (cap = 0 ∨ ∀ n ∈ ns, n ≤ cap) →
    FileInOrder P cap content reads ns := by
  intro h
  obtain ⟨outs, f, e, -, q⟩ :=
    h .unix 0 [1, 2, 3, 4] [2] [4] (.inl rfl) twoFiles 0 .readOnly rfl (by decide)
  have e0 : (M.runList (FileObj.read .unix) [4] (freshFile .unix 0 twoFiles [2] 0 .readOnly)).1 =
      .ok [⟨[3, 4], 4⟩] := by decide +kernel
  rw [e] at e0
  change Outcome.ok outs = _ at e0
  simp only [Outcome.ok.injEq] at e0
  have := q ⟨[3, 4], 4⟩ (by simp [e0])
  exact absurd this (by decide)

theorem freshFile_eq (P : FilePlatform) (cap : Nat) (files : Nat → Option (List Byte))
    (reads : List Nat) (path : Nat) (mode : AccessMode) (content : List Byte)
    (hc : files path = some content) :
    freshFile P cap files reads path mode =
      ⟨⟨IoBuffer.make cap, ⟨files, some ⟨path, 0, mode⟩, 0, reads⟩⟩, some path, mode⟩ := by
  simp only [freshFile, FileObj.make, FileObj.openFile, M.noexcept_apply]
  rw [M.bind_ok (M.get_apply _), if_neg (by simp [FileObj.isOpen])]
  simp only [FileObj.openClosed]
  rw [M.bind_ok (M.get_apply _), if_neg (by simp [hc]), M.bind_ok (M.modify_apply _ _)]
  simp [FileObj.sysOpen, hc, M.bind_apply]

theorem freshFile_reads (P : FilePlatform) (cap : Nat) (files : Nat → Option (List Byte))
    (reads : List Nat) (path : Nat) (mode : AccessMode) (content : List Byte)
    (hc : files path = some content) (hs : P.Steady reads) :
    FileObj.Reads P cap files path mode content 0 (freshFile P cap files reads path mode) := by
  have hfs : files = FileDev.withFile files path content := by
    funext p
    by_cases hp : p = path <;> simp [FileDev.withFile, hp, hc]
  rw [freshFile_eq P cap files reads path mode content hc]
  exact ⟨rfl, Res.delivering_make cap _ ⟨reads, hs, by rw [← hfs]⟩⟩

/-- On Unix if the system does not return short counts before the end of the file, on Windows for
every schedule of short counts.  Missing: short counts on Unix, and reads larger than the buffer or
than a system call can be asked for, all of which the code gets wrong. -/
theorem C45_partial (P : FilePlatform) (cap : Nat) (content : List Byte) (reads : List Nat)
    (ns : List Nat) (hs : P.Steady reads) (hcap : cap ≤ P.most) (hlim : ∀ n ∈ ns, n ≤ P.most)
    (hn : cap = 0 ∨ ∀ n ∈ ns, n ≤ cap) : FileInOrder P cap content reads ns := by
  intro files path mode hc hm
  obtain ⟨f, e, -⟩ := FileObj.reads_reads hm hcap ns hlim hn
    (freshFile_reads P cap files reads path mode content hc hs)
  refine ⟨_, f, e, ?_, fun g hg => ?_⟩
  · have := (⟨content, 0⟩ : ArrayCursor).reads_flatten ns
    simpa [List.map_map, Function.comp_def] using this
  · obtain ⟨a, -, rfl⟩ := List.mem_map.mp hg
    rfl

example : FilePlatform.Steady .unix [] ∧ FilePlatform.Steady .windows [1, 1, 2] :=
  ⟨rfl, trivial⟩

example : (M.runList (FileObj.read .windows) [3, 2]
    (freshFile .windows 3 twoFiles [1, 1, 2] 0 .readOnly)).1 =
    .ok [⟨[1, 2, 3], 3⟩, ⟨[4], 1⟩] := by decide +kernel

/-! ### C46 -/

/-- The claim: reading gives the file `path` from its beginning, and position and end test refer to
it. -/
def StartsAfresh (P : FilePlatform) (path : Nat) (ns : List Nat) (f : FileObj) : Prop :=
  ∃ content outs f', f.res.dev.files path = some content
    ∧ M.runList (FileObj.read P) ns f = (.ok outs, f')
    ∧ (outs.map (·.bytes)).flatten = content.take ns.sum
    ∧ FileObj.getPosition P f' = .ok ((outs.map (·.bytes)).flatten.length : Nat)
    ∧ FileObj.isAtEnd P f' = .ok ((outs.map (·.bytes)).flatten == content)

/-- On both platforms: after one byte of one file is read, opening another delivers the second byte of the first; and
an object constructed without a path terminates the program when asked whether it is at the end. -/
theorem C46_violated (P : FilePlatform) :
    ¬ StartsAfresh P 1 [1] (FileObj.openFile P 1 .readOnly .fail
        (FileObj.read P 1 (freshFile P 4 twoFiles [] 0 .readOnly)).2).2
    ∧ ¬ StartsAfresh P 1 [1] (FileObj.openFile P 1 .readOnly .fail
        (FileObj.default 4 twoFiles [])).2
    ∧ FileObj.isAtEnd P (FileObj.openFile P 1 .readOnly .fail (FileObj.default 4 twoFiles [])).2 =
        .terminate := by
  refine ⟨?_, ?_, by cases P <;> decide +kernel⟩
  · rintro ⟨content, outs, f', hc, e, q, -⟩
    have e0 : (M.runList (FileObj.read P) [1] (FileObj.openFile P 1 .readOnly .fail
        (FileObj.read P 1 (freshFile P 4 twoFiles [] 0 .readOnly)).2).2).1 = .ok [⟨[2], 1⟩] := by
      cases P <;> decide +kernel
    have hc0 : (FileObj.openFile P 1 .readOnly .fail
        (FileObj.read P 1 (freshFile P 4 twoFiles [] 0 .readOnly)).2).2.res.dev.files 1 =
        some [11, 12] := by cases P <;> decide +kernel
    rw [hc0] at hc
    rw [e] at e0
    change Outcome.ok outs = _ at e0
    simp only [Outcome.ok.injEq, Option.some.injEq] at e0 hc
    rw [e0, ← hc] at q
    exact absurd q (by decide +kernel)
  · rintro ⟨content, outs, f', -, e, -, -, q⟩
    have e0 : FileObj.isAtEnd P (M.runList (FileObj.read P) [1] (FileObj.openFile P 1 .readOnly .fail
        (FileObj.default 4 twoFiles [])).2).2 = .terminate := by
      cases P <;> decide +kernel
    rw [e] at e0
    change FileObj.isAtEnd P f' = _ at e0
    rw [q] at e0
    exact absurd e0 (by simp)

/-- On both platforms, from any state of an open object: if `open` succeeds and the position is then set to the
beginning, reading starts afresh, if the path is that of the constructor.  Missing: reading without
setting the position, other paths, and objects that were closed before (data written to a closed
object ends up in the file opened next), which the code gets wrong. -/
theorem C46_partial (P : FilePlatform) (f₀ f₁ : FileObj) (path : Nat) (mode : AccessMode) (absent : IfNotThere)
    (ns : List Nat) (ho : FileObj.isOpen f₀ = true)
    (opened : FileObj.openFile P path mode absent f₀ = (.ok true, f₁))
    (hm : mode ≠ .writeOnly) (hpath : f₀.path = some path) (hreads : P.Steady f₁.res.dev.reads)
    (hcap : f₀.res.buf.data.length ≤ P.most) (hlim : ∀ n ∈ ns, n ≤ P.most)
    (hn : f₀.res.buf.data.length = 0 ∨ ∀ n ∈ ns, n ≤ f₀.res.buf.data.length) :
    ∃ f₂, FileObj.setPosition P 0 .begin f₁ = (.ok (), f₂) ∧ StartsAfresh P path ns f₂ := by
  obtain ⟨r, hfl, hop⟩ := FileObj.openFile_open ho opened
  obtain ⟨hdata, hclean⟩ := FileObj.flush_buffer hfl
  obtain ⟨content, hfiles, -, hfd, -, hrd, hmode, hp, hbuf⟩ := FileObj.openClosed_true hop
  simp only at hbuf hp hfiles
  obtain ⟨⟨b, d⟩, p, m⟩ := f₁
  simp only at hbuf hp hfiles hfd hmode hreads
  subst hbuf hp hmode
  obtain ⟨files, fd, k, reads⟩ := d
  simp only at hfiles hfd hreads
  subst hfd
  have hseek : FileObj.setPosition P 0 .begin
      ⟨⟨r.buf, ⟨files, some ⟨path, 0, m⟩, k, reads⟩⟩, f₀.path, m⟩ =
      (.ok (), ⟨⟨r.buf.setReadDirty true, ⟨files, some ⟨path, 0, m⟩, 0, reads⟩⟩, f₀.path, m⟩) := by
    simp only [FileObj.setPosition, FileObj.onRes, Res.setPositionIO, M.noexcept_apply]
    rw [M.bind_ok (Res.flush_clean P.writeRaw
      ⟨r.buf, ⟨files, some ⟨path, 0, m⟩, k, reads⟩⟩ hclean), M.bind_ok (Res.onDev_ok
      (P.seeks.begin 0 files path 0 m k reads))]
    rfl
  refine ⟨_, hseek, ?_⟩
  have h0 : FileObj.Reads P f₀.res.buf.data.length r.dev.files path m content 0
      ⟨⟨r.buf.setReadDirty true, ⟨files, some ⟨path, 0, m⟩, 0, reads⟩⟩, f₀.path, m⟩ :=
    ⟨rfl, by simp [IoBuffer.setReadDirty, hdata], Nat.zero_le _,
      .inl ⟨rfl, rfl, reads, hreads, by rw [hfiles]⟩⟩
  obtain ⟨f', e, h', hp'⟩ := FileObj.reads_reads hm hcap ns hlim hn h0
  have hflat : ((((⟨content, 0⟩ : ArrayCursor).reads ns).map
      fun g => (⟨g, g.length⟩ : ReadResult)).map (·.bytes)).flatten = content.take ns.sum := by
    have := (⟨content, 0⟩ : ArrayCursor).reads_flatten ns
    simpa [List.map_map, Function.comp_def] using this
  have hcur : ∀ (ns : List Nat) (a : ArrayCursor), (a.afterReads ns).cursor =
      a.cursor + (a.reads ns).flatten.length := by
    intro ns
    induction ns with
    | nil => intro a; simp [ArrayCursor.afterReads, ArrayCursor.reads]
    | cons n ns ih =>
      intro a
      have := ih (a.afterRead n)
      simp only [ArrayCursor.afterReads, List.foldl_cons, ArrayCursor.reads, List.flatten_cons,
        List.length_append] at this ⊢
      rw [this]
      simp only [ArrayCursor.afterRead, Nat.add_assoc]
  have hc := hcur ns ⟨content, 0⟩
  rw [ArrayCursor.reads_flatten] at hc
  simp only [List.drop_zero, Nat.zero_add] at hc
  have hpos := FileObj.reads_position h'
  rw [hc] at hpos
  refine ⟨content, _, f', by simp [hfiles, FileDev.withFile], e, hflat, by rw [hflat, hpos], ?_⟩
  have hff := FileObj.reads_file h'
  simp only [FileObj.isAtEnd, hpos, hp', hpath, Option.bind_some, hff, FileDev.withFile, if_true,
    hflat, Outcome.ok.injEq]
  by_cases hall : content.take ns.sum = content
  · rw [hall]; simp
  · rw [beq_eq_false_iff_ne.mpr hall, beq_eq_false_iff_ne]
    intro h
    have hl : (content.take ns.sum).length = content.length := by exact_mod_cast h
    rw [List.length_take] at hl
    exact hall (List.take_of_length_le (by omega))

/-- The hypotheses are met after reading some of the file. -/
example : ∀ P, FileObj.isOpen (FileObj.read P 3 (freshFile P 4 twoFiles [] 0 .readAndWrite)).2 = true
    ∧ (FileObj.openFile P 0 .readOnly .fail
        (FileObj.read P 3 (freshFile P 4 twoFiles [] 0 .readAndWrite)).2).1 = .ok true
    ∧ (FileObj.read P 3 (freshFile P 4 twoFiles [] 0 .readAndWrite)).2.path = some 0 := by
  intro P
  cases P <;> decide +kernel

/-! ### C73 -/

/-- The claim for a platform whose system calls transfer at most `most` bytes: reading gives the
next bytes of the file. -/
def ReadsWhole (raw : Nat → ReadRequest → M FileDev ReadResult) (content : List Byte) (n : Nat) :
    Prop :=
  (raw n .leanRetrieval ⟨FileDev.withFile (fun _ => none) 0 content, some ⟨0, 0, .readOnly⟩, 0, []⟩).1
    = .ok ⟨content.take n, (content.take n).length⟩

/-- What a read of one byte more than fits into a block gives: the last byte overwrites the first. -/
theorem readBlocks_two {sch : List Nat → Prop} {block : Nat → M FileDev ReadResult}
    (E : FileDev.Exact sch block) (hs : ∀ l, sch l) (most : Nat) (hm : 0 < most)
    (content : List Byte) (hl : content.length = most + 1) (d : FileDev)
    (hf : d.fd = some ⟨0, 0, .readOnly⟩) (hc : d.files 0 = some content) :
    (FileDev.readBlocks block most (most + 1) (most + 1) d).1 =
      .ok ⟨content.drop most ++ (content.take most).drop 1, most + 1⟩ := by
  obtain ⟨reads', -, e⟩ := E most d _ content hf (by simp) hc (hs _) hm
  have hlen : (content.take most).length = most := by simp; omega
  simp only [List.drop_zero, hlen, Nat.zero_add] at e
  obtain ⟨k, rfl⟩ : ∃ k, most = k + 1 := ⟨most - 1, by omega⟩
  obtain ⟨reads'', -, e'⟩ := FileDev.readBlocks_exact E (k + 1) 1 (by omega)
    (d := { d with fd := some ⟨0, k + 1, .readOnly⟩, reads := reads' }) rfl (by simp) hc
    (hs _)
  have hone : ((content.drop (k + 1)).take 1) = content.drop (k + 1) :=
    List.take_of_length_le (by simp; omega)
  have hlast : (content.drop (k + 1)).length = 1 := by simp; omega
  simp only [hone, hlast] at e'
  have fuel : FileDev.readBlocks block (k + 1) (k + 1) 1 = FileDev.readBlocks block (k + 1) 1 1 := by
    simp only [FileDev.readBlocks, Nat.one_ne_zero, if_false, show 1 - (k + 1) = 0 by omega]
    cases k <;> rfl
  rw [show FileDev.readBlocks block (k + 1) (k + 1 + 1) (k + 1 + 1) = _ from rfl]
  rw [FileDev.readBlocks, if_neg (by omega), Nat.min_eq_right (by omega), M.bind_ok e]
  dsimp only
  rw [if_neg (by simp), show k + 1 + 1 - (k + 1) = 1 by omega, fuel, M.bind_ok e']
  simp [hlast]

/-- With blocks of `most` bytes, reading a file of `most` zeros and a one gives the one first. -/
theorem not_readsWhole (sk : Int → PositionReference → M FileDev Unit) (most : Nat)
    (hpos : 0 < most) : ¬ ReadsWhole (FileDev.rawOf sk FileDev.readBlockWindows most)
      (List.replicate most 0 ++ [1]) (most + 1) := by
  intro h1
  have key := readBlocks_two FileDev.exact_windows (fun _ => trivial) most hpos
    (List.replicate most 0 ++ [1]) (by simp)
    ⟨FileDev.withFile (fun _ => none) 0 (List.replicate most 0 ++ [1]), some ⟨0, 0, .readOnly⟩, 0, []⟩
    rfl rfl
  simp only [ReadsWhole, FileDev.rawOf, M.noexcept_apply] at h1
  rw [M.bind_ok (show FileDev.skipFill _ .leanRetrieval _ = (.ok (), _) from rfl)] at h1
  rw [M.bind_apply] at h1
  generalize FileDev.readBlocks FileDev.readBlockWindows most (most + 1) (most + 1) _ = x at h1 key
  obtain ⟨o, s⟩ := x
  simp only at key
  subst key
  simp only at h1
  rw [M.bind_ok (show FileDev.noteFill _ .leanRetrieval _ _ = (.ok (), _) from rfl)] at h1
  simp only [M.pure_apply, Outcome.noexcept_ok, Outcome.ok.injEq, ReadResult.mk.injEq] at h1
  have h2 := congrArg List.head? h1.1
  obtain ⟨k, rfl⟩ : ∃ k, most = k + 1 := ⟨most - 1, by omega⟩
  rw [List.drop_left' (by simp), List.take_of_length_le (l := List.replicate (k + 1) 0 ++ [1])
    (i := k + 1 + 1) (by simp), List.replicate_succ] at h2
  simp at h2

/-- On Windows, reading a file of 2^32 bytes at once can give its last byte first. -/
theorem C73_violated : ¬ ∀ content n, ReadsWhole FileDev.readRawWindows content n := by
  intro h
  have e : FileDev.readRawWindows =
      FileDev.rawOf FileDev.seekWindows FileDev.readBlockWindows FileDev.dwordMax := rfl
  rw [e] at h
  exact not_readsWhole _ _ (by decide) (h _ _)

/-- Requests that fit into one block.  Missing: larger ones. -/
theorem C73_partial (content : List Byte) (n : Nat) :
    (n ≤ FileDev.ssizeMax → ReadsWhole FileDev.readRaw content n)
    ∧ (n ≤ FileDev.dwordMax → ReadsWhole FileDev.readRawWindows content n) := by
  constructor
  · intro hn
    obtain ⟨d, e, -⟩ := (FileDev.source_unix (fun _ => none) 0 .readOnly (by decide) content).lean n 0
      _ hn ⟨[], rfl, rfl⟩ (Nat.zero_le _)
    simp only [ReadsWhole]
    rw [e]
    simp
  · intro hn
    obtain ⟨d, e, -⟩ := (FileDev.source_windows (fun _ => none) 0 .readOnly (by decide) content).lean
      n 0 _ hn ⟨[], trivial, rfl⟩ (Nat.zero_le _)
    simp only [ReadsWhole]
    rw [e]
    simp

example : FileDev.ssizeMax = 2 ^ 63 - 1 ∧ FileDev.dwordMax = 2 ^ 32 - 1 ∧ 3 ≤ FileDev.dwordMax := by decide

/-! ### C74 -/

/-- The operations of a file object. -/
def FileObj.doIo (P : FilePlatform) : IoOp → M FileObj (List Byte × Nat)
  | .read n => do
    let got ← FileObj.read P n
    pure (got.bytes, got.count)
  | .write data => do
    let n ← FileObj.write P data
    pure ([], n)
  | .seek k => do
    FileObj.setPosition P k .begin
    pure ([], 0)
  | .move d => do
    FileObj.setPosition P d .current
    pure ([], 0)
  | .toEnd => do
    FileObj.setPosition P 0 .end
    pure ([], 0)
  | .flush => do
    FileObj.flush P
    pure ([], 0)

/-- The claim: from its construction to `close` a file object acts like an array of bytes with a
cursor.  Each read returns what the array would, once the object is closed the file has the content
of the array, and no other file changes. -/
def FileActsLikeArray (P : FilePlatform) (reads : List Nat) (cap : Nat) (content : List Byte)
    (ops : List IoOp) : Prop :=
  ∀ files path, files path = some content →
    ∃ f f', M.runList (FileObj.doIo P) ops (freshFile P cap files reads path .readAndWrite) =
        (.ok (Spec.results 1 ⟨content, 0⟩ ops), f)
      ∧ FileObj.close P f = (.ok (), f')
      ∧ FileObj.isOpen f' = false
      ∧ f'.res.dev.files path = some (Spec.after 1 ⟨content, 0⟩ ops).bytes
      ∧ ∀ p, p ≠ path → f'.res.dev.files p = files p

/-- On both platforms reading right after writing loses what was written. -/
theorem C74_violated (P : FilePlatform) : ¬ ∀ cap content ops,
    FileActsLikeArray P [] cap content ops := by
  intro h
  obtain ⟨f, f', e, -⟩ := h 2 [1, 2, 3, 4] [.write [7], .read 1] twoFiles 0 rfl
  have e0 : (M.runList (FileObj.doIo P) [.write [7], .read 1]
      (freshFile P 2 twoFiles [] 0 .readAndWrite)).1 = .ok [([], 1), ([1], 1)] := by
    cases P <;> decide +kernel
  rw [e] at e0
  change Outcome.ok _ = _ at e0
  exact absurd e0 (by decide +kernel)

theorem FileObj.doIo_eq (P : FilePlatform) (op : IoOp) (f : FileObj) (hm : f.mode = .readAndWrite) :
    FileObj.doIo P op f = FileObj.onRes (Res.doIo P.readRaw P.writeRaw P.seek op) f := by
  have bindRes : ∀ {α β : Type} (x : M (Res FileDev) α) (k : α → β),
      (do let a ← FileObj.onRes x; pure (k a) : M FileObj β) f =
        FileObj.onRes (do let a ← x; pure (k a)) f := by
    intro α β x k
    simp only [FileObj.onRes, M.bind_apply]
    cases e : x f.res with
    | mk o r => cases o <;> rfl
  cases op with
  | read n =>
    have : FileObj.read P n f = FileObj.onRes (Res.read P.readRaw n) f := by
      rw [FileObj.read, M.bind_ok (M.get_apply _), hm]
    rw [FileObj.doIo, M.bind_apply, this, ← M.bind_apply, bindRes]
    rfl
  | write data =>
    have : FileObj.write P data f = FileObj.onRes (Res.write P.writeRaw data) f := by
      rw [FileObj.write, M.bind_ok (M.get_apply _), hm]
    rw [FileObj.doIo, M.bind_apply, this, ← M.bind_apply, bindRes]
    rfl
  | seek k => exact bindRes _ fun _ => ([], 0)
  | move d => exact bindRes _ fun _ => ([], 0)
  | toEnd => exact bindRes _ fun _ => ([], 0)
  | flush => exact bindRes _ fun _ => ([], 0)

theorem FileObj.run_eq (P : FilePlatform) (ops : List IoOp) :
    ∀ (f : FileObj) (outs : List (List Byte × Nat)) (r : Res FileDev), f.mode = .readAndWrite →
    M.runList (Res.doIo P.readRaw P.writeRaw P.seek) ops f.res = (.ok outs, r) →
    M.runList (FileObj.doIo P) ops f = (.ok outs, { f with res := r }) := by
  induction ops with
  | nil =>
    intro f outs r _ h
    cases h
    rfl
  | cons op ops ih =>
    intro f outs r hm h
    simp only [M.runList] at h ⊢
    rw [M.bind_apply] at h ⊢
    rw [FileObj.doIo_eq P op f hm, FileObj.onRes]
    cases e : Res.doIo P.readRaw P.writeRaw P.seek op f.res with
    | mk o t =>
      rw [e] at h
      cases o with
      | ok a =>
        simp only at h ⊢
        rw [M.bind_apply] at h
        cases e' : M.runList (Res.doIo P.readRaw P.writeRaw P.seek) ops t with
        | mk o' t' =>
          rw [e'] at h
          cases o' with
          | ok as =>
            cases h
            rw [M.bind_ok (ih { f with res := t } as r hm e')]
            rfl
          | throw => cases h
          | terminate => cases h
          | ub => cases h
          | hang => cases h
      | throw => cases h
      | terminate => cases h
      | ub => cases h
      | hang => cases h

/-- Sequences in which reading and writing are separated by setting the position (or, after writing,
by a flush), reads fit into the buffer and no piece is larger than the system takes at once: on Unix
without short counts, on Windows for every schedule of them.  Missing: the rest, which the code gets
wrong (see C40). -/
theorem C74_partial (P : FilePlatform) (reads : List Nat) (hs : P.Steady reads) (cap : Nat)
    (content : List Byte) (ops : List IoOp) (hcap : cap ≤ P.most)
    (hlim : ∀ op ∈ ops, op.Within P.most)
    (h : Disciplined cap 1 (fun _ _ _ => True) .fresh ⟨content, 0⟩ ops) :
    FileActsLikeArray P reads cap content ops := by
  intro files path hc
  have hfs : files = FileDev.withFile files path content := by
    funext p
    by_cases hp : p = path <;> simp [FileDev.withFile, hp, hc]
  obtain ⟨r, s, e, hr, -⟩ := P.runIo_holds (fs := files) (path := path)
    (Res.represents_make cap content ⟨files, some ⟨path, 0, .readAndWrite⟩, 0, reads⟩
      ⟨reads, hs, by rw [← hfs]⟩) hcap hlim h
  obtain ⟨r', e', -, q, -⟩ := P.flush_holds hr hcap
  have hq : r'.dev.files = FileDev.withFile files path (Spec.after 1 ⟨content, 0⟩ ops).bytes := by
    rcases q with ⟨_, _, _, q⟩ | ⟨_, _, _, _, _, _, q⟩ <;> rw [q]
  rw [freshFile_eq P cap files reads path .readAndWrite content hc]
  have hclose : FileObj.close P ⟨r, some path, .readAndWrite⟩ =
      (.ok (), ⟨{ r' with dev := { r'.dev with fd := none } }, some path, .readAndWrite⟩) := by
    simp only [FileObj.close, FileObj.flush, FileObj.onRes, M.noexcept_apply, M.bind_apply, e',
      M.modify_apply]
    rfl
  refine ⟨_, _, FileObj.run_eq P ops _ _ r rfl e, hclose, rfl, by simp [hq, FileDev.withFile],
    fun p hp => ?_⟩
  simp [hq, FileDev.withFile, hp]

/-- A sequence with all operations. -/
def mixedOps : List IoOp := [.read 1, .read 2, .seek 2, .write [9, 8, 7, 6], .move (-3), .write [5],
  .flush, .toEnd, .write [4], .seek 0, .read 2]

example : (∀ P : FilePlatform, ∀ op ∈ mixedOps, op.Within P.most)
    ∧ Disciplined 2 1 (fun _ _ _ => True) .fresh ⟨[1, 2, 3], 0⟩ mixedOps
    ∧ Spec.after 1 ⟨[1, 2, 3], 0⟩ mixedOps = ⟨[1, 2, 9, 5, 7, 6, 4], 2⟩ := by
  refine ⟨fun P op h => ?_, ?_, by decide +kernel⟩
  · simp only [mixedOps, List.mem_cons, List.not_mem_nil, or_false] at h
    rcases h with rfl | rfl | rfl | rfl | rfl | rfl | rfl | rfl | rfl | rfl | rfl <;> cases P <;>
      simp [IoOp.Within, FilePlatform.most, FileDev.ssizeMax, FileDev.dwordMax]
  · exact .read (.inl rfl) (by decide) (.read (.inr rfl) (by decide) (.seek (by decide +kernel)
      (.write (.inl ⟨rfl, rfl, rfl⟩) trivial (.move (.inl (by decide)) (by decide +kernel)
        (by decide +kernel) (.write (.inl ⟨rfl, rfl, rfl⟩) trivial (.flush (.toEnd (by decide +kernel)
          (.write (.inl ⟨rfl, rfl, rfl⟩) trivial (.seek (by decide +kernel)
            (.read (.inl rfl) (by decide) (.nil _ _)))))))))))

end Cmp
