import Verif.Model.Disk
import Verif.Spec.Journal
import Verif.Proofs.Whole

/-
A file that one object writes at its end, in sessions, is a log for other objects that read it.
-/

namespace Cmp

open Cmp.Spec (Seen Log JournalOp)

namespace Disk

/-- What is done with a journal, done with `file` objects: object 0 writes, object `i + 1` is reader
`i`.  A session begins with going to the end, since there is no other way to append. -/
def keep (P : FilePlatform) (path : Nat) : JournalOp → M Disk Seen
  | .session cap both => do
    construct P 0 cap [] path (if both then .readAndWrite else .writeOnly) .create
    setPosition P 0 0 .end
    pure .done
  | .write data => do
    let n ← write P 0 data
    pure (.bytes [] n)
  | .flush => do
    flush P 0
    pure .done
  | .writerPlace => do
    let p ← getPosition P 0
    pure (.place p)
  | .finish => do
    destroy P 0
    pure .done
  | .join i cap calls => do
    construct P (i + 1) cap calls path .readOnly .fail
    pure .done
  | .leave i => do
    destroy P (i + 1)
    pure .done
  | .read i n => do
    let got ← read P (i + 1) n
    pure (.bytes got.bytes got.count)
  | .place i => do
    let p ← getPosition P (i + 1)
    pure (.place p)
  | .atEnd i => do
    let b ← isAtEnd P (i + 1)
    pure (.atEnd b)
  | .look => do
    let content ← look path
    pure (.bytes content content.length)

end Disk

open FileDev (withFile Idle Loaded)

theorem withFile_self (fs : Nat → Option (List Byte)) (path : Nat) (content : List Byte) :
    withFile fs path content path = some content := by simp [withFile]

theorem withFile_twice (fs : Nat → Option (List Byte)) (path : Nat) (a b : List Byte) :
    withFile (withFile fs path a) path b = withFile fs path b := by
  funext p
  simp only [withFile]
  split <;> rfl

/-- An object that reads a journal, having read `cur` bytes. -/
structure Follower (P : FilePlatform) (fs : Nat → Option (List Byte)) (path : Nat)
    (content : List Byte) (cap cur : Nat) (f : FileObj) : Prop where
  mode : f.mode = .readOnly
  named : f.path = some path
  fits : cap ≤ P.most
  clean : f.res.buf.writeDirty = false
  at_ : Res.Delivering cap content (Idle P.Steady fs path .readOnly content)
    (Loaded P.Steady fs path .readOnly content) cur (Disk.load (withFile fs path content) f).res

theorem Follower.grow {P : FilePlatform} {fs : Nat → Option (List Byte)} {path : Nat}
    {content : List Byte} {cap cur : Nat} {f : FileObj} (h : Follower P fs path content cap cur f)
    (more : List Byte) : Follower P fs path (content ++ more) cap cur f := by
  obtain ⟨h1, h2, h3, h4, hl, hin, hs⟩ := h
  refine ⟨h1, h2, h3, h4, hl, by rw [List.length_append]; omega, ?_⟩
  rcases hs with ⟨a, b, reads, hr, e⟩ | ⟨a, b, c, d, q, e, g, ⟨reads, k, hk, hr, e'⟩, hd⟩
  · refine .inl ⟨a, b, reads, hr, ?_⟩
    simp only [Disk.load, FileDev.mk.injEq] at e ⊢
    exact ⟨trivial, e.2⟩
  · refine .inr ⟨a, b, c, d, q, e,
      by rw [List.length_append]; exact Nat.le_trans g (Nat.le_add_right _ _), ⟨reads, k, hk, hr, ?_⟩, ?_⟩
    · simp only [Disk.load, FileDev.mk.injEq] at e' ⊢
      exact ⟨trivial, e'.2⟩
    · simp only [Disk.load] at hd g ⊢
      rw [hd, List.drop_append_of_le_length (by omega), List.take_append_of_le_length
        (by rw [List.length_drop]; omega)]

/-- An object that writes a journal at its end and has `kept` in its buffer. -/
structure Keeper (P : FilePlatform) (path : Nat) (content kept : List Byte) (f : FileObj) : Prop where
  mode : f.mode ≠ .readOnly
  fits : f.res.buf.data.length ≤ P.most
  position : f.res.buf.position ≤ f.res.buf.data.length
  clean : f.res.buf.writeDirty = false → f.res.buf.position = 0
  fd : f.res.dev.fd = some ⟨path, content.length, f.mode⟩
  lastFill : f.res.dev.lastFill = 0
  kept : f.res.buf.pending = kept

/-- The file with what was written behind `content`. -/
def Appended (fs : Nat → Option (List Byte)) (path : Nat) (mode : AccessMode) (reads : List Nat)
    (content : List Byte) (d : FileDev) (w : List Byte) : Prop :=
  d = ⟨withFile fs path (content ++ w), some ⟨path, (content ++ w).length, mode⟩, 0, reads⟩

theorem takes_append (fs : Nat → Option (List Byte)) (path : Nat) (mode : AccessMode)
    (reads : List Nat) (hm : mode ≠ .readOnly) (content : List Byte) :
    Res.Takes FileDev.writeWhole (fun _ => True) (Appended fs path mode reads content) where
  take := by
    rintro d w bytes rfl - -
    refine ⟨_, FileDev.writeWhole_exact bytes fs path _ mode hm (content ++ w) (Nat.le_refl _) 0 reads,
      ?_⟩
    simp only [Appended, Res.overlay, List.take_length, FileDev.mk.injEq, and_true]
    rw [List.drop_eq_nil_of_le (by omega)]
    simp only [List.append_nil, List.append_assoc, List.length_append, Nat.add_assoc, true_and]

theorem Keeper.writing {P : FilePlatform} {path : Nat} {content kept : List Byte} {f : FileObj}
    (h : Keeper P path content kept f) (fs : Nat → Option (List Byte)) :
    Res.Writing f.res.buf.data.length (fun _ => True)
      (Appended fs path f.mode f.res.dev.reads content)
      (Disk.load (withFile fs path content) f).res kept := by
  refine ⟨rfl, h.position, h.clean, [], ?_, trivial, h.kept⟩
  simp only [Appended, Disk.load, List.append_nil, FileDev.mk.injEq, true_and, and_true]
  exact ⟨h.fd, h.lastFill⟩

/-- What writing or flushing leaves. -/
theorem keeper_of_writing {P : FilePlatform} {fs : Nat → Option (List Byte)} {path cap : Nat}
    {content written : List Byte} {mode : AccessMode} {reads : List Nat} {r : Res FileDev}
    {p : Option Nat} (hm : mode ≠ .readOnly) (hcap : cap ≤ P.most)
    (h : Res.Writing cap (fun _ => True) (Appended fs path mode reads content) r written) :
    ∃ more kept, r.dev.files = withFile fs path (content ++ more) ∧ more ++ kept = written
      ∧ Keeper P path (content ++ more) kept ⟨r, p, mode⟩ := by
  obtain ⟨h1, h2, h3, w, h4, -, h5⟩ := h
  unfold Appended at h4
  refine ⟨w, _, by rw [h4], h5, hm, by simp only; omega, by simp only; omega, h3, by simp only [h4],
    by simp only [h4], rfl⟩

namespace FileObj

theorem write_keeper {P : FilePlatform} {fs : Nat → Option (List Byte)} {path : Nat}
    {content kept data : List Byte} {f : FileObj} (h : Keeper P path content kept f)
    (hd : data.length ≤ P.most) :
    ∃ f' more kept', write P data (Disk.load (withFile fs path content) f) = (.ok data.length, f')
      ∧ f'.res.dev.files = withFile fs path (content ++ more) ∧ more ++ kept' = kept ++ data
      ∧ Keeper P path (content ++ more) kept' f' := by
  obtain ⟨r', e, hw, -⟩ := Res.write_writing (takes_append fs path f.mode f.res.dev.reads h.mode content)
    (h.writing fs) trivial (bytes := data) trivial
  rw [← Res.write_congr (most := P.most) (fun b => P.writeRaw_whole b)
    (Disk.load (withFile fs path content) f).res h.fits _ hd] at e
  obtain ⟨more, kept', e1, e2, e3⟩ := keeper_of_writing (P := P) (p := f.path) h.mode h.fits hw
  refine ⟨⟨r', f.path, f.mode⟩, more, kept', ?_, e1, e2, e3⟩
  have e4 : write P data (Disk.load (withFile fs path content) f)
      = onRes (Res.write P.writeRaw data) (Disk.load (withFile fs path content) f) := by
    have hm := h.mode
    unfold write
    rw [M.bind_ok (M.get_apply _)]
    simp only [Disk.load]
    cases hf : f.mode with
    | readOnly => exact absurd hf hm
    | writeOnly => rfl
    | readAndWrite => rfl
  rw [e4, onRes, e]
  rfl

theorem flush_keeper {P : FilePlatform} {fs : Nat → Option (List Byte)} {path : Nat}
    {content kept : List Byte} {f : FileObj} (h : Keeper P path content kept f) :
    ∃ f', flush P (Disk.load (withFile fs path content) f) = (.ok (), f')
      ∧ f'.res.dev.files = withFile fs path (content ++ kept)
      ∧ Keeper P path (content ++ kept) [] f' := by
  obtain ⟨d, e, hw, ha⟩ := Res.flush_writing
    (takes_append fs path f.mode f.res.dev.reads h.mode content) (h.writing fs) trivial
  rw [← Res.flush_congr (most := P.most) (fun b => P.writeRaw_whole b)
    (Disk.load (withFile fs path content) f).res h.fits] at e
  unfold Appended at ha
  refine ⟨⟨⟨{ f.res.buf with writeDirty := false, position := 0 }, d⟩, f.path, f.mode⟩,
    by rw [flush, onRes, e]; rfl, by simp only [ha], h.mode, h.fits,
    Nat.zero_le _, fun _ => rfl, by simp only [ha], by simp only [ha], ?_⟩
  simp [IoBuffer.pending]

theorem close_keeper {P : FilePlatform} {fs : Nat → Option (List Byte)} {path : Nat}
    {content kept : List Byte} {f : FileObj} (h : Keeper P path content kept f) :
    ∃ f', close P (Disk.load (withFile fs path content) f) = (.ok (), f')
      ∧ f'.res.dev.files = withFile fs path (content ++ kept) := by
  obtain ⟨f', e, h1, -⟩ := flush_keeper (fs := fs) h
  refine ⟨{ f' with res := { f'.res with dev := { f'.res.dev with fd := none } } }, ?_, h1⟩
  simp only [close, M.noexcept_apply]
  rw [M.bind_ok e]
  rfl

theorem position_keeper {P : FilePlatform} {fs : Nat → Option (List Byte)} {path : Nat}
    {content kept : List Byte} {f : FileObj} (h : Keeper P path content kept f) :
    getPosition P (Disk.load fs f) = .ok ((content ++ kept).length : Nat) := by
  have hk : kept.length = f.res.buf.position := by
    rw [← h.kept, IoBuffer.pending]
    split
    · rw [List.length_take]
      have := h.position
      omega
    · rename_i hc
      rw [h.clean (by simpa using hc)]
      rfl
  simp only [getPosition, Disk.load, h.fd, List.length_append, hk, Int.natCast_add]

theorem read_follower {P : FilePlatform} {fs : Nat → Option (List Byte)} {path : Nat}
    {content : List Byte} {cap cur n : Nat} {f : FileObj} (h : Follower P fs path content cap cur f)
    (hn : n ≤ P.most) (hs : cap = 0 ∨ n ≤ cap) :
    ∃ f', read P n (Disk.load (withFile fs path content) f)
        = (.ok ⟨(content.drop cur).take n, ((content.drop cur).take n).length⟩, f')
      ∧ f'.res.dev.files = withFile fs path content
      ∧ Follower P fs path content cap (cur + ((content.drop cur).take n).length) f' := by
  obtain ⟨r', e, hd, hw⟩ := Res.read_delivering (P.source fs path .readOnly (by decide) content) h.at_ n
    h.fits hn (by omega)
  have hf : r'.dev.files = withFile fs path content := by
    rcases hd.state with ⟨-, -, reads, -, e⟩ | ⟨-, -, -, -, b, -, -, ⟨reads, k, -, -, e⟩, -⟩ <;> rw [e]
  refine ⟨⟨r', f.path, f.mode⟩, ?_, hf, h.mode, h.named, h.fits, hw.trans h.clean, ?_⟩
  · unfold read
    rw [M.bind_ok (M.get_apply _)]
    simp only [Disk.load, h.mode]
    simp only [Disk.load] at e
    rw [onRes, e]
  · have : Disk.load (withFile fs path content) ⟨r', f.path, f.mode⟩ = ⟨r', f.path, f.mode⟩ := by
      rw [← hf]
      rfl
    rw [this]
    exact hd

theorem position_follower {P : FilePlatform} {fs : Nat → Option (List Byte)} {path : Nat}
    {content : List Byte} {cap cur : Nat} {f : FileObj} (h : Follower P fs path content cap cur f) :
    getPosition P (Disk.load (withFile fs path content) f) = .ok (cur : Nat) := by
  rcases h.at_.state with ⟨-, hp, reads, -, e⟩ | ⟨-, -, -, -, b, hb, -, ⟨reads, k, -, -, e⟩, -⟩
  · simp only [getPosition, e, hp]
    simp
  · simp only [getPosition, e, ← hb, Int.natCast_add]

theorem atEnd_follower {P : FilePlatform} {fs : Nat → Option (List Byte)} {path : Nat}
    {content : List Byte} {cap cur : Nat} {f : FileObj} (h : Follower P fs path content cap cur f) :
    isAtEnd P (Disk.load (withFile fs path content) f) = .ok (decide (cur = content.length)) := by
  simp only [isAtEnd, position_follower h]
  simp only [Disk.load, h.named, Option.bind_some, withFile_self, Outcome.ok.injEq]
  rw [Bool.eq_iff_iff, beq_iff_eq, decide_eq_true_eq, Int.natCast_inj]

theorem close_follower {P : FilePlatform} {fs : Nat → Option (List Byte)} {path : Nat}
    {content : List Byte} {cap cur : Nat} {f : FileObj} (h : Follower P fs path content cap cur f) :
    ∃ f', close P (Disk.load (withFile fs path content) f) = (.ok (), f')
      ∧ f'.res.dev.files = withFile fs path content := by
  have e : flush P (Disk.load (withFile fs path content) f)
      = (.ok (), Disk.load (withFile fs path content) f) := by
    rw [flush, onRes, Res.flush_clean _ _ (by exact h.clean)]
  refine ⟨{ f with res := { f.res with dev := { f.res.dev with
    files := withFile fs path content, fd := none } } }, ?_, rfl⟩
  simp only [close, M.noexcept_apply]
  rw [M.bind_ok e]
  rfl

/-- A new object on a file that is there, or that is made. -/
theorem make_open (P : FilePlatform) (cap : Nat) (files : Nat → Option (List Byte)) (reads : List Nat)
    (path : Nat) (mode : AccessMode) (absent : IfNotThere)
    (h : absent = .create ∨ (files path).isSome) :
    make P cap files reads path mode absent = ⟨⟨IoBuffer.make cap,
      ⟨withFile files path ((files path).getD []), some ⟨path, 0, mode⟩, 0, reads⟩⟩, some path, mode⟩ := by
  simp only [make, openFile, M.noexcept_apply]
  rw [M.bind_ok (M.get_apply _), if_neg (by simp [isOpen])]
  simp only [openClosed]
  rw [M.bind_ok (M.get_apply _)]
  cases hc : files path with
  | some content =>
    have hfs : files = withFile files path content := by
      funext p
      by_cases hp : p = path <;> simp [withFile, hp, hc]
    rw [if_neg (by simp [hc]), M.bind_ok (M.modify_apply _ _)]
    simp only [sysOpen, hc, M.bind_apply, M.get_apply, M.pure_apply, Option.getD_some]
    rw [← hfs]
  | none =>
    rw [hc] at h
    have ha : absent = .create := by simpa using h
    subst ha
    have hp : P.disposition .create = .create := by cases P <;> rfl
    rw [if_neg (by simp), M.bind_ok (M.modify_apply _ _)]
    simp only [sysOpen, hc, hp, if_pos, M.bind_apply, M.get_apply, M.pure_apply, Option.getD_none]
    rfl

/-- A new object that goes to the end. -/
theorem make_keeper (P : FilePlatform) (fs : Nat → Option (List Byte)) (cap path : Nat)
    (content : List Byte) (mode : AccessMode) (hm : mode ≠ .readOnly) (hcap : cap ≤ P.most) :
    ∃ f', setPosition P 0 .end ⟨⟨IoBuffer.make cap, ⟨withFile fs path content, some ⟨path, 0, mode⟩, 0,
        []⟩⟩, some path, mode⟩ = (.ok (), f')
      ∧ f'.res.dev.files = withFile fs path content ∧ Keeper P path content [] f' := by
  have e := P.seeks.fromEnd 0 (withFile fs path content) path 0 mode 0 [] content
    (withFile_self fs path content) (by omega)
  refine ⟨⟨⟨IoBuffer.make cap, ⟨withFile fs path content, some ⟨path, content.length, mode⟩, 0, []⟩⟩,
    some path, mode⟩, ?_, rfl, hm, ?_, Nat.zero_le _, fun _ => rfl, rfl, rfl, rfl⟩
  · simp only [setPosition, onRes, Res.setPositionIO, M.noexcept_apply]
    rw [M.bind_ok (Res.flush_clean _ _ rfl), M.bind_ok (Res.onDev_ok e)]
    simp [IoBuffer.make, IoBuffer.setReadDirty]
  · simpa [IoBuffer.make] using hcap

end FileObj

/-- A disk on which the journal is as the log says. -/
structure Journals (P : FilePlatform) (fs : Nat → Option (List Byte)) (path : Nat) (writer : Bool)
    (readers : Nat → Option Nat) (s : Log) (d : Disk) : Prop where
  stored : ∃ content kept, d.files = withFile fs path content ∧ s.written = content ++ kept
    ∧ s.flushed ≤ content.length
    ∧ (writer = false → kept = [])
    ∧ (writer = true → ∃ f, d.objects 0 = some f ∧ Keeper P path content kept f)
    ∧ ∀ i cap, readers i = some cap → ∃ f, d.objects (i + 1) = some f
      ∧ Follower P fs path content cap (s.cursors i) f

/-- A disk on which only object `i` and the files changed. -/
structure Disk.Turned (d : Disk) (i : Nat) (files : Nat → Option (List Byte)) (f : Option FileObj)
    (d' : Disk) : Prop where
  files : d'.files = files
  same : d'.objects i = f
  other : ∀ j, j ≠ i → d'.objects j = d.objects j

namespace Disk

theorem turned_put (d : Disk) (i : Nat) (files : Nat → Option (List Byte)) (f : Option FileObj) :
    d.Turned i files f { d.put i f with files := files } :=
  ⟨rfl, by simp [put], fun j hj => by simp [put, hj]⟩

theorem Turned.trans {d d' d'' : Disk} {i : Nat} {files files' : Nat → Option (List Byte)}
    {f f' : Option FileObj} (h : d.Turned i files f d') (h' : d'.Turned i files' f' d'') :
    d.Turned i files' f' d'' :=
  ⟨h'.files, h'.same, fun j hj => (h'.other j hj).trans (h.other j hj)⟩

theorem use_ok {α : Type} {i : Nat} {x : M FileObj α} {d : Disk} {f f' : FileObj} {a : α}
    (h : d.objects i = some f) (e : x (load d.files f) = (.ok a, f')) :
    ∃ d', use i x d = (.ok a, d') ∧ d.Turned i f'.res.dev.files (some f') d' :=
  ⟨_, by simp only [use, h, e], turned_put d i _ _⟩

theorem construct_ok (P : FilePlatform) (i cap : Nat) (calls : List Nat) (path : Nat)
    (mode : AccessMode) (absent : IfNotThere) (d : Disk) :
    ∃ d', construct P i cap calls path mode absent d = (.ok (), d')
      ∧ d.Turned i (FileObj.make P cap d.files calls path mode absent).res.dev.files
        (some (FileObj.make P cap d.files calls path mode absent)) d' :=
  ⟨_, rfl, turned_put d i _ _⟩

theorem destroy_ok {P : FilePlatform} {i : Nat} {d : Disk} {f f' : FileObj}
    (h : d.objects i = some f) (e : FileObj.close P (load d.files f) = (.ok (), f')) :
    ∃ d', destroy P i d = (.ok (), d') ∧ d.Turned i f'.res.dev.files none d' := by
  obtain ⟨d1, e1, h1⟩ := use_ok h e
  refine ⟨d1.put i none, ?_, h1.trans ?_⟩
  · simp only [destroy]
    rw [M.bind_ok e1]
    rfl
  · rw [← h1.files]
    exact turned_put d1 i _ _

end Disk

section Steps

variable {P : FilePlatform} {fs : Nat → Option (List Byte)} {path : Nat} {writer : Bool}
  {readers : Nat → Option Nat} {s : Log} {d : Disk}

/-- What one step is to be. -/
def Tidy (P : FilePlatform) (fs : Nat → Option (List Byte)) (path : Nat) (writer : Bool)
    (readers : Nat → Option Nat) (s : Log) (d : Disk) (op : JournalOp) : Prop :=
  ∃ x s' d', Disk.keep P path op d = (.ok x, d')
    ∧ Journals P fs path (op.opened writer) (op.joined readers) s' d'
    ∧ ∀ t, s'.Tells t → s.Tells ((op, x) :: t)

open Disk

theorem step_session (h : Journals P fs path false readers s d) (cap : Nat) (both : Bool)
    (hcap : cap ≤ P.most) : Tidy P fs path false readers s d (.session cap both) := by
  obtain ⟨content, kept, hfiles, hwritten, hflushed, hclosed, -, hreaders⟩ := h
  have hk := hclosed rfl
  subst hk
  have hm := FileObj.make_open P cap d.files [] path (if both then .readAndWrite else .writeOnly)
    .create (.inl rfl)
  rw [hfiles, withFile_self, Option.getD_some, withFile_twice] at hm
  obtain ⟨f', e, hf, hkeep⟩ := FileObj.make_keeper P fs cap path content
    (if both then .readAndWrite else .writeOnly) (by cases both <;> decide) hcap
  obtain ⟨d1, e1, h1⟩ := construct_ok P 0 cap [] path (if both then .readAndWrite else .writeOnly)
    .create d
  rw [hfiles, hm] at h1
  obtain ⟨d2, e2, h2⟩ := use_ok (x := FileObj.setPosition P 0 .end) h1.same (by
    rw [h1.files]
    exact e)
  have h3 := h1.trans h2
  refine ⟨.done, s, d2, ?_, ⟨content, [], by rw [h3.files, hf], hwritten, hflushed, fun _ => rfl,
    fun _ => ⟨f', h3.same, hkeep⟩, fun i c hi => ?_⟩, fun t ht => ⟨rfl, ht⟩⟩
  · simp only [keep]
    rw [M.bind_ok e1, M.bind_ok (show setPosition P 0 0 .end d1 = _ from e2)]
    rfl
  · obtain ⟨g, hg, hfo⟩ := hreaders i c hi
    exact ⟨g, (h3.other _ (by omega)).trans hg, hfo⟩

theorem step_write (h : Journals P fs path true readers s d) (data : List Byte)
    (hd : data.length ≤ P.most) : Tidy P fs path true readers s d (.write data) := by
  obtain ⟨content, kept, hfiles, hwritten, hflushed, -, hopen, hreaders⟩ := h
  obtain ⟨f, hf, hk⟩ := hopen rfl
  obtain ⟨f', more, kept', e, e1, e2, e3⟩ := FileObj.write_keeper (fs := fs) hk hd
  obtain ⟨d', e4, h4⟩ := use_ok hf (by rw [hfiles]; exact e)
  refine ⟨.bytes [] data.length, { s with written := s.written ++ data }, d', ?_,
    ⟨content ++ more, kept', by rw [h4.files, e1], by
      simp only [hwritten, List.append_assoc, e2],
      by simp only [List.length_append]; omega, fun h => by simp [JournalOp.opened] at h,
      fun _ => ⟨f', h4.same, e3⟩, fun i c hi => ?_⟩, fun t ht => ⟨rfl, ht⟩⟩
  · simp only [keep]
    rw [M.bind_ok (show write P 0 data d = _ from e4)]
    rfl
  · obtain ⟨g, hg, hfo⟩ := hreaders i c hi
    exact ⟨g, (h4.other _ (by omega)).trans hg, hfo.grow more⟩

theorem step_flush (h : Journals P fs path true readers s d) :
    Tidy P fs path true readers s d .flush := by
  obtain ⟨content, kept, hfiles, hwritten, hflushed, -, hopen, hreaders⟩ := h
  obtain ⟨f, hf, hk⟩ := hopen rfl
  obtain ⟨f', e, e1, e3⟩ := FileObj.flush_keeper (fs := fs) hk
  obtain ⟨d', e4, h4⟩ := use_ok hf (by rw [hfiles]; exact e)
  refine ⟨.done, { s with flushed := s.written.length }, d', ?_,
    ⟨content ++ kept, [], by rw [h4.files, e1], by rw [List.append_nil]; exact hwritten,
      by simp only [hwritten]; exact Nat.le_refl _, fun _ => rfl,
      fun _ => ⟨f', h4.same, e3⟩, fun i c hi => ?_⟩, fun t ht => ⟨rfl, ht⟩⟩
  · simp only [keep]
    rw [M.bind_ok (show flush P 0 d = _ from e4)]
    rfl
  · obtain ⟨g, hg, hfo⟩ := hreaders i c hi
    exact ⟨g, (h4.other _ (by omega)).trans hg, hfo.grow kept⟩

theorem step_finish (h : Journals P fs path true readers s d) :
    Tidy P fs path true readers s d .finish := by
  obtain ⟨content, kept, hfiles, hwritten, hflushed, -, hopen, hreaders⟩ := h
  obtain ⟨f, hf, hk⟩ := hopen rfl
  obtain ⟨f', e, e1⟩ := FileObj.close_keeper (fs := fs) hk
  obtain ⟨d', e4, h4⟩ := destroy_ok hf (by rw [hfiles]; exact e)
  refine ⟨.done, { s with flushed := s.written.length }, d', ?_,
    ⟨content ++ kept, [], by rw [h4.files, e1], by rw [List.append_nil]; exact hwritten,
      by simp only [hwritten]; exact Nat.le_refl _, fun _ => rfl,
      fun h => by simp [JournalOp.opened] at h, fun i c hi => ?_⟩, fun t ht => ⟨rfl, ht⟩⟩
  · simp only [keep]
    rw [M.bind_ok e4]
    rfl
  · obtain ⟨g, hg, hfo⟩ := hreaders i c hi
    exact ⟨g, (h4.other _ (by omega)).trans hg, hfo.grow kept⟩

/-- After a step that left the files and the objects as they were, up to what is done with each. -/
theorem Journals.still (h : Journals P fs path writer readers s d) {d' : Disk} {i : Nat} {f : FileObj}
    (ho : d.objects i = some f) (ht : d.Turned i d.files (some (load d.files f)) d') :
    Journals P fs path writer readers s d' := by
  obtain ⟨content, kept, hfiles, hwritten, hflushed, hclosed, hopen, hreaders⟩ := h
  refine ⟨content, kept, by rw [ht.files, hfiles], hwritten, hflushed, hclosed, fun hw => ?_,
    fun j c hj => ?_⟩
  · obtain ⟨g, hg, hk⟩ := hopen hw
    by_cases hi : 0 = i
    · subst hi
      rw [ho] at hg
      cases hg
      exact ⟨_, ht.same, hk.mode, hk.fits, hk.position, hk.clean, hk.fd, hk.lastFill, hk.kept⟩
    · exact ⟨g, (ht.other _ hi).trans hg, hk⟩
  · obtain ⟨g, hg, hk⟩ := hreaders j c hj
    by_cases hi : j + 1 = i
    · subst hi
      rw [ho] at hg
      cases hg
      exact ⟨_, ht.same, hk.mode, hk.named, hk.fits, hk.clean, hk.at_⟩
    · exact ⟨g, (ht.other _ hi).trans hg, hk⟩

theorem step_writerPlace (h : Journals P fs path true readers s d) :
    Tidy P fs path true readers s d .writerPlace := by
  obtain ⟨content, kept, hfiles, hwritten, hflushed, -, hopen, hreaders⟩ := id h
  obtain ⟨f, hf, hk⟩ := hopen rfl
  obtain ⟨d', e4, h4⟩ := use_ok (x := fun f => (FileObj.getPosition P f, f)) hf
    (Prod.ext (FileObj.position_keeper hk) rfl)
  refine ⟨.place (content ++ kept).length, s, d', ?_, h.still hf h4, fun t ht =>
    ⟨by rw [hwritten], ht⟩⟩
  simp only [keep]
  rw [M.bind_ok (show getPosition P 0 d = _ from e4)]
  rfl

theorem step_join (h : Journals P fs path writer readers s d) (i cap : Nat) (calls : List Nat)
    (hcap : cap ≤ P.most) (hs : P.Steady calls) :
    Tidy P fs path writer readers s d (.join i cap calls) := by
  obtain ⟨content, kept, hfiles, hwritten, hflushed, hclosed, hopen, hreaders⟩ := h
  have hm := FileObj.make_open P cap d.files calls path .readOnly .fail
    (.inr (by rw [hfiles, withFile_self]; rfl))
  rw [hfiles, withFile_self, Option.getD_some, withFile_twice] at hm
  obtain ⟨d1, e1, h1⟩ := construct_ok P (i + 1) cap calls path .readOnly .fail d
  rw [hfiles, hm] at h1
  refine ⟨.done, s.withCursor i 0, d1, ?_, ⟨content, kept, h1.files, hwritten, hflushed, hclosed,
    fun hw => ?_, fun j c hj => ?_⟩, fun t ht => ⟨rfl, ht⟩⟩
  · simp only [keep]
    rw [M.bind_ok e1]
    rfl
  · obtain ⟨g, hg, hk⟩ := hopen hw
    exact ⟨g, (h1.other _ (by omega)).trans hg, hk⟩
  · simp only [JournalOp.joined] at hj
    by_cases hij : j = i
    · subst hij
      rw [if_pos rfl] at hj
      cases hj
      refine ⟨_, h1.same, rfl, rfl, hcap, rfl, ?_⟩
      simp only [Log.withCursor, if_pos]
      exact Res.delivering_make cap _ ⟨calls, hs, rfl⟩
    · rw [if_neg hij] at hj
      obtain ⟨g, hg, hk⟩ := hreaders j c hj
      refine ⟨g, (h1.other _ (by omega)).trans hg, ?_⟩
      simp only [Log.withCursor, if_neg hij]
      exact hk

theorem step_leave (h : Journals P fs path writer readers s d) (i : Nat) (hi : (readers i).isSome) :
    Tidy P fs path writer readers s d (.leave i) := by
  obtain ⟨content, kept, hfiles, hwritten, hflushed, hclosed, hopen, hreaders⟩ := h
  obtain ⟨cap, hcap⟩ := Option.isSome_iff_exists.mp hi
  obtain ⟨f, hf, hfo⟩ := hreaders i cap hcap
  obtain ⟨f', e, e1⟩ := FileObj.close_follower hfo
  obtain ⟨d', e4, h4⟩ := destroy_ok hf (by rw [hfiles]; exact e)
  refine ⟨.done, s, d', ?_, ⟨content, kept, by rw [h4.files, e1], hwritten, hflushed, hclosed,
    fun hw => ?_, fun j c hj => ?_⟩, fun t ht => ⟨rfl, ht⟩⟩
  · simp only [keep]
    rw [M.bind_ok e4]
    rfl
  · obtain ⟨g, hg, hk⟩ := hopen hw
    exact ⟨g, (h4.other _ (by omega)).trans hg, hk⟩
  · simp only [JournalOp.joined] at hj
    by_cases hij : j = i
    · rw [if_pos hij] at hj
      cases hj
    · rw [if_neg hij] at hj
      obtain ⟨g, hg, hk⟩ := hreaders j c hj
      exact ⟨g, (h4.other _ (by omega)).trans hg, hk⟩

theorem step_read (h : Journals P fs path writer readers s d) {i cap n : Nat}
    (hcap : readers i = some cap) (hn : n ≤ P.most) (hs : cap = 0 ∨ n ≤ cap) :
    Tidy P fs path writer readers s d (.read i n) := by
  obtain ⟨content, kept, hfiles, hwritten, hflushed, hclosed, hopen, hreaders⟩ := h
  obtain ⟨f, hf, hfo⟩ := hreaders i cap hcap
  obtain ⟨f', e, e1, e2⟩ := FileObj.read_follower hfo hn hs
  obtain ⟨d', e4, h4⟩ := use_ok hf (by rw [hfiles]; exact e)
  have hin := hfo.at_.inside
  refine ⟨.bytes ((content.drop (s.cursors i)).take n) ((content.drop (s.cursors i)).take n).length,
    s.withCursor i (s.cursors i + ((content.drop (s.cursors i)).take n).length), d', ?_,
    ⟨content, kept, by rw [h4.files, e1], hwritten, hflushed, hclosed, fun hw => ?_, fun j c hj => ?_⟩,
    fun t ht => ⟨_, rfl, ?_, ?_, ?_, ht⟩⟩
  · simp only [keep]
    rw [M.bind_ok (show read P (i + 1) n d = _ from e4)]
    rfl
  · obtain ⟨g, hg, hk⟩ := hopen hw
    exact ⟨g, (h4.other _ (by omega)).trans hg, hk⟩
  · simp only [JournalOp.joined] at hj
    by_cases hij : j = i
    · subst hij
      rw [hcap] at hj
      cases hj
      refine ⟨_, h4.same, ?_⟩
      simp only [Log.withCursor, if_pos]
      exact e2
    · obtain ⟨g, hg, hk⟩ := hreaders j c hj
      refine ⟨g, (h4.other _ (by omega)).trans hg, ?_⟩
      simp only [Log.withCursor, if_neg hij]
      exact hk
  · rw [hwritten, List.drop_append_of_le_length hin, List.take_append_of_le_length (by
      rw [List.length_take, List.length_drop]; omega)]
    rw [List.take_eq_take_iff]
    simp
  · rw [List.length_take, List.length_drop]
    omega
  · rw [List.length_take]
    omega

theorem step_place (h : Journals P fs path writer readers s d) (i : Nat) (hi : (readers i).isSome) :
    Tidy P fs path writer readers s d (.place i) := by
  obtain ⟨content, kept, hfiles, hwritten, hflushed, -, hopen, hreaders⟩ := id h
  obtain ⟨cap, hcap⟩ := Option.isSome_iff_exists.mp hi
  obtain ⟨f, hf, hfo⟩ := hreaders i cap hcap
  obtain ⟨d', e4, h4⟩ := use_ok (x := fun f => (FileObj.getPosition P f, f)) hf
    (Prod.ext (by rw [hfiles]; exact FileObj.position_follower hfo) rfl)
  refine ⟨.place (s.cursors i : Nat), s, d', ?_, h.still hf h4, fun t ht => ⟨rfl, ht⟩⟩
  simp only [keep]
  rw [M.bind_ok (show getPosition P (i + 1) d = _ from e4)]
  rfl

theorem step_atEnd (h : Journals P fs path writer readers s d) (i : Nat) (hi : (readers i).isSome) :
    Tidy P fs path writer readers s d (.atEnd i) := by
  obtain ⟨content, kept, hfiles, hwritten, hflushed, -, hopen, hreaders⟩ := id h
  obtain ⟨cap, hcap⟩ := Option.isSome_iff_exists.mp hi
  obtain ⟨f, hf, hfo⟩ := hreaders i cap hcap
  obtain ⟨d', e4, h4⟩ := use_ok (x := fun f => (FileObj.isAtEnd P f, f)) hf
    (Prod.ext (by rw [hfiles]; exact FileObj.atEnd_follower hfo) rfl)
  have hin := hfo.at_.inside
  refine ⟨.atEnd (decide (s.cursors i = content.length)), s, d', ?_, h.still hf h4,
    fun t ht => ⟨_, rfl, ?_, ?_, ht⟩⟩
  · simp only [keep]
    rw [M.bind_ok (show isAtEnd P (i + 1) d = _ from e4)]
    rfl
  · rw [decide_eq_true_eq]
    omega
  · rw [decide_eq_true_eq, hwritten, List.length_append]
    omega

theorem step_look (h : Journals P fs path writer readers s d) :
    Tidy P fs path writer readers s d .look := by
  obtain ⟨content, kept, hfiles, hwritten, hflushed, -, hopen, hreaders⟩ := id h
  refine ⟨.bytes content content.length, s, d, ?_, h, fun t ht => ⟨content, rfl, ?_, hflushed, ht⟩⟩
  · simp only [keep, look, M.bind_apply, hfiles, withFile_self]
    rfl
  · rw [hwritten]
    simp

end Steps

theorem journals_step {P : FilePlatform} {fs : Nat → Option (List Byte)} {path : Nat} {writer : Bool}
    {readers : Nat → Option Nat} {s : Log} {d : Disk} (h : Journals P fs path writer readers s d)
    (op : JournalOp) (ops : List JournalOp)
    (hp : JournalOp.Proper (· ≤ P.most) P.Steady (fun cap n => cap = 0 ∨ n ≤ cap) writer readers
      (op :: ops)) : Tidy P fs path writer readers s d op := by
  have hp1 := hp.1
  cases op with
  | session cap both =>
    obtain ⟨rfl, hcap⟩ := hp1
    exact step_session h cap both hcap
  | write data =>
    obtain ⟨rfl, hd⟩ := hp1
    exact step_write h data hd
  | flush =>
    have : writer = true := hp1
    subst this
    exact step_flush h
  | writerPlace =>
    have : writer = true := hp1
    subst this
    exact step_writerPlace h
  | finish =>
    have : writer = true := hp1
    subst this
    exact step_finish h
  | join i cap calls => exact step_join h i cap calls hp1.2.1 hp1.2.2
  | leave i => exact step_leave h i hp1
  | read i n =>
    obtain ⟨cap, hcap, hn, hs⟩ := hp1
    exact step_read h hcap hn hs
  | place i => exact step_place h i hp1
  | atEnd i => exact step_atEnd h i hp1
  | look => exact step_look h

/-- The first session, on a file that is there or is made. -/
theorem journals_begin (P : FilePlatform) (fs : Nat → Option (List Byte)) (path cap : Nat)
    (both : Bool) (hcap : cap ≤ P.most) :
    ∃ d, Disk.keep P path (.session cap both) (Disk.make fs) = (.ok .done, d)
      ∧ Journals P fs path true (fun _ => none) (Log.holding ((fs path).getD [])) d := by
  have hm := FileObj.make_open P cap fs [] path (if both then .readAndWrite else .writeOnly)
    .create (.inl rfl)
  obtain ⟨f', e, hf, hkeep⟩ := FileObj.make_keeper P fs cap path ((fs path).getD [])
    (if both then .readAndWrite else .writeOnly) (by cases both <;> decide) hcap
  obtain ⟨d1, e1, h1⟩ := Disk.construct_ok P 0 cap [] path (if both then .readAndWrite else .writeOnly)
    .create (Disk.make fs)
  simp only [Disk.make] at h1
  rw [hm] at h1
  obtain ⟨d2, e2, h2⟩ := Disk.use_ok (x := FileObj.setPosition P 0 .end) h1.same (by
    rw [h1.files]
    exact e)
  refine ⟨d2, ?_, ⟨(fs path).getD [], [], h2.files.trans hf, (List.append_nil _).symm, Nat.le_refl _, fun _ => rfl,
    fun _ => ⟨f', h2.same, hkeep⟩, fun i c hi => by cases hi⟩⟩
  simp only [Disk.keep]
  rw [M.bind_ok e1, M.bind_ok (show Disk.setPosition P 0 0 .end d1 = _ from e2)]
  rfl

theorem journals_all {P : FilePlatform} {fs : Nat → Option (List Byte)} {path : Nat} {writer : Bool}
    {readers : Nat → Option Nat} {s : Log} {d : Disk} (h : Journals P fs path writer readers s d)
    (ops : List JournalOp)
    (hp : JournalOp.Proper (· ≤ P.most) P.Steady (fun cap n => cap = 0 ∨ n ≤ cap) writer readers ops) :
    ∃ xs d', M.runList (Disk.keep P path) ops d = (.ok xs, d') ∧ xs.length = ops.length
      ∧ s.Tells (ops.zip xs) ∧ ∃ content, d'.files = withFile fs path content := by
  induction ops generalizing writer readers s d with
  | nil =>
    obtain ⟨content, -, e, -⟩ := h
    exact ⟨[], d, rfl, rfl, trivial, content, e⟩
  | cons op ops ih =>
    obtain ⟨x, s', d', e, hj, ht⟩ := journals_step h op ops hp
    obtain ⟨xs, d'', e', hlen, hx, hc⟩ := ih hj hp.2
    exact ⟨x :: xs, d'', M.runList_cons e e', by simp [hlen], ht _ hx, hc⟩

end Cmp
