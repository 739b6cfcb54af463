import Verif.Proofs.File
import Verif.Proofs.Tied

/-
File objects: what histories of operations keep.
-/

namespace Cmp

/-- Whatever its outcome, `x` keeps `P`. -/
def M.Keeps {σ α : Type} (P : σ → Prop) (x : M σ α) : Prop := ∀ s, P s → P (x s).2

namespace M

variable {σ α β : Type} {P : σ → Prop}

theorem keeps_bind {x : M σ α} {f : α → M σ β} (hx : Keeps P x) (hf : ∀ a, Keeps P (f a)) :
    Keeps P (x >>= f) := by
  intro s hs
  have h := hx s hs
  rw [bind_apply]
  cases e : x s with
  | mk o t =>
    rw [e] at h
    cases o with
    | ok a => exact hf a t h
    | throw => exact h
    | terminate => exact h
    | ub => exact h
    | hang => exact h

theorem keeps_pure (a : α) : Keeps P (pure a : M σ α) := fun _ h => h

theorem keeps_get : Keeps P (get : M σ σ) := fun _ h => h

theorem keeps_noexcept {x : M σ α} (h : Keeps P x) : Keeps P (noexcept x) := fun s hs => h s hs

theorem keeps_stateAfter {ι ρ : Type} {step : ι → M σ ρ} {ops : List ι}
    (h : ∀ i ∈ ops, Keeps P (step i)) (s : σ) (hs : P s) : P (stateAfter step s ops) := by
  induction ops generalizing s with
  | nil => exact hs
  | cons i is ih =>
    exact ih (fun j hj => h j (by simp [hj])) _ (h i (by simp) s hs)

end M

namespace FilePlatform

/-- The largest number of bytes the platform asks the system for at once. -/
def most : FilePlatform → Nat
  | .unix => FileDev.ssizeMax
  | .windows => FileDev.dwordMax

/-- The schedules of short counts the platform copes with: none on Unix, all on Windows. -/
def Steady : FilePlatform → List Nat → Prop
  | .unix => fun reads => reads = []
  | .windows => fun _ => True

theorem source (P : FilePlatform) (fs : Nat → Option (List Byte)) (path : Nat) (mode : AccessMode)
    (hm : mode ≠ .writeOnly) (content : List Byte) :
    Res.Source P.readRaw (· ≤ P.most) content (FileDev.Idle P.Steady fs path mode content)
      (FileDev.Loaded P.Steady fs path mode content) := by
  cases P with
  | unix => exact FileDev.source_unix fs path mode hm content
  | windows => exact FileDev.source_windows fs path mode hm content

theorem source_behind (P : FilePlatform) (fs : Nat → Option (List Byte)) (path : Nat)
    (mode : AccessMode) (hm : mode ≠ .writeOnly) (content : List Byte) (q : Nat)
    (hq : content.length ≤ q) :
    Res.Source P.readRaw (· ≤ P.most) [] (fun p => FileDev.Idle P.Steady fs path mode content (q + p))
      (fun b p => FileDev.Loaded P.Steady fs path mode content (q + b) (q + p)) := by
  cases P with
  | unix => exact FileDev.source_behind FileDev.seeks_unix FileDev.exact_unix _ fs path mode hm _ q hq
  | windows =>
    exact FileDev.source_behind FileDev.seeks_windows FileDev.exact_windows _ fs path mode hm _ q hq

theorem store (P : FilePlatform) (fs : Nat → Option (List Byte)) (path : Nat) :
    Res.Store P.readRaw P.writeRaw P.seek (· ≤ P.most) 1 (fun _ _ n => n ≤ P.most)
      (FileDev.Idle P.Steady fs path .readAndWrite)
      (FileDev.Loaded P.Steady fs path .readAndWrite) := by
  cases P with
  | unix => exact FileDev.store_unix fs path
  | windows => exact FileDev.store_windows fs path

theorem seeks (P : FilePlatform) : FileDev.Seeks P.seek := by
  cases P with
  | unix => exact FileDev.seeks_unix
  | windows => exact FileDev.seeks_windows

end FilePlatform

/-- What a program does with a file object. -/
inductive FileOp
  | read (n : Nat)
  | write (bytes : List Byte)
  | flush
  | setPosition (p : Int) (pr : PositionReference)
  | close
  | «open» (path : Nat) (mode : AccessMode) (absent : IfNotThere)

/-- The operation is an opening. -/
def FileOp.IsOpen : FileOp → Prop
  | .open .. => True
  | _ => False

namespace FileObj

/-- Perform an operation. -/
def doFile (P : FilePlatform) : FileOp → M FileObj Unit
  | .read n => do
    let _ ← read P n
    pure ()
  | .write bytes => do
    let _ ← write P bytes
    pure ()
  | .flush => flush P
  | .setPosition p pr => setPosition P p pr
  | .close => close P
  | .open path mode absent => do
    let _ ← openFile P path mode absent
    pure ()

variable {P : FilePlatform}

theorem keeps_onRes {α : Type} {Q : FileObj → Prop} {x : M (Res FileDev) α}
    (h : ∀ f, Q f → Q { f with res := (x f.res).2 }) : M.Keeps Q (onRes x) := fun f hf => h f hf

/-- Operations other than opening keep whatever the operations on the resource and forgetting the
descriptor keep. -/
theorem keeps_doFile {Q : FileObj → Prop}
    (hread : ∀ n, M.Keeps Q (onRes (Res.read P.readRaw n)))
    (hwrite : ∀ b, M.Keeps Q (onRes (Res.write P.writeRaw b)))
    (hflush : M.Keeps Q (flush P))
    (hseek : ∀ p pr, M.Keeps Q (setPosition P p pr))
    (hforget : ∀ f, Q f → Q { f with res := { f.res with dev := { f.res.dev with fd := none } } })
    (op : FileOp) (hop : ¬ op.IsOpen) : M.Keeps Q (doFile P op) := by
  cases op with
  | read n =>
    refine M.keeps_bind (M.keeps_bind M.keeps_get fun f => ?_) fun _ => M.keeps_pure _
    cases f.mode with
    | readOnly => exact hread n
    | readAndWrite => exact hread n
    | writeOnly => exact fun _ h => h
  | write b =>
    refine M.keeps_bind (M.keeps_bind M.keeps_get fun f => ?_) fun _ => M.keeps_pure _
    cases f.mode with
    | readOnly => exact fun _ h => h
    | readAndWrite => exact hwrite b
    | writeOnly => exact hwrite b
  | flush => exact hflush
  | setPosition p pr => exact hseek p pr
  | close => exact M.keeps_noexcept (M.keeps_bind hflush fun _ => hforget)
  | «open» => exact absurd trivial hop

/-- The access mode changes only by opening. -/
theorem keeps_mode (mode : AccessMode) (op : FileOp) (hop : ¬ op.IsOpen) :
    M.Keeps (fun f : FileObj => f.mode = mode) (doFile P op) :=
  keeps_doFile (fun _ => keeps_onRes fun _ h => h) (fun _ => keeps_onRes fun _ h => h)
    (keeps_onRes fun _ h => h) (fun _ _ => keeps_onRes fun _ h => h) (fun _ h => h) op hop

end FileObj

namespace FileDev

/-- Nothing can be written: the descriptor, if any, is for reading only; and nothing was. -/
def Protected (fs : Nat → Option (List Byte)) (d : FileDev) : Prop :=
  d.files = fs ∧ ∀ f, d.fd = some f → f.mode = .readOnly

variable {fs : Nat → Option (List Byte)}

theorem protected_sysRead (n : Nat) : M.Keeps (Protected fs) (sysRead n) := by
  rintro d ⟨h1, h2⟩
  unfold sysRead
  cases hf : d.fd with
  | none => exact ⟨h1, h2⟩
  | some f =>
    dsimp only
    split
    · exact ⟨h1, h2⟩
    · refine ⟨h1, fun g hg => ?_⟩
      simp only [Option.some.injEq] at hg
      rw [← hg]
      exact h2 f hf

theorem protected_sysWrite (bytes : List Byte) : M.Keeps (Protected fs) (sysWrite bytes) := by
  rintro d ⟨h1, h2⟩
  unfold sysWrite
  cases hf : d.fd with
  | none => exact ⟨h1, h2⟩
  | some f =>
    dsimp only
    rw [if_pos (h2 f hf)]
    exact ⟨h1, h2⟩

theorem protected_sysSeek (p : Int) (pr : PositionReference) :
    M.Keeps (Protected fs) (sysSeek p pr) := by
  rintro d ⟨h1, h2⟩
  simp only [sysSeek, M.modify_apply]
  cases hf : d.fd with
  | none => exact ⟨h1, h2⟩
  | some f =>
    cases pr <;> dsimp only <;> split <;>
      first
        | exact ⟨h1, h2⟩
        | exact ⟨h1, fun g hg => by
            simp only [Option.some.injEq] at hg
            rw [← hg]
            exact h2 f hf⟩

theorem protected_seek (P : FilePlatform) (p : Int) (pr : PositionReference) :
    M.Keeps (Protected fs) (P.seek p pr) := by
  cases P <;> exact M.keeps_noexcept (M.keeps_bind (protected_sysSeek _ _) fun _ _ h => h)

theorem protected_readLoop (n fuel : Nat) (stored : List Byte) (total : Nat) :
    M.Keeps (Protected fs) (readLoop n fuel stored total) := by
  induction fuel generalizing stored total with
  | zero => exact fun _ h => h
  | succ fuel ih =>
    refine M.keeps_bind (protected_sysRead n) fun got => ?_
    cases got with
    | none => exact M.keeps_pure _
    | some bytes =>
      dsimp only
      split
      · exact M.keeps_pure _
      · split
        · exact M.keeps_pure _
        · exact ih _ _

theorem protected_readLoopWindows (n fuel : Nat) (stored : List Byte) :
    M.Keeps (Protected fs) (readLoopWindows n fuel stored) := by
  induction fuel generalizing stored with
  | zero => exact fun _ h => h
  | succ fuel ih =>
    refine M.keeps_bind (protected_sysRead _) fun got => ?_
    cases got with
    | none => exact M.keeps_pure _
    | some bytes =>
      dsimp only
      split
      · exact M.keeps_pure _
      · exact ih _

theorem protected_readBlocks {block : Nat → M FileDev ReadResult}
    (hblock : ∀ n, M.Keeps (Protected fs) (block n)) (most fuel n : Nat) :
    M.Keeps (Protected fs) (readBlocks block most fuel n) := by
  induction fuel generalizing n with
  | zero =>
    simp only [readBlocks]
    split
    · exact M.keeps_pure _
    · exact fun _ h => h
  | succ fuel ih =>
    simp only [readBlocks]
    split
    · exact M.keeps_pure _
    · refine M.keeps_bind (hblock _) fun got => ?_
      split
      · exact M.keeps_pure _
      · exact M.keeps_bind (ih _) fun _ => M.keeps_pure _

theorem protected_readRaw (P : FilePlatform) (n : Nat) (rr : ReadRequest) :
    M.Keeps (Protected fs) (P.readRaw n rr) := by
  have hskip : M.Keeps (Protected fs) (skipFill P.seek rr) := by
    refine M.keeps_bind M.keeps_get fun d => ?_
    split
    · exact M.keeps_noexcept (protected_seek P _ _)
    · exact M.keeps_pure _
  have hnote : ∀ n, M.Keeps (Protected fs) (noteFill P.seek rr n) := by
    intro n
    unfold noteFill
    split
    · exact M.keeps_bind (M.keeps_noexcept (protected_seek P _ _)) fun _ d h => h
    · exact M.keeps_pure _
  cases P with
  | unix =>
    exact M.keeps_noexcept (M.keeps_bind hskip fun _ => M.keeps_bind
      (protected_readBlocks (fun n => M.keeps_bind M.keeps_get fun d => protected_readLoop _ _ _ _)
        _ n n) fun got => M.keeps_bind (hnote _) fun _ => M.keeps_pure _)
  | windows =>
    exact M.keeps_noexcept (M.keeps_bind hskip fun _ => M.keeps_bind
      (protected_readBlocks (fun n => M.keeps_bind M.keeps_get fun d =>
        protected_readLoopWindows _ _ _) _ n n) fun got =>
      M.keeps_bind (hnote _) fun _ => M.keeps_pure _)

theorem protected_writeRaw (P : FilePlatform) (bytes : List Byte) :
    M.Keeps (Protected fs) (P.writeRaw bytes) := by
  have hblocks : ∀ most fuel n, M.Keeps (Protected fs) (writeBlocks most bytes fuel n) := by
    intro most fuel
    induction fuel with
    | zero =>
      intro n
      simp only [writeBlocks]
      split
      · exact M.keeps_pure _
      · exact fun _ h => h
    | succ fuel ih =>
      intro n
      simp only [writeBlocks]
      split
      · exact M.keeps_pure _
      · refine M.keeps_bind (protected_sysWrite _) fun got => ?_
        split
        · exact M.keeps_pure _
        · exact M.keeps_bind (ih _) fun _ => M.keeps_pure _
  cases P <;> exact M.keeps_noexcept (hblocks _ _ _)

end FileDev

namespace FileObj

open FileDev (Protected)

variable {P : FilePlatform}

/-- A file opened for reading only stays as it is, and so do all others, until the next opening. -/
theorem keeps_protected (fs : Nat → Option (List Byte)) (op : FileOp) (hop : ¬ op.IsOpen) :
    M.Keeps (fun f : FileObj => Protected fs f.res.dev) (doFile P op) := by
  have hrefl : ∀ a : FileDev, Protected fs a → Protected fs a := fun _ h => h
  have htrans : ∀ a b c : FileDev, (Protected fs a → Protected fs b) →
      (Protected fs b → Protected fs c) → Protected fs a → Protected fs c :=
    fun _ _ _ h h' x => h' (h x)
  have hw : ∀ bytes d, Protected fs d → Protected fs (P.writeRaw bytes d).2 :=
    fun b d => FileDev.protected_writeRaw P b d
  have hflush : Res.Moves (fun a b => Protected fs a → Protected fs b)
      (Res.flush P.writeRaw) := Res.moves_flush hrefl htrans _ hw
  refine keeps_doFile
    (fun n => keeps_onRes fun f h => Res.moves_read (R := fun a b => Protected fs a → Protected fs b)
      hrefl htrans _ (fun n rr d => FileDev.protected_readRaw P n rr d) n f.res h)
    (fun b => keeps_onRes fun f h => Res.moves_write
      (R := fun a b => Protected fs a → Protected fs b) hrefl htrans _ hw b f.res h)
    (keeps_onRes fun f h => hflush f.res h)
    (fun p pr => keeps_onRes fun f h => ?_)
    (fun f h => ⟨h.1, by simp⟩) op hop
  have : Res.Moves (fun a b => Protected fs a → Protected fs b) (do
      Res.flush P.writeRaw
      Res.onDev (P.seek p pr)
      M.modify fun r : Res FileDev => { r with buf := r.buf.setReadDirty true }) :=
    Res.moves_bind htrans hflush fun _ => Res.moves_bind htrans
      (fun r => FileDev.protected_seek P p pr r.dev) fun _ r => hrefl _
  exact this f.res h

/- ### Opening -/

/-- What opening leaves: an open file at its beginning, in an object that otherwise keeps its
buffer. -/
theorem openClosed_true {path : Nat} {mode : AccessMode} {absent : IfNotThere} {f f' : FileObj}
    (h : openClosed P path mode absent f = (.ok true, f')) :
    ∃ content, f'.res.dev.files = FileDev.withFile f.res.dev.files path content ∧
      (f.res.dev.files path).getD [] = content ∧
      f'.res.dev.fd = some ⟨path, 0, mode⟩ ∧ f'.res.dev.lastFill = f.res.dev.lastFill ∧
      f'.res.dev.reads = f.res.dev.reads ∧ f'.mode = mode ∧ f'.path = f.path ∧
      f'.res.buf = f.res.buf := by
  simp only [openClosed] at h
  rw [M.bind_ok (M.get_apply f)] at h
  by_cases h0 : absent = .fail ∧ (f.res.dev.files path).isNone
  · rw [if_pos h0] at h
    simp at h
  rw [if_neg h0, M.bind_ok (M.modify_apply _ f), M.bind_ok (M.get_apply _)] at h
  simp only [M.pure_apply, Prod.mk.injEq, Outcome.ok.injEq] at h
  obtain ⟨h1, rfl⟩ := h
  cases hc : f.res.dev.files path with
  | some content =>
    have e : sysOpen f.res.dev path mode (P.disposition absent) =
        { f.res.dev with fd := some ⟨path, 0, mode⟩ } := by simp only [sysOpen, hc]
    refine ⟨content, ?_, rfl, ?_⟩
    · simp only [e]
      funext p
      by_cases hp : p = path <;> simp [FileDev.withFile, hp, hc]
    · simp [e]
  | none =>
    have ha : absent = .create := by
      cases absent with
      | create => rfl
      | fail => exact absurd ⟨rfl, by simp [hc]⟩ h0
    have e : sysOpen f.res.dev path mode (P.disposition absent) = { f.res.dev with
        files := FileDev.withFile f.res.dev.files path [], fd := some ⟨path, 0, mode⟩ } := by
      simp only [sysOpen, hc, ha]
      cases P <;> rfl
    refine ⟨[], ?_, rfl, ?_⟩
    · simp only [e]
    · simp [e]

/-- Opening an object that is open first flushes it. -/
theorem openFile_open {path : Nat} {mode : AccessMode} {absent : IfNotThere} {f f' : FileObj}
    (ho : isOpen f = true) (h : openFile P path mode absent f = (.ok true, f')) :
    ∃ r, Res.flush P.writeRaw f.res = (.ok (), r) ∧
      openClosed P path mode absent
        { f with res := { r with dev := { r.dev with fd := none } } } = (.ok true, f') := by
  simp only [openFile, M.noexcept_apply] at h
  rw [M.bind_ok (M.get_apply f), if_pos ho] at h
  cases hfl : Res.flush P.writeRaw f.res with
  | mk o r =>
    have hflush : FileObj.flush P f = (o, { f with res := r }) := by
      simp only [FileObj.flush, onRes, hfl]
    cases o with
    | ok u =>
      refine ⟨r, rfl, ?_⟩
      have hclose : FileObj.close P f =
          (.ok (), { f with res := { r with dev := { r.dev with fd := none } } }) := by
        simp only [FileObj.close, M.noexcept_apply]
        rw [M.bind_ok hflush]
        rfl
      rw [M.bind_ok hclose] at h
      generalize openClosed P path mode absent _ = x at h ⊢
      obtain ⟨o, s⟩ := x
      cases o <;> simp_all [Outcome.noexcept]
    | _ =>
      have hclose : ∀ b, (FileObj.close P f).1 ≠ .ok b := by
        intro b
        simp only [FileObj.close, M.noexcept_apply, M.bind_apply, hflush]
        simp
      rw [M.bind_apply] at h
      cases hc : FileObj.close P f with
      | mk o s =>
        rw [hc] at h hclose
        cases o <;> simp_all [Outcome.noexcept]

theorem flush_buffer {r r' : Res FileDev} (h : Res.flush P.writeRaw r = (.ok (), r')) :
    r'.buf.data = r.buf.data ∧ r'.buf.writeDirty = false := by
  simp only [Res.flush] at h
  rw [M.bind_ok (M.get_apply r)] at h
  by_cases hw : r.buf.writeDirty = true
  · rw [if_pos hw] at h
    split at h
    · simp at h
    · rw [M.bind_apply] at h
      simp only [Res.onDev] at h
      cases hx : P.writeRaw (r.buf.data.take r.buf.position) r.dev with
      | mk o d =>
        rw [hx] at h
        cases o <;> simp_all [IoBuffer.setWriteDirty]
        rw [← h]
        exact ⟨rfl, rfl⟩
  · rw [if_neg hw] at h
    simp only [M.pure_apply, Prod.mk.injEq, true_and] at h
    rw [← h]
    exact ⟨rfl, by simpa using hw⟩

/- ### Reading an open file -/

open Spec (ArrayCursor)

/-- The state of a file object whose next byte to deliver is number `p` of `content`. -/
def Reads (P : FilePlatform) (cap : Nat) (fs : Nat → Option (List Byte)) (path : Nat) (mode : AccessMode)
    (content : List Byte) (p : Nat) (f : FileObj) : Prop :=
  f.mode = mode ∧ Res.Delivering cap content (FileDev.Idle P.Steady fs path mode content)
    (FileDev.Loaded P.Steady fs path mode content) p f.res

theorem read_eq {f : FileObj} (h : f.mode ≠ .writeOnly) (n : Nat) :
    read P n f = onRes (Res.read P.readRaw n) f := by
  simp only [read]
  rw [M.bind_ok (M.get_apply f)]
  cases hm : f.mode with
  | readOnly => rfl
  | readAndWrite => rfl
  | writeOnly => exact absurd hm h

theorem reads_onRes {ns : List Nat} {f : FileObj} (h : f.mode ≠ .writeOnly) {gs : List ReadResult}
    {r : Res FileDev} (e : M.runList (Res.read P.readRaw) ns f.res = (.ok gs, r)) :
    M.runList (read P) ns f = (.ok gs, { f with res := r }) := by
  induction ns generalizing f gs with
  | nil =>
    cases e
    rfl
  | cons n ns ih =>
    simp only [M.runList] at e ⊢
    rw [M.bind_apply] at e ⊢
    rw [read_eq h, onRes]
    cases e1 : Res.read P.readRaw n f.res with
    | mk o t =>
      rw [e1] at e
      cases o with
      | ok a =>
        simp only at e ⊢
        rw [M.bind_apply] at e
        cases e2 : M.runList (Res.read P.readRaw) ns t with
        | mk o' t' =>
          rw [e2] at e
          cases o' with
          | ok as =>
            cases e
            rw [M.bind_ok (ih (f := { f with res := t }) h e2)]
            rfl
          | throw => cases e
          | terminate => cases e
          | ub => cases e
          | hang => cases e
      | throw => cases e
      | terminate => cases e
      | ub => cases e
      | hang => cases e

theorem reads_reads {cap : Nat} {fs : Nat → Option (List Byte)} {path : Nat} {mode : AccessMode}
    {content : List Byte} (hm : mode ≠ .writeOnly) (hcap : cap ≤ P.most)
    (ns : List Nat) (hlim : ∀ n ∈ ns, n ≤ P.most) (hn : cap = 0 ∨ ∀ n ∈ ns, n ≤ cap)
    {p : Nat} {f : FileObj} (h : Reads P cap fs path mode content p f) :
    ∃ f', M.runList (read P) ns f =
        (.ok (((⟨content, p⟩ : ArrayCursor).reads ns).map fun g => ⟨g, g.length⟩), f') ∧
      Reads P cap fs path mode content ((⟨content, p⟩ : ArrayCursor).afterReads ns).cursor f' ∧
      f'.path = f.path := by
  induction ns generalizing p f with
  | nil => exact ⟨f, rfl, h, rfl⟩
  | cons n ns ih =>
    obtain ⟨r, e, hr, -⟩ := Res.read_delivering (P.source fs path mode hm content) h.2 n
      hcap (hlim n (by simp)) (by
        rcases hn with hn | hn
        · exact .inr hn
        · exact .inl (hn n (by simp)))
    obtain ⟨f', e', h', hp⟩ := ih (fun m hm => hlim m (by simp [hm])) (by
      rcases hn with hn | hn
      · exact .inl hn
      · exact .inr fun m hm => hn m (by simp [hm])) (f := { f with res := r }) ⟨h.1, hr⟩
    refine ⟨f', M.runList_cons ?_ e', h', hp⟩
    rw [read_eq (by rw [h.1]; exact hm)]
    simp only [onRes, e]
    rfl

theorem reads_position {cap : Nat} {fs : Nat → Option (List Byte)} {path : Nat}
    {mode : AccessMode} {content : List Byte} {p : Nat} {f : FileObj}
    (h : Reads P cap fs path mode content p f) : getPosition P f = .ok p := by
  unfold getPosition
  rcases h.2.state with ⟨-, h2, reads, -, h4⟩ | ⟨-, -, -, -, b, hb, -, ⟨reads, k, -, -, h4⟩, -⟩
  · rw [h2, h4]; simp
  · rw [h4]
    simp only [Outcome.ok.injEq]
    omega

theorem reads_file {cap : Nat} {fs : Nat → Option (List Byte)} {path : Nat}
    {mode : AccessMode} {content : List Byte} {p : Nat} {f : FileObj}
    (h : Reads P cap fs path mode content p f) :
    f.res.dev.files = FileDev.withFile fs path content := by
  rcases h.2.state with ⟨-, -, reads, -, h4⟩ | ⟨-, -, -, -, b, -, -, ⟨reads, k, -, -, h4⟩, -⟩ <;>
    rw [h4]

end FileObj

end Cmp
