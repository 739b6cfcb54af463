import Verif.Proofs.Resource

/-
File objects that are opened after they were constructed, and files that are written to and closed.
-/

namespace Cmp

/-- The outcomes of a sequence of operations, also behind exceptions. -/
def M.outcomes {σ ι ρ : Type} (step : ι → M σ ρ) : σ → List ι → List (Outcome ρ)
  | _, [] => []
  | s, i :: is => (step i s).1 :: M.outcomes step (step i s).2 is

namespace FileObj

/-! ### The path -/

/-- What does not look at the path and does not change it. -/
def Blind {α : Type} (x : M FileObj α) : Prop :=
  ∀ p f, x { f with path := p } = ((x f).1, { (x f).2 with path := p })

variable {α β : Type}

theorem blind_pure (a : α) : Blind (pure a : M FileObj α) := fun _ _ => rfl

theorem blind_throw (e : Exn) : Blind (M.throw e : M FileObj α) := fun _ _ => rfl

theorem blind_onRes (x : M (Res FileDev) α) : Blind (onRes x) := fun _ _ => rfl

theorem blind_modify (k : FileObj → FileObj)
    (h : ∀ p f, k { f with path := p } = { k f with path := p }) : Blind (M.modify k) := by
  intro p f
  show (Outcome.ok (), k { f with path := p }) = _
  rw [h]
  rfl

theorem blind_noexcept {x : M FileObj α} (h : Blind x) : Blind (M.noexcept x) := by
  intro p f
  simp only [M.noexcept_apply, h p f]

theorem blind_bind {x : M FileObj α} {k : α → M FileObj β} (hx : Blind x) (hk : ∀ a, Blind (k a)) :
    Blind (x >>= k) := by
  intro p f
  simp only [M.bind_apply, hx p f]
  cases h : x f with
  | mk o g => cases o <;> first | exact hk _ p g | rfl

theorem blind_get {k : FileObj → M FileObj β} (hk : ∀ p f, k { f with path := p } = k f)
    (hb : ∀ f, Blind (k f)) : Blind (M.get >>= k) := by
  intro p f
  rw [M.bind_ok (M.get_apply f), M.bind_ok (M.get_apply _), hk]
  exact hb f p f

theorem blind_flush (P : FilePlatform) : Blind (flush P) := blind_onRes _

theorem blind_read (P : FilePlatform) (n : Nat) : Blind (read P n) := by
  refine blind_get (fun _ _ => rfl) fun f => ?_
  cases f.mode with
  | readOnly => exact blind_onRes _
  | readAndWrite => exact blind_onRes _
  | writeOnly => exact blind_throw _

theorem blind_write (P : FilePlatform) (bytes : List Byte) : Blind (write P bytes) := by
  refine blind_get (fun _ _ => rfl) fun f => ?_
  cases f.mode with
  | readOnly => exact blind_throw _
  | readAndWrite => exact blind_onRes _
  | writeOnly => exact blind_onRes _

theorem blind_close (P : FilePlatform) : Blind (close P) :=
  blind_noexcept (blind_bind (blind_flush P) fun _ => blind_modify _ fun _ _ => rfl)

theorem blind_openClosed (P : FilePlatform) (path : Nat) (mode : AccessMode) (absent : IfNotThere) :
    Blind (openClosed P path mode absent) := by
  refine blind_get (fun _ _ => rfl) fun f => ?_
  split
  · exact blind_pure _
  · exact blind_bind (blind_modify _ fun _ _ => rfl) fun _ =>
      blind_get (fun _ _ => rfl) fun _ => blind_pure _

theorem blind_openFile (P : FilePlatform) (path : Nat) (mode : AccessMode) (absent : IfNotThere) :
    Blind (openFile P path mode absent) := by
  refine blind_noexcept (blind_get (fun _ _ => rfl) fun f => ?_)
  split
  · exact blind_bind (blind_close P) fun _ => blind_openClosed P path mode absent
  · exact blind_openClosed P path mode absent

theorem blind_outcomes {ι ρ : Type} {step : ι → M FileObj ρ} (h : ∀ i, Blind (step i))
    (is : List ι) : ∀ (p : Option Nat) (f : FileObj),
      M.outcomes step { f with path := p } is = M.outcomes step f is := by
  induction is with
  | nil => intro p f; rfl
  | cons i is ih =>
    intro p f
    simp only [M.outcomes, h i p f, ih]

/-! ### Opening an object made without a path -/

/-- What opening makes of an object that was made without a path. -/
theorem openFile_default (P : FilePlatform) (cap : Nat) (files : Nat → Option (List Byte))
    (reads : List Nat) (path : Nat) (mode : AccessMode) (absent : IfNotThere)
    (h : (openFile P path mode absent (default cap files reads)).1 = .ok true) :
    (openFile P path mode absent (default cap files reads)).2 =
      { make P cap files reads path mode absent with path := none } := by
  have key : ∀ (p : Option Nat) (m : AccessMode),
      openFile P path mode absent ⟨⟨IoBuffer.make cap, ⟨files, none, 0, reads⟩⟩, p, m⟩ =
        M.noexcept (openClosed P path mode absent)
          ⟨⟨IoBuffer.make cap, ⟨files, none, 0, reads⟩⟩, p, m⟩ := by
    intro p m
    simp only [openFile, M.noexcept_apply]
    rw [M.bind_ok (M.get_apply _), if_neg (by simp [isOpen])]
  simp only [default, make, key, M.noexcept_apply] at h ⊢
  simp only [openClosed] at h ⊢
  rw [M.bind_ok (M.get_apply _)] at h ⊢
  rw [M.bind_ok (M.get_apply _)]
  by_cases h0 : absent = .fail ∧ (files path).isNone
  · rw [if_pos h0] at h
    simp at h
  · simp only [if_neg h0]
    rfl

/-! ### Writing a file from its beginning -/

/-- The descriptor has taken `w`, from the beginning of a file that held `old` before. -/
def Took (fs : Nat → Option (List Byte)) (path : Nat) (mode : AccessMode) (old : List Byte)
    (reads : List Nat) (d : FileDev) (w : List Byte) : Prop :=
  d = ⟨FileDev.withFile fs path (Res.overlay old 0 w), some ⟨path, w.length, mode⟩, 0, reads⟩

theorem took_takes (fs : Nat → Option (List Byte)) (path : Nat) (mode : AccessMode)
    (hm : mode ≠ .readOnly) (old : List Byte) (reads : List Nat) :
    Res.Takes FileDev.writeWhole (fun _ => True) (Took fs path mode old reads) where
  take := by
    intro d w bytes h _ _
    unfold Took at h
    subst h
    have hlen := Res.overlay_length old 0 w (Nat.zero_le _)
    refine ⟨_, FileDev.writeWhole_exact bytes fs path w.length mode hm _ (by omega) 0 reads, ?_⟩
    unfold Took
    have := Res.overlay_append old 0 w bytes (Nat.zero_le _)
    rw [Nat.zero_add] at this
    rw [this, List.length_append]

/-- A file object that was opened for writing and has been given `w`. -/
structure Saving (fs : Nat → Option (List Byte)) (path cap : Nat) (mode : AccessMode)
    (old : List Byte) (reads : List Nat) (w : List Byte) (f : FileObj) : Prop where
  mode_eq : f.mode = mode
  writing : Res.Writing cap (fun _ => True) (Took fs path mode old reads) f.res w

variable {P : FilePlatform} {fs : Nat → Option (List Byte)} {path cap : Nat} {mode : AccessMode}
  {old : List Byte} {reads : List Nat}

theorem write_saving (hm : mode ≠ .readOnly) (hcap : cap ≤ P.most) {w : List Byte} {f : FileObj}
    (h : Saving fs path cap mode old reads w f) (bytes : List Byte) (hb : bytes.length ≤ P.most) :
    ∃ f', write P bytes f = (.ok bytes.length, f') ∧
      Saving fs path cap mode old reads (w ++ bytes) f' := by
  obtain ⟨r', e, h', -⟩ := Res.write_writing (took_takes fs path mode hm old reads) h.writing trivial
    (bytes := bytes) trivial
  rw [← Res.write_congr (fun b => P.writeRaw_whole b) f.res
    (by rw [h.writing.length]; exact hcap) bytes hb] at e
  refine ⟨{ f with res := r' }, ?_, h.mode_eq, h'⟩
  have : write P bytes f = onRes (Res.write P.writeRaw bytes) f := by
    rw [write, M.bind_ok (M.get_apply f), h.mode_eq]
    cases mode with
    | readOnly => exact absurd rfl hm
    | writeOnly => rfl
    | readAndWrite => rfl
  rw [this, onRes, e]

theorem flush_saving (hm : mode ≠ .readOnly) (hcap : cap ≤ P.most) {w : List Byte} {f : FileObj}
    (h : Saving fs path cap mode old reads w f) :
    ∃ f', flush P f = (.ok (), f') ∧ Saving fs path cap mode old reads w f' ∧
      f'.res.dev.files = FileDev.withFile fs path (Res.overlay old 0 w) := by
  obtain ⟨d, e, h', q⟩ := Res.flush_writing (took_takes fs path mode hm old reads) h.writing trivial
  rw [← Res.flush_congr (fun b => P.writeRaw_whole b) f.res
    (by rw [h.writing.length]; exact hcap)] at e
  refine ⟨{ f with res := ⟨{ f.res.buf with writeDirty := false, position := 0 }, d⟩ }, ?_,
    ⟨h.mode_eq, h'⟩, ?_⟩
  · rw [flush, onRes, e]
  · unfold Took at q
    rw [q]

theorem close_saving (hm : mode ≠ .readOnly) (hcap : cap ≤ P.most) {w : List Byte} {f : FileObj}
    (h : Saving fs path cap mode old reads w f) :
    ∃ f', close P f = (.ok (), f') ∧ isOpen f' = false ∧
      f'.res.dev.files = FileDev.withFile fs path (Res.overlay old 0 w) := by
  obtain ⟨f', e, -, q⟩ := flush_saving (P := P) hm hcap h
  refine ⟨{ f' with res := { f'.res with dev := { f'.res.dev with fd := none } } }, ?_, rfl, q⟩
  rw [close, M.noexcept_apply, M.bind_ok e]
  rfl

/-- A file object as constructed for writing, where a file that is not there is created. -/
theorem make_create (P : FilePlatform) (cap : Nat) (files : Nat → Option (List Byte))
    (reads : List Nat) (path : Nat) (mode : AccessMode) :
    make P cap files reads path mode .create =
      ⟨⟨IoBuffer.make cap, ⟨FileDev.withFile files path ((files path).getD []),
        some ⟨path, 0, mode⟩, 0, reads⟩⟩, some path, mode⟩ := by
  have hd : P.disposition .create = .create := by cases P <;> rfl
  simp only [make, openFile, M.noexcept_apply]
  rw [M.bind_ok (M.get_apply _), if_neg (by simp [isOpen])]
  simp only [openClosed]
  rw [M.bind_ok (M.get_apply _), if_neg (by simp), M.bind_ok (M.modify_apply _ _)]
  cases hc : files path with
  | some content =>
    have : FileDev.withFile files path content = files := by
      funext p
      by_cases hp : p = path <;> simp [FileDev.withFile, hp, hc]
    simp [sysOpen, hc, M.bind_apply, this]
  | none =>
    simp [sysOpen, hc, hd, M.bind_apply]
    rfl

theorem saving_make (P : FilePlatform) (cap : Nat) (files : Nat → Option (List Byte))
    (reads : List Nat) (path : Nat) (mode : AccessMode) :
    Saving files path cap mode ((files path).getD []) reads []
      (make P cap files reads path mode .create) := by
  rw [make_create]
  refine ⟨rfl, Res.writing_make cap _ [] ?_ trivial⟩
  show Took _ _ _ _ _ _ _
  unfold Took
  rw [Res.overlay_nil]
  rfl

/-- Files collect what is written through a stream, up to the size of a transfer. -/
theorem collects (P : FilePlatform) (cap : Nat) (fs : Nat → Option (List Byte)) (path : Nat)
    (mode : AccessMode) (old : List Byte) (reads : List Nat) (hm : mode ≠ .readOnly)
    (hcap : cap ≤ P.most) :
    (writer P).Collects (fun w => w.length ≤ P.most) (Saving fs path cap mode old reads)
      (fun w f => f.res.dev.files = FileDev.withFile fs path (Res.overlay old 0 w) ∧
        Saving fs path cap mode old reads w f) where
  shorter := by
    intro w bytes h
    rw [List.length_append] at h
    omega
  write := by
    intro w f bytes hf h
    rw [List.length_append] at hf
    obtain ⟨f', e, h'⟩ := write_saving (P := P) hm hcap h bytes (by omega)
    exact ⟨_, f', e, h'⟩
  flush := by
    intro w f h
    obtain ⟨f', e, h', q⟩ := flush_saving (P := P) hm hcap h
    exact ⟨f', e, q, h'⟩

end FileObj

end Cmp
