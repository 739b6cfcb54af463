import Verif.Props.Position
import Verif.Proofs.IoStream

/-
Properties C88 and C89: positions counted from the end, and positions outside of the content.
-/

namespace Cmp

open Cmp.Spec (ArrayCursor IoOp Disciplined)

/-- After the operations `ops`, `set_position(p, pr)` on the file makes reads deliver the bytes from
number `target` on. -/
def FileReadsFrom (P : FilePlatform) (reads : List Nat) (cap : Nat) (content : List Byte)
    (ops : List IoOp) (p : Int) (pr : PositionReference) (target : Nat) (ns : List Nat) : Prop :=
  ∀ files path, files path = some content →
    ∃ outs f f' f'', M.runList (FileObj.doIo P) ops (freshFile P cap files reads path .readAndWrite) =
        (.ok outs, f)
      ∧ FileObj.setPosition P p pr f = (.ok (), f')
      ∧ M.runList (FileObj.read P) ns f' =
        (.ok (((⟨(Spec.after 1 ⟨content, 0⟩ ops).bytes, target⟩ : ArrayCursor).reads ns).map
          fun g => ⟨g, g.length⟩), f'')

/-- The same for a container of bytes. -/
def CtrReadsFrom (cap : Nat) (content : List Byte) (ops : List IoOp) (p : Int)
    (pr : PositionReference) (target : Nat) (ns : List Nat) : Prop :=
  ∃ outs r r' r'', M.runList (Res.doIo Ctr.readRaw Ctr.writeRaw Ctr.seek) ops (freshCtr cap 1 content)
      = (.ok outs, r)
    ∧ Res.setPositionIO Ctr.writeRaw Ctr.seek p pr r = (.ok (), r')
    ∧ M.runList (Res.read Ctr.readRaw) ns r' =
      (.ok (((⟨(Spec.after 1 ⟨content, 0⟩ ops).bytes, target⟩ : ArrayCursor).reads ns).map
        fun g => ⟨g, g.length⟩), r'')

theorem reads_behind (bytes : List Byte) (k : Nat) (h : bytes.length ≤ k) (ns : List Nat) :
    (⟨bytes, k⟩ : ArrayCursor).reads ns = (⟨[], 0⟩ : ArrayCursor).reads ns := by
  have hn : ∀ n, (⟨bytes, k⟩ : ArrayCursor).next n = [] := by
    intro n
    simp [ArrayCursor.next, List.drop_eq_nil_of_le h]
  have hn' : ∀ n, (⟨[], 0⟩ : ArrayCursor).next n = [] := by intro n; simp [ArrayCursor.next]
  induction ns with
  | nil => rfl
  | cons n ns ih =>
    simp only [ArrayCursor.reads, ArrayCursor.afterRead, hn, hn', List.length_nil, Nat.add_zero]
    rw [ih]

/-- What a file system call that sets the position to `target` leads to. -/
theorem fileReadsFrom (P : FilePlatform) (reads : List Nat) (hs : P.Steady reads) (cap : Nat)
    (content : List Byte) (ops : List IoOp) (hcap : cap ≤ P.most)
    (hlim : ∀ op ∈ ops, op.Within P.most)
    (hd : Disciplined cap 1 (fun _ _ _ => True) .fresh ⟨content, 0⟩ ops) (ns : List Nat)
    (hns : ∀ n ∈ ns, n ≤ P.most) (hn : cap = 0 ∨ ∀ n ∈ ns, n ≤ cap) (p : Int)
    (pr : PositionReference) (target : Nat)
    (hsk : ∀ files path q k reads, files path = some (Spec.after 1 ⟨content, 0⟩ ops).bytes →
      P.seek p pr ⟨files, some ⟨path, q, .readAndWrite⟩, k, reads⟩ =
        (.ok (), ⟨files, some ⟨path, target, .readAndWrite⟩, 0, reads⟩)) :
    FileReadsFrom P reads cap content ops p pr target ns := by
  intro files path hc
  have hfs : files = FileDev.withFile files path content := by
    funext p
    by_cases hp : p = path <;> simp [FileDev.withFile, hp, hc]
  obtain ⟨r, s, e, hr, -⟩ := P.runIo_holds (fs := files) (path := path)
    (Res.represents_make cap content ⟨files, some ⟨path, 0, .readAndWrite⟩, 0, reads⟩
      ⟨reads, hs, by rw [← hfs]⟩) hcap hlim hd
  obtain ⟨r', e', hl, h1, h2, h3, hi⟩ := P.setPosition_holds hr hcap p pr target
    (fun r' _ hdev => by
      obtain ⟨q, k, reads', hs', hdev⟩ : ∃ q k reads', P.Steady reads' ∧ r'.dev =
          ⟨FileDev.withFile files path (Spec.after 1 ⟨content, 0⟩ ops).bytes,
            some ⟨path, q, .readAndWrite⟩, k, reads'⟩ := by
        rcases hdev with ⟨q, reads', hs', h⟩ | ⟨b, q, reads', k, -, hs', h⟩
        · exact ⟨q, 0, reads', hs', h⟩
        · exact ⟨b, k, reads', hs', h⟩
      rw [hdev]
      exact ⟨_, hsk _ _ _ _ _ (by simp [FileDev.withFile]), reads', hs', rfl⟩)
  have hreads : ∃ r'', M.runList (Res.read P.readRaw) ns r' =
      (.ok (((⟨(Spec.after 1 ⟨content, 0⟩ ops).bytes, target⟩ : ArrayCursor).reads ns).map
        fun g => ⟨g, g.length⟩), r'') := by
    by_cases hin : target ≤ (Spec.after 1 ⟨content, 0⟩ ops).bytes.length
    · obtain ⟨r'', e'', -⟩ := Res.reads_delivering
        (P.source files path .readAndWrite (by decide) (Spec.after 1 ⟨content, 0⟩ ops).bytes)
        ⟨hl, hin, .inl ⟨h1, h2, hi⟩⟩ ns hcap hns hn
      exact ⟨r'', e''⟩
    · rw [reads_behind _ _ (by omega)]
      obtain ⟨r'', e'', -⟩ := Res.reads_delivering (p := 0)
        (P.source_behind files path .readAndWrite (by decide) (Spec.after 1 ⟨content, 0⟩ ops).bytes
          target (by omega))
        ⟨hl, Nat.zero_le _, .inl ⟨h1, h2, hi⟩⟩ ns hcap hns hn
      exact ⟨r'', e''⟩
  obtain ⟨r'', e''⟩ := hreads
  rw [freshFile_eq P cap files reads path .readAndWrite content hc]
  exact ⟨_, _, _, _, FileObj.run_eq P ops _ _ r rfl e, FileObj.onRes_rep e',
    FileObj.reads_onRes (f := ⟨r', _, _⟩) (by simp) e''⟩

/-- The same for containers, with positions inside. -/
theorem ctrReadsFrom (cap : Nat) (content : List Byte) (ops : List IoOp)
    (hd : Disciplined cap 1 (Ctr.allowed 1) .fresh ⟨content, 0⟩ ops) (ns : List Nat)
    (hn : cap = 0 ∨ ∀ n ∈ ns, n ≤ cap) (p : Int) (pr : PositionReference) (target : Nat)
    (hin : target ≤ (Spec.after 1 ⟨content, 0⟩ ops).bytes.length)
    (hsk : ∀ c : Ctr, c.elem = 1 → c.content = (Spec.after 1 ⟨content, 0⟩ ops).bytes →
      Ctr.seek p pr c = (.ok (), { c with position := (target : Int), lastFill := 0 })) :
    CtrReadsFrom cap content ops p pr target ns := by
  obtain ⟨r, s, e, hr, -⟩ := Res.runIo_represents (Ctr.store 1)
    (Res.represents_make cap content (Ctr.make 1 content) ⟨rfl, rfl, rfl, rfl⟩)
    trivial (fun _ _ => trivial) hd
  obtain ⟨r', e', h'⟩ := Res.setPosition_represents (Ctr.store 1) hr p pr target hin
    (fun r' _ hdev => by
      have hc : r'.dev.elem = 1 ∧ r'.dev.content = (Spec.after 1 ⟨content, 0⟩ ops).bytes := by
        rcases hdev with ⟨q, hq⟩ | ⟨b, q, hq⟩ <;> exact ⟨hq.elem_eq, hq.content_eq⟩
      exact ⟨_, hsk _ hc.1 hc.2, hc.2, hc.1, rfl, rfl⟩)
  obtain ⟨r'', e'', -⟩ := Res.reads_delivering ((Ctr.store 1).source _) h'.1 ns trivial
    (fun _ _ => trivial) hn
  exact ⟨_, _, _, _, e, e', e''⟩

/-! ### C88 -/

/-- Containers count positions from the end in the other direction: going to the last byte of a
container of three leads behind the end, where reading is undefined. -/
theorem C88_violated :
    ¬ ∀ (cap : Nat) (content : List Byte) (ops : List IoOp) (d : Nat) (ns : List Nat),
      Disciplined cap 1 (Ctr.allowed 1) .fresh ⟨content, 0⟩ ops → (cap = 0 ∨ ∀ n ∈ ns, n ≤ cap) →
      d ≤ (Spec.after 1 ⟨content, 0⟩ ops).bytes.length →
      CtrReadsFrom cap content ops (-d) .end ((Spec.after 1 ⟨content, 0⟩ ops).bytes.length - d) ns := by
  intro h
  obtain ⟨outs, r, r', r'', e1, e2, e3⟩ := h 4 [1, 2, 3] [] 1 [1] (.nil _ _) (.inr (by decide))
    (by decide)
  cases e1
  have : (M.runList (Res.read Ctr.readRaw) [1]
      (Res.setPositionIO Ctr.writeRaw Ctr.seek (-(1 : Nat)) .end (freshCtr 4 1 [1, 2, 3])).2).1 =
        .ub := by
    decide +kernel
  rw [e2] at this
  simp only at this
  rw [e3] at this
  simp at this

/-- The last `d` bytes of a file on both platforms; the end of a container; and the last `d` bytes of
a container when the sign is changed.  Missing: the last bytes of a container as they are reached in
a file. -/
theorem C88_partial (P : FilePlatform) (reads : List Nat) (hs : P.Steady reads) (cap : Nat)
    (content : List Byte) (ops : List IoOp) (ns : List Nat) (hn : cap = 0 ∨ ∀ n ∈ ns, n ≤ cap)
    (d : Nat) (hdl : d ≤ (Spec.after 1 ⟨content, 0⟩ ops).bytes.length) :
    (cap ≤ P.most → (∀ op ∈ ops, op.Within P.most) → (∀ n ∈ ns, n ≤ P.most) →
      Disciplined cap 1 (fun _ _ _ => True) .fresh ⟨content, 0⟩ ops →
      FileReadsFrom P reads cap content ops (-d) .end
        ((Spec.after 1 ⟨content, 0⟩ ops).bytes.length - d) ns)
    ∧ (Disciplined cap 1 (Ctr.allowed 1) .fresh ⟨content, 0⟩ ops → d = 0 →
      CtrReadsFrom cap content ops (-d) .end ((Spec.after 1 ⟨content, 0⟩ ops).bytes.length - d) ns)
    ∧ (Disciplined cap 1 (Ctr.allowed 1) .fresh ⟨content, 0⟩ ops →
      CtrReadsFrom cap content ops d .end ((Spec.after 1 ⟨content, 0⟩ ops).bytes.length - d) ns) := by
  have ctr : Disciplined cap 1 (Ctr.allowed 1) .fresh ⟨content, 0⟩ ops →
      CtrReadsFrom cap content ops d .end ((Spec.after 1 ⟨content, 0⟩ ops).bytes.length - d) ns := by
    intro hd
    refine ctrReadsFrom cap content ops hd ns hn d .end _ (by omega) fun c he hc => ?_
    simp only [Ctr.seek, M.modify_apply, Ctr.count, he, hc, Nat.div_one]
    rw [Int.natCast_sub hdl]
    simp
  refine ⟨fun h1 h2 h3 h4 => ?_, fun hd h0 => ?_, ctr⟩
  · refine fileReadsFrom P reads hs cap content ops h1 h2 h4 ns h3 hn _ _ _ ?_
    intro files path q k reads' hc
    rw [P.seeks.fromEnd _ _ _ _ _ _ _ _ hc (by omega)]
    rw [show ((((Spec.after 1 ⟨content, 0⟩ ops).bytes.length : Nat) : Int) + -(d : Int)).toNat =
      (Spec.after 1 ⟨content, 0⟩ ops).bytes.length - d by omega]
  · subst h0
    simpa using ctr hd

/-! ### C89 -/

/-- On Windows a position before the beginning leaves the position where it was; reading a container
in front of its beginning or behind its end is undefined; and behind the end of a file `is_at_end`
says no. -/
theorem C89_violated :
    (¬ ∀ (cap : Nat) (content : List Byte) (ops : List IoOp) (k : Int) (ns : List Nat),
      Disciplined cap 1 (fun _ _ _ => True) .fresh ⟨content, 0⟩ ops →
      (cap = 0 ∨ ∀ n ∈ ns, n ≤ cap) →
      FileReadsFrom .windows [] cap content ops k .begin k.toNat ns)
    ∧ (∀ k : Int, k = -1 ∨ k = 4 →
      ¬ ∀ (cap : Nat) (content : List Byte) (ops : List IoOp) (ns : List Nat),
      Disciplined cap 1 (Ctr.allowed 1) .fresh ⟨content, 0⟩ ops → (cap = 0 ∨ ∀ n ∈ ns, n ≤ cap) →
      CtrReadsFrom cap content ops k .begin k.toNat ns)
    ∧ ∀ P, FileObj.isAtEnd P (FileObj.setPosition P 4 .begin
      (freshFile P 4 twoFiles [] 1 .readAndWrite)).2 = .ok false := by
  refine ⟨fun h => ?_, fun k hk h => ?_, fun P => by cases P <;> decide +kernel⟩
  · obtain ⟨outs, f, f', f'', e1, e2, e3⟩ := h 0 [1, 2, 3] [.read 2] (-1) [1]
      (.read (.inl rfl) (by decide) (.nil _ _)) (.inl rfl) (fun _ => some [1, 2, 3]) 0 rfl
    have : ((do
        let _ ← M.runList (FileObj.doIo .windows) [.read 2]
        FileObj.setPosition .windows (-1) .begin
        M.runList (FileObj.read .windows) [1])
        (freshFile .windows 0 (fun _ => some [1, 2, 3]) [] 0 .readAndWrite)).1 = .ok [⟨[3], 1⟩] := by
      decide +kernel
    rw [M.bind_ok e1, M.bind_ok e2, e3] at this
    simp only at this
    clear e1 e2 e3 h
    revert this
    decide +kernel
  · obtain ⟨outs, r, r', r'', e1, e2, e3⟩ := h 4 [1, 2, 3] [] [1] (.nil _ _) (.inr (by decide))
    cases e1
    have : (M.runList (Res.read Ctr.readRaw) [1]
        (Res.setPositionIO Ctr.writeRaw Ctr.seek k .begin (freshCtr 4 1 [1, 2, 3])).2).1 = .ub := by
      rcases hk with rfl | rfl <;> decide +kernel
    rw [e2] at this
    simp only at this
    rw [e3] at this
    simp at this

/-- Any position in a file on Unix, any position that is not negative on Windows, and any position
inside a container.  Missing: the other positions, and the end test behind the end. -/
theorem C89_partial (P : FilePlatform) (reads : List Nat) (hs : P.Steady reads) (cap : Nat)
    (content : List Byte) (ops : List IoOp) (ns : List Nat) (hn : cap = 0 ∨ ∀ n ∈ ns, n ≤ cap)
    (k : Int) :
    (P = .unix ∨ 0 ≤ k → cap ≤ P.most → (∀ op ∈ ops, op.Within P.most) →
      (∀ n ∈ ns, n ≤ P.most) →
      Disciplined cap 1 (fun _ _ _ => True) .fresh ⟨content, 0⟩ ops →
      FileReadsFrom P reads cap content ops k .begin k.toNat ns)
    ∧ (Disciplined cap 1 (Ctr.allowed 1) .fresh ⟨content, 0⟩ ops → 0 ≤ k →
      k ≤ (Spec.after 1 ⟨content, 0⟩ ops).bytes.length →
      CtrReadsFrom cap content ops k .begin k.toNat ns) := by
  refine ⟨fun hp h1 h2 h3 h4 => ?_, fun hd h0 hk => ?_⟩
  · refine fileReadsFrom P reads hs cap content ops h1 h2 h4 ns h3 hn _ _ _ ?_
    intro files path q j reads' hc
    by_cases h0 : 0 ≤ k
    · have := P.seeks.begin k.toNat files path q .readAndWrite j reads'
      rwa [Int.toNat_of_nonneg h0] at this
    · obtain rfl : P = .unix := by
        rcases hp with hp | hp
        · exact hp
        · exact absurd hp h0
      have := FileDev.seeks_unix.begin 0 files path q .readAndWrite j reads'
      have hz : k.toNat = 0 := by omega
      rw [hz, ← this]
      simp only [FilePlatform.seek, FileDev.seek]
      rw [if_pos ⟨trivial, by omega⟩, if_neg (by simp)]
      rfl
  · refine ctrReadsFrom cap content ops hd ns hn k .begin _ (by omega) fun c he hc => ?_
    simp only [Ctr.seek, M.modify_apply, he]
    rw [Int.toNat_of_nonneg h0]
    simp

/-- A history with reading, writing and seeking; the last three bytes; a position in front of the
beginning and one behind the end. -/
example : Disciplined 4 1 (Ctr.allowed 1) .fresh ⟨[1, 2, 3], 0⟩
      [.read 2, .toEnd, .write [4, 5, 6], .move (-2), .read 1]
    ∧ (Spec.after 1 ⟨[1, 2, 3], 0⟩ [.read 2, .toEnd, .write [4, 5, 6], .move (-2), .read 1]).bytes =
      [1, 2, 3, 4, 5, 6]
    ∧ (⟨[1, 2, 3, 4, 5, 6], 6 - 3⟩ : ArrayCursor).reads [2, 2] = [[4, 5], [6]]
    ∧ (⟨[1, 2, 3, 4, 5, 6], (-7 : Int).toNat⟩ : ArrayCursor).reads [2] = [[1, 2]]
    ∧ (⟨[1, 2, 3, 4, 5, 6], (9 : Int).toNat⟩ : ArrayCursor).reads [2] = [[]] := by
  refine ⟨?_, by decide +kernel, by decide, by decide, by decide⟩
  exact .read (.inl rfl) (by decide) (.toEnd (by decide) (.write (.inl ⟨rfl, rfl, rfl⟩)
    (.inr (by decide)) (.move (.inl (by decide)) (by decide +kernel) (by decide +kernel)
      (.read (.inl rfl) (by decide) (.nil _ _)))))

end Cmp
