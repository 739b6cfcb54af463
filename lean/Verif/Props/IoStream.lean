import Verif.Spec.Record
import Verif.Proofs.IoStream
import Verif.Props.Stream
import Verif.Props.File

/-
Property C86: data streams for reading and writing used for records of fixed size.
-/

namespace Cmp

open Cmp.Spec (Record RecordOp RecordResult ArrayCursor Session)

/-! ### C86 -/

/-- What a program does to replace, load and count records: it moves the resource to the record and
reads or writes the fields in turn. -/
def IoStream.doRecord {ρ : Type} (native : Endian) (X : IoMembers ρ) (sizes : List Nat) :
    RecordOp → M (IoStream ρ) RecordResult
  | .store i record => do
    onRes (X.setPosition ((i * sizes.sum : Nat) : Int) .begin)
    let _ ← M.runList (fun o => output (OutStream.writeValue native X.writer o)) record
    pure .stored
  | .load i => do
    onRes (X.setPosition ((i * sizes.sum : Nat) : Int) .begin)
    let fields ← M.runList (fun k => input (InStream.readValue native X.reader k)) sizes
    pure (.loaded fields)
  | .size => do
    onRes (X.setPosition 0 .end)
    let s ← M.get
    let p ← M.lift (X.getPosition s.res)
    pure (.size p)

/-- A record as it is in the file. -/
def recordBytes (native e : Endian) (record : Record) : List Byte :=
  record.flatMap (wireBytes native e)

/-- The records as they are in the file. -/
def recordsBytes (native e : Endian) (records : List Record) : List Byte :=
  records.flatMap (recordBytes native e)

/-- What a program with a stream gets back from its operations, and the resource after the stream
is destroyed. -/
def IoStream.recordSession {ρ : Type} (native e : Endian) (X : IoMembers ρ) (sizes : List Nat)
    (ops : List RecordOp) (res : ρ) : Outcome (List RecordResult × ρ) :=
  match (M.runList (doRecord native X sizes) ops >>= fun results =>
      destroy X.writer >>= fun _ => pure results) (make res e .utf8) with
  | (.ok results, s) => .ok (results, s.res)
  | (.throw x, _) => .throw x
  | (.terminate, _) => .terminate
  | (.ub, _) => .ub
  | (.hang, _) => .hang

section Records

variable {ρ : Type} {X : IoMembers ρ} {sizes : Nat → Prop} {allowed : Nat → Nat → Nat → Prop}
  {rep : Session → ArrayCursor → ρ → Prop} {holds : List Byte → ρ → Prop}

theorem recordBytes_length (native e : Endian) (record : Record) :
    (recordBytes native e record).length = (record.map List.length).sum := by
  simp only [recordBytes, List.length_flatMap, wireBytes_length]

theorem recordsBytes_length (native e : Endian) (n : Nat) (records : List Record)
    (h : ∀ r ∈ records, (r.map List.length).sum = n) :
    (recordsBytes native e records).length = records.length * n := by
  induction records with
  | nil => simp [recordsBytes]
  | cons r rs ih =>
    rw [recordsBytes, List.flatMap_cons, List.length_append, recordBytes_length, h r (by simp),
      ← recordsBytes, ih fun x hx => h x (by simp [hx]), List.length_cons, Nat.succ_mul]
    omega

theorem recordsBytes_split (native e : Endian) (n : Nat) (records : List Record)
    (h : ∀ r ∈ records, (r.map List.length).sum = n) (i : Nat) (hi : i ≤ records.length) :
    (recordsBytes native e records).take (i * n) = recordsBytes native e (records.take i) ∧
    (recordsBytes native e records).drop (i * n) = recordsBytes native e (records.drop i) := by
  have hl : (recordsBytes native e (records.take i)).length = i * n := by
    rw [recordsBytes_length native e n _ fun r hr => h r (List.mem_of_mem_take hr), List.length_take,
      Nat.min_eq_left hi]
  have : recordsBytes native e records =
      recordsBytes native e (records.take i) ++ recordsBytes native e (records.drop i) := by
    rw [recordsBytes, recordsBytes, recordsBytes, ← List.flatMap_append, List.take_append_drop]
  rw [this]
  exact ⟨List.take_left' hl, List.drop_left' hl⟩

/-- Replacing a record in the file. -/
theorem overlay_record (native e : Endian) (n : Nat) (records : List Record)
    (h : ∀ r ∈ records, (r.map List.length).sum = n) (i : Nat) (hi : i ≤ records.length)
    (record : Record) (hr : (record.map List.length).sum = n) :
    Res.overlay (recordsBytes native e records) (i * n) (recordBytes native e record) =
      recordsBytes native e ((RecordOp.store i record).effect records) := by
  obtain ⟨h1, -⟩ := recordsBytes_split native e n records h i hi
  simp only [Res.overlay, h1, recordBytes_length, hr, RecordOp.effect]
  split
  · next hlt =>
    obtain ⟨-, h2⟩ := recordsBytes_split native e n records h (i + 1) hlt
    rw [show i * n + n = (i + 1) * n by rw [Nat.succ_mul], h2, List.set_eq_take_append_cons_drop,
      if_pos hlt]
    simp [recordsBytes]
  · next hge =>
    have : i = records.length := by omega
    subst this
    rw [List.drop_eq_nil_of_le (by
      rw [recordsBytes_length native e n records h]
      omega)]
    simp [recordsBytes]

/-- Writing the fields of a record. -/
theorem write_fields {W : Writer ρ} {fits : List Byte → Prop} {got out : List Byte → ρ → Prop}
    (C : W.Collects fits got out) (native : Endian) (record : Record) (ho : ∀ o ∈ record, o ≠ []) :
    ∀ (s : IoStream ρ) (w : List Byte), fits (w ++ recordBytes native s.outEndian record) →
      got w s.res →
      ∃ us r', M.runList (fun o => IoStream.output (OutStream.writeValue native W o)) record s =
          (.ok us, { s with res := r' }) ∧
        got (w ++ recordBytes native s.outEndian record) r' := by
  induction record with
  | nil => intro s w _ h; exact ⟨[], s.res, rfl, by simpa [recordBytes] using h⟩
  | cons o os ih =>
    intro s w hf h
    rw [recordBytes, List.flatMap_cons, ← List.append_assoc, ← recordBytes] at hf
    obtain ⟨r1, e1, q1⟩ := OutStream.writeValue_eq C native ⟨s.res, s.outEndian, s.outForm⟩ w o
      (ho o (by simp)) (C.shorter _ _ hf) h
    obtain ⟨us, r2, e2, q2⟩ := ih (fun x hx => ho x (by simp [hx])) { s with res := r1 } _ hf q1
    refine ⟨() :: us, r2, M.runList_cons (IoStream.output_ok e1) e2, ?_⟩
    rw [recordBytes, List.flatMap_cons, ← List.append_assoc]
    exact q2

/-- Reading the fields of a record: what comes back is what is in the file. -/
theorem read_fields {R : Reader ρ} {sizes : Nat → Prop} {tells : Bool}
    {left : List Byte → ρ → Prop} (D : R.Delivers sizes tells left) (native e : Endian)
    (record : Record) (ho : ∀ o ∈ record, o ≠ [] ∧ sizes o.length) :
    ∀ (s : IoStream ρ) (rest : List Byte), left (recordBytes native e record ++ rest) s.res →
      ∃ r', M.runList (fun k => IoStream.input (InStream.readValue native R k))
          (record.map List.length) s =
          (.ok (record.map (wireBytes native e)), { s with res := r' }) ∧ left rest r' := by
  induction record with
  | nil => intro s rest h; exact ⟨s.res, rfl, h⟩
  | cons o os ih =>
    intro s rest h
    obtain ⟨hne, hsz⟩ := ho o (by simp)
    have hl := wireBytes_length native e o
    have hne' : wireBytes native e o ≠ [] := by
      intro h0
      rw [h0] at hl
      exact hne (List.length_eq_zero_iff.mp hl.symm)
    rw [recordBytes, List.flatMap_cons, List.append_assoc, ← recordBytes] at h
    obtain ⟨r1, e1, q1⟩ := readValue_full D native ⟨s.res, s.inEndian, s.inForm⟩ _ _ hne'
      (by rw [hl]; exact hsz) h
    rw [hl] at e1
    obtain ⟨r2, e2, q2⟩ := ih (fun x hx => ho x (by simp [hx])) { s with res := r1 } rest q1
    exact ⟨r2, M.runList_cons (IoStream.input_ok e1) e2, q2⟩

/-- What an operation gives back: the bytes of a field as they are in the file. -/
def asInFile (native e : Endian) : RecordResult → RecordResult
  | .loaded record => .loaded (record.map (wireBytes native e))
  | result => result

theorem doRecord_acts (A : X.Acts sizes allowed rep holds) (native e : Endian) (ks : List Nat)
    (hk : ∀ k ∈ ks, 0 < k ∧ sizes k)
    (hall : ∀ m i, i ≤ m → allowed (m * ks.sum) (i * ks.sum) ks.sum) (op : RecordOp)
    (records : List Record) (hr : ∀ r ∈ records, r.map List.length = ks)
    (hv : op.Valid ks records) (st : IoStream ρ) (he : st.outEndian = e)
    (s : Session) (p : Nat) (h : rep s ⟨recordsBytes native e records, p⟩ st.res) :
    (∀ r ∈ op.effect records, r.map List.length = ks) ∧
    ∃ r' s' p', IoStream.doRecord native X ks op st =
        (.ok (asInFile native e (op.result ks records)), { st with res := r' }) ∧
      rep s' ⟨recordsBytes native e (op.effect records), p'⟩ r' := by
  have hr' : ∀ r ∈ records, (r.map List.length).sum = ks.sum := fun r h => by rw [hr r h]
  have hlen := recordsBytes_length native e ks.sum records hr'
  cases op with
  | store i record =>
    obtain ⟨hi, hrec⟩ := hv
    constructor
    · intro r hmem
      simp only [RecordOp.effect] at hmem
      split at hmem
      · rcases List.mem_or_eq_of_mem_set hmem with hm | rfl
        · exact hr r hm
        · exact hrec
      · rcases List.mem_append.mp hmem with hm | hm
        · exact hr r hm
        · rw [List.mem_singleton.mp hm, hrec]
    · have hst : i * ks.sum ≤ (recordsBytes native e records).length := by
        rw [hlen]; exact Nat.mul_le_mul_right _ hi
      obtain ⟨r1, e1, h1⟩ := A.seek s _ st.res (i * ks.sum) h hst
      have C := A.collects (recordsBytes native e records) (i * ks.sum) hst
      have g0 : ActsGot rep (recordsBytes native e records) (i * ks.sum) [] r1 := by
        unfold ActsGot
        rw [Res.overlay_nil]
        exact A.begin _ _ h1
      have hne : ∀ o ∈ record, o ≠ [] := by
        intro o ho h0
        have := (hk o.length (by rw [← hrec]; exact List.mem_map_of_mem ho)).1
        rw [h0] at this
        exact absurd this (by decide)
      obtain ⟨us, r2, e2, g2⟩ := write_fields C native record hne { st with res := r1 } []
        (by
          show allowed _ _ _
          rw [List.nil_append, recordBytes_length, hrec, hlen]
          exact hall _ _ hi) g0
      have he2 : ({ st with res := r1 } : IoStream ρ).outEndian = e := he
      rw [List.nil_append, ActsGot, he2,
        overlay_record native e ks.sum records hr' i hi record (by rw [hrec])] at g2
      refine ⟨r2, _, _, ?_, g2⟩
      · rw [IoStream.doRecord, M.bind_ok (IoStream.onRes_ok e1), M.bind_ok e2]
        rfl
  | load i =>
    refine ⟨hr, ?_⟩
    have hi : i < records.length := hv
    have hst : i * ks.sum ≤ (recordsBytes native e records).length := by
      rw [hlen]; exact Nat.mul_le_mul_right _ (Nat.le_of_lt hi)
    obtain ⟨r1, e1, h1⟩ := A.seek s _ st.res (i * ks.sum) h hst
    have D := A.delivers (recordsBytes native e records)
    have hrec := hr _ (List.getElem_mem hi)
    have hdrop : (recordsBytes native e records).drop (i * ks.sum) =
        recordBytes native e records[i] ++ recordsBytes native e (records.drop (i + 1)) := by
      rw [(recordsBytes_split native e ks.sum records hr' i (Nat.le_of_lt hi)).2,
        List.drop_eq_getElem_cons hi]
      rfl
    obtain ⟨r2, e2, s2, p2, -, h2, -⟩ := read_fields D native e records[i] (by
      intro o ho
      have := hk o.length (by rw [← hrec]; exact List.mem_map_of_mem ho)
      exact ⟨fun h0 => by rw [h0] at this; exact absurd this.1 (by decide), this.2⟩)
      { st with res := r1 } _ ⟨.fresh, i * ks.sum, .inl rfl, h1, hdrop.symm⟩
    refine ⟨r2, s2, p2, ?_, h2⟩
    rw [hrec] at e2
    rw [IoStream.doRecord, M.bind_ok (IoStream.onRes_ok e1), M.bind_ok e2]
    simp only [RecordOp.result, asInFile, List.getD_eq_getElem?_getD, List.getElem?_eq_getElem hi,
      Option.getD_some]
    rfl
  | size =>
    refine ⟨hr, ?_⟩
    obtain ⟨r1, e1, h1⟩ := A.toEnd s _ st.res h
    refine ⟨r1, _, _, ?_, h1⟩
    rw [IoStream.doRecord, M.bind_ok (IoStream.onRes_ok e1), M.bind_ok (M.get_apply _)]
    simp only [A.position _ _ _ h1]
    rw [M.bind_ok (M.lift_apply _ _)]
    simp only [hlen, RecordOp.result, asInFile]
    congr 3

theorem runRecords_acts (A : X.Acts sizes allowed rep holds) (native e : Endian) (ks : List Nat)
    (hk : ∀ k ∈ ks, 0 < k ∧ sizes k)
    (hall : ∀ m i, i ≤ m → allowed (m * ks.sum) (i * ks.sum) ks.sum) (ops : List RecordOp) :
    ∀ (records : List Record), (∀ r ∈ records, r.map List.length = ks) →
      Spec.RecordsValid ks records ops → ∀ (st : IoStream ρ), st.outEndian = e →
      ∀ (s : Session) (p : Nat), rep s ⟨recordsBytes native e records, p⟩ st.res →
    ∃ r' s' p', M.runList (IoStream.doRecord native X ks) ops st =
        (.ok ((Spec.recordResults ks records ops).map (asInFile native e)), { st with res := r' }) ∧
      rep s' ⟨recordsBytes native e (Spec.recordsAfter records ops), p'⟩ r' := by
  induction ops with
  | nil => intro records _ _ st _ s p h; exact ⟨st.res, s, p, rfl, h⟩
  | cons op ops ih =>
    intro records hr hv st he s p h
    obtain ⟨hr1, r1, s1, p1, e1, h1⟩ := doRecord_acts A native e ks hk hall op records hr hv.1 st he
      s p h
    obtain ⟨r2, s2, p2, e2, h2⟩ := ih _ hr1 hv.2 { st with res := r1 } he s1 p1 h1
    exact ⟨r2, s2, p2, M.runList_cons e1 e2, h2⟩

/-- The whole life of a stream. -/
theorem recordSession_acts (A : X.Acts sizes allowed rep holds) (native e : Endian) (ks : List Nat)
    (hk : ∀ k ∈ ks, 0 < k ∧ sizes k)
    (hall : ∀ m i, i ≤ m → allowed (m * ks.sum) (i * ks.sum) ks.sum) (ops : List RecordOp)
    (records : List Record) (hr : ∀ r ∈ records, r.map List.length = ks)
    (hv : Spec.RecordsValid ks records ops) (res : ρ) (s : Session) (p : Nat)
    (h : rep s ⟨recordsBytes native e records, p⟩ res) :
    ∃ res', IoStream.recordSession native e X ks ops res =
        .ok ((Spec.recordResults ks records ops).map (asInFile native e), res') ∧
      holds (recordsBytes native e (Spec.recordsAfter records ops)) res' := by
  obtain ⟨r1, s1, p1, e1, h1⟩ := runRecords_acts A native e ks hk hall ops records hr hv
    (IoStream.make res e .utf8) rfl s p h
  obtain ⟨r2, e2, h2⟩ := IoStream.destroy_acts A (st := { IoStream.make res e .utf8 with res := r1 }) h1
  refine ⟨r2, ?_, h2⟩
  unfold IoStream.recordSession
  rw [M.bind_ok e1, M.bind_ok e2]
  rfl

/-- In the host's byte order, and for fields of one byte, fields are in the file as they are in
memory. -/
theorem asInFile_results (native e : Endian) (ks : List Nat) (hk : e = native ∨ ∀ k ∈ ks, k = 1)
    (ops : List RecordOp) : ∀ (records : List Record), (∀ r ∈ records, r.map List.length = ks) →
      Spec.RecordsValid ks records ops →
      (Spec.recordResults ks records ops).map (asInFile native e) =
        Spec.recordResults ks records ops := by
  have field : ∀ o : List Byte, o.length ∈ ks → wireBytes native e o = o := by
    intro o ho
    rcases hk with rfl | hk
    · simp [wireBytes]
    · have := hk _ ho
      match o, this with
      | [b], _ => simp [wireBytes]
  induction ops with
  | nil => intros; rfl
  | cons op ops ih =>
    intro records hr hv
    have hr1 : ∀ r ∈ op.effect records, r.map List.length = ks := by
      intro r hmem
      cases op with
      | store i record =>
        simp only [RecordOp.effect] at hmem
        split at hmem
        · rcases List.mem_or_eq_of_mem_set hmem with hm | rfl
          · exact hr r hm
          · exact hv.1.2
        · rcases List.mem_append.mp hmem with hm | hm
          · exact hr r hm
          · rw [List.mem_singleton.mp hm, hv.1.2]
      | load i => exact hr r hmem
      | size => exact hr r hmem
    simp only [Spec.recordResults, List.map_cons, ih _ hr1 hv.2, List.cons.injEq, and_true]
    cases op with
    | store i record => rfl
    | size => rfl
    | load i =>
      have hi : i < records.length := hv.1
      have hrec := hr _ (List.getElem_mem hi)
      simp only [RecordOp.result, asInFile, List.getD_eq_getElem?_getD, List.getElem?_eq_getElem hi,
        Option.getD_some, RecordResult.loaded.injEq]
      conv => rhs; rw [← List.map_id records[i]]
      apply List.map_congr_left
      intro o ho
      exact field o (by rw [← hrec]; exact List.mem_map_of_mem ho)

end Records

/-- The claim for a container of bytes that holds records: the program gets back what a list of
records would give it, and after the stream is destroyed the container holds the records that are
then in the list. -/
def CtrRecords (native e : Endian) (cap : Nat) (sizes : List Nat) (records : List Record)
    (ops : List RecordOp) (results : List RecordResult) : Prop :=
  ∃ r, IoStream.recordSession native e Ctr.members sizes ops
      (freshCtr cap 1 (recordsBytes native e records)) = .ok (results, r)
    ∧ r.dev.content = recordsBytes native e (Spec.recordsAfter records ops)

/-- The claim for a file; other files stay as they are. -/
def FileRecords (P : FilePlatform) (reads : List Nat) (native e : Endian) (cap : Nat)
    (sizes : List Nat) (records : List Record) (ops : List RecordOp)
    (results : List RecordResult) : Prop :=
  ∀ files path, files path = some (recordsBytes native e records) →
    ∃ f, IoStream.recordSession native e (FileObj.members P) sizes ops
        (freshFile P cap files reads path .readAndWrite) = .ok (results, f)
      ∧ f.res.dev.files path = some (recordsBytes native e (Spec.recordsAfter records ops))
      ∧ ∀ other, other ≠ path → f.res.dev.files other = files other

theorem ctrRecords (native e : Endian) (cap : Nat) (sizes : List Nat) (records : List Record)
    (ops : List RecordOp) (hk : ∀ k ∈ sizes, 0 < k ∧ (k ≤ cap ∨ cap = 0))
    (hr : ∀ r ∈ records, r.map List.length = sizes) (hv : Spec.RecordsValid sizes records ops) :
    CtrRecords native e cap sizes records ops
      ((Spec.recordResults sizes records ops).map (asInFile native e)) :=
  recordSession_acts (Ctr.acts cap) native e sizes hk
    (fun m i hi => by
      by_cases h : i = m
      · exact .inr ⟨by rw [h], Nat.one_dvd _⟩
      · refine .inl ?_
        rw [← Nat.succ_mul]
        exact Nat.mul_le_mul_right _ (by omega))
    ops records hr hv _ .fresh 0
    (Res.represents_make cap _ (Ctr.make 1 _) ⟨rfl, rfl, rfl, rfl⟩)

theorem fileRecords (P : FilePlatform) (reads : List Nat) (hs : P.Steady reads) (native e : Endian)
    (cap : Nat) (sizes : List Nat) (records : List Record) (ops : List RecordOp)
    (hcap : cap ≤ P.most) (hsum : sizes.sum ≤ P.most)
    (hk : ∀ k ∈ sizes, 0 < k ∧ (k ≤ cap ∨ cap = 0))
    (hr : ∀ r ∈ records, r.map List.length = sizes) (hv : Spec.RecordsValid sizes records ops) :
    FileRecords P reads native e cap sizes records ops
      ((Spec.recordResults sizes records ops).map (asInFile native e)) := by
  intro files path hc
  have hfs : files = FileDev.withFile files path (recordsBytes native e records) := by
    funext p
    by_cases hp : p = path <;> simp [FileDev.withFile, hp, hc]
  have hmem : ∀ k ∈ sizes, k ≤ sizes.sum := by
    clear hsum hk hr hv hc hfs
    induction sizes with
    | nil => simp
    | cons n ns ih =>
      intro k hk
      rw [List.sum_cons]
      rcases List.mem_cons.mp hk with rfl | h
      · omega
      · have := ih k h; omega
  obtain ⟨f, e1, h1⟩ := recordSession_acts (FileObj.acts P cap hcap files path) native e sizes
    (fun k h => ⟨(hk k h).1, Nat.le_trans (hmem k h) hsum, (hk k h).2⟩) (fun _ _ _ => hsum)
    ops records hr hv ⟨⟨IoBuffer.make cap, ⟨files, some ⟨path, 0, .readAndWrite⟩, 0, reads⟩⟩,
      some path, .readAndWrite⟩ .fresh 0
    ⟨rfl, rfl, Res.represents_make cap _ _ ⟨reads, hs, by rw [← hfs]⟩⟩
  rw [freshFile_eq P cap files reads path .readAndWrite _ hc]
  exact ⟨f, e1, by rw [h1]; simp [FileDev.withFile], fun other ho => by
    rw [h1]; simp [FileDev.withFile, ho]⟩

/-- The full claim fails: in the byte order that is not the host's, a field of two bytes is loaded
with its bytes exchanged, although it is in the container as it should be. -/
theorem C86_violated :
    ¬ ∀ (native e : Endian) (cap : Nat) (sizes : List Nat) (records : List Record)
      (ops : List RecordOp), (∀ k ∈ sizes, 0 < k ∧ (k ≤ cap ∨ cap = 0)) →
      (∀ r ∈ records, r.map List.length = sizes) → Spec.RecordsValid sizes records ops →
      CtrRecords native e cap sizes records ops (Spec.recordResults sizes records ops) := by
  intro h
  obtain ⟨r, e, -⟩ := h .little .big 4 [2] [] [.store 0 [[1, 2]], .load 0] (by decide)
    (by simp) (by decide)
  obtain ⟨r', e', -⟩ := ctrRecords .little .big 4 [2] [] [.store 0 [[1, 2]], .load 0] (by decide)
    (by simp) (by decide)
  rw [e] at e'
  simp only [Outcome.ok.injEq, Prod.mk.injEq] at e'
  exact absurd e'.1 (by decide)

/-- Records in containers and in files on both platforms, with any sequence of operations: on a
stream in the host's byte order, or when all fields have one byte, the store behaves like a list of
records, and its content is that of the list (first and second part); in the other byte order the
content is still right (third and fourth part, whatever was loaded).  The buffer can hold each field,
or there is none.  Missing: what is loaded in the other byte order. -/
theorem C86_partial (P : FilePlatform) (reads : List Nat) (hs : P.Steady reads) (native e : Endian)
    (cap : Nat) (sizes : List Nat) (records : List Record) (ops : List RecordOp)
    (hk : ∀ k ∈ sizes, 0 < k ∧ (k ≤ cap ∨ cap = 0))
    (hr : ∀ r ∈ records, r.map List.length = sizes) (hv : Spec.RecordsValid sizes records ops) :
    ((e = native ∨ ∀ k ∈ sizes, k = 1) →
      CtrRecords native e cap sizes records ops (Spec.recordResults sizes records ops))
    ∧ ((e = native ∨ ∀ k ∈ sizes, k = 1) → cap ≤ P.most → sizes.sum ≤ P.most →
      FileRecords P reads native e cap sizes records ops (Spec.recordResults sizes records ops))
    ∧ (∃ results, CtrRecords native e cap sizes records ops results)
    ∧ (cap ≤ P.most → sizes.sum ≤ P.most →
      ∃ results, FileRecords P reads native e cap sizes records ops results) := by
  have c := ctrRecords native e cap sizes records ops hk hr hv
  refine ⟨fun he => ?_, fun he h1 h2 => ?_, ⟨_, c⟩, fun h1 h2 =>
    ⟨_, fileRecords P reads hs native e cap sizes records ops h1 h2 hk hr hv⟩⟩
  · rwa [asInFile_results native e sizes he ops records hr hv] at c
  · have := fileRecords P reads hs native e cap sizes records ops h1 h2 hk hr hv
    rwa [asInFile_results native e sizes he ops records hr hv] at this

/-- Three records of a 16-bit and an 8-bit field; the second is replaced, a fourth is appended. -/
example : (∀ k ∈ [2, 1], 0 < k ∧ (k ≤ 4 ∨ 4 = 0))
    ∧ (∀ r ∈ [[[1, 2], [3]], [[4, 5], [6]], [[7, 8], [(9 : Byte)]]], r.map List.length = [2, 1])
    ∧ Spec.RecordsValid [2, 1] [[[1, 2], [3]], [[4, 5], [6]], [[7, 8], [9]]]
      [.load 2, .store 1 [[0, 0], [0]], .load 1, .store 3 [[10, 11], [12]], .size, .load 3]
    ∧ Spec.recordResults [2, 1] [[[1, 2], [3]], [[4, 5], [6]], [[7, 8], [9]]]
      [.load 2, .store 1 [[0, 0], [0]], .load 1, .store 3 [[10, 11], [12]], .size, .load 3] =
      [.loaded [[7, 8], [9]], .stored, .loaded [[0, 0], [0]], .stored, .size 12,
        .loaded [[10, 11], [12]]] := by decide

end Cmp
