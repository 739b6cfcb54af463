import Verif.Model.IoStream
import Verif.Proofs.Stream
import Verif.Proofs.Resource

/-
Streams on resources for reading and writing.
-/

namespace Cmp

open Cmp.Spec (ArrayCursor Session)

/-- A resource that acts like an array of bytes with a cursor: `rep s a r` says that the resource is
in session `s` and represents the array `a`, `holds bytes r` that the bytes have arrived. -/
structure IoMembers.Acts {ρ : Type} (X : IoMembers ρ) (sizes : Nat → Prop)
    (allowed : Nat → Nat → Nat → Prop) (rep : Session → ArrayCursor → ρ → Prop)
    (holds : List Byte → ρ → Prop) : Prop where
  inside : ∀ s a r, rep s a r → a.cursor ≤ a.bytes.length
  seek : ∀ s a r (k : Nat), rep s a r → k ≤ a.bytes.length →
    ∃ r', X.setPosition k .begin r = (.ok (), r') ∧ rep .fresh ⟨a.bytes, k⟩ r'
  toEnd : ∀ s a r, rep s a r →
    ∃ r', X.setPosition 0 .end r = (.ok (), r') ∧ rep .fresh ⟨a.bytes, a.bytes.length⟩ r'
  position : ∀ s a r, rep s a r → X.getPosition r = .ok (a.cursor : Int)
  flush : ∀ s a r, rep s a r →
    ∃ r', X.writer.flush r = (.ok (), r') ∧ rep s.flushed a r' ∧ holds a.bytes r'
  read : ∀ s a r n, rep s a r → s = .fresh ∨ s = .reading → sizes n →
    ∃ r', X.reader.read n r = (.ok ⟨a.next n, (a.next n).length⟩, r') ∧
      rep .reading (a.afterRead n) r'
  isAtEnd : ∀ s a r, rep s a r → s = .fresh ∨ s = .reading →
    X.reader.isAtEnd r = .ok (a.cursor == a.bytes.length)
  begin : ∀ a r, rep .fresh a r → rep (.writing a.bytes.length a.cursor) a r
  shorter : ∀ size start m n, m ≤ n → allowed size start n → allowed size start m
  write : ∀ size start a r data, rep (.writing size start) a r →
    allowed size start (a.cursor + data.length - start) →
    ∃ r', X.writer.write data r = (.ok data.length, r') ∧
      rep (.writing size start) (a.afterWrite data) r'

/-- Containers of bytes. -/
def Ctr.Rep (cap : Nat) (s : Session) (a : ArrayCursor) (r : Res Ctr) : Prop :=
  Res.Represents cap (Ctr.allowed 1) (Ctr.Idle 1) (Ctr.Loaded 1) s a r

theorem Ctr.position_rep {cap : Nat} {s : Session} {a : ArrayCursor} {r : Res Ctr}
    (h : Ctr.Rep cap s a r) : Ctr.getPosition r = (a.cursor : Int) := by
  obtain ⟨q, hq, hsum⟩ := Res.represents_position (fun c : Ctr => some c.position)
    (fun c q d h => by rw [h.position])
    (fun _ _ c b q d h => by
      have h1 := h.position
      have h2 := h.lastFill
      rw [Option.some.injEq]
      omega) h
  simp only [Option.some.injEq] at hq
  rw [Ctr.getPosition, hq, hsum]

theorem Res.represents_inside {δ : Type} {cap : Nat} {allowed : Nat → Nat → Nat → Prop}
    {idle : List Byte → Nat → δ → Prop} {loaded : List Byte → Nat → Nat → δ → Prop} {s : Session}
    {a : ArrayCursor} {r : Res δ} (h : Res.Represents cap allowed idle loaded s a r) :
    a.cursor ≤ a.bytes.length := by
  cases s with
  | fresh => exact h.1.inside
  | reading => exact h.1.inside
  | writing size start =>
    obtain ⟨-, o, w, rfl, hst, -, rfl, -⟩ := h
    simp only
    rw [Res.overlay_length _ _ _ hst]
    omega

theorem notWriting {s : Session} (h : s = .fresh ∨ s = .reading) : ¬ s.IsWriting := by
  rcases h with rfl | rfl <;> exact fun h => h

theorem Ctr.acts (cap : Nat) :
    Ctr.members.Acts (fun n => n ≤ cap ∨ cap = 0) (Ctr.allowed 1) (Ctr.Rep cap)
      (fun bytes r => r.dev.content = bytes) where
  inside := fun _ _ _ h => Res.represents_inside h
  seek := by
    intro s a r k h hk
    have hk' : k * 1 ≤ a.bytes.length := by omega
    have := Res.setPosition_represents (Ctr.store 1) h k .begin (k * 1) hk'
      fun r' _ hdev => (Ctr.store 1).seek a.bytes r'.dev k hdev hk'
    rw [Nat.mul_one] at this
    exact this
  toEnd := fun s a r h => Res.setPosition_represents (Ctr.store 1) h 0 .end a.bytes.length
    (Nat.le_refl _) fun r' _ hdev => (Ctr.store 1).toEnd a.bytes r'.dev hdev (Nat.one_dvd _)
  position := fun s a r h => congrArg Outcome.ok (Ctr.position_rep h)
  flush := by
    intro s a r h
    obtain ⟨r', e, h', hd, -⟩ := Res.flush_represents (Ctr.store 1) h
    refine ⟨r', e, h', ?_⟩
    rcases hd with ⟨q, hq⟩ | ⟨b, q, hq⟩ <;> exact hq.content_eq
  read := fun s a r n h hs hn => Res.read_represents (Ctr.store 1) h hs n trivial trivial hn
  isAtEnd := by
    intro s a r h hs
    have hp := Ctr.position_rep h
    have : r.dev.content = a.bytes ∧ r.dev.elem = 1 := by
      rcases Res.represents_held h (notWriting hs) with ⟨q, hq⟩ | ⟨b, q, hq⟩ <;>
        exact ⟨hq.content_eq, hq.elem_eq⟩
    show Outcome.ok (Ctr.isAtEnd r) = _
    simp only [Ctr.isAtEnd, hp, Ctr.count, this.1, this.2, Nat.div_one, Nat.mul_one, Outcome.ok.injEq]
    rw [Bool.eq_iff_iff, beq_iff_eq, beq_iff_eq, Int.natCast_inj]
  begin := fun a r h => Res.fresh_writing (Ctr.store 1) h
  shorter := by
    intro size start m n hm h
    rcases h with h | ⟨h, -⟩
    · exact .inl (by omega)
    · exact .inr ⟨h, Nat.one_dvd _⟩
  write := fun size start a r data h ha => Res.write_represents (Ctr.store 1) h data ha

/-- File objects open for reading and writing. -/
def FileObj.Rep (P : FilePlatform) (cap : Nat) (files : Nat → Option (List Byte)) (path : Nat)
    (s : Session) (a : ArrayCursor) (f : FileObj) : Prop :=
  f.mode = .readAndWrite ∧ f.path = some path ∧
    Res.Represents cap (fun _ _ n => n ≤ P.most) (FileDev.Idle P.Steady files path .readAndWrite)
      (FileDev.Loaded P.Steady files path .readAndWrite) s a f.res

theorem FileObj.onRes_rep {α : Type} {x : M (Res FileDev) α} {f : FileObj} {r : Res FileDev} {b : α}
    (h : x f.res = (.ok b, r)) : FileObj.onRes x f = (.ok b, { f with res := r }) := by
  simp only [FileObj.onRes, h]

theorem FileObj.position_rep {P : FilePlatform} {cap : Nat} {files : Nat → Option (List Byte)}
    {path : Nat} {s : Session} {a : ArrayCursor} {f : FileObj}
    (h : FileObj.Rep P cap files path s a f) : FileObj.getPosition P f = .ok (a.cursor : Int) := by
  obtain ⟨q, hq, hsum⟩ := Res.represents_position
    (fun d : FileDev => d.fd.map fun x => (x.offset : Int))
    (fun c q d h => by obtain ⟨_, -, rfl⟩ := h; rfl)
    (fun _ _ c b q d h => by obtain ⟨_, _, -, -, rfl⟩ := h; rfl) h.2.2
  cases hd : f.res.dev.fd with
  | none => simp [hd] at hq
  | some d =>
    simp only [hd, Option.map_some, Option.some.injEq] at hq
    simp only [FileObj.getPosition, hd, hq, hsum]

theorem FileObj.acts (P : FilePlatform) (cap : Nat) (hcap : cap ≤ P.most)
    (files : Nat → Option (List Byte)) (path : Nat) :
    (FileObj.members P).Acts (fun n => n ≤ P.most ∧ (n ≤ cap ∨ cap = 0)) (fun _ _ n => n ≤ P.most)
      (FileObj.Rep P cap files path)
      (fun bytes f => f.res.dev.files = FileDev.withFile files path bytes) where
  inside := fun _ _ _ h => Res.represents_inside h.2.2
  seek := by
    rintro s a f k ⟨hm, hp, h⟩ hk
    have hk' : k * 1 ≤ a.bytes.length := by omega
    obtain ⟨r', e, h'⟩ := Res.setPosition_represents (P.store files path) h k .begin (k * 1) hk'
      fun r' _ hdev => (P.store files path).seek a.bytes r'.dev k hdev hk'
    rw [Nat.mul_one] at h'
    exact ⟨_, FileObj.onRes_rep e, hm, hp, h'⟩
  toEnd := by
    rintro s a f ⟨hm, hp, h⟩
    obtain ⟨r', e, h'⟩ := Res.setPosition_represents (P.store files path) h 0 .end a.bytes.length
      (Nat.le_refl _) fun r' _ hdev =>
        (P.store files path).toEnd a.bytes r'.dev hdev (Nat.one_dvd _)
    exact ⟨_, FileObj.onRes_rep e, hm, hp, h'⟩
  position := fun s a f h => FileObj.position_rep h
  flush := by
    rintro s a f ⟨hm, hp, h⟩
    obtain ⟨r', e, h', hd, -⟩ := Res.flush_represents (P.store files path) h
    refine ⟨_, FileObj.onRes_rep e, ⟨hm, hp, h'⟩, ?_⟩
    rcases hd with ⟨q, _, -, hd⟩ | ⟨b, q, _, _, -, -, hd⟩ <;> rw [hd]
  read := by
    rintro s a ⟨res, op, mode⟩ n ⟨hm, hp, h⟩ hs ⟨h1, h2⟩
    obtain rfl : mode = .readAndWrite := hm
    obtain ⟨r', e, h'⟩ := Res.read_represents (P.store files path) h hs n hcap h1 h2
    refine ⟨⟨r', op, .readAndWrite⟩, ?_, rfl, hp, h'⟩
    show FileObj.read P n _ = _
    rw [FileObj.read, M.bind_ok (M.get_apply _)]
    exact FileObj.onRes_rep (f := ⟨_, _, _⟩) e
  isAtEnd := by
    intro s a f h hs
    have hp := FileObj.position_rep h
    have hb : f.path.bind f.res.dev.files = some a.bytes := by
      rw [h.2.1]
      rcases Res.represents_held h.2.2 (notWriting hs) with ⟨q, _, -, hd⟩ | ⟨b, q, _, _, -, -, hd⟩ <;>
        rw [hd] <;> simp [FileDev.withFile]
    show FileObj.isAtEnd P f = _
    simp only [FileObj.isAtEnd, hp, hb, Outcome.ok.injEq]
    rw [Bool.eq_iff_iff, beq_iff_eq, beq_iff_eq, Int.natCast_inj]
  begin := fun a r h => ⟨h.1, h.2.1, Res.fresh_writing (P.store files path) h.2.2⟩
  shorter := fun _ _ m n hm h => Nat.le_trans hm h
  write := by
    rintro size start a ⟨res, op, mode⟩ data ⟨hm, hp, h⟩ ha
    obtain rfl : mode = .readAndWrite := hm
    obtain ⟨r', e, h'⟩ := Res.write_represents (P.store files path) h data ha
    refine ⟨⟨r', op, .readAndWrite⟩, ?_, rfl, hp, h'⟩
    show FileObj.write P data _ = _
    rw [FileObj.write, M.bind_ok (M.get_apply _)]
    exact FileObj.onRes_rep (f := ⟨_, _, _⟩) e

section Acts

variable {ρ : Type} {X : IoMembers ρ} {sizes : Nat → Prop} {allowed : Nat → Nat → Nat → Prop}
  {rep : Session → ArrayCursor → ρ → Prop} {holds : List Byte → ρ → Prop}

/-- What is left to read of an array. -/
def ActsLeft (rep : Session → ArrayCursor → ρ → Prop) (bytes left : List Byte) (r : ρ) : Prop :=
  ∃ s p, (s = .fresh ∨ s = .reading) ∧ rep s ⟨bytes, p⟩ r ∧ left = bytes.drop p

/-- Such a resource delivers bytes to an input stream. -/
theorem IoMembers.Acts.delivers (A : X.Acts sizes allowed rep holds) (bytes : List Byte) :
    X.reader.Delivers sizes true (ActsLeft rep bytes) where
  read := by
    rintro bs r n hn ⟨s, p, hs, h, rfl⟩
    obtain ⟨r', e, h'⟩ := A.read s _ r n h hs hn
    refine ⟨r', e, .reading, _, .inr rfl, h', ?_⟩
    simp only [ArrayCursor.next, List.drop_drop]
    by_cases hl : p + n ≤ bytes.length
    · rw [List.length_take, List.length_drop, Nat.min_eq_left (by omega)]
    · rw [List.drop_eq_nil_of_le (by omega), List.drop_eq_nil_of_le (by simp; omega)]
  isAtEnd := by
    rintro bs r ⟨s, p, hs, h, rfl⟩
    rw [A.isAtEnd s _ r h hs]
    have := A.inside s _ r h
    simp only at this ⊢
    rw [Bool.true_and, Outcome.ok.injEq, Bool.eq_iff_iff, beq_iff_eq, List.isEmpty_iff,
      List.drop_eq_nil_iff]
    omega

/-- What was written over an array from `start` on. -/
def ActsGot (rep : Session → ArrayCursor → ρ → Prop) (bytes : List Byte) (start : Nat)
    (w : List Byte) (r : ρ) : Prop :=
  rep (.writing bytes.length start) ⟨Res.overlay bytes start w, start + w.length⟩ r

/-- Such a resource takes bytes from an output stream. -/
theorem IoMembers.Acts.collects (A : X.Acts sizes allowed rep holds) (bytes : List Byte)
    (start : Nat) (hs : start ≤ bytes.length) :
    X.writer.Collects (fun w => allowed bytes.length start w.length) (ActsGot rep bytes start)
      (fun w r => rep .fresh ⟨Res.overlay bytes start w, start + w.length⟩ r ∧
        holds (Res.overlay bytes start w) r) where
  shorter := fun w b h => A.shorter _ _ _ _ (by simp) h
  write := by
    intro w r data hf h
    obtain ⟨r', e, h'⟩ := A.write _ _ _ r data h (by
      simp only [List.length_append] at hf
      simp only
      rwa [show start + w.length + data.length - start = w.length + data.length by omega])
    refine ⟨_, r', e, ?_⟩
    unfold ActsGot
    rw [Res.overlay_append _ _ _ _ hs, List.length_append, ← Nat.add_assoc]
    exact h'
  flush := by
    intro w r h
    obtain ⟨r', e, h', hh⟩ := A.flush _ _ r h
    exact ⟨r', e, h', hh⟩

namespace IoStream

variable {α : Type}

theorem input_ok {x : M (InStream ρ) α} {s : IoStream ρ} {b : α} {r : ρ}
    (h : x ⟨s.res, s.inEndian, s.inForm⟩ = (.ok b, ⟨r, s.inEndian, s.inForm⟩)) :
    input x s = (.ok b, { s with res := r }) := by
  simp only [input, h]

theorem output_ok {x : M (OutStream ρ) α} {s : IoStream ρ} {b : α} {r : ρ}
    (h : x ⟨s.res, s.outEndian, s.outForm⟩ = (.ok b, ⟨r, s.outEndian, s.outForm⟩)) :
    output x s = (.ok b, { s with res := r }) := by
  simp only [output, h]

theorem onRes_ok {x : M ρ α} {s : IoStream ρ} {b : α} {r : ρ} (h : x s.res = (.ok b, r)) :
    onRes x s = (.ok b, { s with res := r }) := by
  simp only [onRes, h]

/-- Destroying the stream completes what was written. -/
theorem destroy_acts (A : X.Acts sizes allowed rep holds) {s : Session} {a : ArrayCursor}
    {st : IoStream ρ} (h : rep s a st.res) :
    ∃ r', destroy X.writer st = (.ok (), { st with res := r' }) ∧ holds a.bytes r' := by
  obtain ⟨r', e, -, hh⟩ := A.flush s a st.res h
  refine ⟨r', ?_, hh⟩
  have : output (OutStream.flush X.writer) st = (.ok (), { st with res := r' }) :=
    output_ok (by simp only [OutStream.flush, OutStream.onRes, e])
  rw [destroy, M.noexcept_apply, this]
  rfl

end IoStream

end Acts

end Cmp
