import Verif.Proofs.FileBoard
import Verif.Proofs.RecoverText
import Verif.Props.Recover
import Verif.Spec.Tail

/-
A text written through a `text_output_stream` on a file that others read through `text_input_stream`s.
-/

namespace Cmp

open InStream OutStream
open Cmp.Spec (Tail TextLog TailOp pieces Quill)
open FileDev (withFile Idle Loaded)
open _root_.Spec (Item Itemised passReturns chars)

/-! ### Writing a character piece by piece -/

section Pieces

variable {ρ σ : Type} {W : Writer ρ}

/-- A resource that takes data of at most four bytes, which change its state from `v` to `add v data`. -/
def Writer.Notes (W : Writer ρ) (add : σ → List Byte → σ) (is : σ → ρ → Prop) : Prop :=
  ∀ v r bytes, bytes.length ≤ 4 → is v r → ∃ n r', W.write bytes r = (.ok n, r') ∧ is (add v bytes) r'

variable {add : σ → List Byte → σ} {is : σ → ρ → Prop}

theorem Writer.Notes.write_eq (N : W.Notes add is) (s : OutStream ρ) (v : σ) (bytes : List Byte)
    (hb : bytes.length ≤ 4) (h : is v s.res) :
    ∃ n r', OutStream.write W bytes s = (.ok n, { s with res := r' }) ∧ is (add v bytes) r' := by
  obtain ⟨n, r', e, q⟩ := N v s.res bytes hb h
  exact ⟨n, r', by rw [OutStream.write, OutStream.onRes, e], q⟩

theorem Writer.Notes.reverseWrite_eq (N : W.Notes add is) (s : OutStream ρ) (v : σ) (bytes : List Byte)
    (hn : bytes ≠ []) (hb : bytes.length ≤ 4) (h : is v s.res) :
    ∃ n r', reverseWrite W bytes s = (.ok n, { s with res := r' }) ∧ is (add v bytes.reverse) r' := by
  obtain ⟨n, r', e, q⟩ := N v s.res bytes.reverse (by simpa using hb) h
  refine ⟨n, r', ?_, q⟩
  rw [reverseWrite, invertEndianness_all bytes hn, M.bind_ok (M.lift_apply _ _)]
  simp only [OutStream.onRes, e]

theorem Writer.Notes.reverseUnits_eq (N : W.Notes add is) (native : Endian) (us : List Nat)
    (hu : ∀ u ∈ us, u < 65536) :
    ∀ (s : OutStream ρ) (v : σ), s.endian ≠ native → is v s.res →
      ∃ r', reverseUnits native W (us.map (BitVec.ofNat 16)) s = (.ok (), { s with res := r' })
        ∧ is ((us.map fun u => (s.endian.order.bytes 2 u).map (BitVec.ofNat 8)).foldl add v) r' := by
  induction us with
  | nil => exact fun s v _ h => ⟨s.res, rfl, h⟩
  | cons u us ih =>
    intro s v hn h
    have hlt := hu u (by simp)
    obtain ⟨n, r1, e1, q1⟩ := N.reverseWrite_eq s v (objectBytes native 2 u) (by
      intro h0
      have := congrArg List.length h0
      rw [objectBytes_length] at this
      simp at this) (by rw [objectBytes_length]; omega) h
    rw [objectBytes_reverse native s.endian 2 u (fun h => hn h.symm), objectBytes_eq] at q1
    obtain ⟨r2, e2, q2⟩ := ih (fun x hx => hu x (by simp [hx])) { s with res := r1 } _ hn q1
    exact ⟨r2, by rw [List.map_cons, reverseUnits, ofNat16_toNat hlt, M.bind_ok e1, e2], q2⟩

theorem cpBytes_eq (f : EncodingForm) (o : Endian) (c : Nat) :
    cpBytes f o c = (f.form.serialize o.order [c]).map (BitVec.ofNat 8) := by
  have := textBytes_cons f o c []
  rw [textBytes_nil, List.append_nil] at this
  exact this.symm

theorem cpBytes_length_le (f : EncodingForm) (o : Endian) (c : Nat) (h : _root_.Spec.IsScalar c) :
    (cpBytes f o c).length ≤ 4 := by
  rw [← (scanBytes_cp f o c h []).2]
  cases f with
  | utf8 =>
    simp only [EncodingForm.form, _root_.Spec.Form.encode1, _root_.Spec.Form.unitSize, _root_.Spec.utf8]
    split
    · simp
    split
    · simp
    split <;> simp
  | utf16 =>
    simp only [EncodingForm.form, _root_.Spec.Form.encode1, _root_.Spec.Form.unitSize, _root_.Spec.utf16]
    split <;> simp
  | utf32 => simp [EncodingForm.form, _root_.Spec.Form.encode1, _root_.Spec.Form.unitSize, _root_.Spec.utf32]

theorem Writer.Notes.writeCodePoint_eq (N : W.Notes add is) (native : Endian) (s : OutStream ρ) (c : Nat)
    (hc : WriteOk s.form c) (v : σ) (h : is v s.res) :
    ∃ r', writeCodePoint native W (BitVec.ofNat 32 c) s = (.ok (), { s with res := r' })
      ∧ is ((pieces (s.endian = native) s.form.form s.endian.order c).foldl add v) r' := by
  have hsc := hc.scalar
  have hl := cpBytes_length_le s.form s.endian c hsc
  rw [writeCodePoint, M.bind_ok (M.get_apply s)]
  cases hf : s.form with
  | utf8 =>
    rw [hf] at hc hl
    have hcp : cpBytes .utf8 s.endian c = encU .char8 c := by
      rw [cpBytes, show EncodingForm.utf8.form.encode1 c = _root_.Spec.utf8 c from rfl,
        show EncodingForm.utf8.form.unitSize = 1 from rfl, flatMap_bytes_one _ _ (utf8_bound c hsc)]
      rfl
    obtain ⟨n, r', e, q⟩ := N.write_eq s v (encU .char8 c) (by rw [← hcp]; exact hl) h
    refine ⟨r', ?_, ?_⟩
    · simp only [writeUtf8]
      rw [appendCP_enc .char8 c hc, M.bind_ok (M.lift_apply _ _), List.nil_append, M.bind_ok e, hf]
      rfl
    · rw [pieces, if_neg (by rintro ⟨h, -⟩; cases h), ← cpBytes_eq, hcp]
      exact q
  | utf16 =>
    rw [hf] at hl
    have hb := utf16_bound c hsc
    have hcp : cpBytes .utf16 s.endian c =
      asBytes ((_root_.Spec.utf16 c).flatMap (s.endian.order.bytes 2)) := rfl
    simp only [writeUtf16]
    rw [appendCP_enc .char16 c hsc, M.bind_ok (M.lift_apply _ _), List.nil_append,
      M.bind_ok (M.get_apply s)]
    by_cases hn : s.endian = native
    · rw [if_pos hn]
      have hq : ((encU .char16 c).flatMap fun u => objectBytes native 2 u.toNat) =
          cpBytes .utf16 s.endian c := by
        rw [hcp, hn, show encU .char16 c = (_root_.Spec.utf16 c).map (BitVec.ofNat 16) from rfl,
          objectBytes_flatMap native 2 _ hb]
      obtain ⟨n, r', e, q⟩ := N.write_eq s v
        ((encU .char16 c).flatMap fun u => objectBytes native 2 u.toNat) (by rw [hq]; exact hl) h
      refine ⟨r', ?_, ?_⟩
      · rw [M.bind_ok e, hf]; rfl
      · rw [pieces, if_neg (by simp [hn]), ← cpBytes_eq, ← hq]
        exact q
    · rw [if_neg hn]
      have := N.reverseUnits_eq native _ hb s v hn h
      rw [hf] at this
      rw [pieces, if_pos ⟨rfl, by simp [hn]⟩]
      exact this
  | utf32 =>
    have hcp : cpBytes .utf32 s.endian c = objectBytes s.endian 4 c := by
      rw [objectBytes_eq]
      simp [cpBytes, EncodingForm.form, _root_.Spec.Form.encode1, _root_.Spec.Form.unitSize,
        _root_.Spec.utf32]
    have hv : (BitVec.ofNat 32 c).toNat = c := by
      rw [BitVec.toNat_ofNat, Nat.mod_eq_of_lt]
      have := hsc.1
      omega
    have hp : pieces (s.endian = native) EncodingForm.utf32.form s.endian.order c
        = [objectBytes s.endian 4 c] := by
      rw [pieces, if_neg (by simp [EncodingForm.form]), ← cpBytes_eq, hcp]
    simp only [writeUtf32]
    rw [M.bind_ok (M.get_apply s), hv, hp]
    by_cases hn : s.endian = native
    · rw [if_pos hn]
      obtain ⟨n, r', e, q⟩ := N.write_eq s v (objectBytes native 4 c)
        (by rw [objectBytes_length]) h
      exact ⟨r', by rw [M.bind_ok e, hf]; rfl, by rw [hn]; exact q⟩
    · rw [if_neg hn]
      obtain ⟨n, r', e, q⟩ := N.reverseWrite_eq s v (objectBytes native 4 c) (by
        intro h0
        have := congrArg List.length h0
        rw [objectBytes_length] at this
        simp at this) (by rw [objectBytes_length]) h
      rw [objectBytes_reverse native s.endian 4 c (fun h => hn h.symm)] at q
      exact ⟨r', by rw [M.bind_ok e, hf]; rfl, q⟩

end Pieces

/-! ### Reading on to the end -/

theorem passReturns_eq_nil (tells : Bool) (is : List Item) (h : passReturns tells is = []) : is = [] := by
  match is with
  | [] => rfl
  | [i] => rw [passReturns] at h; split at h <;> cases h
  | i :: j :: is => rw [passReturns] at h; split at h <;> cases h

/-- Afterwards nothing is left. -/
theorem readOn_all {ρ : Type} {R : Reader ρ} {sizes : Nat → Prop} {left : List Byte → ρ → Prop}
    (D : R.Delivers sizes true left) (native : Endian) (fuel : Nat) (is : List Item)
    (hf : is.length < fuel) (s : InStream ρ) (h : HasItems sizes true left s is)
    (text : List Char32) :
    ∃ r', readOn native R fuel text s =
        (.ok (text ++ (chars is).map (BitVec.ofNat 32)), { s with res := r' })
      ∧ left [] r' := by
  induction is generalizing fuel s text with
  | nil =>
    obtain ⟨fuel, rfl⟩ : ∃ k, fuel = k + 1 := ⟨fuel - 1, by simp at hf; omega⟩
    refine ⟨s.res, ?_, ?_⟩
    · rw [readOn, M.bind_ok (hasItems_end D h)]
      simp [chars]
    · obtain ⟨-, bs, js, hl, hi, hp⟩ := h
      have := passReturns_eq_nil _ _ hp
      subst this
      have := itemised_nil hi
      rw [List.map_eq_nil_iff] at this
      rw [← this]
      exact hl
  | cons i is ih =>
    obtain ⟨fuel, rfl⟩ : ∃ k, fuel = k + 1 := ⟨fuel - 1, by simp at hf; omega⟩
    obtain ⟨r', e1, q⟩ := hasItems_read D native h
    rw [readOn, M.bind_ok (hasItems_end D h), if_neg (by simp), M.bind_apply, attempt, e1]
    have hf' : is.length < fuel := by simp at hf; omega
    cases i with
    | char v =>
      obtain ⟨r2, e2, q2⟩ := ih fuel hf' _ q (text ++ [BitVec.ofNat 32 v])
      refine ⟨r2, ?_, q2⟩
      change readOn native R fuel (text ++ [BitVec.ofNat 32 v]) { s with res := r' } = _
      rw [e2]
      simp [chars]
    | bad =>
      obtain ⟨r2, e2, q2⟩ := ih fuel hf' _ q text
      exact ⟨r2, e2, q2⟩
    | cut =>
      obtain ⟨r2, e2, q2⟩ := ih fuel hf' _ q text
      exact ⟨r2, e2, q2⟩

/-! ### The program -/

namespace Disk

/-- The members of the object called `i` that an input stream calls. -/
def reader (P : FilePlatform) (i : Nat) : Reader Disk := ⟨read P i, fun d => (isAtEnd P i d).1⟩

/-- The members of the object called `i` that an output stream calls. -/
def writer (P : FilePlatform) (i : Nat) : Writer Disk := ⟨write P i, flush P i⟩

/-- What is done through a `text_output_stream`, which has no state of its own but the byte order and
the encoding form. -/
def through {α : Type} (o : Endian) (form : EncodingForm) (m : M (OutStream Disk) α) : M Disk α := fun d =>
  ((m ⟨d, o, form⟩).1, (m ⟨d, o, form⟩).2.res)

/-- What is done through a `text_input_stream`, which has no state of its own but the byte order and
the encoding form. -/
def from_ {α : Type} (o : Endian) (form : EncodingForm) (m : M (InStream Disk) α) : M Disk α := fun d =>
  ((m ⟨d, o, form⟩).1, (m ⟨d, o, form⟩).2.res)

/-- What is done with a text, done with `file` objects and streams: object 0 writes, object `i + 1` is
the one called `i`. -/
def tailStep (P : FilePlatform) (path : Nat) (native o : Endian) (form : EncodingForm) :
    TailOp → M Disk (Option (List Nat))
  | .put c => do
    through o form (writeCodePoint native (writer P 0) (BitVec.ofNat 32 c))
    pure none
  | .flush => do
    through o form (OutStream.flush (writer P 0))
    pure none
  | .join i cap => do
    construct P (i + 1) cap [] path .readOnly .fail
    pure none
  | .follow i => do
    let content ← look path
    let text ← from_ o form (readOn native (reader P (i + 1)) (content.length + 1) [])
    pure (some (text.map BitVec.toNat))

end Disk

/-! ### The file and its objects -/

/-- A disk on which the text is as `s` says. -/
structure Tails (P : FilePlatform) (fs : Nat → Option (List Byte)) (path cap : Nat)
    (room : Nat → Prop) (readers : Nat → Option Nat) (s : Tail) (d : Disk) : Prop where
  files : d.files = withFile fs path s.shown
  writer : ∃ f, d.objects 0 = some f ∧ AsWriter P path cap ⟨s.shown.length, s.kept⟩ f
  kept : s.kept.length ≤ cap
  readers : ∀ i c, readers i = some c → room c ∧ ∃ f, d.objects (i + 1) = some f
    ∧ Follower P fs path s.shown c (s.seen i) f

theorem inked_end (content data : List Byte) : Quill.inked content content.length data = content ++ data := by
  rw [Quill.inked]
  split
  · next h => rw [h, List.append_nil]
  · rw [Nat.sub_self, List.replicate_zero, List.append_nil, List.take_length,
      List.drop_eq_nil_of_le (by omega), List.append_nil]

theorem quill_add (cap : Nat) (s : Tail) (data : List Byte) (hk : s.kept.length ≤ cap) :
    (⟨s.shown.length, s.kept⟩ : Quill).write cap data s.shown
        = ((s.add cap data).shown, ⟨(s.add cap data).shown.length, (s.add cap data).kept⟩)
      ∧ (s.add cap data).kept.length ≤ cap ∧ (s.add cap data).seen = s.seen
      ∧ ∃ more, (s.add cap data).shown = s.shown ++ more := by
  simp only [Quill.write, Tail.add, Quill.flush, inked_end]
  by_cases h0 : cap = 0
  · subst h0
    have hk0 : s.kept = [] := by simpa using hk
    rw [if_pos rfl]
    by_cases hd : 0 < data.length
    · rw [if_pos hd]
      simp [hk0]
    · have : data = [] := by simpa using hd
      subst this
      simp [hk0]
  · rw [if_neg h0]
    by_cases h1 : cap < data.length
    · rw [if_pos h1, if_pos (by omega), if_pos h1]
      refine ⟨?_, by simp, rfl, _, List.append_assoc _ _ _⟩
      have := inked_end (s.shown ++ s.kept) data
      rw [List.length_append] at this
      rw [this]
      simp [Nat.add_assoc]
    · by_cases h2 : cap < s.kept.length + data.length
      · simp only [if_neg h1, if_pos h2]
        exact ⟨by simp, by omega, trivial, _, rfl⟩
      · simp only [if_neg h1, if_neg h2]
        exact ⟨trivial, by simp only [List.length_append]; omega, trivial, [], by simp⟩

section Steps

variable {P : FilePlatform} {fs : Nat → Option (List Byte)} {path cap : Nat}
  {room : Nat → Prop} {readers : Nat → Option Nat}

open Disk

theorem tails_notes (hm : 4 ≤ P.most) :
    (writer P 0).Notes (Tail.add cap) (Tails P fs path cap room readers) := by
  rintro s d bytes hb ⟨hfiles, ⟨f, hf, hw⟩, hk, hr⟩
  obtain ⟨h1, h2, h3, more, h4⟩ := quill_add cap s bytes hk
  obtain ⟨f', e, e1, e2⟩ := FileObj.write_writer (fs := fs) (content := s.shown) (data := bytes) hw
    (by omega)
  rw [h1] at e1 e2
  obtain ⟨d', e4, t⟩ := use_ok hf (by rw [hfiles]; exact e)
  refine ⟨_, d', e4, by rw [t.files, e1], ⟨f', t.same, e2⟩, h2, fun i c hi => ?_⟩
  obtain ⟨hroom, g, hg, hfo⟩ := hr i c hi
  refine ⟨hroom, g, (t.other _ (by omega)).trans hg, ?_⟩
  rw [h4, h3]
  exact hfo.grow more

theorem tails_flush {s : Tail} {d : Disk} (h : Tails P fs path cap room readers s d) :
    ∃ d', flush P 0 d = (.ok (), d') ∧ Tails P fs path cap room readers s.flush d' := by
  obtain ⟨hfiles, ⟨f, hf, hw⟩, hk, hr⟩ := h
  obtain ⟨f', e, e1, e2⟩ := FileObj.flush_writer (fs := fs) (content := s.shown) hw
  simp only [Quill.flush, inked_end] at e1 e2
  obtain ⟨d', e4, t⟩ := use_ok hf (by rw [hfiles]; exact e)
  refine ⟨d', e4, by rw [t.files, e1]; rfl, ⟨f', t.same, ?_⟩, Nat.zero_le _, fun i c hi => ?_⟩
  · simp only [Tail.flush, List.length_append]
    exact e2
  · obtain ⟨hroom, g, hg, hfo⟩ := hr i c hi
    exact ⟨hroom, g, (t.other _ (by omega)).trans hg, hfo.grow s.kept⟩

theorem tails_join {s : Tail} {d : Disk} (h : Tails P fs path cap room readers s d) (i c : Nat)
    (hc : c ≤ P.most) (hroom : room c) :
    ∃ d', construct P (i + 1) c [] path .readOnly .fail d = (.ok (), d')
      ∧ Tails P fs path cap room ((TailOp.join i c).joined readers) (s.look i 0) d' := by
  obtain ⟨hfiles, ⟨f, hf, hw⟩, hk, hr⟩ := h
  have hm := FileObj.make_open P c d.files [] path .readOnly .fail
    (.inr (by rw [hfiles, withFile_self]; rfl))
  rw [hfiles, withFile_self, Option.getD_some, withFile_twice] at hm
  obtain ⟨d1, e1, h1⟩ := construct_ok P (i + 1) c [] path .readOnly .fail d
  rw [hfiles, hm] at h1
  refine ⟨d1, e1, h1.files, ⟨f, (h1.other _ (by omega)).trans hf, hw⟩, hk, fun j c' hj => ?_⟩
  simp only [TailOp.joined] at hj
  by_cases hij : j = i
  · subst hij
    rw [if_pos rfl] at hj
    cases hj
    refine ⟨hroom, _, h1.same, rfl, rfl, hc, rfl, ?_⟩
    simp only [Tail.look, if_pos]
    exact Res.delivering_make c _ ⟨[], by cases P <;> simp [FilePlatform.Steady], rfl⟩
  · rw [if_neg hij] at hj
    obtain ⟨hr', g, hg, hk⟩ := hr j c' hj
    refine ⟨hr', g, (h1.other _ (by omega)).trans hg, ?_⟩
    simp only [Tail.look, if_neg hij]
    exact hk

/-- The one called `i` with the bytes that it has not seen. -/
def Left (P : FilePlatform) (fs : Nat → Option (List Byte)) (path cap : Nat)
    (room : Nat → Prop) (readers : Nat → Option Nat) (s : Tail) (i : Nat) (bs : List Byte) (d : Disk) :
    Prop :=
  ∃ n, bs = s.shown.drop n ∧ n ≤ s.shown.length ∧ Tails P fs path cap room readers (s.look i n) d

theorem look_twice (s : Tail) (i m n : Nat) : (s.look i m).look i n = s.look i n := by
  simp only [Tail.look, Tail.mk.injEq, true_and]
  funext j
  split <;> rfl

theorem tails_delivers (s : Tail) (i c : Nat) (hi : readers i = some c) :
    (reader P (i + 1)).Delivers (fun n => n ≤ P.most ∧ (c = 0 ∨ n ≤ c)) true
      (Left P fs path cap room readers s i) where
  read := by
    rintro bs d k ⟨hk1, hk2⟩ ⟨n, rfl, hn, hfiles, ⟨f, hf, hw⟩, hk, hr⟩
    obtain ⟨hroom, g, hg, hfo⟩ := hr i c hi
    simp only [Tail.look, if_pos] at hfo
    obtain ⟨g', e, e1, e2⟩ := FileObj.read_follower hfo hk1 hk2
    obtain ⟨d', e4, t⟩ := use_ok hg (by rw [hfiles]; exact e)
    refine ⟨d', e4, n + ((s.shown.drop n).take k).length, ?_, ?_, ?_⟩
    · rw [List.drop_drop, List.length_take, List.length_drop]
      by_cases hle : k ≤ s.shown.length - n
      · rw [Nat.min_eq_left hle]
      · rw [Nat.min_eq_right (by omega), List.drop_eq_nil_of_le (by omega),
          List.drop_eq_nil_of_le (by omega)]
    · rw [List.length_take, List.length_drop]
      omega
    · refine ⟨by rw [t.files, e1]; rfl, ⟨f, (t.other _ (by omega)).trans hf, hw⟩, hk, fun j c' hj => ?_⟩
      obtain ⟨hr', x, hx, hfx⟩ := hr j c' hj
      by_cases hij : j = i
      · subst hij
        rw [hi] at hj
        cases hj
        refine ⟨hr', g', t.same, ?_⟩
        simp only [Tail.look, if_pos]
        exact e2
      · refine ⟨hr', x, (t.other _ (by omega)).trans hx, ?_⟩
        simp only [Tail.look, if_neg hij] at hfx ⊢
        exact hfx
  isAtEnd := by
    rintro bs d ⟨n, rfl, hn, hfiles, ⟨f, hf, hw⟩, hk, hr⟩
    obtain ⟨hroom, g, hg, hfo⟩ := hr i c hi
    simp only [Tail.look, if_pos] at hfo
    obtain ⟨d', e4, -⟩ := use_ok (x := fun f => (FileObj.isAtEnd P f, f)) hg
      (Prod.ext (by rw [hfiles]; exact FileObj.atEnd_follower hfo) rfl)
    simp only [reader, Disk.isAtEnd, e4, Bool.true_and, Outcome.ok.injEq]
    rw [Bool.eq_iff_iff, decide_eq_true_eq, List.isEmpty_iff, List.drop_eq_nil_iff]
    simp only [Tail.look]
    omega

theorem itemised_all_lt {f : _root_.Spec.Form} {o : Endian} {l : List Nat} {is : List Item}
    (h : Itemised f o.order l is) : ∀ bs : List Byte, l = nats bs → ∀ v, .char v ∈ is → v < 2 ^ 32 := by
  induction h with
  | none =>
    intro bs _ v hv
    cases hv
  | @char l w n is h t ih =>
    rintro bs rfl v hv
    rcases List.mem_cons.mp hv with e | hv
    · cases e
      exact takeBytes_lt f o bs _ _ h
    · exact ih (bs.drop n) (nats_drop bs n) v hv
  | @bad l n is h t ih =>
    rintro bs rfl v hv
    rcases List.mem_cons.mp hv with e | hv
    · cases e
    · exact ih (bs.drop n) (nats_drop bs n) v hv
  | cut hl h =>
    intro bs _ v hv
    simp at hv

theorem mem_passReturns (v : Nat) : ∀ is, .char v ∈ passReturns true is → .char v ∈ is
  | [] => id
  | [i] => by
    rw [passReturns, if_neg (by simp)]
    exact id
  | i :: j :: is => by
    have h1 := mem_passReturns v is
    have h2 := mem_passReturns v (j :: is)
    rw [passReturns]
    split
    · intro h
      rcases List.mem_cons.mp h with h | h
      · simp [h]
      · simp [h1 h]
    · intro h
      rcases List.mem_cons.mp h with h | h
      · simp [h]
      · exact List.mem_cons_of_mem _ (h2 h)

theorem chars_back (is : List Item) (h : ∀ v, .char v ∈ is → v < 2 ^ 32) :
    ((chars is).map (BitVec.ofNat 32)).map BitVec.toNat = chars is := by
  rw [List.map_map]
  apply (List.map_congr_left _).trans (List.map_id _)
  intro v hv
  have : .char v ∈ is := by
    simp only [chars, List.mem_filterMap] at hv
    obtain ⟨i, hi, e⟩ := hv
    cases i with
    | char w => cases e; exact hi
    | bad => cases e
    | cut => cases e
  simp only [Function.comp_apply, BitVec.toNat_ofNat, id]
  exact Nat.mod_eq_of_lt (h v this)

theorem through_ok {α : Type} {o : Endian} {form : EncodingForm} {m : M (OutStream Disk) α} {d d' : Disk}
    {a : α} (e : m ⟨d, o, form⟩ = (.ok a, ⟨d', o, form⟩)) : through o form m d = (.ok a, d') := by
  rw [through, e]

theorem from_ok {α : Type} {o : Endian} {form : EncodingForm} {m : M (InStream Disk) α} {d d' : Disk}
    {a : α} (e : m ⟨d, o, form⟩ = (.ok a, ⟨d', o, form⟩)) : from_ o form m d = (.ok a, d') := by
  rw [from_, e]

/-- What one step is to be. -/
theorem tails_step (hm : 4 ≤ P.most) (native o : Endian) (form : EncodingForm) {s : Tail} {d : Disk}
    (hroom : ∀ c, room c → c ≤ P.most ∧ (form.form.unitSize ≤ c ∨ c = 0))
    (h : Tails P fs path cap room readers s d) (op : TailOp) (rest : List TailOp)
    (hp : TailOp.Proper (WriteOk form) room readers (op :: rest)) :
    ∃ x s' d', tailStep P path native o form op d = (.ok x, d')
      ∧ Tails P fs path cap room (op.joined readers) s' d'
      ∧ ∀ t, s'.Explains cap (o = native) form.form o.order t →
        s.Explains cap (o = native) form.form o.order ((op, x) :: t) := by
  obtain ⟨hp, -⟩ := hp
  cases op with
  | put c =>
    obtain ⟨d', e, q⟩ := (tails_notes (fs := fs) (path := path) (cap := cap) (room := room)
      (readers := readers) hm).writeCodePoint_eq native ⟨d, o, form⟩ c hp s h
    refine ⟨none, _, d', ?_, q, fun t ht => ⟨rfl, ht⟩⟩
    simp only [tailStep]
    rw [M.bind_ok (through_ok e)]
    rfl
  | flush =>
    obtain ⟨d', e, q⟩ := tails_flush h
    refine ⟨none, _, d', ?_, q, fun t ht => ⟨rfl, ht⟩⟩
    simp only [tailStep]
    rw [M.bind_ok (through_ok (d' := d') (a := ()) (by
      simp only [OutStream.flush, OutStream.onRes, writer, e]))]
    rfl
  | join i c =>
    obtain ⟨d', e, q⟩ := tails_join h i c (hroom c hp.2).1 hp.2
    refine ⟨none, _, d', ?_, q, fun t ht => ⟨rfl, ht⟩⟩
    simp only [tailStep]
    rw [M.bind_ok e]
    rfl
  | follow i =>
    obtain ⟨c, hc⟩ := Option.isSome_iff_exists.mp hp
    obtain ⟨is, hi⟩ := itemised_exists form.form o.order (nats (s.shown.drop (s.seen i)))
    have hin : s.seen i ≤ s.shown.length := by
      obtain ⟨-, f, -, hf⟩ := h.readers i c hc
      exact hf.at_.inside
    have hself : s.look i (s.seen i) = s := by
      obtain ⟨a, b, g⟩ := s
      simp only [Tail.look, Tail.mk.injEq, true_and]
      funext j
      split
      · next h => rw [h]
      · rfl
    obtain ⟨hc1, hc2⟩ := hroom c (h.readers i c hc).1
    have hunit : form.form.unitSize ≤ 4 := by cases form <;> decide
    have h1 := passReturns_length true is
    have h2 := itemised_length hi
    have h3 : (nats (s.shown.drop (s.seen i))).length ≤ s.shown.length := by simp [nats]
    obtain ⟨d', e, n, hn, hn', ht⟩ := readOn_all
      (tails_delivers (P := P) (fs := fs) (path := path) (cap := cap) (room := room) s i c hc) native
      (s.shown.length + 1) (passReturns true is) (by omega) ⟨d, o, form⟩
      ⟨⟨by simp only; omega, by simp only; omega⟩, _, is, ⟨s.seen i, rfl, hin, by rw [hself]; exact h⟩, hi, rfl⟩ []
    have hn2 : n = s.shown.length := by
      have := congrArg List.length hn
      rw [List.length_drop, List.length_nil] at this
      omega
    subst hn2
    refine ⟨some (chars (passReturns true is)), _, d', ?_, ht, fun t ht => ⟨⟨is, hi, rfl⟩, ht⟩⟩
    simp only [tailStep]
    rw [M.bind_ok (show look path d = (.ok s.shown, d) by
      simp only [Disk.look, h.files, withFile_self, Option.getD_some]), M.bind_ok (from_ok e)]
    simp only [M.pure_apply, List.nil_append]
    rw [chars_back _ fun v hv => itemised_all_lt hi _ rfl v (mem_passReturns v is hv)]

theorem tails_all (hm : 4 ≤ P.most) (native o : Endian) (form : EncodingForm)
    (hroom : ∀ c, room c → c ≤ P.most ∧ (form.form.unitSize ≤ c ∨ c = 0)) (ops : List TailOp) :
    ∀ {readers : Nat → Option Nat} {s : Tail} {d : Disk}, Tails P fs path cap room readers s d →
      TailOp.Proper (WriteOk form) room readers ops →
      ∃ xs d', M.runList (tailStep P path native o form) ops d = (.ok xs, d')
        ∧ xs.length = ops.length ∧ s.Explains cap (o = native) form.form o.order (ops.zip xs) := by
  induction ops with
  | nil => exact fun _ _ => ⟨[], _, rfl, rfl, trivial⟩
  | cons op ops ih =>
    intro readers s d h hp
    obtain ⟨x, s', d', e, q, hx⟩ := tails_step hm native o form hroom h op ops hp
    obtain ⟨xs, d'', e', hl, ht⟩ := ih q hp.2
    exact ⟨x :: xs, d'', M.runList_cons e e', by simp [hl], hx _ ht⟩

/-- The writer begins. -/
theorem tails_start (P : FilePlatform) (files : Nat → Option (List Byte)) (path cap : Nat)
    (room : Nat → Prop) (hcap : cap ≤ P.most) :
    ∃ d, (do
        construct P 0 cap [] path .writeOnly .create
        setPosition P 0 0 .end : M Disk Unit) (Disk.make files) = (.ok (), d)
      ∧ Tails P files path cap room (fun _ => none) (Tail.holding ((files path).getD [])) d := by
  have hm := FileObj.make_open P cap files [] path .writeOnly .create (.inl rfl)
  obtain ⟨d1, e1, h1⟩ := construct_ok P 0 cap [] path .writeOnly .create (Disk.make files)
  rw [show (Disk.make files).files = files from rfl, hm] at h1
  have e := P.seeks.fromEnd 0 (withFile files path ((files path).getD [])) path 0 .writeOnly 0 []
    ((files path).getD []) (withFile_self files path _) (by omega)
  have e' : FileObj.setPosition P 0 .end ⟨⟨IoBuffer.make cap, ⟨withFile files path ((files path).getD []),
        some ⟨path, 0, .writeOnly⟩, 0, []⟩⟩, some path, .writeOnly⟩
      = (.ok (), ⟨⟨IoBuffer.make cap, ⟨withFile files path ((files path).getD []),
        some ⟨path, ((files path).getD []).length, .writeOnly⟩, 0, []⟩⟩, some path, .writeOnly⟩) := by
    simp only [FileObj.setPosition, FileObj.onRes, Res.setPositionIO, M.noexcept_apply]
    rw [M.bind_ok (Res.flush_clean _ _ rfl), M.bind_ok (Res.onDev_ok e)]
    simp [IoBuffer.make, IoBuffer.setReadDirty]
  obtain ⟨d2, e2, h2⟩ := use_ok (x := FileObj.setPosition P 0 .end) h1.same (by
    rw [h1.files]
    exact e')
  refine ⟨d2, ?_, h2.files, ⟨_, h2.same, asWriter_of hcap (files := withFile files path ((files path).getD [])) ?_⟩,
    Nat.zero_le _, fun i c hi => by cases hi⟩
  · rw [M.bind_ok e1]
    exact e2
  · exact ⟨by simp [IoBuffer.make], Nat.zero_le _, fun _ => rfl, ⟨0, [], rfl⟩, rfl⟩

end Steps

/-! ### Whole characters -/

/-- The bytes in the file and those kept back are whole characters, and everybody has seen whole
characters. -/
structure Whole (f : EncodingForm) (o : Endian) (t : TextLog) (s : Tail) : Prop where
  halves : ∃ a b, t.written = a ++ b ∧ s.shown = textBytes f o a ∧ s.kept = textBytes f o b
    ∧ t.flushed ≤ a.length
    ∧ ∀ i, t.have_ i ≤ a.length ∧ s.seen i = (textBytes f o (a.take (t.have_ i))).length
  text : _root_.Spec.IsText t.written
  line : 13 ∉ t.written

/-- A character that is written at once. -/
theorem pieces_single (own : Bool) (f : EncodingForm) (o : Endian) (c : Nat)
    (h : f ≠ .utf16 ∨ own = true ∨ c < 0x10000) : pieces own f.form o.order c = [cpBytes f o c] := by
  rw [pieces]
  split
  · next hf =>
    have hf' : f = .utf16 := by
      cases f
      · cases hf.1
      · rfl
      · cases hf.1
    subst hf'
    have hc : c < 0x10000 := by
      rcases h with h | h | h
      · exact absurd rfl h
      · rw [hf.2] at h; cases h
      · exact h
    have e : EncodingForm.utf16.form.encode1 c = [c] := by
      simp [EncodingForm.form, _root_.Spec.Form.encode1, _root_.Spec.utf16, hc]
    rw [cpBytes, e]
    simp [EncodingForm.form, _root_.Spec.Form.unitSize, asBytes]
  · rw [cpBytes_eq]

theorem foldl_add_small (cap : Nat) (hcap : cap < 2) (ps : List (List Byte)) (hp : ∀ p ∈ ps, 2 ≤ p.length) :
    ∀ s : Tail, s.kept = [] → ps.foldl (Tail.add cap) s = { s with shown := s.shown ++ ps.flatten } := by
  induction ps with
  | nil =>
    intro s _
    simp
  | cons p ps ih =>
    intro s hs
    have := hp p (by simp)
    rw [List.foldl_cons, Tail.add, if_pos (by omega), ih (fun q hq => hp q (by simp [hq])) _ rfl]
    simp [hs]

theorem pieces_flatten (own : Bool) (f : EncodingForm) (o : Endian) (c : Nat) :
    (pieces own f.form o.order c).flatten = cpBytes f o c := by
  rw [pieces]
  split
  · next hf =>
    have hf' : f = .utf16 := by
      cases f
      · cases hf.1
      · rfl
      · cases hf.1
    subst hf'
    rw [cpBytes, asBytes, List.map_flatMap, List.flatMap_def]
    rfl
  · rw [cpBytes_eq]
    simp

/-- A character is written whole, if not for others, then before they can see it. -/
theorem whole_put {f : EncodingForm} {o : Endian} {t : TextLog} {s : Tail} (h : Whole f o t s)
    (cap : Nat) (own : Bool) (c : Nat) (hc : _root_.Spec.IsScalar c) (h13 : c ≠ 13)
    (hw : f ≠ .utf16 ∨ own = true ∨ c < 0x10000 ∨ cap < 2 ∧ s.kept = []) :
    Whole f o { t with written := t.written ++ [c] } ((pieces own f.form o.order c).foldl (Tail.add cap) s)
      ∧ (cap < 2 → f = .utf16 → s.kept = [] →
        ((pieces own f.form o.order c).foldl (Tail.add cap) s).kept = []) := by
  obtain ⟨⟨a, b, h1, h2, h3, h4, h5⟩, ht, hl⟩ := h
  have ht' : _root_.Spec.IsText (t.written ++ [c]) := by
    intro x hx
    rcases List.mem_append.mp hx with hx | hx
    · exact ht x hx
    · rw [List.mem_singleton.mp hx]
      exact hc
  have hl' : 13 ∉ t.written ++ [c] := by
    intro hx
    rcases List.mem_append.mp hx with hx | hx
    · exact hl hx
    · exact h13 (List.mem_singleton.mp hx).symm
  have hcp : textBytes f o [c] = cpBytes f o c := by
    rw [textBytes_cons, textBytes_nil, List.append_nil]
  have grow : ∀ more i, t.have_ i ≤ (a ++ more).length
      ∧ s.seen i = (textBytes f o ((a ++ more).take (t.have_ i))).length := by
    intro more i
    obtain ⟨q1, q2⟩ := h5 i
    refine ⟨by rw [List.length_append]; omega, ?_⟩
    rw [List.take_append_of_le_length q1]
    exact q2
  by_cases hs : f ≠ .utf16 ∨ own = true ∨ c < 0x10000
  · rw [pieces_single own f o c hs, List.foldl_cons, List.foldl_nil]
    refine ⟨⟨?_, ht', hl'⟩, ?_⟩
    · rw [Tail.add]
      split
      · refine ⟨a ++ (b ++ [c]), [], by simp [h1], ?_, rfl, ?_, grow _⟩
        · simp only [h2, h3, textBytes_append, hcp, List.append_assoc]
        · simp only [List.length_append]; omega
      split
      · refine ⟨a ++ b, [c], by simp [h1], ?_, hcp.symm, ?_, grow _⟩
        · simp only [h2, h3, textBytes_append]
        · simp only [List.length_append]; omega
      · exact ⟨a, b ++ [c], by simp [h1], h2, by simp only [h3, textBytes_append, hcp], h4, h5⟩
    · intro hcap hf hk
      subst hf
      have : 2 ≤ (cpBytes .utf16 o c).length := by
        rw [← (scanBytes_cp .utf16 o c hc []).2]
        simp only [EncodingForm.form, _root_.Spec.Form.encode1, _root_.Spec.Form.unitSize, _root_.Spec.utf16]
        split <;> simp
      rw [Tail.add, if_pos (by omega)]
  · have hcap : cap < 2 ∧ s.kept = [] := by
      rcases hw with h | h | h | h
      · exact absurd (.inl h) hs
      · exact absurd (.inr (.inl h)) hs
      · exact absurd (.inr (.inr h)) hs
      · exact h
    have hp : ∀ p ∈ pieces own f.form o.order c, 2 ≤ p.length := by
      intro p hp
      rw [pieces, if_pos (by
        have h16 : f = .utf16 := by
          cases f
          · exact absurd (.inl (by decide)) hs
          · rfl
          · exact absurd (.inl (by decide)) hs
        refine ⟨by rw [h16]; rfl, ?_⟩
        cases own
        · rfl
        · exact absurd (.inr (.inl rfl)) hs)] at hp
      obtain ⟨u, -, rfl⟩ := List.mem_map.mp hp
      rw [List.length_map, bytes_length]
    rw [foldl_add_small cap hcap.1 _ hp s hcap.2]
    refine ⟨⟨⟨a ++ (b ++ [c]), [], by simp [h1], ?_, by simp [hcap.2, textBytes_nil], ?_, grow _⟩, ht', hl'⟩,
      fun _ _ h => h⟩
    · have hb : textBytes f o b = [] := by rw [← h3]; exact hcap.2
      simp only [h2, textBytes_append, hcp, pieces_flatten, hb, List.nil_append]
    · simp only [List.length_append]; omega

/-- Whole characters in the file are a text for those who follow it. -/
theorem explains_whole (f : EncodingForm) (o : Endian) (cap : Nat) (own : Bool) (room : Nat → Prop)
    (able : Nat → Prop) (hab : ∀ c, able c → _root_.Spec.IsScalar c ∧ c ≠ 13 ∧
      (f ≠ .utf16 ∨ own = true ∨ c < 0x10000 ∨ cap < 2)) (l : List (TailOp × Option (List Nat))) :
    ∀ (readers : Nat → Option Nat) (t : TextLog) (s : Tail), Whole f o t s →
      (cap < 2 → f = .utf16 → s.kept = []) → TailOp.Proper able room readers (l.map (·.1)) →
      s.Explains cap own f.form o.order l → t.Explains l := by
  induction l with
  | nil => exact fun _ _ _ _ _ _ _ => trivial
  | cons p l ih =>
    obtain ⟨op, x⟩ := p
    intro readers t s h hk hp hs
    obtain ⟨hp1, hp2⟩ := hp
    cases op with
    | put c =>
      obtain ⟨q1, q2, q3⟩ := hab c hp1
      by_cases hf : f = .utf16
      · by_cases hc : cap < 2
        · obtain ⟨h', hk'⟩ := whole_put h cap own c q1 q2 (.inr (.inr (.inr ⟨hc, hk hc hf⟩)))
          exact ⟨hs.1, ih _ _ _ h' (fun a b => hk' a b (hk a b)) hp2 hs.2⟩
        · obtain ⟨h', hk'⟩ := whole_put h cap own c q1 q2 (by
            rcases q3 with q | q | q | q
            · exact .inl q
            · exact .inr (.inl q)
            · exact .inr (.inr (.inl q))
            · exact absurd q hc)
          exact ⟨hs.1, ih _ _ _ h' (fun a => absurd a hc) hp2 hs.2⟩
      · obtain ⟨h', hk'⟩ := whole_put h cap own c q1 q2 (.inl hf)
        exact ⟨hs.1, ih _ _ _ h' (fun _ b => absurd b hf) hp2 hs.2⟩
    | flush =>
      refine ⟨hs.1, ih _ _ _ ?_ (fun _ _ => rfl) hp2 hs.2⟩
      obtain ⟨⟨a, b, h1, h2, h3, h4, h5⟩, ht, hl⟩ := h
      refine ⟨⟨a ++ b, [], by simp [h1], by simp only [Tail.flush, h2, h3, textBytes_append], rfl, ?_, ?_⟩,
        ht, hl⟩
      · simp only [h1]
        exact Nat.le_refl _
      · intro i
        obtain ⟨q1, q2⟩ := h5 i
        refine ⟨by rw [List.length_append]; simp only; omega, ?_⟩
        rw [List.take_append_of_le_length q1]
        exact q2
    | join i c =>
      refine ⟨hs.1, ih _ _ (s.look i 0) ?_ hk hp2 hs.2⟩
      obtain ⟨⟨a, b, h1, h2, h3, h4, h5⟩, ht, hl⟩ := h
      refine ⟨⟨a, b, h1, h2, h3, h4, fun j => ?_⟩, ht, hl⟩
      simp only [TextLog.give, Tail.look]
      by_cases hij : j = i
      · simp [hij, textBytes_nil]
      · simp only [if_neg hij]
        exact h5 j
    | follow i =>
      obtain ⟨⟨is, hi, rfl⟩, hs⟩ := hs
      obtain ⟨⟨a, b, h1, h2, h3, h4, h5⟩, ht, hl⟩ := h
      obtain ⟨q1, q2⟩ := h5 i
      have hdrop : s.shown.drop (s.seen i) = textBytes f o (a.drop (t.have_ i)) := by
        rw [h2, q2]
        conv_lhs => rw [← List.take_append_drop (t.have_ i) a, textBytes_append]
        rw [List.take_append_drop, List.drop_left]
      have hsub : ∀ c ∈ a.drop (t.have_ i), c ∈ t.written := fun c hc => by
        rw [h1]
        exact List.mem_append_left _ (List.mem_of_mem_drop hc)
      have hi' := itemised_text f o (a.drop (t.have_ i)) (fun c hc => ht c (hsub c hc)) [] [] .none
      rw [List.append_nil, List.append_nil, ← hdrop] at hi'
      have his := itemised_unique hi hi'
      subst his
      have hno : Item.char 13 ∉ (a.drop (t.have_ i)).map Item.char := by
        intro hm
        obtain ⟨c, hc, e⟩ := List.mem_map.mp hm
        cases e
        exact hl (hsub _ hc)
      rw [passReturns_id _ _ hno, chars_map]
      have hlen : t.have_ i + (a.drop (t.have_ i)).length = a.length := by
        rw [List.length_drop]
        omega
      refine ⟨_, rfl, ?_, by rw [hlen]; exact h4, ih _ _ (s.look i s.shown.length) ?_ hk hp2 hs⟩
      · rw [h1, List.drop_append_of_le_length q1, List.take_left']
        rfl
      · refine ⟨⟨a, b, h1, h2, h3, h4, fun j => ?_⟩, ht, hl⟩
        simp only [TextLog.give, Tail.look, hlen]
        by_cases hij : j = i
        · simp only [if_pos hij, List.take_length, h2]
          exact ⟨Nat.le_refl _, trivial⟩
        · simp only [if_neg hij]
          exact h5 j

end Cmp
