import Verif.Model.File
import Verif.Proofs.Store

/-
Files are stores: below the buffer, reading, writing and seeking is exact as long as the system
does not return short counts (Unix), or for all its schedules (Windows).
-/

namespace Cmp

open Spec (ArrayCursor)

namespace FileDev

/- ### Reading -/

/-- The block reader delivers the next bytes whenever the schedule satisfies `sch`. -/
def Exact (sch : List Nat → Prop) (block : Nat → M FileDev ReadResult) : Prop :=
  ∀ n d f content, d.fd = some f → f.mode ≠ .writeOnly → d.files f.path = some content →
    sch d.reads → 0 < n →
    ∃ reads', sch reads' ∧ block n d =
      (.ok ⟨(content.drop f.offset).take n, ((content.drop f.offset).take n).length⟩,
        { d with
          fd := some { f with offset := f.offset + ((content.drop f.offset).take n).length }
          reads := reads' })

theorem sysRead_open {d : FileDev} {f : Desc} {content : List Byte} (n : Nat) (hf : d.fd = some f)
    (hm : f.mode ≠ .writeOnly) (hc : d.files f.path = some content) :
    sysRead n d = (.ok (some ((content.drop f.offset).take (portion n d.reads))),
      { d with
        fd := some { f with
          offset := f.offset + ((content.drop f.offset).take (portion n d.reads)).length }
        reads := d.reads.tail }) := by
  simp only [sysRead, hf]
  rw [if_neg hm, hc]
  rfl

theorem portion_pos (n : Nat) (l : List Nat) (h : 0 < n) : 0 < portion n l ∧ portion n l ≤ n := by
  cases l <;> simp only [portion] <;> omega

theorem exact_unix : Exact (· = []) readBlock := by
  intro n d f content hf hm hc hs hn
  refine ⟨[], rfl, ?_⟩
  have hfuel : ((d.fd.bind fun f => d.files f.path).getD []) = content := by simp [hf, hc]
  simp only [readBlock]
  rw [M.bind_ok (M.get_apply d), hfuel]
  have e1 := sysRead_open n hf hm hc
  rw [hs] at e1
  simp only [portion, List.tail_nil] at e1
  generalize hG : (content.drop f.offset).take n = G at *
  have hGl : G.length = min n (content.length - f.offset) := by rw [← hG]; simp
  simp only [readLoop]
  rw [M.bind_ok e1]
  dsimp only
  by_cases h0 : G.length = 0
  · rw [if_pos h0, List.eq_nil_of_length_eq_zero h0]
    rfl
  rw [if_neg h0]
  by_cases h1 : 0 + G.length = n
  · rw [if_pos h1]
    simp
  rw [if_neg h1]
  obtain ⟨k, hk⟩ : ∃ k, content.length = k + 1 := ⟨content.length - 1, by omega⟩
  rw [hk]
  simp only [readLoop]
  have e2 := sysRead_open (d := { d with
    fd := some { f with offset := f.offset + G.length }, reads := [] }) n rfl hm hc
  have hnil : content.drop (f.offset + G.length) = [] := List.drop_eq_nil_of_le (by omega)
  simp only [hnil, List.take_nil, List.length_nil, Nat.add_zero, List.tail_nil] at e2
  rw [M.bind_ok e2]
  simp

theorem readLoopWindows_exact (n : Nat) (content : List Byte) (q : Nat) (f : Desc)
    (hm : f.mode ≠ .writeOnly) :
    ∀ (fuel : Nat) (stored : List Byte) (d : FileDev),
      d.fd = some { f with offset := q + stored.length } → d.files f.path = some content →
      stored = (content.drop q).take stored.length → stored.length < n →
      content.length < q + stored.length + fuel →
      stored = [] ∨ q + stored.length ≤ content.length → 0 < fuel →
      ∃ reads', readLoopWindows n fuel stored d =
        (.ok ⟨(content.drop q).take n, ((content.drop q).take n).length⟩,
          { d with
            fd := some { f with offset := q + ((content.drop q).take n).length }
            reads := reads' }) := by
  intro fuel
  induction fuel with
  | zero => intros; omega
  | succ fuel ih =>
    intro stored d hf hc hst hlt hfuel hin _
    have e := sysRead_open (n - stored.length) hf hm hc
    have hp := portion_pos (n - stored.length) d.reads (by omega)
    generalize portion (n - stored.length) d.reads = k at *
    simp only at e
    generalize hG : (content.drop (q + stored.length)).take k = G at *
    have hGl : G.length = min k (content.length - (q + stored.length)) := by rw [← hG]; simp
    have hcat : stored ++ G = (content.drop q).take (stored.length + G.length) := by
      have hk : (content.drop (q + stored.length)).take G.length = G := by
        rw [← hG, List.length_take, ← List.take_eq_take_min]
      rw [List.take_add, List.drop_drop, hk, ← hst]
    simp only [readLoopWindows]
    rw [M.bind_ok e]
    dsimp only
    by_cases h : G.length = 0 ∨ stored.length + G.length = n
    · rw [if_pos h]
      have hfull : (content.drop q).take n = stored ++ G := by
        rcases h with h | h
        · have : content.length ≤ q + stored.length := by omega
          rw [hcat, List.take_of_length_le (by simp; omega), List.take_of_length_le (by simp; omega)]
        · rw [hcat, h]
      refine ⟨d.reads.tail, ?_⟩
      rw [hfull]
      simp [Nat.add_assoc]
    · rw [if_neg h]
      have hlen : (stored ++ G).length = stored.length + G.length := List.length_append
      obtain ⟨reads', e'⟩ := ih (stored ++ G) { d with
          fd := some { f with offset := q + stored.length + G.length }, reads := d.reads.tail }
        (by rw [hlen, Nat.add_assoc]) hc (by rw [hlen]; exact hcat) (by omega) (by omega)
        (.inr (by omega)) (by omega)
      exact ⟨reads', e'⟩

theorem exact_windows : Exact (fun _ => True) readBlockWindows := by
  intro n d f content hf hm hc _ hn
  have hfuel : ((d.fd.bind fun f => d.files f.path).getD []) = content := by simp [hf, hc]
  simp only [readBlockWindows]
  rw [M.bind_ok (M.get_apply d), hfuel]
  obtain ⟨reads', e⟩ := readLoopWindows_exact n content f.offset f hm (content.length + 1) [] d
    (by simpa using hf) hc (by simp) (by simpa using hn) (by simp; omega) (.inl rfl) (by omega)
  exact ⟨reads', trivial, e⟩

/-- One block is enough for requests of at most `most` bytes. -/
theorem readBlocks_exact {sch : List Nat → Prop} {block : Nat → M FileDev ReadResult}
    (E : Exact sch block) (most n : Nat) (hn : n ≤ most) {d : FileDev} {f : Desc}
    {content : List Byte} (hf : d.fd = some f) (hm : f.mode ≠ .writeOnly)
    (hc : d.files f.path = some content) (hs : sch d.reads) :
    ∃ reads', sch reads' ∧ readBlocks block most n n d =
      (.ok ⟨(content.drop f.offset).take n, ((content.drop f.offset).take n).length⟩,
        { d with
          fd := some { f with offset := f.offset + ((content.drop f.offset).take n).length }
          reads := reads' }) := by
  cases n with
  | zero =>
    refine ⟨d.reads, hs, ?_⟩
    cases d
    simp_all [readBlocks]
  | succ k =>
    obtain ⟨reads', hs', e⟩ := E (k + 1) d f content hf hm hc hs (by omega)
    refine ⟨reads', hs', ?_⟩
    simp only [readBlocks]
    rw [if_neg (by omega), Nat.min_eq_left hn, M.bind_ok e]
    generalize (content.drop f.offset).take (k + 1) = G at *
    dsimp only
    by_cases h : G.length ≠ k + 1
    · rw [if_pos h]; rfl
    · rw [if_neg h, show k + 1 - most = 0 by omega]
      have : ∀ d', readBlocks block most k 0 d' = (.ok ⟨[], 0⟩, d') := by
        intro d'; cases k <;> rfl
      rw [M.bind_ok (this _)]
      simp

/- ### The store -/

/-- The file system in which `path` is a file with this content. -/
def withFile (fs : Nat → Option (List Byte)) (path : Nat) (content : List Byte) :
    Nat → Option (List Byte) := fun p => if p = path then some content else fs p

/-- An open file with nothing loaded, byte `q` next; all other files are as in `fs`. -/
def Idle (sch : List Nat → Prop) (fs : Nat → Option (List Byte)) (path : Nat) (mode : AccessMode)
    (content : List Byte) (q : Nat) (d : FileDev) : Prop :=
  ∃ reads, sch reads ∧ d = ⟨withFile fs path content, some ⟨path, q, mode⟩, 0, reads⟩

/-- An open file of which bytes `b` up to `q` were loaded last. -/
def Loaded (sch : List Nat → Prop) (fs : Nat → Option (List Byte)) (path : Nat) (mode : AccessMode)
    (content : List Byte) (b q : Nat) (d : FileDev) : Prop :=
  ∃ reads k, b + k = q ∧ sch reads ∧
    d = ⟨withFile fs path content, some ⟨path, b, mode⟩, k, reads⟩

/-- What the two implementations of `set_position_raw` have in common. -/
structure Seeks (sk : Int → PositionReference → M FileDev Unit) : Prop where
  current : ∀ (p : Int) files path (q : Nat) mode k reads, 0 ≤ (q : Int) + p →
    sk p .current ⟨files, some ⟨path, q, mode⟩, k, reads⟩ =
      (.ok (), ⟨files, some ⟨path, ((q : Int) + p).toNat, mode⟩, 0, reads⟩)
  begin : ∀ (p : Nat) files path q mode k reads,
    sk p .begin ⟨files, some ⟨path, q, mode⟩, k, reads⟩ =
      (.ok (), ⟨files, some ⟨path, p, mode⟩, 0, reads⟩)
  fromEnd : ∀ (p : Int) files path q mode k reads content, files path = some content →
    0 ≤ (content.length : Int) + p →
    sk p .end ⟨files, some ⟨path, q, mode⟩, k, reads⟩ =
      (.ok (), ⟨files, some ⟨path, ((content.length : Int) + p).toNat, mode⟩, 0, reads⟩)

theorem seeks_windows : Seeks seekWindows where
  current := by
    intro p files path q mode k reads h
    have h' : ¬ (p + (q : Int) < 0) := by omega
    simp only [seekWindows, sysSeek, M.noexcept_apply]
    rw [M.bind_ok (M.modify_apply _ _)]
    simp only [M.modify_apply]
    rw [if_neg h', Int.add_comm p]
    rfl
  begin := by
    intro p files path q mode k reads
    have h' : ¬ ((p : Int) + 0 < 0) := by omega
    simp only [seekWindows, sysSeek, M.noexcept_apply]
    rw [M.bind_ok (M.modify_apply _ _)]
    simp only [M.modify_apply]
    rw [if_neg h', Int.add_zero, Int.toNat_natCast]
    rfl
  fromEnd := by
    intro p files path q mode k reads content hc h
    have h' : ¬ (p + (content.length : Int) < 0) := by omega
    simp only [seekWindows, sysSeek, M.noexcept_apply]
    rw [M.bind_ok (M.modify_apply _ _)]
    simp only [M.modify_apply, hc, Option.getD_some]
    rw [if_neg h', Int.add_comm p]
    rfl

theorem seek_eq_windows (p : Int) (pr : PositionReference) (h : ¬ (pr = .begin ∧ p < 0)) :
    seek p pr = seekWindows p pr := by
  simp only [seek, seekWindows, if_neg h]

theorem seeks_unix : Seeks seek where
  current := by
    intro p files path q mode k reads h
    rw [seek_eq_windows _ _ (by simp)]
    exact seeks_windows.current p files path q mode k reads h
  begin := by
    intro p files path q mode k reads
    rw [seek_eq_windows _ _ (by omega)]
    exact seeks_windows.begin p files path q mode k reads
  fromEnd := by
    intro p files path q mode k reads content hc h
    rw [seek_eq_windows _ _ (by simp)]
    exact seeks_windows.fromEnd p files path q mode k reads content hc h

/-- `read_raw` over any block reader and seek. -/
def rawOf (sk : Int → PositionReference → M FileDev Unit) (block : Nat → M FileDev ReadResult)
    (most n : Nat) (rr : ReadRequest) : M FileDev ReadResult := M.noexcept do
  skipFill sk rr
  let got ← readBlocks block most n n
  noteFill sk rr got.count
  pure got

/-- Filling the buffer, from any position. -/
theorem fill_any {sk : Int → PositionReference → M FileDev Unit}
    {block : Nat → M FileDev ReadResult} {sch : List Nat → Prop} (K : Seeks sk)
    (E : Exact sch block) (most : Nat) (fs : Nat → Option (List Byte)) (path : Nat)
    (mode : AccessMode) (hm : mode ≠ .writeOnly) (content : List Byte) (n q : Nat)
    (d : FileDev) (hn : n ≤ most)
    (h : Idle sch fs path mode content q d ∨ ∃ b, Loaded sch fs path mode content b q d) :
    ∃ d', rawOf sk block most n .fillBuffer d =
        (.ok ⟨(content.drop q).take n, ((content.drop q).take n).length⟩, d') ∧
      Loaded sch fs path mode content q (q + ((content.drop q).take n).length) d' := by
  obtain ⟨reads, hs, e⟩ : ∃ reads, sch reads ∧ skipFill sk .fillBuffer d =
      (.ok (), ⟨withFile fs path content, some ⟨path, q, mode⟩, 0, reads⟩) := by
    rcases h with ⟨reads, hs, rfl⟩ | ⟨b, reads, k, rfl, hs, rfl⟩
    · exact ⟨reads, hs, rfl⟩
    · refine ⟨reads, hs, ?_⟩
      simp only [skipFill]
      rw [M.bind_ok (M.get_apply _)]
      by_cases hk : k > 0
      · rw [if_pos ⟨trivial, hk⟩]
        simp only [Res.goForward, M.noexcept_apply]
        rw [K.current (k : Int) _ _ b _ _ _ (by omega)]
        simp only [Outcome.noexcept_ok, ← Int.natCast_add, Int.toNat_natCast]
      · rw [if_neg (by simp [hk]), show k = 0 by omega]
        rfl
  obtain ⟨reads', hs', e'⟩ := readBlocks_exact E most n hn (content := content)
    (d := ⟨withFile fs path content, some ⟨path, q, mode⟩, 0, reads⟩) rfl hm (by simp [withFile]) hs
  simp only at e'
  generalize (content.drop q).take n = G at *
  have hback := K.current (-(G.length : Int)) (withFile fs path content) path (q + G.length) mode 0
    reads' (by omega)
  rw [show (((q + G.length : Nat) : Int) + -(G.length : Int)).toNat = q by omega] at hback
  have hnote : noteFill sk .fillBuffer G.length
      ⟨withFile fs path content, some ⟨path, q + G.length, mode⟩, 0, reads'⟩ =
      (.ok (), ⟨withFile fs path content, some ⟨path, q, mode⟩, G.length, reads'⟩) := by
    simp only [noteFill, if_true]
    rw [M.bind_ok (a := ()) (by simp only [Res.goBack, M.noexcept_apply]; rw [hback]; rfl)]
    rfl
  refine ⟨_, ?_, reads', G.length, rfl, hs', rfl⟩
  simp only [rawOf, M.noexcept_apply]
  rw [M.bind_ok e, M.bind_ok e', M.bind_ok hnote]
  rfl

/-- Reading past the buffer, from any position. -/
theorem lean_any {sk : Int → PositionReference → M FileDev Unit}
    {block : Nat → M FileDev ReadResult} {sch : List Nat → Prop}
    (E : Exact sch block) (most : Nat) (fs : Nat → Option (List Byte)) (path : Nat)
    (mode : AccessMode) (hm : mode ≠ .writeOnly) (content : List Byte) (n q : Nat)
    (d : FileDev) (hn : n ≤ most) (h : Idle sch fs path mode content q d) :
    ∃ d', rawOf sk block most n .leanRetrieval d =
        (.ok ⟨(content.drop q).take n, ((content.drop q).take n).length⟩, d') ∧
      Idle sch fs path mode content (q + ((content.drop q).take n).length) d' := by
  obtain ⟨reads, hs, rfl⟩ := h
  obtain ⟨reads', hs', e'⟩ := readBlocks_exact E most n hn (content := content)
    (d := ⟨withFile fs path content, some ⟨path, q, mode⟩, 0, reads⟩) rfl hm (by simp [withFile]) hs
  refine ⟨_, ?_, reads', hs', rfl⟩
  simp only [rawOf, M.noexcept_apply]
  rw [M.bind_ok (show skipFill sk .leanRetrieval _ = (.ok (), _) from rfl), M.bind_ok e',
    M.bind_ok (show noteFill sk .leanRetrieval _ _ = (.ok (), _) from rfl)]
  rfl

theorem source {sk : Int → PositionReference → M FileDev Unit}
    {block : Nat → M FileDev ReadResult} {sch : List Nat → Prop} (K : Seeks sk)
    (E : Exact sch block) (most : Nat) (fs : Nat → Option (List Byte)) (path : Nat)
    (mode : AccessMode) (hm : mode ≠ .writeOnly) (content : List Byte) :
    Res.Source (rawOf sk block most) (· ≤ most) content (Idle sch fs path mode content)
      (Loaded sch fs path mode content) where
  fill := fun n q d hn h _ => fill_any K E most fs path mode hm content n q d hn h
  lean := fun n q d hn h _ => lean_any E most fs path mode hm content n q d hn h

/-- Behind the end of a file nothing is delivered. -/
theorem source_behind {sk : Int → PositionReference → M FileDev Unit}
    {block : Nat → M FileDev ReadResult} {sch : List Nat → Prop} (K : Seeks sk)
    (E : Exact sch block) (most : Nat) (fs : Nat → Option (List Byte)) (path : Nat)
    (mode : AccessMode) (hm : mode ≠ .writeOnly) (content : List Byte) (q : Nat)
    (hq : content.length ≤ q) :
    Res.Source (rawOf sk block most) (· ≤ most) [] (fun p => Idle sch fs path mode content (q + p))
      (fun b p => Loaded sch fs path mode content (q + b) (q + p)) where
  fill := by
    intro n p d hn h hp
    have hp0 : p = 0 := Nat.le_zero.mp hp
    subst hp0
    have := fill_any K E most fs path mode hm content n q d hn (by
      rcases h with h | ⟨b, h⟩
      · exact .inl h
      · exact .inr ⟨_, h⟩)
    rw [List.drop_eq_nil_of_le hq] at this
    simpa using this
  lean := by
    intro n p d hn h hp
    have hp0 : p = 0 := Nat.le_zero.mp hp
    subst hp0
    have := lean_any (sk := sk) E most fs path mode hm content n q d hn h
    rw [List.drop_eq_nil_of_le hq] at this
    simpa using this

theorem patched_inside (c : List Byte) (q : Nat) (bytes : List Byte) (h : q ≤ c.length) :
    patched c q bytes = Res.overlay c q bytes := by
  by_cases hb : bytes = []
  · simp [patched, hb, Res.overlay]
  · simp [patched, hb, Res.overlay, Nat.sub_eq_zero_of_le h]

theorem writeBlocks_exact (most : Nat) (data : List Byte) (hn : data.length ≤ most)
    (fs : Nat → Option (List Byte)) (path q : Nat) (mode : AccessMode) (hm : mode ≠ .readOnly)
    (content : List Byte) (hq : q ≤ content.length) (k : Nat) (reads : List Nat) :
    writeBlocks most data data.length data.length
        ⟨withFile fs path content, some ⟨path, q, mode⟩, k, reads⟩ =
      (.ok data.length, ⟨withFile fs path (Res.overlay content q data),
        some ⟨path, q + data.length, mode⟩, k, reads⟩) := by
  cases hd : data.length with
  | zero =>
    rw [List.eq_nil_of_length_eq_zero hd]
    simp [writeBlocks, Res.overlay_nil]
  | succ j =>
    have e : sysWrite data ⟨withFile fs path content, some ⟨path, q, mode⟩, k, reads⟩ =
        (.ok (some data.length), ⟨withFile fs path (Res.overlay content q data),
          some ⟨path, q + data.length, mode⟩, k, reads⟩) := by
      simp only [sysWrite]
      rw [if_neg hm]
      simp only [withFile, if_true, Option.getD_some, patched_inside _ _ _ hq, Prod.mk.injEq,
        true_and, FileDev.mk.injEq, and_true]
      funext p
      by_cases hp : p = path <;> simp [hp, withFile]
    simp only [writeBlocks]
    rw [if_neg (by omega), Nat.min_eq_left (by omega), ← hd, List.take_length, M.bind_ok e,
      show data.length - most = 0 by omega]
    have h0 : ∀ d', writeBlocks most data j 0 d' = (.ok 0, d') := by
      intro d'; cases j <;> rfl
    simp only [Option.getD_some]
    rw [if_neg (by simp), M.bind_ok (h0 _)]
    rfl

/-- Files opened for reading and writing are stores for transfers of at most `most` bytes. -/
theorem store {sk : Int → PositionReference → M FileDev Unit}
    {block : Nat → M FileDev ReadResult} {sch : List Nat → Prop} (K : Seeks sk)
    (E : Exact sch block) (most : Nat) (fs : Nat → Option (List Byte)) (path : Nat) :
    Res.Store (rawOf sk block most)
      (fun bytes => M.noexcept (writeBlocks most bytes bytes.length bytes.length)) sk (· ≤ most) 1
      (fun _ _ n => n ≤ most) (Idle sch fs path .readAndWrite)
      (Loaded sch fs path .readAndWrite) where
  source := source K E most fs path .readAndWrite (by decide)
  allowed_zero := fun _ _ _ => Nat.zero_le _
  write := by
    intro o s w data d hs hw hd h
    obtain ⟨reads, hsch, rfl⟩ := h
    have hlen := Res.overlay_length o s w hs
    rw [List.length_append] at hd
    refine ⟨_, ?_, reads, hsch, rfl⟩
    simp only [M.noexcept_apply]
    rw [writeBlocks_exact most data (by omega) fs path _ _ (by decide) _ (by omega),
      Res.overlay_append _ _ _ _ hs, List.length_append, Nat.add_assoc]
    rfl
  seek := by
    intro c d k h _
    obtain ⟨q, j, reads, hs, rfl⟩ : ∃ q j reads, sch reads ∧
        d = ⟨withFile fs path c, some ⟨path, q, .readAndWrite⟩, j, reads⟩ := by
      rcases h with ⟨q, reads, hs, rfl⟩ | ⟨b, q, reads, j, -, hs, rfl⟩
      · exact ⟨q, 0, reads, hs, rfl⟩
      · exact ⟨b, j, reads, hs, rfl⟩
    exact ⟨_, K.begin _ _ _ _ _ _ _, reads, hs, by rw [Nat.mul_one]⟩
  move := by
    intro c q d k h h0
    obtain ⟨reads, hs, rfl⟩ := h
    have e1 : (q : Int) + k * ((1 : Nat) : Int) = q + k := by omega
    rw [e1] at h0 ⊢
    exact ⟨_, K.current _ _ _ _ _ _ _ h0, reads, hs, rfl⟩
  toEnd := by
    intro c d h _
    obtain ⟨q, j, reads, hs, rfl⟩ : ∃ q j reads, sch reads ∧
        d = ⟨withFile fs path c, some ⟨path, q, .readAndWrite⟩, j, reads⟩ := by
      rcases h with ⟨q, reads, hs, rfl⟩ | ⟨b, q, reads, j, -, hs, rfl⟩
      · exact ⟨q, 0, reads, hs, rfl⟩
      · exact ⟨b, j, reads, hs, rfl⟩
    refine ⟨_, K.fromEnd 0 _ _ _ _ _ _ c (by simp [withFile]) (by omega), reads, hs, ?_⟩
    simp

theorem source_unix (fs : Nat → Option (List Byte)) (path : Nat) (mode : AccessMode)
    (hm : mode ≠ .writeOnly) (content : List Byte) :
    Res.Source readRaw (· ≤ ssizeMax) content (Idle (· = []) fs path mode content)
      (Loaded (· = []) fs path mode content) :=
  source seeks_unix exact_unix ssizeMax fs path mode hm content

theorem source_windows (fs : Nat → Option (List Byte)) (path : Nat) (mode : AccessMode)
    (hm : mode ≠ .writeOnly) (content : List Byte) :
    Res.Source readRawWindows (· ≤ dwordMax) content (Idle (fun _ => True) fs path mode content)
      (Loaded (fun _ => True) fs path mode content) :=
  source seeks_windows exact_windows dwordMax fs path mode hm content

theorem store_unix (fs : Nat → Option (List Byte)) (path : Nat) :
    Res.Store readRaw writeRaw seek (· ≤ ssizeMax) 1 (fun _ _ n => n ≤ ssizeMax)
      (Idle (· = []) fs path .readAndWrite) (Loaded (· = []) fs path .readAndWrite) :=
  store seeks_unix exact_unix ssizeMax fs path

theorem store_windows (fs : Nat → Option (List Byte)) (path : Nat) :
    Res.Store readRawWindows writeRawWindows seekWindows (· ≤ dwordMax) 1
      (fun _ _ n => n ≤ dwordMax) (Idle (fun _ => True) fs path .readAndWrite)
      (Loaded (fun _ => True) fs path .readAndWrite) :=
  store seeks_windows exact_windows dwordMax fs path

end FileDev

end Cmp
