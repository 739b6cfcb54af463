import Verif.Model.StdioExample
import Verif.Spec.StdioExample
import Verif.Props.Console
import Verif.Props.Target
import Verif.Proofs.RecoverText
import Verif.Proofs.Tail

/-
The example program for the standard streams.
-/

namespace Cmp

open InStream OutStream
open _root_.Spec (Item Ending Itemised passReturns gather skipChars takes8 firstWord)

/-! ### Reading when all output has arrived -/

/-- While input is read and everything written has arrived. -/
def Talking.Shown (p : StdPlatform) (capIn capOut total : Nat) (w : List Byte)
    (before : List StdEvent) (bs : List Byte) (t : Tied Sys) : Prop :=
  Talking p capIn capOut total w bs t ∧ Sys.output t.world.log = w ∧
    ∃ new, t.world.log = before ++ new ∧ AskedWhen (fun l => Sys.output l = w) before new

theorem Talking.delivers_shown (p : StdPlatform) (capIn capOut total : Nat) (w : List Byte)
    (before : List StdEvent) :
    p.stdin.Delivers (· = p.unit) false (Talking.Shown p capIn capOut total w before) where
  read := by
    rintro bs t n rfl ⟨h, ho, new, hlog, hnew⟩
    obtain ⟨r', e, h', ho', new', hlog', hnew'⟩ :=
      (Talking.delivers p capIn capOut total (bs.length + 1) w t.world.log).read bs t p.unit rfl
        ⟨h, fun _ => ho, [], by simp, by intro pre n g post hx; simp at hx⟩
    refine ⟨r', e, h', ho' (by simp only [List.length_drop]; omega), new ++ new', ?_,
      hnew.append ?_⟩
    · rw [hlog', hlog, List.append_assoc]
    · rw [← hlog]
      exact hnew'.mono fun l hl => hl.1
  isAtEnd := fun _ _ _ => rfl

theorem readUnit_same {ρ : Type} {R : Reader ρ} {t0 t1 : ρ} (h : ∀ n, R.read n t0 = R.read n t1)
    (native o : Endian) (f : EncodingForm) (k : Nat) :
    readUnit native R k ⟨t0, o, f⟩ = readUnit native R k ⟨t1, o, f⟩ := by
  simp only [readUnit, InStream.read, M.bind_apply, InStream.onRes, h]

theorem readCodePoint_same {ρ : Type} {R : Reader ρ} {t0 t1 : ρ}
    (h : ∀ n, R.read n t0 = R.read n t1) (native o : Endian) (f : EncodingForm) :
    readCodePoint native R ⟨t0, o, f⟩ = readCodePoint native R ⟨t1, o, f⟩ := by
  cases f <;>
    simp only [readCodePoint, readUtf8, readUtf16, readUtf32, M.bind_apply, M.get_apply,
      readUnit_same h]

/-- Where the first read does not tell two states apart, reading a word does not. -/
theorem readWordTo_same {ρ : Type} {R : Reader ρ} {t0 t1 : ρ}
    (h : ∀ n, R.read n t0 = R.read n t1) (h0 : R.isAtEnd t0 = .ok false)
    (h1 : R.isAtEnd t1 = .ok false) (native o : Endian) (f : EncodingForm) (e : Enc) (fuel : Nat)
    (s : Str e) :
    readWordTo native R e (fuel + 1) (⟨t0, o, f⟩, s) = readWordTo native R e (fuel + 1) (⟨t1, o, f⟩, s) := by
  have hf : readFiltered native R ⟨t0, o, f⟩ = readFiltered native R ⟨t1, o, f⟩ := by
    rw [readFiltered, M.bind_apply, M.bind_apply, readCodePoint_same h]
  have hs : ∀ s : Str e, skipSpaceTo native R e (fuel + 1) (⟨t0, o, f⟩, s) =
      skipSpaceTo native R e (fuel + 1) (⟨t1, o, f⟩, s) := by
    intro s
    have e0 : (onStream (isAtEnd R) : M (InStream ρ × Str e) Bool) (⟨t0, o, f⟩, s) =
        (.ok false, (⟨t0, o, f⟩, s)) := by simp [onStream, isAtEnd, h0]
    have e1 : (onStream (isAtEnd R) : M (InStream ρ × Str e) Bool) (⟨t1, o, f⟩, s) =
        (.ok false, (⟨t1, o, f⟩, s)) := by simp [onStream, isAtEnd, h1]
    rw [skipSpaceTo, M.bind_ok e0, M.bind_ok e1]
    simp only [Bool.false_eq_true, if_false]
    rw [M.bind_apply, M.bind_apply, onStream, onStream, hf]
  have e0 : ∀ t, (onTarget (M.set []) : M (InStream ρ × Str e) Unit) (⟨t, o, f⟩, s) =
      (.ok (), (⟨t, o, f⟩, [])) := fun _ => rfl
  rw [readWordTo, M.bind_ok (e0 t0), M.bind_ok (e0 t1), M.bind_apply, M.bind_apply, hs]

/-- Reading flushes the output first: it makes no difference if this has been done before. -/
theorem Talking.flushed {p : StdPlatform} {capIn capOut total : Nat} {w bs : List Byte}
    {t : Tied Sys} (h : Talking p capIn capOut total w bs t) :
    ∃ t', Talking p capIn capOut total w bs t' ∧ Sys.output t'.world.log = w ∧
      (∃ ws, t'.world.log = t.world.log ++ ws ∧ Sys.AllWrote ws) ∧
      p.stdout.flush t = (.ok (), t') ∧ ∀ n, p.stdin.read n t = p.stdin.read n t' := by
  obtain ⟨d, e, hw', hg⟩ := Res.flush_writing p.takes h.out trivial
  have hm := Res.moves_flush Sys.writes_refl Sys.writes_trans _ p.writes ⟨t.out, t.world⟩
  rw [e] at hm
  have h1 := h.input hm hw'
  have e1 : p.stdout.flush t = (.ok (), { t with
      out := { t.out with writeDirty := false, position := 0 }, world := d }) := Tied.onOut_ok e
  refine ⟨_, h1, hg.1, ?_, e1, fun n => ?_⟩
  · obtain ⟨-, -, ws, hws, hwrote⟩ := hm
    exact ⟨ws, hws, hwrote⟩
  · show Tied.read p.readRaw p.writeRaw n t = Tied.read p.readRaw p.writeRaw n _
    have e2 : Res.flush p.writeRaw (⟨{ t.out with writeDirty := false, position := 0 }, d⟩ : Res Sys) =
        (.ok (), ⟨{ t.out with writeDirty := false, position := 0 }, d⟩) := rfl
    simp only [Tied.read]
    rw [M.bind_ok (Tied.onOut_ok e), M.bind_ok (Tied.onOut_ok (t := { t with
      out := { t.out with writeDirty := false, position := 0 }, world := d }) e2)]

/-! ### The word -/

theorem grown_char8 (v : Nat) (hv : v < 2 ^ 32) : grown .char8 v = (takes8 v).map (encs .char8) := by
  have hn : (BitVec.ofNat 32 v).toNat = v := by
    rw [BitVec.toNat_ofNat]; exact Nat.mod_eq_of_lt hv
  cases hr : rejected .char8 (BitVec.ofNat 32 v) with
  | true =>
    have h1 : appendCodePoint .char8 (BitVec.ofNat 32 v) [] = (.throw .invalidCodePoint, []) :=
      insertCodePoint_rejected _ _ _ _ hr
    simp only [rejected, Bool.not_eq_true', isCodePointValid_eq, decide_eq_false_iff_not, hn] at hr
    have h2 : takes8 v = none := by
      unfold takes8 Spec.IsScalar
      rw [if_neg (by omega)]
    rw [grown, h1, h2]
    rfl
  | false =>
    have h1 : appendCodePoint .char8 (BitVec.ofNat 32 v) [] =
        (.ok (), insU .char8 (BitVec.ofNat 32 v)) := by
      rw [appendCodePoint, insertCodePoint_eq _ _ _ hr, insertUnits_ok _ _ _ (Nat.le_refl _)]
      simp
    simp only [rejected, Bool.not_eq_false', isCodePointValid_eq, decide_eq_true_eq, hn] at hr
    have h2 : takes8 v = some [v] := by
      unfold takes8 Spec.IsScalar
      rw [if_pos (by omega)]
    rw [grown, h1, h2]
    simp [insU, hn, encs, encU]

/-- Reading into a string of units is reading a list of characters. -/
theorem gather_units (stop : Nat → Bool) (is : List Item) (hv : ∀ v, .char v ∈ is → v < 2 ^ 32) :
    gather false stop (grown .char8) is =
      (encs .char8 (gather false stop takes8 is).1, (gather false stop takes8 is).2) := by
  induction is with
  | nil => rfl
  | cons i is ih =>
    have ih := ih fun v h => hv v (by simp [h])
    cases i with
    | bad => rfl
    | cut => rfl
    | char v =>
      have := grown_char8 v (hv v (by simp))
      simp only [gather]
      cases stop v with
      | true => rfl
      | false =>
        simp only [Bool.false_eq_true, if_false, this]
        cases takes8 v with
        | none => rfl
        | some us => simp [ih]

theorem takes8_some {v : Nat} {us : List Nat} (h : takes8 v = some us) :
    us = [v] ∧ Spec.IsScalar v ∧ ¬ LowSurrogate v := by
  unfold takes8 at h
  split at h
  · rename_i hv
    simp only [Option.some.injEq] at h
    exact ⟨h.symm, hv.1, hv.2⟩
  · cases h

theorem gather_text (stop : Nat → Bool) (is : List Item) :
    ∀ v ∈ (gather false stop takes8 is).1, Spec.IsScalar v := by
  induction is with
  | nil => simp [gather]
  | cons i is ih =>
    cases i with
    | bad => simp [gather]
    | cut => simp [gather]
    | char v =>
      simp only [gather]
      cases stop v with
      | true => simp
      | false =>
        simp only [Bool.false_eq_true, if_false]
        cases h : takes8 v with
        | none => simp
        | some us =>
          obtain ⟨rfl, h1, -⟩ := takes8_some h
          intro x hx
          rcases List.mem_append.mp hx with hx | hx
          · simp only [List.mem_singleton] at hx
            rw [hx]; exact h1
          · exact ih x hx

theorem passReturns_mem (tells : Bool) (is : List Item) :
    (passReturns tells is).length ≤ is.length ∧ ∀ v, .char v ∈ passReturns tells is → .char v ∈ is := by
  match is with
  | [] => simp [passReturns]
  | [i] =>
    rw [passReturns]
    split <;> simp
  | i :: j :: is =>
    rw [passReturns]
    split
    · have := passReturns_mem tells is
      refine ⟨by simp; omega, fun v hv => ?_⟩
      rcases List.mem_cons.mp hv with h | h
      · simp [h]
      · simp [this.2 v h]
    · have := passReturns_mem tells (j :: is)
      refine ⟨by simp at this ⊢; omega, fun v hv => ?_⟩
      rcases List.mem_cons.mp hv with h | h
      · simp [h]
      · exact List.mem_cons_of_mem _ (this.2 v h)

theorem skipChars_mem {p : Nat → Bool} {is : List Item} {i : Item} (h : i ∈ skipChars p is) : i ∈ is :=
  (List.dropWhile_sublist _).subset h

end Cmp
