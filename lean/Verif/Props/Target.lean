import Verif.Proofs.Target
import Verif.Props.Text

/-
C116: what text input leaves in the variables it reads into, also when it fails.
-/

namespace Cmp

open InStream
open _root_.Spec (Item Ending Itemised passReturns gather skipChars)

/-! ### C116 -/

section Target

variable {ρ : Type} {R : Reader ρ} {sizes : Nat → Prop} {tells : Bool} {left : List Byte → ρ → Prop}

/-- Lines, on every source and for all bytes in it: `append_line` adds to the string exactly the
characters up to the line end or up to what makes it fail, `read_line` replaces the string by them,
and the items behind are what the stream delivers next. -/
theorem C116_line (D : R.Delivers sizes tells left) (native : Endian) (e : Enc) (fuel : Nat)
    (s : InStream ρ) (is : List Item) (h : HasItems sizes tells left s is) (hf : is.length < fuel)
    (t : Str e) :
    let g := gather tells (fun v => decide (v = 10)) (grown e) is
    (∃ r', appendLineTo native R e fuel (s, t) = (ending g.2.1, ({ s with res := r' }, t ++ g.1)) ∧
      HasItems sizes tells left { s with res := r' } g.2.2) ∧
    (∃ r', readLineTo native R e fuel (s, t) = (ending g.2.1, ({ s with res := r' }, g.1)) ∧
      HasItems sizes tells left { s with res := r' } g.2.2) := by
  have hstop : ∀ v, v < 2 ^ 32 →
      (fun c : Char32 => decide (c = 10#32)) (BitVec.ofNat 32 v) = (fun v => decide (v = 10)) v := by
    intro v hv
    have := ofNat32_inj hv (show 10 < 2 ^ 32 by omega)
    by_cases h10 : v = 10
    · simp [h10]
    · have : BitVec.ofNat 32 v ≠ 10#32 := fun h => h10 (this.mp h)
      simp [h10, this]
  have key := loopTo_gather D native e (fun v => decide (v = 10)) (fun c => decide (c = 10#32)) hstop
    fuel is hf s h
  refine ⟨?_, ?_⟩
  · rw [appendLineTo_eq]
    exact key t
  · obtain ⟨r', e1, q⟩ := key []
    refine ⟨r', ?_, q⟩
    have e0 : (onTarget (M.set []) : M (InStream ρ × Str e) Unit) (s, t) = (.ok (), (s, [])) := rfl
    rw [readLineTo, M.bind_ok e0, appendLineTo_eq, e1]
    rfl

/-- The same for `append_all` and `read_all`, which stop at the end only. -/
theorem C116_all (D : R.Delivers sizes tells left) (native : Endian) (e : Enc) (fuel : Nat)
    (s : InStream ρ) (is : List Item) (h : HasItems sizes tells left s is) (hf : is.length < fuel)
    (t : Str e) :
    let g := gather tells (fun _ => false) (grown e) is
    (∃ r', appendAllTo native R e fuel (s, t) = (ending g.2.1, ({ s with res := r' }, t ++ g.1)) ∧
      HasItems sizes tells left { s with res := r' } g.2.2) ∧
    (∃ r', readAllTo native R e fuel (s, t) = (ending g.2.1, ({ s with res := r' }, g.1)) ∧
      HasItems sizes tells left { s with res := r' } g.2.2) := by
  have key := loopTo_gather D native e (fun _ => false) (fun _ => false) (fun _ _ => rfl) fuel is hf s h
  refine ⟨?_, ?_⟩
  · rw [appendAllTo_eq]
    exact key t
  · obtain ⟨r', e1, q⟩ := key []
    refine ⟨r', ?_, q⟩
    have e0 : (onTarget (M.set []) : M (InStream ρ × Str e) Unit) (s, t) = (.ok (), (s, [])) := rfl
    rw [readAllTo, M.bind_ok e0, appendAllTo_eq, e1]
    rfl

/-- The same for `operator >>` with strings: whitespace is skipped, then the characters up to and
without the next whitespace replace the string. -/
theorem C116_word (D : R.Delivers sizes tells left) (native : Endian) (e : Enc) (fuel : Nat)
    (s : InStream ρ) (is : List Item) (h : HasItems sizes tells left s is) (hf : is.length < fuel)
    (t : Str e) :
    let space := fun v => decide (Spec.IsWhiteSpace v)
    let g := gather tells space (grown e) (skipChars space is)
    ∃ r', readWordTo native R e fuel (s, t) = (ending g.2.1, ({ s with res := r' }, g.1)) ∧
      HasItems sizes tells left { s with res := r' } g.2.2 := by
  have hstop : ∀ v, v < 2 ^ 32 →
      isWhitespace (BitVec.ofNat 32 v) = decide (Spec.IsWhiteSpace v) := by
    intro v hv
    rw [Bool.eq_iff_iff, isWhitespace_iff v hv, decide_eq_true_eq]
  obtain ⟨r', e1, q⟩ := skipSpaceTo_gather D native e _ hstop fuel fuel is hf hf s h []
  refine ⟨r', ?_, q⟩
  have e0 : (onTarget (M.set []) : M (InStream ρ × Str e) Unit) (s, t) = (.ok (), (s, [])) := rfl
  rw [readWordTo, M.bind_ok e0, e1]
  rfl

/-- What `operator >>` makes of the outcome of a conversion: the outcome without the value, and the
variable, which is assigned only if there is a value. -/
def assigned {α : Type} (o : Outcome α) (old : α) : Outcome Unit × α :=
  match o with
  | .ok v => (.ok (), v)
  | .throw x => (.throw x, old)
  | .terminate => (.terminate, old)
  | .ub => (.ub, old)
  | .hang => (.hang, old)

/-- An operator that reads a word, parses it and assigns the value. -/
theorem parsed_eq {α : Type} (D : R.Delivers sizes tells left) (native : Endian) (fuel : Nat)
    (s : InStream ρ) (is : List Item) (h : HasItems sizes tells left s is) (hf : is.length < fuel)
    (parse : Str .char8 → Outcome α) (old : α) :
    let space := fun v => decide (Spec.IsWhiteSpace v)
    let g := gather tells space (grown .char8) (skipChars space is)
    ∃ r', (do
        let input ← onStream (readLocalWord native R fuel)
        let v ← M.lift (parse input)
        onTarget (M.set v) : M (InStream ρ × α) Unit) (s, old) =
        ((assigned (ending g.2.1 >>= fun _ => parse g.1) old).1,
          ({ s with res := r' }, (assigned (ending g.2.1 >>= fun _ => parse g.1) old).2)) ∧
      HasItems sizes tells left { s with res := r' } g.2.2 := by
  intro space g
  obtain ⟨r', e1, q⟩ := C116_word D native .char8 fuel s is h hf []
  refine ⟨r', ?_, q⟩
  have e2 : (onStream (readLocalWord native R fuel) : M (InStream ρ × α) _) (s, old) =
      ((passBack (ending g.2.1, (({ s with res := r' } : InStream ρ), g.1))).1,
        (({ s with res := r' } : InStream ρ), old)) := by
    rw [onStream_apply, readLocalWord_eq, e1]
    cases g.2.1 <;> rfl
  rw [M.bind_apply, e2]
  cases g.2.1 with
  | finished =>
    change (M.lift (parse g.1) >>= _) _ = _
    rw [M.bind_apply, M.lift_apply]
    change _ = ((assigned (parse g.1) old).1, _, (assigned (parse g.1) old).2)
    cases parse g.1 <;> rfl
  | _ => rfl

/-- A character: it is assigned if it could be read, otherwise the variable keeps its value. -/
theorem C116_char (D : R.Delivers sizes tells left) (native : Endian) (s : InStream ρ) (is : List Item)
    (h : HasItems sizes tells left s is) (old : Char32) :
    let o := report (is.headD .cut)
    ∃ r', readCharTo native R (s, old) = ((assigned o old).1, ({ s with res := r' }, (assigned o old).2)) ∧
      HasItems sizes tells left { s with res := r' } is.tail := by
  cases is with
  | nil =>
    obtain ⟨r', e1, q⟩ := hasItems_none D native h
    refine ⟨r', ?_, q⟩
    rw [readCharTo, M.bind_apply, onStream_apply, e1]
    rfl
  | cons i is =>
    obtain ⟨r', e1, q⟩ := hasItems_read D native h
    refine ⟨r', ?_, q⟩
    rw [readCharTo, M.bind_apply, onStream_apply, e1]
    cases i <;> rfl

/-- Values: the variable is assigned what the word parses to; when there is no word or it does not
parse, the operator throws and the variable keeps its value. -/
theorem C116_values (D : R.Delivers sizes tells left) (native : Endian) (fuel : Nat)
    (s : InStream ρ) (is : List Item) (h : HasItems sizes tells left s is) (hf : is.length < fuel)
    (T : IntTy) (rnd : ℚ → ℚ) (b : Bool) (n : Int) (x : ℚ) :
    let space := fun v => decide (Spec.IsWhiteSpace v)
    let g := gather tells space (grown .char8) (skipChars space is)
    let asBool := assigned (ending g.2.1 >>= fun _ => parseBool .char8 g.1 BoolFormat.default) b
    let asInt := assigned (ending g.2.1 >>= fun _ => parseInteger .char8 T g.1 IntegerFormat.default) n
    let asReal := assigned (ending g.2.1 >>= fun _ => parseFloat .char8 rnd g.1 FloatFormat.default) x
    (∃ r', readBoolTo native R fuel (s, b) = (asBool.1, ({ s with res := r' }, asBool.2)) ∧
      HasItems sizes tells left { s with res := r' } g.2.2) ∧
    (∃ r', readIntegerTo native R T fuel (s, n) = (asInt.1, ({ s with res := r' }, asInt.2)) ∧
      HasItems sizes tells left { s with res := r' } g.2.2) ∧
    (∃ r', readFloatTo native R rnd fuel (s, x) = (asReal.1, ({ s with res := r' }, asReal.2)) ∧
      HasItems sizes tells left { s with res := r' } g.2.2) :=
  ⟨parsed_eq D native fuel s is h hf (fun w => parseBool .char8 w BoolFormat.default) b,
    parsed_eq D native fuel s is h hf (fun w => parseInteger .char8 T w IntegerFormat.default) n,
    parsed_eq D native fuel s is h hf (fun w => parseFloat .char8 rnd w FloatFormat.default) x⟩

end Target

/-! On any source at all, also one that fails on its own account: -/

section Any

variable {ρ : Type}

theorem set_last {α β : Type} (m : M (InStream ρ) α) (f : α → Outcome β) (s : InStream ρ) (old : β)
    (h : ((do
      let a ← onStream m
      let v ← M.lift (f a)
      onTarget (M.set v) : M (InStream ρ × β) Unit) (s, old)).1 ≠ .ok ()) :
    ((do
      let a ← onStream m
      let v ← M.lift (f a)
      onTarget (M.set v) : M (InStream ρ × β) Unit) (s, old)).2.2 = old := by
  revert h
  rw [M.bind_apply, onStream_apply]
  rcases m s with ⟨o, s'⟩
  cases o with
  | ok a =>
    change ((M.lift (f a) >>= fun v => onTarget (M.set v) : M (InStream ρ × β) Unit) (s', old)).1 ≠ _ →
      ((M.lift (f a) >>= fun v => onTarget (M.set v) : M (InStream ρ × β) Unit) (s', old)).2.2 = _
    rw [M.bind_apply, M.lift_apply]
    cases f a with
    | ok v => exact fun h => absurd rfl h
    | _ => exact fun _ => rfl
  | _ => exact fun _ => rfl

theorem appendCodePoint_prefix (e : Enc) (c : Char32) (t : Str e) : t <+: (appendCodePoint e c t).2 := by
  rcases C16_insert_exact e c with ⟨-, -, hr⟩ | ⟨us, -, -, -, -, -, ha, -⟩
  · rw [appendCodePoint, hr]
  · rw [ha]
    exact List.prefix_append t us

theorem loopTo_prefix (native : Endian) (R : Reader ρ) (e : Enc) (stop : Char32 → Bool) (fuel : Nat)
    (s : InStream ρ) (t : Str e) : t <+: (loopTo native R e stop fuel (s, t)).2.2 := by
  induction fuel generalizing s t with
  | zero => exact List.prefix_refl t
  | succ fuel ih =>
    rw [loopTo, M.bind_apply, onStream_apply]
    rcases isAtEnd R s with ⟨o, s1⟩
    cases o with
    | ok a =>
      cases a with
      | true => exact List.prefix_refl t
      | false =>
        change t <+: ((onStream (readFiltered native R) >>= _) (s1, t)).2.2
        rw [M.bind_apply, onStream_apply]
        rcases readFiltered native R s1 with ⟨o, s2⟩
        cases o with
        | ok c =>
          dsimp only
          by_cases hc : stop c = true
          · rw [if_pos hc]
            exact List.prefix_refl t
          · rw [if_neg hc, M.bind_apply, onTarget_apply]
            have hp := appendCodePoint_prefix e c t
            rcases h : appendCodePoint e c t with ⟨o, t1⟩
            rw [h] at hp
            cases o with
            | ok a => exact hp.trans (ih s2 t1)
            | _ => exact hp
        | _ => exact List.prefix_refl t
    | _ => exact List.prefix_refl t

/-- Whatever the source does: `append_line` and `append_all` never take anything away from the string,
and the operators for values leave their variable alone unless they return normally. -/
theorem C116_kept (native : Endian) (R : Reader ρ) (fuel : Nat) (s : InStream ρ) (T : IntTy)
    (rnd : ℚ → ℚ) :
    (∀ e (t : Str e), t <+: (appendLineTo native R e fuel (s, t)).2.2) ∧
    (∀ e (t : Str e), t <+: (appendAllTo native R e fuel (s, t)).2.2) ∧
    (∀ c, (readCharTo native R (s, c)).1 ≠ .ok () → (readCharTo native R (s, c)).2.2 = c) ∧
    (∀ b, (readBoolTo native R fuel (s, b)).1 ≠ .ok () → (readBoolTo native R fuel (s, b)).2.2 = b) ∧
    (∀ n, (readIntegerTo native R T fuel (s, n)).1 ≠ .ok () →
      (readIntegerTo native R T fuel (s, n)).2.2 = n) ∧
    (∀ x, (readFloatTo native R rnd fuel (s, x)).1 ≠ .ok () →
      (readFloatTo native R rnd fuel (s, x)).2.2 = x) := by
  refine ⟨fun e t => ?_, fun e t => ?_, fun c => ?_, fun b => ?_, fun n => ?_, fun x => ?_⟩
  · rw [appendLineTo_eq]
    exact loopTo_prefix native R e _ fuel s t
  · rw [appendAllTo_eq]
    exact loopTo_prefix native R e _ fuel s t
  · rw [readCharTo, M.bind_apply, onStream_apply]
    rcases readFiltered native R s with ⟨o, s'⟩
    cases o with
    | ok c => exact fun h => absurd rfl h
    | _ => exact fun _ => rfl
  · exact set_last (readLocalWord native R fuel) (fun w => parseBool .char8 w BoolFormat.default) s b
  · exact set_last (readLocalWord native R fuel)
      (fun w => parseInteger .char8 T w IntegerFormat.default) s n
  · exact set_last (readLocalWord native R fuel) (fun w => parseFloat .char8 rnd w FloatFormat.default) s x

end Any

/-! ### Cases -/

/-- Every container of bytes is a sequence of items. -/
theorem fresh_hasItems (o : Endian) (form : EncodingForm) (cap : Nat) (hcap : RoomFor form cap)
    (content : List Byte) : ∃ is, HasItems (fun n => n ≤ cap ∨ cap = 0) true
      (fun bs r => ∃ p, bs = content.drop p ∧ Ctr.Reading cap content 1 p r)
      ⟨freshCtr cap 1 content, o, form⟩ is := by
  obtain ⟨js, hj⟩ := itemised_exists form.form o.order (nats content)
  exact ⟨_, hcap, content, js, Ctr.left_fresh cap 1 content, hj, rfl⟩

/-- `AB`, a line feed, `C` and a stray byte: the first line is `AB`, the second fails and leaves `C`
behind its former content. -/
example :
    ((appendLineTo .little Ctr.reader .char16 9
        (⟨freshCtr 4 1 [0x41, 0x42, 10, 0x43, 0xFF, 0x44], .little, .utf8⟩, [0x78])).1,
      (appendLineTo .little Ctr.reader .char16 9
        (⟨freshCtr 4 1 [0x41, 0x42, 10, 0x43, 0xFF, 0x44], .little, .utf8⟩, [0x78])).2.2) =
      (.ok (), [0x78, 0x41, 0x42]) ∧
    ((appendLineTo .little Ctr.reader .char16 9
        (⟨freshCtr 4 1 [0x43, 0xFF, 0x44], .little, .utf8⟩, [0x78])).1,
      (appendLineTo .little Ctr.reader .char16 9
        (⟨freshCtr 4 1 [0x43, 0xFF, 0x44], .little, .utf8⟩, [0x78])).2.2) =
      (.throw .invalidUnicodeEncoding, [0x78, 0x43]) ∧
    ((readIntegerTo .little Ctr.reader ⟨32, true⟩ 9
        (⟨freshCtr 4 1 [0x37, 0x78, 0x20, 0x38], .little, .utf8⟩, 5)).2.2) = 5 ∧
    ((readIntegerTo .little Ctr.reader ⟨32, true⟩ 9
        (⟨freshCtr 4 1 [0x20, 0x37, 0x20, 0x38], .little, .utf8⟩, 5)).2.2) = 7 := by
  refine ⟨?_, ?_, ?_, ?_⟩ <;> decide +kernel

end Cmp
