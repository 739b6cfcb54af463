import Verif.Props.TextValues
import Verif.Spec.Decimal
import Mathlib.Data.List.Induction

/-
Property C77: what the output operators of text streams write.
-/

namespace Cmp

open InStream OutStream

/-- Arguments of the output operators. -/
inductive Printed
  | char (c : BitVec 8)
  | codePoint (c : Char32)
  | bool (b : Bool)
  | int (T : IntTy) (v : Int)
  | array (e : Enc) (memory : Str e)
  | view (e : Enc) (s : Str e)

namespace Printed

/-- `stream << argument`. -/
def write {ρ : Type} (native : Endian) (W : Writer ρ) : Printed → M (OutStream ρ) Unit
  | char c => writeChar native W c
  | codePoint c => writeCodePoint native W c
  | bool b => writeBool native W b
  | int T v => writeInteger native W T v
  | array e memory => writeArray native W e memory
  | view e s => writeString native W e s

/-- The text an argument stands for: an ASCII character or a scalar value for itself, booleans for
`1` and `0`, integers for their decimal notation, a null-terminated array for the text in front of
the first null, and a string for its text. -/
def Means : Printed → List Nat → Prop
  | char c, t => c.toNat < 128 ∧ t = [c.toNat]
  | codePoint c, t => Spec.IsScalar c.toNat ∧ t = [c.toNat]
  | bool b, t => t = [if b then 49 else 48]
  | int T v, t => T.Std ∧ T.Has v ∧ t = Spec.decimal v
  | array e memory, t => ∃ s rest, memory = s ++ 0 :: rest ∧ 0 ∉ s ∧ TextOf e s t
  | view e s, t => TextOf e s t

/-- What the library gets right: not the least value of a signed type, no surrogate value in the
low 16 bits of a code point on UTF-8 streams, and, where a string has to be transcoded, no
supplementary code points in UTF-16. -/
def Supported (native o : Endian) (form : EncodingForm) : Printed → List Nat → Prop
  | char _, _ => True
  | codePoint c, _ => form = .utf8 → ¬ LowSurrogate c.toNat
  | bool _, _ => True
  | int T v, _ => T.signed = true → v ≠ T.min
  | array e _, t => SameUnits native o form e ∨
      (e.form = .utf16 → ∀ c ∈ t, Spec.IsBmp c) ∧ (form = .utf8 → ∀ c ∈ t, ¬ LowSurrogate c)
  | view e _, t => SameUnits native o form e ∨
      (e.form = .utf16 → ∀ c ∈ t, Spec.IsBmp c) ∧ (form = .utf8 → ∀ c ∈ t, ¬ LowSurrogate c)

end Printed

/-- Writing several arguments. -/
abbrev printAll {ρ : Type} (native : Endian) (W : Writer ρ) (items : List Printed) :
    M (OutStream ρ) (List Unit) :=
  M.runList (fun i => i.write native W) items

theorem positional_append (r : Nat) (ds : List Nat) (d : Nat) :
    Spec.positional r (ds ++ [d]) = Spec.positional r ds * r + d := by
  simp [Spec.positional]

/-- Digits without superfluous zero are the decimal notation. -/
theorem decimalDigits_eq (ds : List Nat) (hd : ∀ d ∈ ds, d < 10) (hne : ds ≠ [])
    (hz : ds.head? = some 0 → ds = [0]) :
    ds.map Spec.upperDigit = Spec.decimalDigits (Spec.positional 10 ds) := by
  induction ds using List.reverseRecOn with
  | nil => exact absurd rfl hne
  | append_singleton ds d ih =>
    have hd' : d < 10 := hd d (by simp)
    have hu : Spec.upperDigit d = 48 + d := by simp [Spec.upperDigit, hd']
    rw [positional_append]
    cases ds with
    | nil =>
      have : Spec.positional 10 ([] : List Nat) = 0 := rfl
      rw [this, Spec.decimalDigits, if_pos (by omega)]
      simp [hu]
    | cons a ds =>
      have ha : a ≠ 0 := by
        rintro rfl
        have := hz (by simp)
        simp at this
      have h1 := ih (fun x hx => hd x (List.mem_append_left _ hx)) (by simp)
        (fun h => absurd (by simpa using h) ha)
      have hpos : 1 ≤ Spec.positional 10 (a :: ds) := by
        have := place_le (r := 10) (a :: ds) (by simp) (by simpa using ha)
        have h2 : 0 < 10 ^ ((a :: ds).length - 1) := Nat.pow_pos (by omega)
        omega
      generalize Spec.positional 10 (a :: ds) = n at *
      rw [Spec.decimalDigits, if_neg (by omega), List.map_append, h1,
        show (n * 10 + d) / 10 = n by omega, show (n * 10 + d) % 10 = d by omega]
      simp [hu]

/-- The default format writes decimal notation. -/
theorem formatInteger_decimal (e : Enc) (T : IntTy) (v : Int) (hT : T.Std) (hv : T.Has v)
    (hmin : T.signed = true → v ≠ T.min) :
    formatInteger e T v .default = .ok (encs e (Spec.decimal v))
      ∧ ∀ c ∈ Spec.decimal v, c < 128 := by
  obtain ⟨ds, e1, hp, hd, hne, hz⟩ := formatInteger_eq e (f := .default) hT (by decide) (by decide)
    hv hmin
  have hasc := formatted_ascii .default (by decide) v ds hd
  have : signText IntegerFormat.default.sign v ++
      Spec.group IntegerFormat.default.separator.char (ds.map Spec.upperDigit) = Spec.decimal v := by
    rw [show IntegerFormat.default.separator.char = none from rfl]
    show signText .onlyWhenNegative v ++ ds.map Spec.upperDigit = _
    rw [decimalDigits_eq ds hd hne hz]
    have hp' : Spec.positional 10 ds = v.natAbs := hp
    rw [hp', Spec.decimal, signText]
    simp
  rw [this] at e1 hasc
  exact ⟨e1, hasc⟩

/-- One argument. -/
theorem print_one {ρ : Type} {W : Writer ρ} {fits : List Byte → Prop}
    {got out : List Byte → ρ → Prop}
    (C : W.Collects fits got out) (native : Endian) (st : OutStream ρ) (sofar : List Byte) (i : Printed)
    (t : List Nat) (ht : i.Means t) (hok : i.Supported native st.endian st.form t)
    (hf : fits (sofar ++ textBytes st.form st.endian t)) (h : got sofar st.res) :
    ∃ r', i.write native W st = (.ok (), { st with res := r' }) ∧
      got (sofar ++ textBytes st.form st.endian t) r' := by
  cases i with
  | char c =>
    obtain ⟨h1, rfl⟩ := ht
    have he : c.signExtend 32 = BitVec.ofNat 32 c.toNat := by
      have : c.msb = false := by
        rw [BitVec.msb_eq_decide]
        simp
        omega
      rw [BitVec.signExtend_eq_setWidth_of_msb_false this]
      exact BitVec.eq_of_toNat_eq (by simp)
    obtain ⟨r', e1, q⟩ := writeCodePoint_eq C native st c.toNat
      (writeOk_of (by unfold Spec.IsScalar; omega) (fun _ => by unfold LowSurrogate; omega)) sofar
      (by simpa [textBytes_cons, textBytes_nil] using hf) h
    exact ⟨r', by rw [Printed.write, writeChar, he]; exact e1, by simpa [textBytes_cons, textBytes_nil] using q⟩
  | codePoint c =>
    obtain ⟨h1, rfl⟩ := ht
    obtain ⟨r', e1, q⟩ := writeCodePoint_eq C native st c.toNat (writeOk_of h1 hok) sofar
      (by simpa [textBytes_cons, textBytes_nil] using hf) h
    exact ⟨r', by simpa [Printed.write] using e1, by simpa [textBytes_cons, textBytes_nil] using q⟩
  | bool b =>
    have ht : t = [if b then 49 else 48] := ht
    subst ht
    have h1 : ∀ form, formatBool (formatEnc form) b .default =
        .ok (encs (formatEnc form) [if b then 49 else 48]) := by
      intro form
      cases b <;> cases form <;> decide +kernel
    obtain ⟨r', e4, q⟩ := writeString_eq C native (formatEnc st.form) st [if b then 49 else 48]
      (fun c hc => stringOk_ascii native _ st c (by cases b <;> simp at hc <;> omega)) sofar hf h
    refine ⟨r', ?_, q⟩
    rw [Printed.write, writeBool, M.bind_ok (M.get_apply st), M.bind_ok (by rw [h1]; rfl)]
    exact e4
  | int T v =>
    obtain ⟨h1, h2, rfl⟩ := ht
    obtain ⟨e1, hasc⟩ := formatInteger_decimal (formatEnc st.form) T v h1 h2 hok
    obtain ⟨r', e4, q⟩ := writeString_eq C native (formatEnc st.form) st (Spec.decimal v)
      (fun c hc => stringOk_ascii native _ st c (hasc c hc)) sofar hf h
    refine ⟨r', ?_, q⟩
    rw [Printed.write, writeInteger, M.bind_ok (M.get_apply st), M.bind_ok (by rw [e1]; rfl)]
    exact e4
  | array e memory =>
    obtain ⟨s, rest, rfl, h0, ht⟩ := ht
    have hv : viewOf (s ++ 0 :: rest) = .ok s := by
      rw [viewOf, if_pos (by simp)]
      rw [List.takeWhile_append_of_pos (by
        intro x hx
        simp
        rintro rfl
        exact h0 hx)]
      simp
    obtain ⟨r', e1, q⟩ := C75_partial C native st sofar e s t ht hok hf h
    refine ⟨r', ?_, q⟩
    rw [Printed.write, writeArray, M.bind_ok (by rw [hv]; rfl)]
    exact e1
  | view e s => exact C75_partial C native st sofar e s t ht hok hf h

/-- C77 on every output resource, for sequences of arguments.  Missing: the least values of signed
types, and the code points named at `Supported`. -/
theorem C77_partial {ρ : Type} {W : Writer ρ} {fits : List Byte → Prop}
    {got out : List Byte → ρ → Prop}
    (C : W.Collects fits got out) (native : Endian) (st : OutStream ρ) (sofar : List Byte)
    (items : List (Printed × List Nat)) (ht : ∀ i ∈ items, i.1.Means i.2)
    (hok : ∀ i ∈ items, i.1.Supported native st.endian st.form i.2)
    (hf : fits (sofar ++ asBytes (st.form.form.serialize st.endian.order (items.flatMap (·.2)))))
    (h : got sofar st.res) :
    ∃ us r', printAll native W (items.map (·.1)) st = (.ok us, { st with res := r' }) ∧
      got (sofar ++ asBytes (st.form.form.serialize st.endian.order (items.flatMap (·.2)))) r' := by
  induction items generalizing st sofar with
  | nil =>
    refine ⟨[], st.res, rfl, ?_⟩
    have := textBytes_nil st.form st.endian
    unfold textBytes at this
    rw [List.flatMap_nil, this, List.append_nil]
    exact h
  | cons i items ih =>
    have hf' : fits (sofar ++ textBytes st.form st.endian i.2 ++
        textBytes st.form st.endian (items.flatMap (·.2))) := by
      rw [List.append_assoc, ← textBytes_append]
      exact hf
    obtain ⟨r1, e1, q1⟩ := print_one C native st sofar i.1 i.2 (ht i (by simp)) (hok i (by simp))
      (C.shorter _ _ hf') h
    obtain ⟨us, r2, e2, q2⟩ := ih { st with res := r1 } _ (fun j hj => ht j (by simp [hj]))
      (fun j hj => hok j (by simp [hj])) hf' q1
    refine ⟨() :: us, r2, M.runList_cons e1 e2, ?_⟩
    rw [List.flatMap_cons]
    have := textBytes_append st.form st.endian i.2 (items.flatMap (·.2))
    unfold textBytes at this q1
    rw [this, ← List.append_assoc]
    exact q2

/-- The same on containers. -/
theorem C77_partial_container (native o : Endian) (form : EncodingForm) (cap : Nat)
    (items : List (Printed × List Nat)) (ht : ∀ i ∈ items, i.1.Means i.2)
    (hok : ∀ i ∈ items, i.1.Supported native o form i.2) :
    written cap o form (printAll native Ctr.writer (items.map (·.1))) =
      .ok (asBytes (form.form.serialize o.order (items.flatMap (·.2)))) := by
  obtain ⟨us, r', e', q⟩ := C77_partial (Ctr.collects cap []) native ⟨freshCtr cap 1 [], o, form⟩ []
    items ht hok trivial (Ctr.got_fresh cap)
  exact written_eq cap o form _ us _ r' e' q

/-- The full claim fails: the least value of `int` cannot be written. -/
theorem C77_violated :
    ¬ ∀ (native o : Endian) (form : EncodingForm) (cap : Nat) (i : Printed) (t : List Nat),
      i.Means t → written cap o form (i.write native Ctr.writer) =
        .ok (asBytes (form.form.serialize o.order t)) := by
  intro h
  have := h .little .little .utf8 0 (.int .int (-2147483648)) _ ⟨by decide, by decide, rfl⟩
  have h2 : written 0 .little .utf8 (Printed.write .little Ctr.writer
      (.int .int (-2147483648))) = .ub := by decide +kernel
  rw [h2] at this
  simp at this

/-- Characters of type `char` outside ASCII are sign-extended: on a UTF-32 stream the byte `E9` makes
a code unit that is no code point at all. -/
theorem C77_violated_char : written 0 .big .utf32 (writeChar .little Ctr.writer 0xE9#8) =
    .ok [0xFF, 0xFF, 0xFF, 0xE9] := by decide +kernel

/-- `x = -17`, a null-terminated array, a character and a boolean. -/
def printedExample : List (Printed × List Nat) :=
  [(.array .char16 [0x78, 0x20AC, 0, 0x41], [0x78, 0x20AC]), (.char 61, [61]),
    (.int .int (-17), [45, 49, 55]), (.codePoint 0x1F600, [0x1F600]), (.bool true, [49])]

example : (∀ i ∈ printedExample, i.1.Means i.2)
    ∧ ∀ i ∈ printedExample, i.1.Supported .little .big .utf8 i.2 := by
  constructor
  · intro i hi
    simp only [printedExample, List.mem_cons, List.not_mem_nil, or_false] at hi
    rcases hi with rfl | rfl | rfl | rfl | rfl
    · exact ⟨[0x78, 0x20AC], [0x41], rfl, by decide,
        textOf_encs .char16 [0x78, 0x20AC] (by unfold Spec.IsText; decide) (by decide)⟩
    · exact ⟨by decide, rfl⟩
    · exact ⟨by decide, by decide, by decide +kernel⟩
    · exact ⟨by decide, rfl⟩
    · rfl
  · intro i hi
    simp only [printedExample, List.mem_cons, List.not_mem_nil, or_false] at hi
    rcases hi with rfl | rfl | rfl | rfl | rfl
    · exact .inr ⟨by unfold Spec.IsBmp; decide, by decide⟩
    · trivial
    · exact fun _ => by decide
    · exact fun _ => by decide
    · trivial

end Cmp
