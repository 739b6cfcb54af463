import Verif.Proofs.Resource
import Verif.Proofs.TextRead
import Verif.Proofs.TextWrite

/-
Properties C47 to C49 and C58: byte order, data streams, truncated input.

Values are the bytes of their object representation.  The theorems on streams come in two forms:
for every resource that delivers (takes) bytes in order (`Reader.Delivers`, `Writer.Collects`), and
end to end for streams on byte containers with buffers of any capacity.
-/

namespace Cmp

open InStream OutStream

/-! ### Streams on byte containers -/

/-- What an empty byte container with a buffer of `cap` bytes holds after a program has written to
it through a stream and has flushed. -/
def written {α : Type} (cap : Nat) (e : Endian) (form : EncodingForm)
    (program : M (OutStream (Res Ctr)) α) : Outcome (List Byte) :=
  match (program >>= fun _ => OutStream.flush Ctr.writer) ⟨freshCtr cap 1 [], e, form⟩ with
  | (.ok _, s) => .ok s.res.dev.content
  | (.throw x, _) => .throw x
  | (.terminate, _) => .terminate
  | (.ub, _) => .ub
  | (.hang, _) => .hang

/-- What a program reads through a stream from a byte container with a buffer of `cap` bytes. -/
def received {α : Type} (cap : Nat) (content : List Byte) (e : Endian) (form : EncodingForm)
    (program : M (InStream (Res Ctr)) α) : Outcome α :=
  (program ⟨freshCtr cap 1 content, e, form⟩).1

/-- A program that completes and leaves the stream's settings alone. -/
theorem written_eq {α : Type} (cap : Nat) (e : Endian) (form : EncodingForm)
    (program : M (OutStream (Res Ctr)) α) (a : α) (w : List Byte) (r : Res Ctr)
    (h1 : program ⟨freshCtr cap 1 [], e, form⟩ = (.ok a, ⟨r, e, form⟩))
    (h2 : Res.Writing cap (fun _ => True) (Res.Overwrote (Ctr.Idle 1) [] 0) r w) :
    written cap e form program = .ok w := by
  obtain ⟨r', e2, h3⟩ := flush_eq (Ctr.collects cap []) ⟨r, e, form⟩ w h2
  unfold written
  rw [M.bind_ok h1, e2]
  simpa using h3

/-! ### C47 -/

/-- The bytes of the block are reversed; those around it stay as they are. -/
theorem C47_inversion (before block after : List Byte) (h : block ≠ []) :
    invertEndianness (before ++ block ++ after) before.length block.length =
      .ok (before ++ block.reverse ++ after) := by
  have := List.length_pos_iff.mpr h
  exact invertEndianness_eq before block after (by omega)

/-- Doing it twice restores the block. -/
theorem C47_involution (before block after : List Byte) (h : block ≠ []) :
    (invertEndianness (before ++ block ++ after) before.length block.length >>= fun memory =>
      invertEndianness memory before.length block.length) = .ok (before ++ block ++ after) := by
  rw [C47_inversion before block after h, Outcome.ok_bind]
  have := C47_inversion before block.reverse after (by simpa using h)
  simpa using this

/-- An empty block at the beginning of an array is not covered: the code forms a pointer before the
array. -/
example : invertEndianness ([] : List Byte) 0 0 = .ub := rfl

example : invertEndianness [9, 1, 2, 3, 8] 1 3 = .ok [9, 3, 2, 1, (8 : Byte)] := by decide

/-- The opposite byte order is the one in which the bytes of every number are reversed, and there are
only the two. -/
theorem C47_opposite (e : Endian) :
    (∀ k n, e.opposite.order.bytes k n = (e.order.bytes k n).reverse)
    ∧ e.opposite ≠ e ∧ e.opposite.opposite = e := by
  have key : ∀ k n, Spec.ByteOrder.big.bytes k n = (Spec.ByteOrder.little.bytes k n).reverse := by
    intro k n
    apply List.ext_getElem
    · simp [Spec.ByteOrder.bytes]
    · intro i h1 h2
      simp [Spec.ByteOrder.bytes] at h1 ⊢
  cases e
  · refine ⟨fun k n => ?_, by decide, by decide⟩
    show Spec.ByteOrder.little.bytes k n = (Spec.ByteOrder.big.bytes k n).reverse
    rw [key, List.reverse_reverse]
  · exact ⟨key, by decide, by decide⟩

/-! ### C48 -/

/-- Reading values of the given sizes. -/
abbrev readValues (native : Endian) (objects : List (List Byte)) :
    M (InStream (Res Ctr)) (List (List Byte)) :=
  M.runList (fun o => readValue native Ctr.reader o.length) objects

/-- Writing values. -/
abbrev writeValues (native : Endian) (objects : List (List Byte)) :
    M (OutStream (Res Ctr)) (List Unit) :=
  M.runList (writeValue native Ctr.writer) objects

/-- The bytes of an object as they are on the wire. -/
def wireBytes (native e : Endian) (object : List Byte) : List Byte :=
  if e = native then object else object.reverse

theorem wireBytes_length (native e : Endian) (object : List Byte) :
    (wireBytes native e object).length = object.length := by
  unfold wireBytes
  split <;> simp

theorem writeValues_eq (native : Endian) (cap : Nat) (objects : List (List Byte))
    (ho : ∀ o ∈ objects, o ≠ []) :
    ∀ (s : OutStream (Res Ctr)) (w : List Byte),
      Res.Writing cap (fun _ => True) (Res.Overwrote (Ctr.Idle 1) [] 0) s.res w →
      ∃ us r', writeValues native objects s = (.ok us, { s with res := r' }) ∧
        Res.Writing cap (fun _ => True) (Res.Overwrote (Ctr.Idle 1) [] 0) r'
          (w ++ objects.flatMap (wireBytes native s.endian)) := by
  induction objects with
  | nil => intro s w h; exact ⟨[], s.res, rfl, by simpa using h⟩
  | cons o os ih =>
    intro s w h
    obtain ⟨r1, e1, q1⟩ := writeValue_eq (Ctr.collects cap []) native s w o (ho o (by simp))
      trivial h
    obtain ⟨us, r2, e2, q2⟩ := ih (fun x hx => ho x (by simp [hx])) { s with res := r1 } _ q1
    refine ⟨() :: us, r2, M.runList_cons e1 e2, ?_⟩
    rw [List.flatMap_cons, ← List.append_assoc]
    exact q2

theorem written_values (native e : Endian) (form : EncodingForm) (cap : Nat)
    (objects : List (List Byte)) (ho : ∀ o ∈ objects, o ≠ []) :
    written cap e form (writeValues native objects) =
      .ok (objects.flatMap (wireBytes native e)) := by
  obtain ⟨us, r', e1, q1⟩ := writeValues_eq native cap objects ho ⟨freshCtr cap 1 [], e, form⟩ []
    (Ctr.got_fresh cap)
  exact written_eq cap e form _ us _ r' e1 q1

/-- Reading a value turns the bytes round twice, that is not at all. -/
theorem readValue_full {ρ : Type} {R : Reader ρ} {sizes : Nat → Prop} {tells : Bool}
    {left : List Byte → ρ → Prop} (D : R.Delivers sizes tells left) (native : Endian)
    (s : InStream ρ) (b rest : List Byte) (hb : b ≠ []) (hs : sizes b.length)
    (h : left (b ++ rest) s.res) :
    ∃ r', readValue native R b.length s = (.ok b, { s with res := r' }) ∧ left rest r' := by
  obtain ⟨r', e, q⟩ := read_full D native s b rest b.length rfl (List.length_pos_iff.mpr hb) hs h
  refine ⟨r', ?_, q⟩
  rw [readValue, M.bind_ok e]
  simp only [Nat.lt_irrefl, if_false]
  have hne : ((if s.endian = native then b else b.reverse).map some) ≠ [] := by
    split <;> simpa using hb
  rw [M.bind_ok (invertIf_eq native _ { s with res := r' } hne)]
  have : (if s.endian = native then (if s.endian = native then b else b.reverse).map some
      else ((if s.endian = native then b else b.reverse).map some).reverse) = b.map some := by
    split <;> simp
  simp only [this, loaded_map, M.lift_apply]

theorem readValues_eq (native : Endian) (cap : Nat) (content : List Byte)
    (objects : List (List Byte)) (ho : ∀ o ∈ objects, o ≠ [] ∧ (o.length ≤ cap ∨ cap = 0)) :
    ∀ (s : InStream (Res Ctr)) (rest : List Byte) (f : List Byte → List Byte),
      (∀ o, (f o).length = o.length) →
      (∃ p, objects.flatMap f ++ rest = content.drop p ∧ Ctr.Reading cap content 1 p s.res) →
      ∃ r', readValues native objects s = (.ok (objects.map f), { s with res := r' }) := by
  induction objects with
  | nil => intro s rest f _ _; exact ⟨s.res, rfl⟩
  | cons o os ih =>
    intro s rest f hf h
    have D := Ctr.delivers cap 1 content (.inl rfl) (Nat.one_dvd _)
    obtain ⟨hne, hsz⟩ := ho o (by simp)
    have hne' : f o ≠ [] := by
      intro h0
      have := hf o
      rw [h0] at this
      exact hne (List.length_eq_zero_iff.mp this.symm)
    rw [List.flatMap_cons, List.append_assoc] at h
    obtain ⟨r1, e1, q1⟩ := readValue_full D native s (f o) _ hne' (by rw [hf]; exact hsz) h
    rw [hf] at e1
    obtain ⟨r2, e2⟩ := ih (fun x hx => ho x (by simp [hx])) { s with res := r1 } rest f hf q1
    exact ⟨r2, M.runList_cons e1 e2⟩

/-- What comes back from the wire. -/
theorem received_values (native e : Endian) (form : EncodingForm) (cap : Nat)
    (objects : List (List Byte)) (ho : ∀ o ∈ objects, o ≠ [] ∧ (o.length ≤ cap ∨ cap = 0)) :
    received cap (objects.flatMap (wireBytes native e)) e form (readValues native objects) =
      .ok (objects.map (wireBytes native e)) := by
  obtain ⟨r', h⟩ := readValues_eq native cap (objects.flatMap (wireBytes native e)) objects ho
    ⟨freshCtr cap 1 _, e, form⟩ [] (wireBytes native e) (wireBytes_length native e)
    (by simpa using Ctr.left_fresh cap 1 (objects.flatMap (wireBytes native e)))
  unfold received
  rw [h]

/-- The full claim fails: on a stream whose byte order is not the host's, the 16-bit value 0x0102
comes back as 0x0201. -/
theorem C48_violated :
    ¬ ∀ (native e : Endian) (form : EncodingForm) (cap cap' : Nat) (objects : List (List Byte)),
      (∀ o ∈ objects, o ≠ [] ∧ (o.length ≤ cap' ∨ cap' = 0)) →
      ∃ wire, written cap e form (writeValues native objects) = .ok wire ∧
        received cap' wire e form (readValues native objects) = .ok objects := by
  intro h
  obtain ⟨wire, h1, h2⟩ := h .little .big .utf8 0 0 [[2, 1]] (by decide)
  rw [written_values _ _ _ _ _ (by decide)] at h1
  have : wire = [1, 2] := by
    simp only [Outcome.ok.injEq] at h1
    rw [← h1]
    decide
  subst this
  revert h2
  decide +kernel

/-- It fails for every value that is not the same backwards: on a stream whose byte order is not
the host's, every value comes back with its bytes reversed. -/
theorem C48_violated_always (native e : Endian) (form : EncodingForm) (cap cap' : Nat)
    (objects : List (List Byte)) (he : e ≠ native)
    (ho : ∀ o ∈ objects, o ≠ [] ∧ (o.length ≤ cap' ∨ cap' = 0)) :
    ∃ wire, written cap e form (writeValues native objects) = .ok wire ∧
      received cap' wire e form (readValues native objects) =
        .ok (objects.map List.reverse) := by
  refine ⟨_, written_values native e form cap objects (fun o h => (ho o h).1), ?_⟩
  rw [received_values native e form cap' objects ho]
  congr 1
  apply List.map_congr_left
  intro o _
  simp [wireBytes, he]

/-- C48 for streams in the host's byte order, and for values of one byte in either.  (The buffer
of the input must be able to hold each value, or there is none.)  Missing: larger values in the
other byte order. -/
theorem C48_partial (native e : Endian) (form : EncodingForm) (cap cap' : Nat)
    (objects : List (List Byte)) (he : e = native ∨ ∀ o ∈ objects, o.length = 1)
    (ho : ∀ o ∈ objects, o ≠ [] ∧ (o.length ≤ cap' ∨ cap' = 0)) :
    ∃ wire, written cap e form (writeValues native objects) = .ok wire ∧
      received cap' wire e form (readValues native objects) = .ok objects := by
  refine ⟨_, written_values native e form cap objects (fun o h => (ho o h).1), ?_⟩
  rw [received_values native e form cap' objects ho]
  congr 1
  conv => rhs; rw [← List.map_id objects]
  apply List.map_congr_left
  intro o hx
  rcases he with rfl | he
  · simp [wireBytes]
  · have := he o hx
    match o, this with
    | [b], _ => simp [wireBytes]

example : (Endian.little = .little ∨ ∀ o ∈ [[1, 2, 3, 4], [5, (6 : Byte)]], o.length = 1)
    ∧ ∀ o ∈ [[1, 2, 3, 4], [5, (6 : Byte)]], o ≠ [] ∧ (o.length ≤ 8 ∨ 8 = 0) := by decide

/-! ### C49 -/

/-- Unsigned integers `n` of `k` bytes (the object representation on the host `native`), on every
resource that takes bytes: they are written in the byte order of the stream. -/
theorem C49_wire_format {ρ : Type} {W : Writer ρ} {fits : List Byte → Prop}
    {got out : List Byte → ρ → Prop}
    (C : W.Collects fits got out) (native : Endian) (s : OutStream ρ) (sofar : List Byte) (k n : Nat)
    (hk : 0 < k) (hf : fits (sofar ++ asBytes (s.endian.order.bytes k n))) (h : got sofar s.res) :
    ∃ r', writeValue native W (objectBytes native k n) s = (.ok (), { s with res := r' }) ∧
      got (sofar ++ asBytes (s.endian.order.bytes k n)) r' := by
  have hw : (if s.endian = native then objectBytes native k n else (objectBytes native k n).reverse) =
      asBytes (s.endian.order.bytes k n) := by
    rw [← objectBytes_eq]
    split
    · next hn => rw [hn]
    · next hn => rw [objectBytes_reverse native s.endian k n (fun h => hn h.symm)]
  have := writeValue_eq C native s sofar (objectBytes native k n) (by
    intro h0
    have := congrArg List.length h0
    rw [objectBytes_length] at this
    simp at this
    omega) (by rw [hw]; exact hf) h
  rw [hw] at this
  exact this

/-- The same on containers: what is on the wire does not depend on the host. -/
theorem C49_container (native e : Endian) (form : EncodingForm) (cap : Nat)
    (values : List (Nat × Nat)) (hk : ∀ v ∈ values, 0 < v.1) :
    written cap e form (writeValues native (values.map fun v => objectBytes native v.1 v.2)) =
      .ok (asBytes (values.flatMap fun v => e.order.bytes v.1 v.2)) := by
  rw [written_values native e form cap _ (by
    intro o ho
    obtain ⟨v, hv, rfl⟩ := List.mem_map.mp ho
    intro h0
    have h1 := congrArg List.length h0
    rw [objectBytes_length, List.length_nil] at h1
    have := hk v hv
    omega)]
  congr 1
  induction values with
  | nil => rfl
  | cons v vs ih =>
    rw [List.map_cons, List.flatMap_cons, ih (fun x hx => hk x (by simp [hx])), List.flatMap_cons,
      asBytes, asBytes, List.map_append]
    congr 1
    rw [← asBytes, ← objectBytes_eq, wireBytes]
    split
    · next hn => rw [hn]
    · next hn => exact objectBytes_reverse native e _ _ (fun h => hn h.symm)

/-- The number 0x01020304 and the number 5 in two bytes, written by either host. -/
example : written 3 .big .utf8 (writeValues .little [objectBytes .little 4 0x01020304,
      objectBytes .little 2 5]) = .ok [1, 2, 3, 4, 0, 5]
    ∧ written 3 .big .utf8 (writeValues .big [objectBytes .big 4 0x01020304,
      objectBytes .big 2 5]) = .ok [1, 2, 3, 4, 0, 5] := by decide +kernel

/-! ### C58 -/

section Truncation

variable {ρ : Type} {R : Reader ρ} {sizes : Nat → Prop} {tells : Bool}
  {left : List Byte → ρ → Prop}

/-- Values: when not all of the value is there, `read_past_end` is thrown, and otherwise what is
delivered is made of the next bytes. -/
theorem C58_values (D : R.Delivers sizes tells left) (native : Endian) (s : InStream ρ)
    (bs : List Byte) (n : Nat) (hn : 0 < n) (hs : sizes n) (h : left bs s.res) :
    (bs.length < n → (readValue native R n s).1 = .throw .readPastEnd)
    ∧ (n ≤ bs.length → (readValue native R n s).1 = .ok (bs.take n)) := by
  constructor
  · intro hl
    obtain ⟨r', array, e, -⟩ := read_short D native s bs n hl hs h
    rw [readValue, M.bind_ok e]
    simp only [hl, if_true, M.throw_apply]
  · intro hl
    have hl' : (bs.take n).length = n := by simp; omega
    obtain ⟨r', e, -⟩ := readValue_full D native s (bs.take n) (bs.drop n) (by
      intro h0
      rw [h0] at hl'
      simp at hl'
      omega) (by rw [hl']; exact hs) (by rw [List.take_append_drop]; exact h)
    rw [hl'] at e
    rw [e]

theorem units_length (o : Spec.ByteOrder) (k n : Nat) (l : List Nat) :
    (o.units k n l).length * k ≤ l.length := by
  induction n generalizing l with
  | zero => simp [Spec.ByteOrder.units]
  | succ n ih =>
    rw [Spec.ByteOrder.units]
    split
    · simp
    · have := ih (l.drop k)
      simp only [List.length_cons, List.length_drop, Nat.succ_mul] at this ⊢
      omega

/-- A complete code point is within the bytes. -/
theorem scanBytes_length (f : EncodingForm) (o : Spec.ByteOrder) (l : List Nat) (v n : Nat)
    (h : f.form.scanBytes o l = .complete v n) : n * f.form.unitSize ≤ l.length := by
  cases f with
  | utf8 =>
    have := scan8_length l v n h
    simp only [EncodingForm.form, Spec.Form.unitSize]
    omega
  | utf16 =>
    have h1 := scan16_length _ v n h
    have h2 := units_length o 2 2 l
    simp only [EncodingForm.form, Spec.Form.unitSize]
    have := Nat.mul_le_mul_right 2 h1.2
    omega
  | utf32 =>
    simp only [EncodingForm.form, Spec.Form.scanBytes] at h
    have h2 := units_length o 4 1 l
    cases hu : o.units 4 1 l with
    | nil => rw [hu] at h; simp at h
    | cons u us =>
      rw [hu] at h h2
      simp only [Spec.Scan.complete.injEq] at h
      simp only [EncodingForm.form, Spec.Form.unitSize, List.length_cons] at h2 ⊢
      omega

/-- Code points, from any bytes: if the bytes end inside a code point, `read_past_end` is thrown;
and a code point that is delivered is what the bytes begin with, completely present. -/
theorem C58_code_points (D : R.Delivers sizes tells left) (native : Endian) (s : InStream ρ)
    (hs : sizes s.form.form.unitSize) (bs : List Byte) (h : left bs s.res) :
    (s.form.form.scanBytes s.endian.order (nats bs) = .truncated →
      (readCodePoint native R s).1 = .throw .readPastEnd)
    ∧ ∀ c s', readCodePoint native R s = (.ok c, s') →
      ∃ v n, s.form.form.scanBytes s.endian.order (nats bs) = .complete v n ∧
        c = BitVec.ofNat 32 v ∧ n * s.form.form.unitSize ≤ bs.length := by
  have hr := readCodePoint_scan D native s hs bs h
  constructor
  · intro ht
    rw [ht] at hr
    obtain ⟨r', e, -⟩ := hr
    rw [e]
  · intro c s' e
    cases hsc : s.form.form.scanBytes s.endian.order (nats bs) with
    | complete v n =>
      rw [hsc] at hr
      obtain ⟨r', e', -⟩ := hr
      rw [e] at e'
      simp only [Prod.mk.injEq, Outcome.ok.injEq] at e'
      have := scanBytes_length _ _ _ v n hsc
      exact ⟨v, n, rfl, e'.1, by simpa [nats] using this⟩
    | malformed =>
      rw [hsc] at hr
      obtain ⟨r', m, e', -⟩ := hr
      rw [e] at e'
      simp at e'
    | truncated =>
      rw [hsc] at hr
      obtain ⟨r', e', -⟩ := hr
      rw [e] at e'
      simp at e'

/-- A UTF-8 sequence cut short. -/
theorem scan8_cut (c : Nat) (hc : Spec.IsScalar c) (k : Nat) (hk : k < (Spec.utf8 c).length) :
    Spec.scan8 ((Spec.utf8 c).take k) = .truncated := by
  have h1 := hc.1
  have h2 := hc.2
  unfold Spec.utf8 at hk ⊢
  by_cases c1 : c < 0x80
  · rw [if_pos c1] at hk ⊢
    simp at hk
    subst hk
    rfl
  rw [if_neg c1] at hk ⊢
  by_cases c2 : c < 0x800
  · rw [if_pos c2] at hk ⊢
    simp only [List.length_cons, List.length_nil] at hk
    rcases (show k = 0 ∨ k = 1 by omega) with rfl | rfl
    · rfl
    · simp only [List.take_succ_cons, List.take_zero, Spec.scan8]
      rw [if_neg (by omega), if_pos (by omega)]
      rfl
  rw [if_neg c2] at hk ⊢
  by_cases c3 : c < 0x10000
  · rw [if_pos c3] at hk ⊢
    simp only [List.length_cons, List.length_nil] at hk
    rcases (show k = 0 ∨ k = 1 ∨ k = 2 by omega) with rfl | rfl | rfl
    · rfl
    · simp only [List.take_succ_cons, List.take_zero, Spec.scan8]
      rw [if_neg (by omega), if_neg (by omega), if_pos (by omega)]
      rfl
    · simp only [List.take_succ_cons, List.take_zero, Spec.scan8]
      rw [if_neg (by omega), if_neg (by omega), if_pos (by omega), Spec.scanTail,
        if_pos (by omega)]
      rfl
  rw [if_neg c3] at hk ⊢
  simp only [List.length_cons, List.length_nil] at hk
  rcases (show k = 0 ∨ k = 1 ∨ k = 2 ∨ k = 3 by omega) with rfl | rfl | rfl | rfl
  · rfl
  · simp only [List.take_succ_cons, List.take_zero, Spec.scan8]
    rw [if_neg (by omega), if_neg (by omega), if_neg (by omega), if_pos (by omega)]
    rfl
  · simp only [List.take_succ_cons, List.take_zero, Spec.scan8]
    rw [if_neg (by omega), if_neg (by omega), if_neg (by omega), if_pos (by omega),
      Spec.scanTail, if_pos (by omega)]
    rfl
  · simp only [List.take_succ_cons, List.take_zero, Spec.scan8]
    rw [if_neg (by omega), if_neg (by omega), if_neg (by omega), if_pos (by omega),
      Spec.scanTail, if_pos (by omega), Spec.scanTail, if_pos (by omega)]
    rfl

/-- The serialisation of a code point cut short. -/
theorem scanBytes_cut (f : EncodingForm) (o : Endian) (c : Nat) (hc : Spec.IsScalar c) (k : Nat)
    (hk : k < (cpBytes f o c).length) :
    f.form.scanBytes o.order (nats ((cpBytes f o c).take k)) = .truncated := by
  have e : nats (cpBytes f o c) =
      (f.form.encode1 c).flatMap (o.order.bytes f.form.unitSize) := nats_flatMap _ _ _
  have e2 : nats ((cpBytes f o c).take k) = (nats (cpBytes f o c)).take k := by simp [nats]
  have hlen : (cpBytes f o c).length = (f.form.encode1 c).length * f.form.unitSize :=
    (scanBytes_cp f o c hc []).2.symm
  rw [e2, e]
  cases f with
  | utf8 =>
    simp only [EncodingForm.form, Spec.Form.scanBytes, Spec.Form.unitSize, Spec.Form.encode1]
      at hlen ⊢
    rw [flatMap_bytes_one _ _ (utf8_bound c hc)]
    exact scan8_cut c hc k (by omega)
  | utf16 =>
    simp only [EncodingForm.form, Spec.Form.scanBytes, Spec.Form.unitSize, Spec.Form.encode1]
      at hlen ⊢
    have hb := utf16_bound c hc
    by_cases h2 : k < 2
    · rw [Spec.ByteOrder.units, if_pos (by simp; omega)]
      rfl
    · have h1 := hc.1
      have hc2 := hc.2
      unfold Spec.utf16 at hlen hb ⊢
      split
      · next h => rw [if_pos h] at hlen; simp at hlen; omega
      · next h =>
        rw [if_neg h] at hlen hb
        simp only [List.length_cons, List.length_nil] at hlen
        simp only [List.flatMap_cons, List.flatMap_nil, List.append_nil]
        rw [List.take_append, List.take_of_length_le (by rw [bytes_length]; omega), bytes_length]
        have := units_serialized o 2 [0xD800 + (c - 0x10000) / 1024] (by
          intro u hu
          simp at hu
          omega) (List.take (k - 2) (o.order.bytes 2 (0xDC00 + (c - 0x10000) % 1024))) 1
        simp only [List.flatMap_cons, List.flatMap_nil, List.append_nil, List.length_cons,
          List.length_nil, Nat.zero_add] at this
        rw [this, Spec.ByteOrder.units, if_pos (by simp; omega)]
        simp only [List.cons_append, List.nil_append, Spec.scan16]
        rw [if_pos (by omega)]
        rfl
  | utf32 =>
    simp only [EncodingForm.form, Spec.Form.scanBytes, Spec.Form.unitSize, Spec.Form.encode1,
      Spec.utf32, List.length_cons, List.length_nil] at hlen ⊢
    rw [Spec.ByteOrder.units, if_pos (by simp; omega)]

/-- Every cut inside the serialisation of a scalar value is reported. -/
theorem C58_cut (D : R.Delivers sizes tells left) (native : Endian) (s : InStream ρ)
    (hs : sizes s.form.form.unitSize) (c : Nat) (hc : Spec.IsScalar c) (k : Nat)
    (hk : k < (textBytes s.form s.endian [c]).length)
    (h : left ((textBytes s.form s.endian [c]).take k) s.res) :
    (readCodePoint native R s).1 = .throw .readPastEnd
    ∧ (readFiltered native R s).1 = .throw .readPastEnd := by
  rw [textBytes_cons, textBytes_nil, List.append_nil] at hk h
  have h1 := (C58_code_points D native s hs _ h).1 (scanBytes_cut s.form s.endian c hc k hk)
  refine ⟨h1, ?_⟩
  cases e : readCodePoint native R s with
  | mk o s' =>
    rw [e] at h1
    simp only at h1
    subst h1
    rw [readFiltered, M.bind_throw e]

end Truncation

/-- The euro sign in UTF-16 and an emoji in UTF-8 cut short. -/
example : received 4 [0x20] .big .utf16 (readFiltered .little Ctr.reader) = .throw .readPastEnd
    ∧ received 4 [0xF0, 0x9F, 0x98] .big .utf8 (readFiltered .little Ctr.reader) =
      .throw .readPastEnd
    ∧ received 4 [0xF0, 0x9F, 0x98, 0x80] .big .utf8 (readFiltered .little Ctr.reader) =
      .ok 0x1F600#32
    ∧ received 4 [1, 2, 3] .big .utf8 (readValue .little Ctr.reader 4) = .throw .readPastEnd := by
  decide +kernel

end Cmp
