import Verif.Model.Text
import Verif.Spec.Resource

/-
Streams over resources that deliver or collect bytes.
-/

namespace Cmp

/-! ### Inverting -/

theorem swapAt_ends {α : Type} (pre m post : List α) (a b : α) :
    swapAt (pre ++ a :: (m ++ b :: post)) pre.length (pre.length + m.length + 1) =
      .ok (pre ++ b :: (m ++ a :: post)) := by
  have h1 : (pre ++ a :: (m ++ b :: post))[pre.length]? = some a := by simp
  have h2 : (pre ++ a :: (m ++ b :: post))[pre.length + m.length + 1]? = some b := by
    rw [Nat.add_assoc, List.getElem?_append_right (by omega), Nat.add_sub_cancel_left]
    simp
  simp only [swapAt, h1, h2]
  rw [List.set_append_right _ _ (by omega), Nat.sub_self, List.set_cons_zero,
    Nat.add_assoc, List.set_append_right _ _ (by omega), Nat.add_sub_cancel_left,
    List.set_cons_succ, List.set_append_right _ _ (by omega), Nat.sub_self, List.set_cons_zero]

theorem invertLoop_eq {α : Type} : ∀ (n : Nat) (fuel : Nat) (pre mid post : List α),
    mid.length = n → n ≤ fuel → 0 < pre.length + n →
    invertLoop fuel (pre ++ mid ++ post) pre.length (pre.length + n - 1) =
      .ok (pre ++ mid.reverse ++ post) := by
  intro n
  induction n using Nat.strongRecOn with
  | _ n ih =>
    intro fuel pre mid post hm hf hp
    by_cases h2 : n < 2
    · have hlt : ¬ pre.length < pre.length + n - 1 := by omega
      have hr : mid.reverse = mid := by
        match mid, hm with
        | [], _ => rfl
        | [_], _ => rfl
        | _ :: _ :: _, h => simp at h; omega
      rw [hr]
      cases fuel <;> simp only [invertLoop, if_neg hlt]
    · obtain ⟨fuel, rfl⟩ : ∃ k, fuel = k + 1 := ⟨fuel - 1, by omega⟩
      have hlt : pre.length < pre.length + n - 1 := by omega
      match mid, hm with
      | [], h => simp at h; omega
      | a :: t, hm =>
        have ht : t ≠ [] := by intro h; subst h; simp at hm; omega
        obtain ⟨m, b, rfl⟩ : ∃ m b, t = m ++ [b] := ⟨_, _, (List.dropLast_concat_getLast ht).symm⟩
        have hml : m.length + 2 = n := by simpa using hm
        simp only [invertLoop, if_pos hlt]
        have hs := swapAt_ends pre m post a b
        rw [show pre ++ a :: (m ++ [b]) ++ post = pre ++ a :: (m ++ b :: post) by simp,
          show pre.length + n - 1 = pre.length + m.length + 1 by omega, hs, Outcome.ok_bind]
        have := ih m.length (by omega) fuel (pre ++ [b]) m (a :: post) rfl (by omega) (by simp)
        simp only [List.length_append, List.length_cons, List.length_nil, List.append_assoc,
          List.singleton_append] at this
        rw [show pre.length + 0 + 1 + m.length - 1 = pre.length + m.length + 1 - 1 by omega] at this
        rw [List.append_cons, List.append_cons] at this ⊢
        simpa using this

theorem invertEndianness_eq {α : Type} (pre mid post : List α) (h : 0 < pre.length + mid.length) :
    invertEndianness (pre ++ mid ++ post) pre.length mid.length =
      .ok (pre ++ mid.reverse ++ post) := by
  rw [invertEndianness, if_neg (by omega)]
  exact invertLoop_eq mid.length mid.length pre mid post rfl (Nat.le_refl _) h

theorem invertEndianness_all {α : Type} (l : List α) (h : l ≠ []) :
    invertEndianness l 0 l.length = .ok l.reverse := by
  have := invertEndianness_eq [] l [] (by simpa using List.length_pos_iff.mpr h)
  simpa using this

/-! ### Object representations -/

theorem bytes_reverse (k n : Nat) :
    Spec.ByteOrder.big.bytes k n = (Spec.ByteOrder.little.bytes k n).reverse := by
  simp only [Spec.ByteOrder.bytes]
  rw [← List.map_reverse]
  apply List.ext_getElem
  · simp
  · intro i h1 h2
    simp only [List.getElem_map, List.getElem_range, List.getElem_reverse, List.length_range]

theorem ofNat_mod (n : Nat) : BitVec.ofNat 8 (n % 256) = BitVec.ofNat 8 n := by
  apply BitVec.eq_of_toNat_eq; simp

theorem objectBytes_eq (o : Endian) (k n : Nat) :
    objectBytes o k n = asBytes (o.order.bytes k n) := by
  cases o with
  | little =>
    simp only [objectBytes, asBytes, Endian.order, Spec.ByteOrder.bytes, List.map_map]
    congr 1
    funext i
    exact (ofNat_mod _).symm
  | big =>
    simp only [objectBytes, asBytes, Endian.order]
    rw [bytes_reverse, List.map_reverse]
    congr 1
    simp only [Spec.ByteOrder.bytes, List.map_map]
    congr 1
    funext i
    exact (ofNat_mod _).symm

theorem objectBytes_length (o : Endian) (k n : Nat) : (objectBytes o k n).length = k := by
  cases o <;> simp [objectBytes]

theorem objectBytes_reverse (o p : Endian) (k n : Nat) (h : o ≠ p) :
    (objectBytes o k n).reverse = objectBytes p k n := by
  cases o <;> cases p <;> simp_all [objectBytes]

theorem objectValue_reverse (o p : Endian) (l : List Byte) (h : o ≠ p) :
    objectValue o l.reverse = objectValue p l := by
  cases o <;> cases p <;> simp_all [objectValue]

/-- The numbers of bytes. -/
abbrev nats (l : List Byte) : List Nat := l.map BitVec.toNat

theorem littleValue_eq (l : List Byte) : littleValue l = Spec.ByteOrder.little.value (nats l) := by
  induction l with
  | nil => rfl
  | cons b l ih =>
    simp only [littleValue, ih, Spec.ByteOrder.value, nats, List.map_cons, List.foldr_cons]
    omega

theorem objectValue_eq (o : Endian) (l : List Byte) :
    objectValue o l = o.order.value (nats l) := by
  cases o with
  | little => exact littleValue_eq l
  | big =>
    simp only [objectValue, littleValue_eq, Endian.order, Spec.ByteOrder.value, nats,
      List.map_reverse, List.foldr_reverse]

theorem littleValue_objectBytes (k n : Nat) :
    littleValue (objectBytes .little k n) = n % 256 ^ k := by
  induction k generalizing n with
  | zero => simp [objectBytes, littleValue, Nat.mod_one]
  | succ k ih =>
    have : objectBytes .little (k + 1) n =
        BitVec.ofNat 8 n :: objectBytes .little k (n / 256) := by
      simp only [objectBytes, List.range_succ_eq_map, List.map_cons, List.map_map]
      congr 1
      · simp
      · congr 1
        funext i
        simp only [Function.comp]
        rw [Nat.pow_succ', Nat.div_div_eq_div_mul]
    rw [this, littleValue, ih]
    simp only [BitVec.toNat_ofNat]
    rw [Nat.pow_succ' (m := 256)]
    exact (Nat.mod_mul (a := 256) (b := 256 ^ k) (x := n)).symm

theorem objectValue_objectBytes (o : Endian) (k n : Nat) :
    objectValue o (objectBytes o k n) = n % 256 ^ k := by
  cases o with
  | little => exact littleValue_objectBytes k n
  | big =>
    show littleValue (objectBytes .big k n).reverse = _
    rw [objectBytes_reverse .big .little k n (by decide)]
    exact littleValue_objectBytes k n

theorem objectValue_lt (o : Endian) (l : List Byte) : objectValue o l < 256 ^ l.length := by
  have : ∀ l, littleValue l < 256 ^ l.length := by
    intro l
    induction l with
    | nil => simp [littleValue]
    | cons b l ih =>
      have := b.isLt
      simp only [littleValue, List.length_cons, Nat.pow_succ]
      omega
  cases o with
  | little => exact this l
  | big => simpa [objectValue] using this l.reverse

theorem toNat_asBytes (l : List Nat) (h : ∀ b ∈ l, b < 256) : nats (asBytes l) = l := by
  induction l with
  | nil => rfl
  | cons b l ih =>
    simp only [asBytes, nats, List.map_cons, List.map_map] at ih ⊢
    rw [ih (fun c hc => h c (by simp [hc]))]
    congr 1
    have := h b (by simp)
    simp only [BitVec.toNat_ofNat]
    omega

theorem asBytes_nats (l : List Byte) : asBytes (nats l) = l := by
  induction l with
  | nil => rfl
  | cons b l ih =>
    simp only [asBytes, nats, List.map_cons] at ih ⊢
    rw [ih]
    simp

/-! ### Input -/

namespace InStream

variable {ρ : Type}

theorem loaded_map (l : List Byte) : loaded (l.map some) = .ok l := by
  induction l with
  | nil => rfl
  | cons b l ih => simp [loaded, ih]

variable {R : Reader ρ} {sizes : Nat → Prop} {tells : Bool} {left : List Byte → ρ → Prop}

theorem invertIf_eq (native : Endian) (array : List (Option Byte)) (s : InStream ρ)
    (h : array ≠ []) :
    invertIf native array s = (.ok (if s.endian = native then array else array.reverse), s) := by
  simp only [invertIf]
  split
  · rfl
  · rw [invertEndianness_all array h]

/-- A read of `n` bytes of which all are there. -/
theorem read_full (D : R.Delivers sizes tells left) (native : Endian) (s : InStream ρ)
    (b rest : List Byte) (n : Nat) (hb : b.length = n) (hn : 0 < n) (hs : sizes n)
    (h : left (b ++ rest) s.res) :
    ∃ r', read native R n s =
        (.ok (n, (if s.endian = native then b else b.reverse).map some), { s with res := r' }) ∧
      left rest r' := by
  obtain ⟨r', e, h'⟩ := D.read _ _ n hs h
  rw [List.take_left' hb] at e
  rw [List.drop_left' hb] at h'
  refine ⟨r', ?_, h'⟩
  have he : onRes (R.read n) s = (.ok ⟨b, b.length⟩, { s with res := r' }) := by
    simp only [onRes, e]
  have ht : (b.map some ++ List.replicate n none).take n = b.map some := by
    rw [List.take_left' (by simpa using hb)]
  have hne : b.map some ≠ [] := by
    intro h0
    simp only [List.map_eq_nil_iff] at h0
    subst h0
    simp at hb
    omega
  rw [read, M.bind_ok he]
  simp only [ht]
  rw [M.bind_ok (invertIf_eq native _ { s with res := r' } hne)]
  simp only [M.pure_apply, hb]
  congr 3
  split
  · rfl
  · rw [List.map_reverse]

/-- A read of more bytes than there are. -/
theorem read_short (D : R.Delivers sizes tells left) (native : Endian) (s : InStream ρ)
    (b : List Byte) (n : Nat) (hb : b.length < n) (hs : sizes n) (h : left b s.res) :
    ∃ r' array, read native R n s = (.ok (b.length, array), { s with res := r' }) ∧ left [] r' := by
  obtain ⟨r', e, h'⟩ := D.read _ _ n hs h
  rw [List.take_of_length_le (by omega)] at e
  rw [List.drop_eq_nil_of_le (by omega)] at h'
  have he : onRes (R.read n) s = (.ok ⟨b, b.length⟩, { s with res := r' }) := by
    simp only [onRes, e]
  have hne : (b.map some ++ List.replicate n none).take n ≠ [] := by
    intro h0
    have := congrArg List.length h0
    simp at this
    omega
  have hr : ∃ array, read native R n s = (.ok (b.length, array), { s with res := r' }) := by
    rw [read, M.bind_ok he]
    simp only
    rw [M.bind_ok (invertIf_eq native _ { s with res := r' } hne)]
    exact ⟨_, rfl⟩
  obtain ⟨array, hr⟩ := hr
  exact ⟨r', array, hr, h'⟩

theorem isAtEnd_eq (D : R.Delivers sizes tells left) (s : InStream ρ) (bs : List Byte)
    (h : left bs s.res) : isAtEnd R s = (.ok (tells && bs.isEmpty), s) := by
  simp only [isAtEnd, D.isAtEnd bs s.res h, Outcome.noexcept_ok]

theorem readUnit_full (D : R.Delivers sizes tells left) (native : Endian) (s : InStream ρ)
    (b rest : List Byte) (k : Nat) (hb : b.length = k) (hk : 0 < k) (hs : sizes k)
    (h : left (b ++ rest) s.res) :
    ∃ r', readUnit native R k s = (.ok (some (objectValue s.endian b)), { s with res := r' }) ∧
      left rest r' := by
  obtain ⟨r', e, h'⟩ := read_full D native s b rest k hb hk hs h
  refine ⟨r', ?_, h'⟩
  rw [readUnit, M.bind_ok e]
  simp only [Nat.lt_irrefl, if_false, loaded_map]
  rw [M.bind_ok (M.lift_apply _ _)]
  simp only [M.pure_apply]
  congr 3
  split
  · next h => rw [h]
  · next h => exact objectValue_reverse _ _ _ (fun e => h e.symm)

theorem readUnit_short (D : R.Delivers sizes tells left) (native : Endian) (s : InStream ρ)
    (b : List Byte) (k : Nat) (hb : b.length < k) (hs : sizes k) (h : left b s.res) :
    ∃ r', readUnit native R k s = (.ok none, { s with res := r' }) ∧ left [] r' := by
  obtain ⟨r', array, e, h'⟩ := read_short D native s b k hb hs h
  refine ⟨r', ?_, h'⟩
  rw [readUnit, M.bind_ok e]
  simp only [hb, if_true, M.pure_apply]

end InStream

/-! ### Output -/

namespace OutStream

variable {ρ : Type} {W : Writer ρ} {fits : List Byte → Prop} {got out : List Byte → ρ → Prop}

theorem write_eq (C : W.Collects fits got out) (s : OutStream ρ) (w bytes : List Byte)
    (hf : fits (w ++ bytes)) (h : got w s.res) :
    ∃ n r', write W bytes s = (.ok n, { s with res := r' }) ∧ got (w ++ bytes) r' := by
  obtain ⟨n, r', e, h'⟩ := C.write w s.res bytes hf h
  exact ⟨n, r', by simp only [write, onRes, e], h'⟩

theorem reverseWrite_eq (C : W.Collects fits got out) (s : OutStream ρ) (w bytes : List Byte)
    (hb : bytes ≠ []) (hf : fits (w ++ bytes.reverse)) (h : got w s.res) :
    ∃ n r', reverseWrite W bytes s = (.ok n, { s with res := r' }) ∧
      got (w ++ bytes.reverse) r' := by
  obtain ⟨n, r', e, h'⟩ := C.write w s.res bytes.reverse hf h
  refine ⟨n, r', ?_, h'⟩
  rw [reverseWrite, invertEndianness_all bytes hb, M.bind_ok (M.lift_apply _ _)]
  simp only [onRes, e]

theorem flush_eq (C : W.Collects fits got out) (s : OutStream ρ) (w : List Byte)
    (h : got w s.res) : ∃ r', flush W s = (.ok (), { s with res := r' }) ∧ out w r' := by
  obtain ⟨r', e, h'⟩ := C.flush w s.res h
  exact ⟨r', by simp only [flush, onRes, e], h'⟩

/-- A value is written in the byte order of the stream. -/
theorem writeValue_eq (C : W.Collects fits got out) (native : Endian) (s : OutStream ρ)
    (w object : List Byte) (ho : object ≠ [])
    (hf : fits (w ++ if s.endian = native then object else object.reverse)) (h : got w s.res) :
    ∃ r', writeValue native W object s = (.ok (), { s with res := r' }) ∧
      got (w ++ if s.endian = native then object else object.reverse) r' := by
  rw [writeValue, M.bind_ok (M.get_apply s)]
  split
  · next hn =>
    rw [if_pos hn] at hf
    obtain ⟨n, r', e, h'⟩ := write_eq C s w object hf h
    exact ⟨r', by rw [M.bind_ok e]; rfl, h'⟩
  · next hn =>
    rw [if_neg hn] at hf
    obtain ⟨n, r', e, h'⟩ := reverseWrite_eq C s w object ho hf h
    exact ⟨r', by rw [M.bind_ok e]; rfl, h'⟩

end OutStream

end Cmp
