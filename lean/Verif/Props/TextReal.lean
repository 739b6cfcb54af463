import Verif.Props.TextValues
import Verif.Props.Float

/-
Property C78: floating-point numbers through text streams.
-/

namespace Cmp

open InStream OutStream IntTy

/-- The numbers for which the formatter is right and does not round: an integral part within
`long long`, not negative unless an integer, and few binary places (up to 47 for `double`, 18 for
`float`). -/
def Printable (F : Spec.BinFmt) (x : ℚ) : Prop :=
  F.Has x ∧ llong.Has ⌊x⌋ ∧ ⌊x⌋ ≠ llong.min ∧ (0 ≤ x ∨ ∃ z : Int, x = z)
    ∧ ∃ (k : Nat) (m : Int), k + 6 ≤ F.prec ∧ x = m / 2 ^ k

/-- What comes back: integers exactly, other numbers with a relative error of at most 2⁻⁴⁶ for
`double`, 2⁻¹⁷ for `float`. -/
def ComesBackAs (F : Spec.BinFmt) (x y : ℚ) : Prop :=
  ((∃ z : Int, x = z) → y = x) ∧ |y - x| ≤ |x| / 2 ^ (F.prec - 7)

theorem realNumeral_visible {cs : List Nat} {neg : Bool} {ds fs : List Nat}
    (h : Spec.RealNumeral 10 none false 46 none cs neg ds fs) : cs ≠ [] ∧ Visible cs := by
  obtain ⟨head, ⟨sign, body, rfl, ⟨hne, _, chars, hm, hb⟩, hsign⟩, _, hcs⟩ := h
  have hb : body = chars := hb
  subst hb
  have hdig : ∀ (l ds : List Nat), l.map Spec.digitValue = ds.map some → Visible l := by
    intro l ds hl c hc
    obtain ⟨d, hd⟩ := mem_digits hl hc
    have := digitValue_cases hd
    omega
  have hbody := hdig body ds hm
  have hhead : Visible (sign ++ body) := by
    intro c hc
    rcases List.mem_append.mp hc with hc | hc
    · rcases hsign with ⟨rfl, _⟩ | ⟨rfl, _⟩ | ⟨rfl, _⟩ <;> simp at hc <;> omega
    · exact hbody c hc
  have hbne : body ≠ [] := by
    rintro rfl
    simp at hm
    exact hne hm
  rcases hcs with ⟨rfl, -⟩ | ⟨tail, rfl, ht⟩
  · exact ⟨by simp [hbne], hhead⟩
  · refine ⟨by simp, ?_⟩
    intro c hc
    rcases List.mem_append.mp hc with hc | hc
    · exact hhead c hc
    · rcases List.mem_cons.mp hc with rfl | hc
      · omega
      · exact hdig tail fs ht c hc

/-- The constants of the two formats leave room for all places that can occur. -/
theorem format_room {F : Spec.BinFmt} (hF : F.Std) (l : Nat) (hl : l + 6 ≤ F.prec) (V : ℚ)
    (hV : V ≤ 2 ^ 63) :
    (2 : ℚ) ^ (F.emin + F.prec - 1) ≤
        ((1 - 1 / 2 ^ F.prec) / ((1 + 1 / 2 ^ F.prec) * (10 : Nat))) ^ (l + 1)
    ∧ (V + (10 : Nat)) * ((1 + 1 / 2 ^ F.prec) / (1 - 1 / 2 ^ F.prec) * (10 : Nat)) ^ (l + 1)
        ≤ 2 ^ (F.emax - 1)
    ∧ (1 + 1 / 2 ^ F.prec) ^ (l + 1) / (1 - 1 / 2 ^ F.prec) ^ l ≤ 1 + 1 / (2 : ℚ) ^ (F.prec - 7)
    ∧ 1 - 1 / (2 : ℚ) ^ (F.prec - 7) ≤
        (1 - 1 / 2 ^ F.prec) ^ (l + 1) / (1 + 1 / 2 ^ F.prec) ^ l := by
  obtain ⟨u, hu⟩ : ∃ u : ℚ, u = 1 / 2 ^ F.prec := ⟨_, rfl⟩
  have hu0 : 0 < u := by rw [hu]; positivity
  have hu1 : u ≤ 1 / 2 := by
    rw [hu]
    rcases hF with rfl | rfl <;> norm_num [Spec.binary32, Spec.binary64]
  rw [← hu]
  obtain ⟨L, hL⟩ : ∃ L, L = F.prec - 6 := ⟨_, rfl⟩
  have hlL : l ≤ L := by omega
  -- everything is monotone in the number of places
  have m1 : ((1 - u) / ((1 + u) * (10 : Nat))) ^ (L + 1) ≤
      ((1 - u) / ((1 + u) * (10 : Nat))) ^ (l + 1) := by
    apply pow_le_pow_of_le_one
    · exact div_nonneg (by linarith) (by positivity)
    · rw [div_le_one (by positivity)]
      push_cast
      linarith
    · omega
  have m2 : ((1 + u) / (1 - u) * (10 : Nat)) ^ (l + 1) ≤
      ((1 + u) / (1 - u) * (10 : Nat)) ^ (L + 1) := by
    apply pow_le_pow_right₀
    · have : 1 ≤ (1 + u) / (1 - u) := by
        rw [le_div_iff₀ (by linarith)]
        linarith
      push_cast
      linarith
    · omega
  have m3 : (1 + u) ^ (l + 1) / (1 - u) ^ l ≤ (1 + u) ^ (L + 1) / (1 - u) ^ L := by
    apply div_le_div₀
    · positivity
    · exact pow_le_pow_right₀ (by linarith) (by omega)
    · exact pow_pos (by linarith) _
    · exact pow_le_pow_of_le_one (by linarith) (by linarith) hlL
  have m4 : (1 - u) ^ (L + 1) / (1 + u) ^ L ≤ (1 - u) ^ (l + 1) / (1 + u) ^ l := by
    apply div_le_div₀
    · exact pow_nonneg (by linarith) _
    · exact pow_le_pow_of_le_one (by linarith) (by linarith) (by omega)
    · positivity
    · exact pow_le_pow_right₀ (by linarith) hlL
  have c : (2 : ℚ) ^ (F.emin + F.prec - 1) ≤ ((1 - u) / ((1 + u) * (10 : Nat))) ^ (L + 1)
      ∧ (2 ^ 63 + (10 : Nat)) * ((1 + u) / (1 - u) * (10 : Nat)) ^ (L + 1) ≤ 2 ^ (F.emax - 1)
      ∧ (1 + u) ^ (L + 1) / (1 - u) ^ L ≤ 1 + 1 / (2 : ℚ) ^ (F.prec - 7)
      ∧ 1 - 1 / (2 : ℚ) ^ (F.prec - 7) ≤ (1 - u) ^ (L + 1) / (1 + u) ^ L := by
    rw [hu, hL]
    rcases hF with rfl | rfl
    · refine ⟨?_, ?_, ?_, ?_⟩ <;> norm_num [Spec.binary32]
    · have h1 : (2 : ℚ) ^ (Spec.binary64.emin + Spec.binary64.prec - 1) ≤ (2 : ℚ) ^ (-200 : Int) :=
        zpow_le_zpow_right₀ (by norm_num) (by norm_num [Spec.binary64])
      have h2 : (2 : ℚ) ^ 250 ≤ 2 ^ (Spec.binary64.emax - 1) :=
        pow_le_pow_right₀ (by norm_num) (by norm_num [Spec.binary64])
      refine ⟨h1.trans ?_, le_trans ?_ h2, ?_, ?_⟩ <;> norm_num [Spec.binary64]
  refine ⟨c.1.trans m1, ?_, m3.trans c.2.2.1, c.2.2.2.trans m4⟩
  refine le_trans (mul_le_mul (b := 2 ^ 63 + ((10 : Nat) : ℚ)) (by linarith) m2 ?_ ?_) c.2.1
  · apply pow_nonneg
    exact mul_nonneg (div_nonneg (by linarith) (by linarith)) (by norm_num)
  · norm_num

/-- A number of the format and its text. -/
theorem real_numeral (e : Enc) {F : Spec.BinFmt} {rnd : ℚ → ℚ} {x : ℚ} (hF : F.Std)
    (hr : F.Rounding rnd) (hx : Printable F x) :
    ∃ t neg ds fs, FormatsTo e rnd x .default t
      ∧ Spec.RealNumeral 10 none false 46 none t neg ds fs
      ∧ (ds.head? = some 0 → ds = [0]) ∧ Spec.denoteReal 10 neg ds fs = x
      ∧ fs.length + 6 ≤ F.prec ∧ ((∃ z : Int, x = z) → fs = [])
      ∧ ((¬ ∃ z : Int, x = z) → neg = false) := by
  obtain ⟨h1, h2, h3, h4, k, m, hk, hm⟩ := hx
  have key := (C27_partial e F rnd .default x hF hr.1 ⟨by decide, by decide⟩ h1 h2 h3 h4
    (.inr ⟨k, m, hk, hm⟩)).1 rfl
  by_cases hz : ∃ z : Int, x = z
  · obtain ⟨z, hz'⟩ := hz
    obtain ⟨t, ht, neg, ds, fs, hn, hd, hv, hl⟩ := key 0 ⟨z, by simp [hz']⟩
    have hfs : fs = [] := List.length_eq_zero_iff.mp (by omega)
    exact ⟨t, neg, ds, fs, ht, hn, hd, hv, by simp [hfs]; omega, fun _ => hfs,
      fun h => absurd ⟨z, hz'⟩ h⟩
  · obtain ⟨t, ht, neg, ds, fs, hn, hd, hv, hl⟩ := key k ⟨m * 5 ^ k, by
      have : ((FloatFormat.default.radix : Nat) : ℚ) = 2 * 5 := by norm_num [FloatFormat.default]
      rw [hm, this, mul_pow]
      field_simp
      push_cast
      ring⟩
    refine ⟨t, neg, ds, fs, ht, hn, hd, hv, by omega, fun h => absurd h hz, fun _ => ?_⟩
    cases neg with
    | false => rfl
    | true =>
      exfalso
      have h0 : x ≤ 0 := by
        rw [← hv]
        have : (0 : ℚ) ≤ Spec.fraction 10 fs := by unfold Spec.fraction; positivity
        show Spec.denoteReal 10 true ds fs ≤ 0
        unfold Spec.denoteReal
        rw [if_pos rfl]
        have h2 : (0 : ℚ) ≤ Spec.positional 10 ds := by positivity
        linarith
      rcases h4 with h4 | h4
      · exact hz ⟨0, by simpa using le_antisymm h0 h4⟩
      · exact hz h4

/-- Such a number is read back. -/
theorem real_parsed {F : Spec.BinFmt} {rnd : ℚ → ℚ} {x : ℚ} (hF : F.Std) (hr : F.Rounding rnd)
    (hx : Printable F x) {t : List Nat} {neg : Bool} {ds fs : List Nat}
    (hn : Spec.RealNumeral 10 none false 46 none t neg ds fs) (hd : ds.head? = some 0 → ds = [0])
    (hv : Spec.denoteReal 10 neg ds fs = x) (hl : fs.length + 6 ≤ F.prec)
    (hint : (∃ z : Int, x = z) → fs = []) (hnon : (¬ ∃ z : Int, x = z) → neg = false) :
    ∃ y, parseFloat .char8 rnd (encs .char8 t) .default = .ok y ∧ ComesBackAs F x y := by
  obtain ⟨hvis1, hvis⟩ := realNumeral_visible hn
  have hfr : (0 : ℚ) ≤ Spec.fraction 10 fs ∧ Spec.fraction 10 fs < 1 := by
    obtain ⟨_, _, hfd, _⟩ := hn
    exact fraction_bounds (by omega) fs hfd
  have hpos : ((Spec.positional 10 ds : Nat) : Int) ≤ llong.max := by
    have hmx : llong.max = 9223372036854775807 := by decide
    have hmn : llong.min = -9223372036854775808 := by decide
    have hll := hx.2.1
    have hmin := hx.2.2.1
    rw [hmx]
    cases neg with
    | false =>
      rw [Spec.denoteReal, if_neg (by simp)] at hv
      have : ((Spec.positional 10 ds : Int) : ℚ) ≤ x := by
        push_cast
        linarith [hfr.1]
      have := Int.le_floor.mpr this
      have h2 := hll.2
      rw [hmx] at h2
      omega
    | true =>
      have hfs : fs = [] := by
        by_cases hz : ∃ z : Int, x = z
        · exact hint hz
        · exact absurd (hnon hz) (by simp)
      rw [Spec.denoteReal, if_pos rfl, hfs, Spec.fraction_nil, add_zero] at hv
      have hfl : ⌊x⌋ = -(Spec.positional 10 ds : Int) := by
        rw [← hv, ← Int.cast_natCast, ← Int.cast_neg, Int.floor_intCast]
      have h2 := hll.1
      rw [hmn] at h2 hmin
      omega
  have hne : ds ≠ [] := by
    obtain ⟨_, ⟨_, _, _, ⟨h, _⟩, _⟩, _⟩ := hn
    exact h
  have hplace : ((10 ^ (ds.length - 1) : Nat) : Int) ≤ llong.max := by
    by_cases h0 : ds.head? = some 0
    · rw [hd h0]; decide
    · have := place_le (r := 10) ds hne h0
      omega
  have hV : Spec.denoteReal 10 false ds fs ≤ 2 ^ 63 := by
    have h1 : (Spec.positional 10 ds : Int) + 1 ≤ 2 ^ 63 := by
      have : llong.max = 2 ^ 63 - 1 := by decide
      omega
    have h2 : (Spec.positional 10 ds : ℚ) + 1 ≤ 2 ^ 63 := by exact_mod_cast h1
    show (Spec.positional 10 ds : ℚ) + Spec.fraction 10 fs ≤ 2 ^ 63
    linarith [hfr.2]
  obtain ⟨r1, r2, r3, r4⟩ := format_room hF fs.length hl _ hV
  have hprec : (1 : ℚ) / 2 ^ F.prec ≤ 1 / 2 := by
    rcases hF with rfl | rfl <;> norm_num [Spec.binary32, Spec.binary64]
  have hr' : ∀ q : ℚ, q = 0 ∨ ((2 : ℚ) ^ (F.emin + F.prec - 1) ≤ q ∧ q ≤ 2 ^ (F.emax - 1)) →
      (1 - 1 / 2 ^ F.prec) * q ≤ rnd q ∧ rnd q ≤ (1 + 1 / 2 ^ F.prec) * q := by
    rintro q (rfl | ⟨h1, h2⟩)
    · rw [hr.1 0 ⟨0, F.emin, by simp, by rcases hF with rfl | rfl <;> decide, by simp⟩]
      simp
    · exact hr.2 q h1 h2
  have hasc : ∀ c ∈ t, c < 128 := fun c hc => by have := hvis c hc; omega
  obtain ⟨y, e1, e2, e3⟩ := C28_partial .char8 rnd (1 / 2 ^ F.prec) _ _ .default (encs .char8 t) t
    neg ds fs (by positivity) hprec hr' ⟨by decide, by decide⟩ (textOf_ascii _ _ hasc) hn (by decide)
    (fun _ => .inl rfl) hpos hplace (by
      by_cases hz : ∃ z : Int, x = z
      · exact .inr (hint hz)
      · exact .inl (hnon hz)) r1 r2
  refine ⟨y, e1, ?_⟩
  have e2' : (∃ z : Int, x = z) → y = x := by
    intro hz
    have h1 := e2 (hint hz)
    have h2 : Spec.denoteReal FloatFormat.default.radix neg ds fs = x := hv
    rw [h2, hr.1 x hx.1] at h1
    exact h1
  refine ⟨e2', ?_⟩
  by_cases hz : ∃ z : Int, x = z
  · rw [e2' hz]
    simp
    positivity
  · have hneg := hnon hz
    subst hneg
    obtain ⟨b1, b2⟩ := e3 rfl
    have h2 : Spec.denoteReal FloatFormat.default.radix false ds fs = x := hv
    rw [h2] at b1 b2
    have hx0 : 0 ≤ x := by
      rcases hx.2.2.2.1 with h | h
      · exact h
      · exact absurd h hz
    rw [abs_of_nonneg hx0, abs_le, div_eq_mul_one_div]
    constructor
    · have := mul_le_mul_of_nonneg_left r4 hx0
      linarith
    · have := mul_le_mul_of_nonneg_left r3 hx0
      linarith

section Real

variable {ρ : Type} {W : Writer ρ} {fits : List Byte → Prop} {got out : List Byte → ρ → Prop}
  {ρ' : Type} {R : Reader ρ'}

/-- The text of a floating-point number. -/
theorem real_text (C : W.Collects fits got out) (native : Endian) (form : EncodingForm)
    {F : Spec.BinFmt} {rnd : ℚ → ℚ} {x : ℚ} (hF : F.Std) (hr : F.Rounding rnd)
    (hx : Printable F x) :
    ∃ N, ∀ places ≥ N, ∃ t, HasForm fits got R native form (writeFloat native W rnd places x)
      (fun fuel => readFloat native R rnd fuel) (ComesBackAs F x) t := by
  obtain ⟨t, neg, ds, fs, ⟨N, s, hs, hf⟩, hn, hd, hv, hl, hint, hnon⟩ :=
    real_numeral (formatEnc form) hF hr hx
  obtain ⟨hne, hvis⟩ := realNumeral_visible hn
  obtain ⟨y, e1, hy⟩ := real_parsed hF hr hx hn hd hv hl hint hnon
  have hasc : ∀ c ∈ t, c < 128 := fun c hc => by have := hvis c hc; omega
  refine ⟨N, fun places hp => ⟨t, hne, hvis, ?_, ?_⟩⟩
  · intro st w hform hfit hw
    obtain ⟨r', e4, q⟩ := writeString_eq C native (formatEnc form) st t
      (fun c hc => stringOk_ascii native _ st c (hasc c hc)) w (by rw [hform]; exact hfit) hw
    rw [hform] at q
    refine ⟨r', ?_, q⟩
    rw [writeFloat, M.bind_ok (M.get_apply st), hform]
    rw [M.bind_ok (by rw [hf places hp, hs.eq]; rfl), e4, hform]
  · intro fuel st s' h
    refine ⟨y, hy, ?_⟩
    show readFloat native R rnd fuel st = _
    rw [readFloat, M.bind_ok h, e1]
    rfl

end Real

/-- Writing numbers, each followed by a separator. -/
abbrev writeReals {ρ : Type} (native : Endian) (W : Writer ρ) (rnd : ℚ → ℚ) (places : Nat)
    (items : List (ℚ × List Nat)) : M (OutStream ρ) (List Unit) :=
  M.runList (writeThen native W fun x => writeFloat native W rnd places x) items

/-- Reading numbers. -/
abbrev readReals {ρ : Type} (native : Endian) (R : Reader ρ) (rnd : ℚ → ℚ) (fuel : Nat)
    (items : List (ℚ × List Nat)) : M (InStream ρ) (List ℚ) :=
  M.runList (fun _ => readFloat native R rnd fuel) items

/-- C78 for sequences of numbers that satisfy `Printable`, separated by whitespace other than just a
carriage return.  `places` bounds the number of digits written.  Missing: negative numbers with a
fraction part, large numbers, numbers with more binary places, and a carriage return as the
separator. -/
theorem C78_partial (native o : Endian) (form : EncodingForm) (cap cap' : Nat) (F : Spec.BinFmt)
    (rnd : ℚ → ℚ) (items : List (ℚ × List Nat)) (hF : F.Std) (hr : F.Rounding rnd)
    (hcap : RoomFor form cap') (hx : ∀ i ∈ items, Printable F i.1) (hs : Separated items)
    (hcr : ∀ i ∈ items.dropLast, i.2 ≠ [13]) :
    ∃ N, ∀ places ≥ N,
      ∃ wire, written cap o form (writeReals native Ctr.writer rnd places items) = .ok wire ∧
        ∀ fuel > wire.length, ∃ ys,
          received cap' wire o form (readReals native Ctr.reader rnd fuel items) = .ok ys
            ∧ List.Forall₂ (fun i y => ComesBackAs F i.1 y) items ys := by
  have hN : ∃ N, ∀ i ∈ items, ∀ places ≥ N, ∃ t, HasForm (fun _ => True)
      (fun w r => Res.Writing cap (fun _ => True) (Res.Overwrote (Ctr.Idle 1) [] 0) r w) Ctr.reader
      native form (writeFloat native Ctr.writer rnd places i.1)
      (fun fuel => readFloat native Ctr.reader rnd fuel) (ComesBackAs F i.1) t := by
    clear hs hcr
    induction items with
    | nil => exact ⟨0, by simp⟩
    | cons i items ih =>
      obtain ⟨N, hN⟩ := ih (fun j hj => hx j (by simp [hj]))
      obtain ⟨N', hN'⟩ := real_text (R := Ctr.reader) (Ctr.collects cap []) native form hF hr
        (hx i (by simp))
      refine ⟨max N N', fun j hj places hp => ?_⟩
      rcases List.mem_cons.mp hj with rfl | hj
      · exact hN' places (by omega)
      · exact hN j hj places (by omega)
  obtain ⟨N, hN⟩ := hN
  refine ⟨N, fun places hp => ?_⟩
  obtain ⟨text, ht, hw, hrd⟩ := sequence_text (R := Ctr.reader) (Ctr.collects cap []) native form
    (fun x => writeFloat native Ctr.writer rnd places x)
    (fun _ fuel => readFloat native Ctr.reader rnd fuel) (fun x y => ComesBackAs F x y) items
    (fun i hi => hN i hi places hp) hs hcr
  obtain ⟨us, r', e1, q1⟩ := hw ⟨freshCtr cap 1 [], o, form⟩ [] rfl trivial (Ctr.got_fresh cap)
  refine ⟨_, written_eq cap o form _ us _ r' e1 q1, ?_⟩
  intro fuel hfuel
  have hlen := textBytes_length form o text
  have h := fresh_hasText o form cap' hcap text ht
  obtain ⟨ys, r2, -, e2, -, hys⟩ := hrd _ _ (ctr_delivers cap' (textBytes form o text)) fuel _
    (by simp only [List.nil_append] at hfuel; omega) h
  exact ⟨ys, congrArg Prod.fst e2, hys⟩

/-- The number -1.25 is written as `-2.25`. -/
theorem written_quarter (n : Nat) :
    written 0 .little .utf8 (writeFloat .little Ctr.writer id (n + 3) (-5 / 4)) =
      .ok [45, 50, 46, 50, 53] := by
  have hfl : ⌊(-5 / 4 : ℚ)⌋ = -2 := by norm_num
  have hfl2 : ⌊(5 / 4 : ℚ)⌋ = 1 := by norm_num
  have habs : (if (-5 / 4 : ℚ) < 0 then -(-5 / 4 : ℚ) else -5 / 4) = 5 / 4 := by norm_num
  have h1 : floorToLongLong (-5 / 4) = .ok (-2) := by
    rw [floorToLongLong, hfl, if_pos (by decide)]
  have hloop : formatFractionLoop .char8 id FloatFormat.default (n + 3) (1 / 4) 0 0 [] =
      .ok ([50#8, 53#8], 0) := by
    have er : ((FloatFormat.default.radix : Nat) : ℚ) = 10 := by norm_num [FloatFormat.default]
    have e0 : ¬ (FloatFormat.default.placeLimit ≠ .none ∧ 0 = FloatFormat.default.placeCount) := by
      decide
    have e1 : ⌊(1 / 4 * 10 : ℚ)⌋ = 2 := by norm_num
    have e2 : ⌊(1 / 2 * 10 : ℚ)⌋ = 5 := by norm_num
    have e3 : (1 / 4 * 10 - ((2 : Int) : ℚ) : ℚ) = 1 / 2 := by norm_num
    have e4 : (1 / 2 * 10 - ((5 : Int) : ℚ) : ℚ) = 0 := by norm_num
    rw [formatFractionLoop, if_neg (by norm_num)]
    simp only [er, id_eq, e1, e3]
    rw [if_neg (by decide), if_neg e0]
    rw [show appendCP .char8 [] (formatDigit 2) = .ok [50#8] by decide, Outcome.ok_bind]
    rw [if_neg (by decide), formatFractionLoop, if_neg (by norm_num)]
    simp only [er, id_eq, e2, e4]
    rw [if_neg (by decide)]
    rw [show appendCP .char8 [50#8] (formatDigit 5) = .ok [50#8, 53#8] by decide]
    simp only [Outcome.ok_bind]
    simp [FloatFormat.default, formatFractionLoop]
  have h2 : formatFloat .char8 id (n + 3) (-5 / 4) FloatFormat.default =
      .ok [45#8, 50#8, 46#8, 50#8, 53#8] := by
    have := formatFloat_run (e := .char8) (rnd := id) (fuel := n + 3) (x := -5 / 4) (fr := 1 / 4)
      (f := FloatFormat.default) (eq := ⟨10, .onlyWhenNegative, .none⟩) (v := -2)
      (o := [45#8, 50#8]) (fs := [50#8, 53#8]) (o' := [45#8, 50#8, 46#8]) (pl := 0) (by decide) h1
      (by decide) (by rw [habs, hfl2]; norm_num) (by norm_num) hloop (by decide) (by decide)
    exact this
  have h3 : writeFloat .little Ctr.writer id (n + 3) (-5 / 4) ⟨freshCtr 0 1 [], .little, .utf8⟩ =
      writeString .little Ctr.writer .char8 [45#8, 50#8, 46#8, 50#8, 53#8]
        ⟨freshCtr 0 1 [], .little, .utf8⟩ := by
    rw [writeFloat, M.bind_ok (M.get_apply _)]
    have : M.lift (formatFloat .char8 id (n + 3) (-5 / 4) FloatFormat.default)
        (⟨freshCtr 0 1 [], .little, .utf8⟩ : OutStream (Res Ctr)) =
          (.ok [45#8, 50#8, 46#8, 50#8, 53#8], ⟨freshCtr 0 1 [], .little, .utf8⟩) := by
      rw [h2]
      rfl
    exact M.bind_ok this
  have h4 : written 0 .little .utf8 (writeString .little Ctr.writer .char8
      [45#8, 50#8, 46#8, 50#8, 53#8]) = .ok [45, 50, 46, 50, 53] := by decide +kernel
  rw [← h4]
  unfold written
  rw [M.bind_apply, M.bind_apply, h3]

/-- `-2.25` is read as -1.75. -/
theorem received_quarter :
    received 0 [45, 50, 46, 50, 53] .little .utf8 (readFloat .little Ctr.reader id 6) =
      .ok (-7 / 4) := by
  decide +kernel

/-- The full claim fails: -1.25 comes back as -1.75, even on a machine that never rounds. -/
theorem C78_violated :
    ¬ ∀ (native o : Endian) (form : EncodingForm) (cap cap' : Nat) (F : Spec.BinFmt) (rnd : ℚ → ℚ)
      (x : ℚ), F.Std → F.Rounding rnd → RoomFor form cap' → F.Has x → llong.Has ⌊x⌋ →
      (∃ (k : Nat) (m : Int), k + 6 ≤ F.prec ∧ x = m / 2 ^ k) →
      ∃ N, ∀ places ≥ N,
        ∃ wire, written cap o form (writeFloat native Ctr.writer rnd places x) = .ok wire ∧
          ∀ fuel > wire.length, ∃ y,
            received cap' wire o form (readFloat native Ctr.reader rnd fuel) = .ok y
              ∧ ComesBackAs F x y := by
  intro h
  obtain ⟨N, h1⟩ := h .little .little .utf8 0 0 Spec.binary64 id (-5 / 4) (.inr rfl)
    ⟨fun _ _ => rfl, fun q h1 _ => by
      have : (0 : ℚ) ≤ q := le_trans (zpow_pos (by norm_num) _).le h1
      have h2 : (0 : ℚ) ≤ 1 / 2 ^ Spec.binary64.prec := by positivity
      constructor <;> simp only [id_eq] <;> nlinarith⟩ (by decide)
    ⟨-5, -2, by norm_num [Spec.binary64], by norm_num [Spec.binary64], by norm_num⟩
    (by rw [show ⌊(-5 / 4 : ℚ)⌋ = -2 by norm_num]; decide)
    ⟨2, -5, by norm_num [Spec.binary64], by norm_num⟩
  obtain ⟨wire, h2, h3⟩ := h1 (N + 3) (by omega)
  rw [written_quarter] at h2
  cases h2
  obtain ⟨y, h4, -, h5⟩ := h3 6 (by decide)
  rw [received_quarter] at h4
  cases h4
  norm_num [Spec.binary64, abs_of_neg, abs_of_pos] at h5

example : Printable Spec.binary64 (1 / 8) ∧ Printable Spec.binary64 (-3)
    ∧ Separated [((1 / 8 : ℚ), [32]), (-3, [])] := by
  refine ⟨⟨⟨1, -3, by norm_num [Spec.binary64], by norm_num [Spec.binary64], by norm_num⟩,
      by rw [show ⌊(1 / 8 : ℚ)⌋ = 0 by norm_num]; decide,
      by rw [show ⌊(1 / 8 : ℚ)⌋ = 0 by norm_num]; decide, .inl (by norm_num),
      3, 1, by norm_num [Spec.binary64], by norm_num⟩,
    ⟨⟨-3, 0, by norm_num [Spec.binary64], by norm_num [Spec.binary64], by norm_num⟩,
      by rw [show ⌊(-3 : ℚ)⌋ = -3 by norm_num]; decide,
      by rw [show ⌊(-3 : ℚ)⌋ = -3 by norm_num]; decide, .inr ⟨-3, by norm_num⟩,
      0, -3, by norm_num [Spec.binary64], by norm_num⟩, by decide⟩

end Cmp
