import Verif.Proofs.UnicodeText
import Verif.Proofs.UnicodeMalformed
import Verif.Spec.Loose

/-
Helper lemmas: the scanner against the byte patterns, and how far `validate_string` gets.
-/

namespace Cmp

open _root_.Spec (Group Loose Overlong CutOff announced)

theorem scanTail_cont (len n acc x : Nat) (l : List Nat) (hx : x < 64) :
    Spec.scanTail len (n + 1) acc ((0x80 + x) :: l) = Spec.scanTail len n (acc * 64 + x) l := by
  rw [Spec.scanTail, if_pos (by omega), show (0x80 + x) % 64 = x by omega]

theorem scan8_group {g : List Nat} {v : Nat} (h : Group g v) (rest : List Nat) :
    Spec.scan8 (g ++ rest) = .complete v g.length := by
  rcases h with ⟨a, ha, rfl, rfl⟩ | ⟨a, b, ha, hb, rfl, rfl⟩ | ⟨a, b, c, ha, hb, hc, rfl, rfl⟩
    | ⟨a, b, c, d, ha, hb, hc, hd, rfl, rfl⟩
  · rw [List.singleton_append, Spec.scan8, if_pos ha]; rfl
  · simp only [List.cons_append, List.nil_append]
    rw [Spec.scan8, if_neg (by omega), if_pos (by omega), scanTail_cont _ _ _ _ _ hb,
      show (0xC0 + a) % 32 = a by omega]
    rfl
  · simp only [List.cons_append, List.nil_append]
    rw [Spec.scan8, if_neg (by omega), if_neg (by omega), if_pos (by omega),
      scanTail_cont _ _ _ _ _ hb, scanTail_cont _ _ _ _ _ hc, show (0xE0 + a) % 16 = a by omega]
    rfl
  · simp only [List.cons_append, List.nil_append]
    rw [Spec.scan8, if_neg (by omega), if_neg (by omega), if_neg (by omega), if_pos (by omega),
      scanTail_cont _ _ _ _ _ hb, scanTail_cont _ _ _ _ _ hc, scanTail_cont _ _ _ _ _ hd,
      show (0xF0 + a) % 8 = a by omega]
    rfl

theorem scanTail_some {len n acc : Nat} {l : List Nat} {v k : Nat}
    (h : Spec.scanTail len (n + 1) acc l = .complete v k) :
    ∃ x l', x < 64 ∧ l = (0x80 + x) :: l' ∧ Spec.scanTail len n (acc * 64 + x) l' = .complete v k := by
  cases l with
  | nil => simp [Spec.scanTail] at h
  | cons b l =>
    by_cases hb : 0x80 ≤ b ∧ b < 0xC0
    · refine ⟨b - 0x80, l, by omega, by rw [show 0x80 + (b - 0x80) = b by omega], ?_⟩
      rw [Spec.scanTail, if_pos hb, show b % 64 = b - 0x80 by omega] at h
      exact h
    · rw [Spec.scanTail, if_neg hb] at h; cases h

theorem scan8_complete {l : List Nat} {v n : Nat} (h : Spec.scan8 l = .complete v n) :
    ∃ g rest, l = g ++ rest ∧ g.length = n ∧ Group g v := by
  cases l with
  | nil => simp [Spec.scan8] at h
  | cons b l =>
    rw [Spec.scan8] at h
    split at h
    · rename_i hb
      obtain ⟨rfl, rfl⟩ := Spec.Scan.complete.inj h
      exact ⟨[b], l, rfl, rfl, .inl ⟨b, hb, rfl, rfl⟩⟩
    split at h
    · rename_i hb
      obtain ⟨x, l1, hx, rfl, h1⟩ := scanTail_some h
      obtain ⟨rfl, rfl⟩ := Spec.Scan.complete.inj h1
      exact ⟨[b, 0x80 + x], l1, rfl, rfl, .inr (.inl ⟨b % 32, x, by omega, hx,
        by rw [show 0xC0 + b % 32 = b by omega], rfl⟩)⟩
    split at h
    · rename_i hb
      obtain ⟨x, l1, hx, rfl, h1⟩ := scanTail_some h
      obtain ⟨y, l2, hy, rfl, h2⟩ := scanTail_some h1
      obtain ⟨rfl, rfl⟩ := Spec.Scan.complete.inj h2
      exact ⟨[b, 0x80 + x, 0x80 + y], l2, rfl, rfl, .inr (.inr (.inl ⟨b % 16, x, y, by omega, hx, hy,
        by rw [show 0xE0 + b % 16 = b by omega], rfl⟩))⟩
    split at h
    · rename_i hb
      obtain ⟨x, l1, hx, rfl, h1⟩ := scanTail_some h
      obtain ⟨y, l2, hy, rfl, h2⟩ := scanTail_some h1
      obtain ⟨z, l3, hz, rfl, h3⟩ := scanTail_some h2
      obtain ⟨rfl, rfl⟩ := Spec.Scan.complete.inj h3
      exact ⟨[b, 0x80 + x, 0x80 + y, 0x80 + z], l3, rfl, rfl, .inr (.inr (.inr ⟨b % 8, x, y, z,
        by omega, hx, hy, hz, by rw [show 0xF0 + b % 8 = b by omega], rfl⟩))⟩
    · cases h

theorem scanTail_truncated {len n acc : Nat} (l : List Nat) :
    Spec.scanTail len n acc l = .truncated ↔ l.length < n ∧ ∀ x ∈ l, 0x80 ≤ x ∧ x < 0xC0 := by
  induction n generalizing acc l with
  | zero => simp [Spec.scanTail]
  | succ n ih =>
    cases l with
    | nil => simp [Spec.scanTail]
    | cons b l =>
      rw [Spec.scanTail]
      by_cases hb : 0x80 ≤ b ∧ b < 0xC0
      · rw [if_pos hb, ih]
        simp only [List.length_cons, List.mem_cons, forall_eq_or_imp]
        constructor
        · rintro ⟨h1, h2⟩; exact ⟨by omega, hb, h2⟩
        · rintro ⟨h1, -, h2⟩; exact ⟨by omega, h2⟩
      · rw [if_neg hb]
        simp only [List.mem_cons, forall_eq_or_imp]
        constructor
        · intro h; cases h
        · rintro ⟨-, h, -⟩; exact absurd h hb

theorem scan8_truncated (l : List Nat) (hl : l ≠ []) :
    Spec.scan8 l = .truncated ↔ CutOff .utf8 l := by
  obtain ⟨b, bs, rfl⟩ := List.exists_cons_of_ne_nil hl
  have key : CutOff .utf8 (b :: bs) ↔
      bs.length + 1 < announced b ∧ ∀ x ∈ bs, 0x80 ≤ x ∧ x < 0xC0 := by
    constructor
    · rintro ⟨b', bs', e, h1, h2⟩
      obtain ⟨rfl, rfl⟩ := List.cons.inj e
      exact ⟨h1, h2⟩
    · rintro ⟨h1, h2⟩
      exact ⟨b, bs, rfl, h1, h2⟩
  rw [key, Spec.scan8, announced]
  by_cases h1 : b < 0x80
  · rw [if_pos h1, if_neg (by omega), if_neg (by omega), if_neg (by omega)]
    constructor
    · intro h; cases h
    · rintro ⟨h, -⟩; omega
  rw [if_neg h1]
  by_cases h2 : 0xC0 ≤ b ∧ b < 0xE0
  · rw [if_pos h2, if_pos h2, scanTail_truncated]
    constructor
    · rintro ⟨a, b⟩; exact ⟨by omega, b⟩
    · rintro ⟨a, b⟩; exact ⟨by omega, b⟩
  rw [if_neg h2, if_neg h2]
  by_cases h3 : 0xE0 ≤ b ∧ b < 0xF0
  · rw [if_pos h3, if_pos h3, scanTail_truncated]
    constructor
    · rintro ⟨a, b⟩; exact ⟨by omega, b⟩
    · rintro ⟨a, b⟩; exact ⟨by omega, b⟩
  rw [if_neg h3, if_neg h3]
  by_cases h4 : 0xF0 ≤ b ∧ b < 0xF8
  · rw [if_pos h4, if_pos h4, scanTail_truncated]
    constructor
    · rintro ⟨a, b⟩; exact ⟨by omega, b⟩
    · rintro ⟨a, b⟩; exact ⟨by omega, b⟩
  rw [if_neg h4, if_neg h4]
  constructor
  · intro h; cases h
  · rintro ⟨h, -⟩; omega

theorem scan16_truncated (l : List Nat) (hl : l ≠ []) :
    Spec.scan16 l = .truncated ↔ CutOff .utf16 l := by
  obtain ⟨u, us, rfl⟩ := List.exists_cons_of_ne_nil hl
  simp only [CutOff, Spec.scan16]
  by_cases h1 : 0xD800 ≤ u ∧ u ≤ 0xDBFF
  · rw [if_pos h1]
    cases us with
    | nil => simp [Spec.scanPair, h1]
    | cons v us =>
      simp only [Spec.scanPair]
      split <;> simp
  · rw [if_neg h1]
    constructor
    · intro h; split at h <;> cases h
    · rintro ⟨u', e, h⟩
      simp only [List.cons.injEq] at e
      rw [← e.1] at h
      exact absurd h h1

/-! ### `validate_string` -/

/-- One unit after the other as long as they are good, and then. -/
theorem validateFrom_run (e : Enc) (s : Str e) (good : Nat → Bool) (stop : List Nat → Nat)
    (h1 : ∀ i u us, i < s.length → restN s i = u :: us → good u = true →
      ∃ c, deref e s i = .ok c ∧ ¬ maximumCodePoint < c ∧ advance e s i = .ok (i + 1))
    (h2 : ∀ i fuel, i ≤ s.length → s.length - i < fuel →
      (∀ u us, restN s i = u :: us → good u = false) →
      validateFrom e s fuel i = .ok (i + stop (restN s i))) :
    ∀ fuel i, i ≤ s.length → s.length - i < fuel →
      validateFrom e s fuel i = .ok (i + ((restN s i).takeWhile good).length
        + stop ((restN s i).dropWhile good)) := by
  intro fuel
  induction fuel with
  | zero => intro i _ h; omega
  | succ n ih =>
    intro i hi hf
    by_cases hg : ∃ u us, restN s i = u :: us ∧ good u = true
    · obtain ⟨u, us, hr, hu⟩ := hg
      have hlt : i < s.length := by
        have := restN_length s i
        rw [hr] at this
        simp at this
        omega
      obtain ⟨c, a, b, d⟩ := h1 i u us hlt hr hu
      have hr' : restN s (i + 1) = us := by
        have := restN_cons s i hlt
        rw [hr] at this
        exact (List.cons.inj this).2.symm
      rw [validateFrom, if_neg (by omega), a]
      dsimp only
      rw [if_neg b, d]
      dsimp only
      rw [ih (i + 1) (by omega) (by omega), hr', hr, List.takeWhile_cons, List.dropWhile_cons,
        if_pos hu, if_pos hu, List.length_cons]
      congr 1
      omega
    · have hb : ∀ u us, restN s i = u :: us → good u = false := by
        intro u us hr
        cases hu : good u
        · rfl
        · exact absurd ⟨u, us, hr, hu⟩ hg
      rw [h2 i (n + 1) hi hf hb]
      cases hr : restN s i with
      | nil => simp
      | cons u us =>
        rw [List.takeWhile_cons, List.dropWhile_cons, if_neg (by simp [hb u us hr]),
          if_neg (by simp [hb u us hr])]
        simp

theorem restN_drop {w : Nat} (s : List (BitVec w)) (i k : Nat) :
    restN s (i + k) = (restN s i).drop k := by
  rw [restN, restN, ← List.map_drop, List.drop_drop]

theorem group_length_pos {g : List Nat} {v : Nat} (h : Group g v) : 0 < g.length := by
  rcases h with ⟨a, -, rfl, -⟩ | ⟨a, b, -, -, rfl, -⟩ | ⟨a, b, c, -, -, -, rfl, -⟩
    | ⟨a, b, c, d, -, -, -, -, rfl, -⟩ <;> simp

theorem group_value {g : List Nat} {v : Nat} (h : Group g v) : v < 2 ^ 32 := by
  rcases h with ⟨a, h1, -, rfl⟩ | ⟨a, b, h1, h2, -, rfl⟩ | ⟨a, b, c, h1, h2, h3, -, rfl⟩
    | ⟨a, b, c, d, h1, h2, h3, h4, -, rfl⟩ <;> omega

theorem max_lt_ofNat {v : Nat} (hv : v < 2 ^ 32) :
    maximumCodePoint < BitVec.ofNat 32 v ↔ 0x10FFFF < v := by
  rw [maximumCodePoint, BitVec.lt_def, BitVec.toNat_ofNat, BitVec.toNat_ofNat]
  omega

/-- The longest row of groups. -/
theorem validateFrom_loose (s : Str .char8) :
    ∀ fuel i, i ≤ s.length → s.length - i < fuel →
      ∃ j, validateFrom .char8 s fuel i = .ok j ∧ i ≤ j ∧ j ≤ s.length
        ∧ Loose ((restN s i).take (j - i))
        ∧ ∀ us, Loose us → us <+: restN s i → us.length ≤ j - i := by
  have stop : ∀ i n, i ≤ s.length →
      (∀ v k, Spec.scan8 (restN s i) = .complete v k → 0x10FFFF < v) →
      validateFrom .char8 s (n + 1) i = .ok i →
      ∃ j, validateFrom .char8 s (n + 1) i = .ok j ∧ i ≤ j ∧ j ≤ s.length
        ∧ Loose ((restN s i).take (j - i))
        ∧ ∀ us, Loose us → us <+: restN s i → us.length ≤ j - i := by
    intro i n hi hbad h
    refine ⟨i, h, by omega, hi, ⟨[], by simp, by simp⟩, ?_⟩
    rintro us ⟨gs, rfl, hg⟩ ⟨rest, hr⟩
    cases gs with
    | nil => simp
    | cons g gs =>
      obtain ⟨h1, h2⟩ := hg g (by simp)
      have := scan8_group h1 ((gs.map (·.1)).flatten ++ rest)
      rw [List.map_cons, List.flatten_cons, List.append_assoc] at hr
      rw [hr] at this
      have := hbad _ _ this
      omega
  intro fuel
  induction fuel with
  | zero => intro i _ h; omega
  | succ n ih =>
    intro i hi hf
    by_cases he : i = s.length
    · exact stop i n hi (by rw [restN_end s i (by omega)]; simp [Spec.scan8])
        (by rw [validateFrom, if_pos he])
    · have hlt : i < s.length := by omega
      have hd : deref .char8 s i = _ := utf8_deref_scan s i hlt
      have ha : advance .char8 s i = _ := utf8_advance_scan s i hlt
      cases hs : Spec.scan8 (restN s i) with
      | malformed =>
        rw [hs] at hd
        exact stop i n hi (by rw [hs]; simp) (by rw [validateFrom, if_neg he, hd]; rfl)
      | truncated =>
        rw [hs] at hd
        exact stop i n hi (by rw [hs]; simp) (by rw [validateFrom, if_neg he, hd]; rfl)
      | complete v k =>
        rw [hs] at hd ha
        obtain ⟨g, rest, hr, hk, hg⟩ := scan8_complete hs
        have hlen := restN_length s i
        rw [hr, List.length_append] at hlen
        have hpos := group_length_pos hg
        by_cases hv : 0x10FFFF < v
        · refine stop i n hi ?_ ?_
          · intro v' k' h'
            rw [hs] at h'
            obtain ⟨rfl, -⟩ := Spec.Scan.complete.inj h'
            exact hv
          · rw [validateFrom, if_neg he, hd]
            simp only [scanDeref]
            rw [if_pos ((max_lt_ofNat (group_value hg)).mpr hv)]
        · have hstep : validateFrom .char8 s (n + 1) i = validateFrom .char8 s n (i + k) := by
            rw [validateFrom, if_neg he, hd]
            simp only [scanDeref]
            rw [if_neg (fun h => hv ((max_lt_ofNat (group_value hg)).mp h)), ha]
            rfl
          obtain ⟨j, e, h1, h2, ⟨gs, h3, h4⟩, h5⟩ := ih (i + k) (by omega) (by omega)
          have hrest : restN s (i + k) = rest := by
            rw [restN_drop, hr, ← hk, List.drop_left]
          rw [hrest] at h3 h5
          refine ⟨j, by rw [hstep, e], by omega, h2, ⟨(g, v) :: gs, ?_, ?_⟩, ?_⟩
          · rw [hr, List.map_cons, List.flatten_cons, ← h3, List.take_append,
              List.take_of_length_le (by omega)]
            congr 2
            omega
          · intro x hx
            rcases List.mem_cons.mp hx with rfl | hx
            · exact ⟨hg, by simp only; omega⟩
            · exact h4 x hx
          · rintro us ⟨gs', rfl, hg'⟩ hp
            cases gs' with
            | nil => simp
            | cons g' gs' =>
              obtain ⟨k1, k2⟩ := hg' g' (by simp)
              obtain ⟨t, ht⟩ := hp
              rw [List.map_cons, List.flatten_cons, List.append_assoc] at ht
              have := scan8_group k1 ((gs'.map (·.1)).flatten ++ t)
              rw [ht, hs] at this
              obtain ⟨-, hkk⟩ := Spec.Scan.complete.inj this
              rw [hr] at ht
              obtain ⟨e1, e2⟩ := List.append_inj ht (by omega)
              have := h5 (gs'.map (·.1)).flatten ⟨gs', rfl, fun x hx => hg' x (by simp [hx])⟩
                ⟨t, e2⟩
              rw [List.map_cons, List.flatten_cons, List.length_append]
              omega

end Cmp
