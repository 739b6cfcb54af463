import Verif.Proofs.Recover

/-
Texts with something in them that is not a character, as items.
-/

namespace Cmp

open _root_.Spec (Item Taken Itemised passReturns chars)

theorem takeTail_of_scan (len : Nat) : ∀ (n acc : Nat) (l : List Nat) (v k : Nat),
    Spec.scanTail len n acc l = .complete v k → Spec.takeTail len n acc l = .char v k
  | 0, acc, l, v, k, h => by
    rw [Spec.scanTail] at h
    cases h
    rfl
  | n + 1, acc, [], v, k, h => by cases h
  | n + 1, acc, b :: bs, v, k, h => by
    rw [Spec.scanTail] at h
    split at h
    · rename_i hb
      rw [Spec.takeTail, if_pos hb]
      exact takeTail_of_scan len n _ bs v k h
    · cases h

theorem take8_of_scan (l : List Nat) (v k : Nat) (h : Spec.scan8 l = .complete v k) :
    Spec.take8 l = .char v k := by
  cases l with
  | nil => cases h
  | cons b bs =>
    rw [Spec.scan8] at h
    rw [Spec.take8]
    by_cases h1 : b < 0x80
    · rw [if_pos h1] at h ⊢
      cases h
      rfl
    rw [if_neg h1] at h ⊢
    by_cases h2 : 0xC0 ≤ b ∧ b < 0xE0
    · rw [if_pos h2] at h ⊢
      exact takeTail_of_scan _ _ _ _ _ _ h
    rw [if_neg h2] at h ⊢
    by_cases h3 : 0xE0 ≤ b ∧ b < 0xF0
    · rw [if_pos h3] at h ⊢
      exact takeTail_of_scan _ _ _ _ _ _ h
    rw [if_neg h3] at h ⊢
    by_cases h4 : 0xF0 ≤ b ∧ b < 0xF8
    · rw [if_pos h4] at h ⊢
      exact takeTail_of_scan _ _ _ _ _ _ h
    · rw [if_neg h4] at h
      cases h

theorem take16_of_scan (l : List Nat) (v k : Nat) (h : Spec.scan16 l = .complete v k) :
    Spec.take16 l = .char v (k * 2) := by
  cases l with
  | nil => cases h
  | cons u us =>
    rw [Spec.scan16] at h
    rw [Spec.take16]
    split at h
    · rename_i hu
      rw [if_pos hu]
      cases us with
      | nil => cases h
      | cons w us =>
        rw [Spec.scanPair] at h
        rw [Spec.takePair]
        split at h
        · rename_i hw
          rw [if_pos hw]
          simp only [Spec.Scan.complete.injEq] at h
          obtain ⟨rfl, rfl⟩ := h
          rfl
        · cases h
    · rename_i hu
      rw [if_neg hu]
      split at h
      · cases h
      · rename_i hw
        rw [if_neg hw]
        cases h
        rfl

theorem takeBytes_cp (f : EncodingForm) (o : Endian) (c : Nat) (hc : Spec.IsScalar c)
    (rest : List Byte) :
    f.form.takeBytes o.order (nats (cpBytes f o c ++ rest)) = .char c (cpBytes f o c).length := by
  obtain ⟨h, hl⟩ := scanBytes_cp f o c hc rest
  rw [← hl]
  cases f with
  | utf8 =>
    change Spec.take8 _ = .char c (_ * 1)
    rw [Nat.mul_one]
    exact take8_of_scan _ _ _ h
  | utf16 => exact take16_of_scan _ _ _ h
  | utf32 =>
    change Spec.Form.scanBytes .utf32 _ _ = _ at h
    change Spec.Form.takeBytes .utf32 _ _ = _
    rw [Spec.Form.scanBytes] at h
    rw [Spec.Form.takeBytes]
    revert h
    cases o.order.units 4 1 (nats (cpBytes .utf32 o c ++ rest)) with
    | nil => intro h; cases h
    | cons u us =>
      intro h
      simp only [Spec.Scan.complete.injEq] at h
      simp only [Taken.char.injEq]
      exact ⟨h.1, rfl⟩

theorem nats_append (a b : List Byte) : nats (a ++ b) = nats a ++ nats b := by simp [nats]

/-- A text before anything. -/
theorem itemised_text (f : EncodingForm) (o : Endian) (cs : List Nat) (ht : Spec.IsText cs)
    (bs : List Byte) (is : List Item) (h : Itemised f.form o.order (nats bs) is) :
    Itemised f.form o.order (nats (textBytes f o cs ++ bs)) (cs.map .char ++ is) := by
  induction cs with
  | nil => exact h
  | cons c cs ih =>
    rw [textBytes_cons, List.append_assoc, List.map_cons, List.cons_append]
    refine .char (takeBytes_cp f o c (ht c (by simp)) _) ?_
    rw [InStream.nats_drop, List.drop_left]
    exact ih fun x hx => ht x (by simp [hx])

/-- Code units as bytes. -/
def unitBytes (f : EncodingForm) (o : Endian) (us : List Nat) : List Byte :=
  asBytes (us.flatMap (o.order.bytes f.form.unitSize))

theorem unitBytes_cons (f : EncodingForm) (o : Endian) (u : Nat) (us : List Nat) :
    unitBytes f o (u :: us) = asBytes (o.order.bytes f.form.unitSize u) ++ unitBytes f o us := by
  simp [unitBytes, asBytes]

theorem unitBytes_append (f : EncodingForm) (o : Endian) (us vs : List Nat) :
    unitBytes f o (us ++ vs) = unitBytes f o us ++ unitBytes f o vs := by
  simp [unitBytes, asBytes]

theorem nats_bytes (o : Spec.ByteOrder) (k u : Nat) : nats (asBytes (o.bytes k u)) = o.bytes k u :=
  toNat_asBytes _ (bytes_lt o k u)

theorem bytes_one (o : Spec.ByteOrder) (u : Nat) (h : u < 256) : o.bytes 1 u = [u] := by
  have := flatMap_bytes_one o [u] (by simpa using h)
  simpa using this

theorem takeBytes_stray (f : EncodingForm) (o : Endian) (u : Nat) (h : f.form.Stray u)
    (bs : List Byte) :
    f.form.takeBytes o.order (nats (asBytes (o.order.bytes f.form.unitSize u) ++ bs)) =
      .bad f.form.unitSize := by
  rw [nats_append, nats_bytes]
  cases f with
  | utf8 =>
    change (0x80 ≤ u ∧ u < 0xC0) ∨ (0xF8 ≤ u ∧ u < 0x100) at h
    change Spec.take8 (o.order.bytes 1 u ++ nats bs) = .bad 1
    rw [bytes_one _ _ (by omega)]
    rw [List.singleton_append, Spec.take8, if_neg (by omega), if_neg (by omega), if_neg (by omega),
      if_neg (by omega)]
  | utf16 =>
    change 0xDC00 ≤ u ∧ u ≤ 0xDFFF at h
    change Spec.take16 (o.order.units 2 2 (o.order.bytes 2 u ++ nats bs)) = .bad 2
    have := units_serialized o 2 [u] (by simp; omega) (nats bs) 1
    simp only [List.flatMap_cons, List.flatMap_nil, List.append_nil, List.length_cons, List.length_nil]
      at this
    rw [show (0 + 1 + 1 : Nat) = 2 from rfl] at this
    rw [this, List.singleton_append, Spec.take16, if_neg (by omega), if_pos h]
  | utf32 => exact h.elim

/-- Stray units before anything. -/
theorem itemised_strays (f : EncodingForm) (o : Endian) (us : List Nat) (hu : ∀ u ∈ us, f.form.Stray u)
    (bs : List Byte) (is : List Item) (h : Itemised f.form o.order (nats bs) is) :
    Itemised f.form o.order (nats (unitBytes f o us ++ bs)) (us.map (fun _ => .bad) ++ is) := by
  induction us with
  | nil => exact h
  | cons u us ih =>
    rw [unitBytes_cons, List.append_assoc, List.map_cons, List.cons_append]
    refine .bad (takeBytes_stray f o u (hu u (by simp)) _) ?_
    have hl : (asBytes (o.order.bytes f.form.unitSize u)).length = f.form.unitSize := by
      simp [asBytes, bytes_length]
    rw [InStream.nats_drop, List.drop_left' hl]
    exact ih fun x hx => hu x (by simp [hx])

/-- The first unit of a character is no continuation, and the others are stray on their own. -/
theorem encode1_shape (f : EncodingForm) (c : Nat) (hc : Spec.IsScalar c) :
    ∃ v vs, f.form.encode1 c = v :: vs ∧ (∀ u ∈ vs, f.form.Stray u) ∧ v < 256 ^ f.form.unitSize ∧
      (f = .utf8 → ¬ (0x80 ≤ v ∧ v < 0xC0)) ∧ (f = .utf16 → ¬ (0xDC00 ≤ v ∧ v ≤ 0xDFFF)) := by
  obtain ⟨h1, h2⟩ := hc
  cases f with
  | utf8 =>
    change ∃ v vs, Spec.utf8 c = v :: vs ∧ (∀ u ∈ vs, (0x80 ≤ u ∧ u < 0xC0) ∨ (0xF8 ≤ u ∧ u < 0x100)) ∧
      v < 256 ^ 1 ∧ _
    unfold Spec.utf8
    split
    · exact ⟨_, _, rfl, by simp, by omega, fun _ => by omega, by simp⟩
    split
    · exact ⟨_, _, rfl, by simp; omega, by omega, fun _ => by omega, by simp⟩
    split
    · exact ⟨_, _, rfl, by simp; omega, by omega, fun _ => by omega, by simp⟩
    · exact ⟨_, _, rfl, by simp; omega, by omega, fun _ => by omega, by simp⟩
  | utf16 =>
    change ∃ v vs, Spec.utf16 c = v :: vs ∧ (∀ u ∈ vs, 0xDC00 ≤ u ∧ u ≤ 0xDFFF) ∧ v < 256 ^ 2 ∧ _
    unfold Spec.utf16
    split
    · exact ⟨_, _, rfl, by simp, by omega, by simp, fun _ => by omega⟩
    · exact ⟨_, _, rfl, by simp; omega, by omega, by simp, fun _ => by omega⟩
  | utf32 =>
    exact ⟨c, [], rfl, by simp, by change c < 256 ^ 4; omega, by simp, by simp⟩

theorem takeTail_short (len : Nat) : ∀ (n acc : Nat) (ts : List Nat),
    (∀ t ∈ ts, 0x80 ≤ t ∧ t < 0xC0) → ts.length < n → Spec.takeTail len n acc ts = .cut
  | 0, _, _, _, h => absurd h (Nat.not_lt_zero _)
  | n + 1, _, [], _, _ => rfl
  | n + 1, acc, t :: ts, ht, h => by
    rw [Spec.takeTail, if_pos (ht t (by simp))]
    exact takeTail_short len n _ ts (fun x hx => ht x (by simp [hx])) (by simp at h; omega)

theorem takeTail_stop (len v : Nat) (l : List Nat) (hv : ¬ (0x80 ≤ v ∧ v < 0xC0)) :
    ∀ (n acc : Nat) (ts : List Nat), (∀ t ∈ ts, 0x80 ≤ t ∧ t < 0xC0) → ts.length < n →
      Spec.takeTail len n acc (ts ++ v :: l) = .bad (len - (n - ts.length - 1))
  | 0, _, _, _, h => absurd h (Nat.not_lt_zero _)
  | n + 1, _, [], _, _ => by
    rw [List.nil_append, Spec.takeTail, if_neg hv]
    rfl
  | n + 1, acc, t :: ts, ht, h => by
    rw [List.cons_append, Spec.takeTail, if_pos (ht t (by simp)),
      takeTail_stop len v l hv n _ ts (fun x hx => ht x (by simp [hx])) (by simp at h; omega)]
    congr 2
    simp only [List.length_cons]
    omega

theorem utf8_lead (c : Nat) (hc : Spec.IsScalar c) : ∃ lead tl, Spec.utf8 c = lead :: tl ∧
    (∀ t ∈ tl, 0x80 ≤ t ∧ t < 0xC0) ∧
    (tl ≠ [] → ∃ acc, ∀ x, Spec.take8 (lead :: x) = Spec.takeTail (tl.length + 1) tl.length acc x) := by
  obtain ⟨h1, h2⟩ := hc
  unfold Spec.utf8
  split
  · exact ⟨_, _, rfl, by simp, by simp⟩
  split
  · refine ⟨_, _, rfl, by simp; omega, fun _ => ⟨(192 + c / 64) % 32, fun x => ?_⟩⟩
    rw [Spec.take8, if_neg (by omega), if_pos (by omega)]
    rfl
  split
  · refine ⟨_, _, rfl, by simp; omega, fun _ => ⟨(224 + c / 4096) % 16, fun x => ?_⟩⟩
    rw [Spec.take8, if_neg (by omega), if_neg (by omega), if_pos (by omega)]
    rfl
  · refine ⟨_, _, rfl, by simp; omega, fun _ => ⟨(240 + c / 262144) % 8, fun x => ?_⟩⟩
    rw [Spec.take8, if_neg (by omega), if_neg (by omega), if_neg (by omega), if_pos (by omega)]
    rfl

/-- A UTF-8 sequence that is cut short. -/
theorem take8_short (us : List Nat) (h : Spec.Form.CutShort .utf8 us) :
    (∀ u ∈ us, u < 256) ∧ us ≠ [] ∧ Spec.take8 us = .cut ∧
      ∀ v l, ¬ (0x80 ≤ v ∧ v < 0xC0) → Spec.take8 (us ++ v :: l) = .bad (us.length + 1) := by
  obtain ⟨c, hc, hp, hne, hnw⟩ := h
  change us <+: Spec.utf8 c at hp
  change us ≠ Spec.utf8 c at hnw
  have hb := utf8_bound c hc
  refine ⟨fun u hu => hb u (hp.subset hu), hne, ?_⟩
  obtain ⟨lead, tl, e, ht, hl⟩ := utf8_lead c hc
  rw [e] at hp hnw
  cases us with
  | nil => exact absurd rfl hne
  | cons u ts =>
    obtain ⟨rfl, hp'⟩ := List.cons_prefix_cons.mp hp
    have hlen : ts.length < tl.length := by
      rcases Nat.lt_or_ge ts.length tl.length with h | h
      · exact h
      · exact absurd (by rw [hp'.eq_of_length (by have := hp'.length_le; omega)]) hnw
    obtain ⟨acc, ha⟩ := hl (by rintro rfl; simp at hlen)
    have hts : ∀ t ∈ ts, 0x80 ≤ t ∧ t < 0xC0 := fun t h => ht t (hp'.subset h)
    refine ⟨?_, fun v l hv => ?_⟩
    · rw [ha]
      exact takeTail_short _ _ _ _ hts hlen
    · rw [List.cons_append, ha, takeTail_stop _ v l hv _ _ _ hts hlen]
      congr 1
      simp only [List.length_cons]
      omega

/-- A UTF-16 sequence that is cut short. -/
theorem take16_short (us : List Nat) (h : Spec.Form.CutShort .utf16 us) :
    ∃ u, us = [u] ∧ 0xD800 ≤ u ∧ u ≤ 0xDBFF := by
  obtain ⟨c, hc, hp, hne, hnw⟩ := h
  obtain ⟨h1, h2⟩ := hc
  change us <+: Spec.utf16 c at hp
  change us ≠ Spec.utf16 c at hnw
  unfold Spec.utf16 at hp hnw
  cases us with
  | nil => exact absurd rfl hne
  | cons u ts =>
    split at hp
    · rename_i hlt
      rw [if_pos hlt] at hnw
      obtain ⟨rfl, hp'⟩ := List.cons_prefix_cons.mp hp
      rw [List.prefix_nil] at hp'
      exact absurd (by rw [hp']) hnw
    · rename_i hlt
      rw [if_neg hlt] at hnw
      obtain ⟨rfl, hp'⟩ := List.cons_prefix_cons.mp hp
      cases ts with
      | nil => exact ⟨_, rfl, by omega, by omega⟩
      | cons t ts =>
        obtain ⟨ht, hp''⟩ := List.cons_prefix_cons.mp hp'
        rw [List.prefix_nil] at hp''
        exact absurd (by rw [hp'', ht]) hnw

theorem nats_unitBytes (f : EncodingForm) (o : Endian) (us : List Nat) :
    nats (unitBytes f o us) = us.flatMap (o.order.bytes f.form.unitSize) := nats_flatMap _ _ _

/-- A character cut short is all there is. -/
theorem takeBytes_short (f : EncodingForm) (o : Endian) (us : List Nat) (h : f.form.CutShort us) :
    f.form.takeBytes o.order (nats (unitBytes f o us)) = .cut ∧ nats (unitBytes f o us) ≠ [] ∧
      ∀ v bs, v < 256 ^ f.form.unitSize → (f = .utf8 → ¬ (0x80 ≤ v ∧ v < 0xC0)) →
        (f = .utf16 → ¬ (0xDC00 ≤ v ∧ v ≤ 0xDFFF)) →
        f.form.takeBytes o.order (nats (unitBytes f o (us ++ [v]) ++ bs)) =
          .bad (unitBytes f o (us ++ [v])).length := by
  have hlen : ∀ us, (unitBytes f o us).length = us.length * f.form.unitSize := by
    intro us
    simp [unitBytes, asBytes, bytes_length, List.length_flatMap, List.map_const']
  cases f with
  | utf8 =>
    obtain ⟨hb, hne, h1, h2⟩ := take8_short us h
    have e : ∀ us : List Nat, (∀ u ∈ us, u < 256) → nats (unitBytes .utf8 o us) = us := fun us hb => by
      rw [nats_unitBytes]
      exact flatMap_bytes_one _ us hb
    refine ⟨?_, ?_, fun v bs hv hc _ => ?_⟩
    · rw [e us hb]
      exact h1
    · rw [e us hb]
      exact hne
    · have hv' : v < 256 := by simpa [EncodingForm.form, Spec.Form.unitSize] using hv
      rw [nats_append, e (us ++ [v]) (by
        intro u hu
        rcases List.mem_append.mp hu with hu | hu
        · exact hb u hu
        · simp at hu; omega), hlen, List.append_assoc]
      change Spec.take8 (us ++ v :: nats bs) = .bad ((us ++ [v]).length * 1)
      rw [h2 v _ (hc rfl)]
      simp
  | utf16 =>
    obtain ⟨u, rfl, hu1, hu2⟩ := take16_short us h
    refine ⟨?_, ?_, fun v bs hv _ hc => ?_⟩
    · rw [nats_unitBytes]
      have := units_serialized o 2 [u] (by simp; omega) [] 1
      change Spec.take16 (o.order.units 2 2 _) = .cut
      rw [List.append_nil] at this
      change o.order.units 2 2 _ = _ at this
      change Spec.take16 (o.order.units 2 2 (List.flatMap (o.order.bytes 2) [u])) = .cut
      rw [this, show o.order.units 2 1 [] = [] from rfl, List.append_nil, Spec.take16,
        if_pos ⟨hu1, hu2⟩]
      rfl
    · rw [nats_unitBytes]
      intro h
      have := congrArg List.length h
      simp [bytes_length, EncodingForm.form, Spec.Form.unitSize] at this
    · have hv' : v < 65536 := by simpa [EncodingForm.form, Spec.Form.unitSize] using hv
      rw [nats_append, nats_unitBytes, hlen]
      have := units_serialized o 2 ([u] ++ [v]) (by simp; omega) (nats bs) 0
      change o.order.units 2 2 _ = _ at this
      change Spec.take16 (o.order.units 2 2 (List.flatMap (o.order.bytes 2) ([u] ++ [v]) ++ nats bs)) = .bad 4
      rw [this, List.append_assoc, List.singleton_append, Spec.take16, if_pos ⟨hu1, hu2⟩,
        List.singleton_append, Spec.takePair, if_neg (hc rfl)]
  | utf32 =>
    obtain ⟨c, hc, hp, hne, hnw⟩ := h
    change us <+: [c] at hp
    cases us with
    | nil => exact absurd rfl hne
    | cons u ts =>
      obtain ⟨rfl, hp'⟩ := List.cons_prefix_cons.mp hp
      rw [List.prefix_nil] at hp'
      exact absurd (by rw [hp']; rfl) hnw

/-- A character cut short before a text: the first character of the text is taken for its rest. -/
theorem itemised_short (f : EncodingForm) (o : Endian) (us : List Nat) (h : f.form.CutShort us)
    (cs : List Nat) (ht : Spec.IsText cs) :
    ∃ fails, (∀ i ∈ fails, i = .bad ∨ i = .cut) ∧ fails ≠ [] ∧
      Itemised f.form o.order (nats (unitBytes f o us ++ textBytes f o cs))
        (fails ++ cs.tail.map .char) := by
  obtain ⟨h1, h2, h3⟩ := takeBytes_short f o us h
  cases cs with
  | nil =>
    refine ⟨[.cut], by simp, by simp, ?_⟩
    rw [textBytes_nil, List.append_nil]
    exact .cut h2 h1
  | cons c cs =>
    obtain ⟨v, vs, e, hs, hv, hc8, hc16⟩ := encode1_shape f c (ht c (by simp))
    refine ⟨.bad :: vs.map (fun _ => .bad), by simp, by simp, ?_⟩
    have eb : unitBytes f o us ++ textBytes f o (c :: cs) =
        unitBytes f o (us ++ [v]) ++ (unitBytes f o vs ++ textBytes f o cs) := by
      have : cpBytes f o c = unitBytes f o (f.form.encode1 c) := rfl
      rw [textBytes_cons, this, e, unitBytes_append, unitBytes_cons f o v vs, unitBytes_cons f o v []]
      simp [unitBytes, asBytes]
    rw [eb]
    refine .bad (h3 v _ hv hc8 hc16) ?_
    rw [InStream.nats_drop, List.drop_left]
    refine itemised_strays f o vs hs _ _ ?_
    have := itemised_text f o cs (fun x hx => ht x (by simp [hx])) [] [] .none
    rwa [List.append_nil, List.append_nil] at this

end Cmp
