import Verif.Proofs.RecoverText
import Verif.Proofs.FileLife
import Verif.Props.Target

/-
C117: reading on after malformed input.
-/

namespace Cmp

open InStream
open _root_.Spec (Item Itemised passReturns chars)

/-- Something tried, where exceptions are caught and forgotten. -/
def attempt {σ α : Type} (m : M σ α) : M σ (Option α) := fun s =>
  match m s with
  | (.ok a, s') => (.ok (some a), s')
  | (.throw _, s') => (.ok none, s')
  | (.terminate, s') => (.terminate, s')
  | (.ub, s') => (.ub, s')
  | (.hang, s') => (.hang, s')

/-- A program that reads characters as long as there is something to be read, and goes on after
exceptions:
`while (!stream.is_at_end()) { try { stream >> c; text.push_back(c); } catch (...) {} }`. -/
def readOn {ρ : Type} (native : Endian) (R : Reader ρ) :
    Nat → List Char32 → M (InStream ρ) (List Char32)
  | 0, _ => M.hang
  | fuel + 1, text => do
    let atEnd ← isAtEnd R
    if atEnd then pure text
    else do
      let got ← attempt (readFiltered native R)
      match got with
      | some c => readOn native R fuel (text ++ [c])
      | none => readOn native R fuel text

/-! ### C117 -/

section Sources

variable {ρ : Type} {R : Reader ρ} {sizes : Nat → Prop} {left : List Byte → ρ → Prop}

theorem readOn_items (D : R.Delivers sizes true left) (native : Endian) (fuel : Nat) (is : List Item)
    (hf : is.length < fuel) (s : InStream ρ) (h : HasItems sizes true left s is)
    (text : List Char32) :
    ∃ r', readOn native R fuel text s =
      (.ok (text ++ (chars is).map (BitVec.ofNat 32)), { s with res := r' }) := by
  induction is generalizing fuel s text with
  | nil =>
    obtain ⟨fuel, rfl⟩ : ∃ k, fuel = k + 1 := ⟨fuel - 1, by simp at hf; omega⟩
    refine ⟨s.res, ?_⟩
    rw [readOn, M.bind_ok (hasItems_end D h)]
    simp [chars]
  | cons i is ih =>
    obtain ⟨fuel, rfl⟩ : ∃ k, fuel = k + 1 := ⟨fuel - 1, by simp at hf; omega⟩
    obtain ⟨r', e1, q⟩ := hasItems_read D native h
    rw [readOn, M.bind_ok (hasItems_end D h), if_neg (by simp), M.bind_apply, attempt, e1]
    have hf' : is.length < fuel := by simp at hf; omega
    cases i with
    | char v =>
      obtain ⟨r2, e2⟩ := ih fuel hf' _ q (text ++ [BitVec.ofNat 32 v])
      refine ⟨r2, ?_⟩
      change readOn native R fuel (text ++ [BitVec.ofNat 32 v]) { s with res := r' } = _
      rw [e2]
      simp [chars]
    | bad =>
      obtain ⟨r2, e2⟩ := ih fuel hf' _ q text
      exact ⟨r2, e2⟩
    | cut =>
      obtain ⟨r2, e2⟩ := ih fuel hf' _ q text
      exact ⟨r2, e2⟩

variable {tells : Bool}

/-- On every source and for all bytes in it: the outcomes of successive reads are, one by one, the
items the bytes consist of, and after them only the exception for reading past the end. -/
theorem C117_outcomes (D : R.Delivers sizes tells left) (native : Endian) (n : Nat) (s : InStream ρ)
    (is : List Item) (h : HasItems sizes tells left s is) :
    M.outcomes (fun _ : Unit => readFiltered native R) s (List.replicate n ()) =
      (is.map report ++ List.replicate n (Outcome.throw .readPastEnd)).take n := by
  induction n generalizing s is with
  | zero => simp [M.outcomes]
  | succ n ih =>
    cases is with
    | nil =>
      obtain ⟨r', e1, q⟩ := hasItems_none D native h
      rw [List.replicate_succ, M.outcomes, e1, ih _ [] q]
      simp [List.replicate_succ]
    | cons i is =>
      obtain ⟨r', e1, q⟩ := hasItems_read D native h
      rw [List.replicate_succ, M.outcomes, e1, ih _ is q]
      simp only [List.map_cons, List.cons_append, List.take_succ_cons, List.cons.injEq, true_and]
      rw [List.replicate_succ', ← List.append_assoc,
        List.take_append_of_le_length (l₁ := is.map report ++ _) (by simp)]

end Sources

theorem passReturns_length (tells : Bool) : ∀ is, (passReturns tells is).length ≤ is.length
  | [] => Nat.le_refl _
  | [i] => by rw [passReturns]; split <;> simp
  | i :: j :: is => by
    rw [passReturns]
    have h1 := passReturns_length tells is
    have h2 := passReturns_length tells (j :: is)
    simp only [List.length_cons] at h2 ⊢
    split
    · simp only [List.length_cons]; omega
    · simp only [List.length_cons]; omega

theorem passReturns_id (tells : Bool) : ∀ is, .char 13 ∉ is → passReturns tells is = is
  | [], _ => rfl
  | [i], h => by
    rw [passReturns, if_neg]
    rintro ⟨rfl, -⟩
    exact h (by simp)
  | i :: j :: is, h => by
    rw [passReturns, if_neg, passReturns_id tells (j :: is) (fun hm => h (by simp [hm]))]
    rintro rfl
    exact h (by simp)

theorem itemised_length {f : Spec.Form} {o : Spec.ByteOrder} {l : List Nat} {is : List Item}
    (h : Itemised f o l is) : is.length ≤ l.length := by
  induction h with
  | none => simp
  | @char l v n is h t ih =>
    have := takeBytes_pos f o l
    rw [h] at this
    simp only [List.length_cons, List.length_drop] at ih ⊢
    have hl : l ≠ [] := by
      rintro rfl
      rw [takeBytes_nil] at h
      cases h
    have := List.length_pos_iff.mpr hl
    simp only at *
    omega
  | @bad l n is h t ih =>
    have := takeBytes_pos f o l
    rw [h] at this
    simp only [List.length_cons, List.length_drop] at ih ⊢
    have hl : l ≠ [] := by
      rintro rfl
      rw [takeBytes_nil] at h
      cases h
    have := List.length_pos_iff.mpr hl
    simp only at *
    omega
  | @cut l hl h =>
    have := List.length_pos_iff.mpr hl
    simp only [List.length_cons, List.length_nil]
    omega

/-- For all bytes in a container, all encoding forms, byte orders and buffers: reading on comes to an
end and gives the characters among the items of the bytes, in their order. -/
theorem C117_exact (native o : Endian) (form : EncodingForm) (cap fuel : Nat) (hcap : RoomFor form cap)
    (content : List Byte) (hf : content.length < fuel) (is : List Item)
    (hi : Itemised form.form o.order (nats content) is) :
    received cap content o form (readOn native Ctr.reader fuel []) =
      .ok ((chars (passReturns true is)).map (BitVec.ofNat 32)) := by
  have h1 := passReturns_length true is
  have h2 := itemised_length hi
  have h3 : (nats content).length = content.length := by simp [nats]
  obtain ⟨r', e⟩ := readOn_items (ctr_delivers cap content) native fuel (passReturns true is) (by omega)
    ⟨freshCtr cap 1 content, o, form⟩ ⟨hcap, content, is, Ctr.left_fresh cap 1 content, hi, rfl⟩ []
  rw [received, e]
  simp

theorem chars_append (a b : List Item) : chars (a ++ b) = chars a ++ chars b := by simp [chars]

theorem chars_map (cs : List Nat) : chars (cs.map .char) = cs := by
  induction cs with
  | nil => rfl
  | cons c cs ih =>
    rw [List.map_cons, show Item.char c :: cs.map .char = [.char c] ++ cs.map .char from rfl, chars_append,
      ih]
    rfl

theorem chars_fails (fails : List Item) (h : ∀ i ∈ fails, i = .bad ∨ i = .cut) : chars fails = [] := by
  simp only [chars, List.filterMap_eq_nil_iff]
  intro i hi
  rcases h i hi with rfl | rfl <;> rfl

/-- Texts without carriage returns around what is not a character. -/
theorem readOn_around (native o : Endian) (form : EncodingForm) (cap fuel : Nat)
    (hcap : RoomFor form cap) (cs1 cs2 : List Nat) (bs : List Byte)
    (ht : Spec.IsText cs1) (h1 : 13 ∉ cs1) (h2 : 13 ∉ cs2)
    (hf : (textBytes form o cs1 ++ bs).length < fuel)
    (fails : List Item) (hfail : ∀ i ∈ fails, i = .bad ∨ i = .cut)
    (hi : Itemised form.form o.order (nats bs) (fails ++ cs2.map .char)) :
    received cap (textBytes form o cs1 ++ bs) o form (readOn native Ctr.reader fuel []) =
      .ok ((cs1 ++ cs2).map (BitVec.ofNat 32)) := by
  rw [C117_exact native o form cap fuel hcap _ hf _ (itemised_text form o cs1 ht bs _ hi),
    passReturns_id, chars_append, chars_append, chars_map, chars_map, chars_fails fails hfail,
    List.nil_append]
  intro hm
  rcases List.mem_append.mp hm with hm | hm
  · obtain ⟨c, hc, e⟩ := List.mem_map.mp hm
    cases e
    exact h1 hc
  rcases List.mem_append.mp hm with hm | hm
  · rcases hfail _ hm with h | h <;> cases h
  · obtain ⟨c, hc, e⟩ := List.mem_map.mp hm
    cases e
    exact h2 hc

/-- The full claim fails: after the first two bytes of `€` the `A` is lost; after a leading surrogate
as well. -/
theorem C117_violated :
    ¬ ∀ (native o : Endian) (form : EncodingForm) (cap fuel : Nat) (cs1 us cs2 : List Nat),
      RoomFor form cap → Spec.IsText cs1 → Spec.IsText cs2 → 13 ∉ cs1 → 13 ∉ cs2 →
      (form.form.CutShort us ∨ ∀ u ∈ us, form.form.Stray u) →
      (textBytes form o cs1 ++ unitBytes form o us ++ textBytes form o cs2).length < fuel →
      received cap (textBytes form o cs1 ++ unitBytes form o us ++ textBytes form o cs2) o form
        (readOn native Ctr.reader fuel []) = .ok ((cs1 ++ cs2).map (BitVec.ofNat 32)) := by
  intro h
  have := h .little .little .utf8 0 9 [0x78] [0xE2, 0x82] [0x41, 0x42] (by decide)
    (by unfold Spec.IsText; decide) (by unfold Spec.IsText; decide) (by decide) (by decide)
    (.inl ⟨0x20AC, by decide, by decide, by decide, by decide⟩) (by decide)
  revert this
  decide +kernel

/-- Stray code units lose nothing: the characters around them are all read.  Missing: characters that
are cut short, see `C117_lost`. -/
theorem C117_partial (native o : Endian) (form : EncodingForm) (cap fuel : Nat)
    (hcap : RoomFor form cap) (cs1 us cs2 : List Nat) (ht1 : Spec.IsText cs1) (ht2 : Spec.IsText cs2)
    (h1 : 13 ∉ cs1) (h2 : 13 ∉ cs2) (hu : ∀ u ∈ us, form.form.Stray u)
    (hf : (textBytes form o cs1 ++ unitBytes form o us ++ textBytes form o cs2).length < fuel) :
    received cap (textBytes form o cs1 ++ unitBytes form o us ++ textBytes form o cs2) o form
      (readOn native Ctr.reader fuel []) = .ok ((cs1 ++ cs2).map (BitVec.ofNat 32)) := by
  have ht := itemised_text form o cs2 ht2 [] [] .none
  rw [List.append_nil, List.append_nil] at ht
  rw [List.append_assoc] at hf ⊢
  exact readOn_around native o form cap fuel hcap cs1 cs2 _ ht1 h1 h2 hf (us.map fun _ => .bad)
    (by simp) (itemised_strays form o us hu _ _ ht)

/-- A character that is cut short always costs exactly the next one, whatever it is; nothing else is
lost. -/
theorem C117_lost (native o : Endian) (form : EncodingForm) (cap fuel : Nat)
    (hcap : RoomFor form cap) (cs1 us cs2 : List Nat) (ht1 : Spec.IsText cs1) (ht2 : Spec.IsText cs2)
    (h1 : 13 ∉ cs1) (h2 : 13 ∉ cs2) (hu : form.form.CutShort us)
    (hf : (textBytes form o cs1 ++ unitBytes form o us ++ textBytes form o cs2).length < fuel) :
    received cap (textBytes form o cs1 ++ unitBytes form o us ++ textBytes form o cs2) o form
      (readOn native Ctr.reader fuel []) = .ok ((cs1 ++ cs2.tail).map (BitVec.ofNat 32)) := by
  obtain ⟨fails, hfail, -, hi⟩ := itemised_short form o us hu cs2 ht2
  rw [List.append_assoc] at hf ⊢
  exact readOn_around native o form cap fuel hcap cs1 cs2.tail _ ht1 h1
    (fun h => h2 (List.mem_of_mem_tail h)) hf fails hfail hi

/-- Cases of the two theorems: stray bytes between `x` and `AB`, a lone leading surrogate before
`A€`. -/
example : (∀ u ∈ [0x80, 0xFF, 0xBF], Spec.Form.utf8.Stray u) ∧ Spec.Form.utf16.CutShort [0xD83D] ∧
    received 3 (textBytes .utf8 .big [0x78] ++ unitBytes .utf8 .big [0x80, 0xFF, 0xBF] ++
      textBytes .utf8 .big [0x41, 0x42]) .big .utf8 (readOn .little Ctr.reader 9 []) =
      .ok [0x78, 0x41, 0x42] ∧
    received 4 (textBytes .utf16 .big [0x78] ++ unitBytes .utf16 .big [0xD83D] ++
      textBytes .utf16 .big [0x41, 0x20AC]) .big .utf16 (readOn .little Ctr.reader 9 []) =
      .ok [0x78, 0x20AC] := by
  refine ⟨?_, ⟨0x1F600, by decide, by decide, by decide, by decide⟩, ?_, ?_⟩
  · unfold Spec.Form.Stray
    decide
  · decide +kernel
  · decide +kernel

end Cmp
