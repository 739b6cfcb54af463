import Verif.Proofs.Tail
import Verif.Props.Journal

/-
Property C126: whoever follows a text file while it is written gets whole characters.
-/

namespace Cmp

open Cmp.Spec (Tail TextLog TailOp pieces)
open _root_.Spec (Item Itemised passReturns chars)

/-! ### C126 -/

/-- A `file` object with a buffer of `cap` bytes goes to the end of the file called `path`, and a text is
written through a `text_output_stream` on it while others follow the file: each of them with a `file`
object and a `text_input_stream` of its own, reading on until it is at the end. -/
def tailing (P : FilePlatform) (files : Nat → Option (List Byte)) (path cap : Nat) (native o : Endian)
    (form : EncodingForm) (ops : List TailOp) : Outcome (List (Option (List Nat))) :=
  ((do
    Disk.construct P 0 cap [] path .writeOnly .create
    Disk.setPosition P 0 0 .end
    M.runList (Disk.tailStep P path native o form) ops :
      M Disk (List (Option (List Nat)))) (Disk.make files)).1

/-- A character that can be written (see C01). -/
def Writable (form : EncodingForm) (c : Nat) : Prop :=
  _root_.Spec.IsScalar c ∧ (form = .utf8 → ¬ LowSurrogate c)

/-- The buffer of one who follows the text holds a code unit, or there is none; a single call of the
operating system fills it. -/
def FollowRoom (P : FilePlatform) (form : EncodingForm) (c : Nat) : Prop :=
  RoomFor form c ∧ c ≤ P.takesAtOnce

/-- With a buffer of `cap` bytes for writing: the file, which holds a text already or is not there, shows
a growing text of whole characters to everybody who follows it, as long as the characters are `able` to be
written and none of them is a carriage return. -/
def FollowsText (P : FilePlatform) (native o : Endian) (form : EncodingForm) (cap : Nat)
    (able : Nat → Prop) : Prop :=
  ∀ (files : Nat → Option (List Byte)) (path : Nat) (old : List Nat) (ops : List TailOp),
    (files path).getD [] = textBytes form o old → _root_.Spec.IsText old → 13 ∉ old →
    TailOp.Proper (fun c => Writable form c ∧ c ≠ 13 ∧ able c) (FollowRoom P form) (fun _ => none) ops →
    ∃ xs, tailing P files path cap native o form ops = .ok xs ∧ xs.length = ops.length
      ∧ (TextLog.holding old).Explains (ops.zip xs)

theorem proper_mono {able able' room : Nat → Prop} (h : ∀ c, able c → able' c) (ops : List TailOp) :
    ∀ readers, TailOp.Proper able room readers ops → TailOp.Proper able' room readers ops := by
  induction ops with
  | nil => exact fun _ _ => trivial
  | cons op ops ih =>
    rintro readers ⟨h1, h2⟩
    refine ⟨?_, ih _ h2⟩
    cases op with
    | put c => exact h c h1
    | flush => trivial
    | join i c => exact h1
    | follow i => exact h1

/-- In full, for all contents of the file and all texts: what everybody gets is what the bytes that
appeared in the file since the last time are by themselves. -/
theorem C126_exact (P : FilePlatform) (native o : Endian) (form : EncodingForm)
    (files : Nat → Option (List Byte)) (path cap : Nat) (hcap : cap ≤ P.takesAtOnce) (ops : List TailOp)
    (hp : TailOp.Proper (Writable form) (FollowRoom P form) (fun _ => none) ops) :
    ∃ xs, tailing P files path cap native o form ops = .ok xs ∧ xs.length = ops.length
      ∧ (Tail.holding ((files path).getD [])).Explains cap (o = native) form.form o.order
        (ops.zip xs) := by
  rw [takesAtOnce_most] at hcap
  have hm : 4 ≤ P.most := by rw [← takesAtOnce_most]; cases P <;> decide
  obtain ⟨d, e, h⟩ := tails_start P files path cap (FollowRoom P form) hcap
  obtain ⟨xs, d', e', hl, hx⟩ := tails_all hm native o form (fun c hc => by
    rw [← takesAtOnce_most]
    exact ⟨hc.2, hc.1⟩) ops h
    (proper_mono (fun c hc => writeOk_of hc.1 hc.2) ops _ hp)
  refine ⟨xs, ?_, hl, hx⟩
  rw [M.bind_apply] at e
  rw [tailing, M.bind_apply]
  cases hc : Disk.construct P 0 cap [] path .writeOnly .create (Disk.make files) with
  | mk a d1 =>
    rw [hc] at e
    cases a with
    | ok _ =>
      simp only at e ⊢
      rw [M.bind_ok e, e']
    | throw _ => simp at e
    | terminate => simp at e
    | ub => simp at e
    | hang => simp at e

/-- C126 as far as it holds: in UTF-8 and UTF-32, in UTF-16 in the byte order of the system, and in the
other one if the buffer does not hold a code unit or all characters are below U+10000, everybody gets the
text as it is, each character once and whole, at the latest when it was flushed.  Missing is UTF-16 in
the byte order that is not the system's with a buffer (`C126_violated`), and carriage returns, which
are passed over or not depending on what has appeared behind them. -/
theorem C126_partial (P : FilePlatform) (native o : Endian) (form : EncodingForm) (cap : Nat)
    (hcap : cap ≤ P.takesAtOnce) :
    FollowsText P native o form cap
      (fun c => form ≠ .utf16 ∨ o = native ∨ c < 0x10000 ∨ cap < 2) := by
  intro files path old ops hold ht hl hp
  obtain ⟨xs, e, hlen, hx⟩ := C126_exact P native o form files path cap hcap ops
    (proper_mono (fun c hc => hc.1) ops _ hp)
  refine ⟨xs, e, hlen, ?_⟩
  have hz : (ops.zip xs).map (·.1) = ops := List.map_fst_zip (by omega)
  refine explains_whole form o cap (o = native) (FollowRoom P form)
    (fun c => Writable form c ∧ c ≠ 13 ∧ (form ≠ .utf16 ∨ o = native ∨ c < 0x10000 ∨ cap < 2)) (fun c hc =>
    ⟨hc.1.1, hc.2.1, by simpa using hc.2.2⟩) (ops.zip xs) (fun _ => none) (TextLog.holding old) _ ?_
    (fun _ _ => rfl) (by rw [hz]; exact hp) hx
  exact ⟨⟨old, [], by simp [TextLog.holding], hold, rfl, Nat.le_refl _, fun i =>
    ⟨Nat.zero_le _, by simp [TextLog.holding, Tail.holding, textBytes_nil]⟩⟩, ht, hl⟩

/-- The letter A many times, with a buffer they fit in. -/
theorem explains_fill (o : Endian) (cap : Nat) (own : Bool) (rest : List TailOp) (m : Nat) :
    ∀ (t : TextLog) (s : Tail) (l : List (TailOp × Option (List Nat))),
      l.map (·.1) = List.replicate m (.put 65) ++ rest → s.kept.length + 2 * m ≤ cap →
      t.Explains l → s.Explains cap own .utf16 o.order l →
      ∃ l', l'.map (·.1) = rest
        ∧ ({ t with written := t.written ++ List.replicate m 65 } : TextLog).Explains l'
        ∧ ({ s with kept := s.kept ++ textBytes .utf16 o (List.replicate m 65) } : Tail).Explains cap own
          .utf16 o.order l' := by
  induction m with
  | zero =>
    intro t s l hl _ ht hs
    exact ⟨l, by simpa using hl, by simpa using ht, by simpa [textBytes_nil] using hs⟩
  | succ m ih =>
    intro t s l hl hk ht hs
    rw [List.replicate_succ, List.cons_append] at hl
    obtain ⟨⟨op, x⟩, l, rfl⟩ : ∃ p l', l = p :: l' := by
      cases l with
      | nil => cases hl
      | cons p l => exact ⟨p, l, rfl⟩
    simp only [List.map_cons, List.cons.injEq] at hl
    obtain ⟨rfl, hl⟩ := hl
    obtain ⟨-, ht⟩ := ht
    obtain ⟨-, hs⟩ := hs
    have hp := pieces_single own .utf16 o 65 (.inr (.inr (by decide)))
    have hl2 : (cpBytes .utf16 o 65).length = 2 := by cases o <;> decide
    rw [show EncodingForm.utf16.form = .utf16 from rfl] at hp
    rw [hp, List.foldl_cons, List.foldl_nil, Tail.add, if_neg (by omega), if_neg (by omega)] at hs
    obtain ⟨l', h1, h2, h3⟩ := ih _ _ l hl (by simp only [List.length_append, hl2]; omega) ht hs
    refine ⟨l', h1, ?_, ?_⟩
    · rw [List.append_assoc] at h2
      exact h2
    · rw [List.append_assoc] at h3
      rw [List.replicate_succ, textBytes_cons]
      exact h3

/-- C126 fails with every buffer that holds a code unit: UTF-16 in the byte order that is not the
system's is written a code unit at a time, so that a character beyond U+FFFF may appear in the file half;
whoever reads it then loses it. -/
theorem C126_violated (P : FilePlatform) (native o : Endian) (ho : o ≠ native) (cap : Nat) (h2 : 2 ≤ cap)
    (hcap : cap ≤ P.takesAtOnce) : ¬ FollowsText P native o .utf16 cap (fun _ => True) := by
  intro h
  have hp : ∀ m, TailOp.Proper (fun c => Writable .utf16 c ∧ c ≠ 13 ∧ True) (FollowRoom P .utf16)
      (fun _ => none) (List.replicate m (.put 65) ++
        [.put 0x10000, .join 0 0, .follow 0, .flush, .follow 0]) := by
    intro m
    induction m with
    | zero =>
      refine ⟨⟨⟨by decide, by simp⟩, by decide, trivial⟩, ⟨rfl, .inr rfl, Nat.zero_le _⟩, ?_, trivial, ?_,
        trivial⟩
      · simp [TailOp.joined]
      · simp [TailOp.joined]
    | succ m ih => exact ⟨⟨⟨by decide, by simp⟩, by decide, trivial⟩, ih⟩
  obtain ⟨xs, e, hlen, ht⟩ := h (fun _ => none) 0 [] _ (by rfl) (by intro c hc; cases hc) (by simp)
    (hp (cap / 2 - 1))
  obtain ⟨xs', e', -, hs⟩ := C126_exact P native o .utf16 (fun _ => none) 0 cap hcap _
    (proper_mono (fun c hc => hc.1) _ _ (hp (cap / 2 - 1)))
  rw [e, Outcome.ok.injEq] at e'
  subst e'
  obtain ⟨l, hl, ht, hs⟩ := explains_fill o cap (o = native) _ (cap / 2 - 1) _ _ _
    (List.map_fst_zip (by omega)) (by simp [Tail.holding]; omega) ht hs
  have hT : ∀ m, (textBytes .utf16 o (List.replicate m 65)).length = 2 * m := by
    intro m
    induction m with
    | zero => rfl
    | succ m ih =>
      rw [List.replicate_succ, textBytes_cons, List.length_append, ih]
      have : (cpBytes .utf16 o 65).length = 2 := by cases o <;> decide
      omega
  have hm : cap = 2 * (cap / 2 - 1) + 2 ∨ cap = 2 * (cap / 2 - 1) + 3 := by omega
  generalize cap / 2 - 1 = m at *
  have hT := hT m
  match l, hl with
  | [(_, x1), (_, x2), (_, x3), (_, x4), (_, x5)], hl =>
    simp only [List.map_cons, List.map_nil, List.cons.injEq, and_true] at hl
    obtain ⟨rfl, rfl, rfl, rfl, rfl⟩ := hl
    obtain ⟨hi, lo, hpc, hhi, hlo, hci, hcl⟩ : ∃ hi lo : List Byte,
        pieces (o = native) .utf16 o.order 0x10000 = [hi, lo] ∧ hi.length = 2 ∧ lo.length = 2
        ∧ Itemised .utf16 o.order (nats hi) [.cut] ∧ Itemised .utf16 o.order (nats lo) [.bad] := by
      refine ⟨_, _, by rw [pieces, if_pos ⟨rfl, by simp [ho]⟩]; rfl, by simp [bytes_length],
        by simp [bytes_length], ?_, ?_⟩
      · exact .cut (by cases o <;> decide) (by cases o <;> decide)
      · exact .bad (n := 2) (by cases o <;> decide) (by cases o <;> exact .none)
    obtain ⟨-, -, ⟨is, his, rfl⟩, -, ⟨is2, his2, rfl⟩, -⟩ := hs
    obtain ⟨-, -, cs, hcs, -, -, -, cs2, hcs2, -, hfl, -⟩ := ht
    rw [Option.some.injEq] at hcs hcs2
    subst hcs hcs2
    rw [hpc] at his his2
    simp only [Tail.holding, Option.getD_none, Tail.look, Tail.flush, List.foldl_cons, List.foldl_nil, Tail.add, hhi, hlo,
      List.nil_append, List.length_append, hT, if_neg (show ¬ cap < 2 by omega),
      if_neg (show ¬ cap < 2 * m + 2 by omega), if_pos (show cap < 2 * m + 2 + 2 by omega), if_pos,
      List.drop_zero] at his his2
    have e1 := itemised_unique his (itemised_text .utf16 o (List.replicate m 65) (by
      intro c hc
      rw [(List.mem_replicate.mp hc).2]
      decide) hi [.cut] hci)
    rw [show 2 * m + 2 = (textBytes .utf16 o (List.replicate m 65) ++ hi).length by
      rw [List.length_append, hT, hhi], List.drop_left] at his2
    have e2 := itemised_unique his2 hcl
    subst e1 e2
    rw [passReturns_id _ _ (by
      intro hm
      rcases List.mem_append.mp hm with hm | hm
      · obtain ⟨c, hc, h⟩ := List.mem_map.mp hm
        rw [(List.mem_replicate.mp hc).2] at h
        cases h
      · simp at hm), chars_append, chars_map] at hfl
    simp [TextLog.give, chars, passReturns, TextLog.holding] at hfl

/-- Exactly when everybody gets whole characters. -/
theorem C126_exact_when (P : FilePlatform) (native o : Endian) (form : EncodingForm) (cap : Nat)
    (hcap : cap ≤ P.takesAtOnce) :
    FollowsText P native o form cap (fun _ => True) ↔ form ≠ .utf16 ∨ o = native ∨ cap < 2 := by
  constructor
  · intro h
    by_cases hf : form = .utf16
    · subst hf
      by_cases ho : o = native
      · exact .inr (.inl ho)
      · by_cases hc : cap < 2
        · exact .inr (.inr hc)
        · exact absurd h (C126_violated P native o ho cap (by omega) hcap)
    · exact .inl hf
  · intro h files path old ops hold ht hl hp
    refine C126_partial P native o form cap hcap files path old ops hold ht hl
      (proper_mono (fun c hc => ⟨hc.1, hc.2.1, ?_⟩) ops _ hp)
    rcases h with h | h | h
    · exact .inl h
    · exact .inr (.inl h)
    · exact .inr (.inr (.inr h))

/-- A text that two follow. -/
def tailUse : List TailOp :=
  [.join 0 4, .put 0x41, .follow 0, .put 0x1F600, .follow 0, .put 0x20AC, .join 1 0, .follow 1, .flush,
    .follow 0, .follow 0, .follow 1]

/-- UTF-8, UTF-16 in the byte order of the system and in the other one, with a buffer of five bytes for
writing and a file that holds an `x`. -/
example : (∀ form, TailOp.Proper (fun c => Writable form c ∧ c ≠ 13 ∧ True)
      (FollowRoom .unix form) (fun _ => none) tailUse)
    ∧ tailing .unix (fun _ => some [0x78]) 0 5 .little .little .utf8 tailUse
      = .ok [none, none, some [0x78], none, some [], none, none, some [0x78, 0x41, 0x1F600], none,
        some [0x41, 0x1F600, 0x20AC], some [], some [0x20AC]]
    ∧ tailing .unix (fun _ => some [0x78, 0]) 0 5 .little .little .utf16 tailUse
      = .ok [none, none, some [0x78], none, some [0x41], none, none, some [0x78, 0x41, 0x1F600], none,
        some [0x1F600, 0x20AC], some [], some [0x20AC]]
    ∧ tailing .unix (fun _ => some [0, 0x78]) 0 5 .little .big .utf16 tailUse
      = .ok [none, none, some [0x78], none, some [0x41], none, none, some [0x78, 0x41], none,
        some [0x20AC], some [], some [0x20AC]] := by
  refine ⟨?_, by decide +kernel, by decide +kernel, by decide +kernel⟩
  intro form
  cases form <;> simp [tailUse, TailOp.Proper, TailOp.joined, Writable, FollowRoom, RoomFor, LowSurrogate,
    _root_.Spec.IsScalar, FilePlatform.takesAtOnce, EncodingForm.form, _root_.Spec.Form.unitSize]

/-- Whether a carriage return before a line feed is passed over depends on when the file is read. -/
example : tailing .unix (fun _ => none) 0 0 .little .little .utf8
      [.join 0 0, .put 13, .follow 0, .put 10, .follow 0, .join 1 0, .follow 1]
      = .ok [none, none, some [13], none, some [10], none, some [10]] := by
  decide +kernel

end Cmp
