import Verif.Model.Console
import Verif.Proofs.TextLines
import Verif.Proofs.Tied
import Verif.Spec.Resource

/-
Standard input and output used together: what the system is told and asked, in which order.
-/

namespace Cmp

namespace Sys

theorem given_append (a b : List StdEvent) : given (a ++ b) = given a + given b := by
  simp [given]

@[simp] theorem given_nil : given [] = 0 := rfl

@[simp] theorem output_nil : output [] = [] := rfl

/-- Only asking. -/
def AllAsked (l : List StdEvent) : Prop := ∀ e ∈ l, ∃ n g, e = StdEvent.asked n g

/-- Only writing. -/
def AllWrote (l : List StdEvent) : Prop := ∀ e ∈ l, ∃ b, e = StdEvent.wrote b

theorem output_asked {l : List StdEvent} (h : AllAsked l) : output l = [] := by
  simp only [output, List.flatMap_eq_nil_iff]
  intro e he
  obtain ⟨n, g, rfl⟩ := h e he
  rfl

theorem given_wrote {l : List StdEvent} (h : AllWrote l) : given l = 0 := by
  induction l with
  | nil => rfl
  | cons e l ih =>
    obtain ⟨b, rfl⟩ := h e (by simp)
    have := ih (fun x hx => h x (by simp [hx]))
    simp only [given, List.map_cons, List.sum_cons] at this ⊢
    omega

end Sys

/-- The size of the units in which the console hands out input. -/
def StdPlatform.unit : StdPlatform → Nat
  | .unix => 1
  | .windows => 2

theorem StdPlatform.unit_pos (p : StdPlatform) : 0 < p.unit := by cases p <;> decide

theorem StdPlatform.unit_form (p : StdPlatform) : p.inForm.form.unitSize = p.unit := by
  cases p <;> rfl

/-- One call: at least one unit if there is one and it fits, and never more than asked for. -/
theorem StdPlatform.readRaw_eq (p : StdPlatform) (n : Nat) (rr : ReadRequest) (s : Sys)
    (hs : s.ReadsProgress) :
    ∃ g s', p.readRaw n rr s = (.ok ⟨g, g.length⟩, s') ∧ s.supply = g ++ s'.supply ∧
      s'.log = s.log ++ [.asked n g.length] ∧ s'.writes = s.writes ∧ s'.ReadsProgress ∧
      g.length ≤ n ∧ (p.unit ∣ s.supply.length → p.unit ∣ g.length ∧ p.unit ∣ s'.supply.length) ∧
      (g = [] → n < p.unit ∨ s.supply = []) := by
  have hsucc : ∀ e ∈ s.reads, e ≠ none := fun e he => by obtain ⟨k, rfl⟩ := hs e he; simp
  have htail : ∀ e ∈ s.reads.tail, ∃ k, e = some (k + 1) := fun e he =>
    hs e (List.mem_of_mem_tail he)
  cases p with
  | unix =>
    obtain ⟨k, hk⟩ := Sys.transferred_some (n := n) hsucc
    have hle := Sys.transferred_le hk
    refine ⟨s.supply.take k, { s with supply := s.supply.drop k, reads := s.reads.tail, log := s.log ++ [.asked n (s.supply.take k).length] }, ?_, (List.take_append_drop k _).symm, rfl, rfl, htail,
      by simp; omega, fun _ => ⟨Nat.one_dvd _, Nat.one_dvd _⟩, ?_⟩
    · show Stdin.readRaw n rr s = _
      simp only [Stdin.readRaw]
      rw [M.bind_ok (Sys.read_ok s n hk)]
      rfl
    · intro h
      simp only [List.take_eq_nil_iff] at h
      rcases h with h | h
      · have := Sys.transferred_progress hs hk h
        exact .inl (by rw [this]; decide)
      · exact .inr h
  | windows =>
    obtain ⟨k, hk⟩ := Sys.transferred_some (n := n / 2) hsucc
    have hle := Sys.transferred_le hk
    refine ⟨s.supply.take (2 * k), { s with supply := s.supply.drop (2 * k), reads := s.reads.tail, log := s.log ++ [.asked n (s.supply.take (2 * k)).length] }, by
      show Stdin.readRawWindows n rr s = _
      simp only [Stdin.readRawWindows, hk], (List.take_append_drop _ _).symm, rfl, rfl, htail,
      by simp; omega, ?_, ?_⟩
    · show 2 ∣ _ → 2 ∣ _ ∧ 2 ∣ _
      simp only [List.length_take, List.length_drop]
      omega
    · intro h
      simp only [List.take_eq_nil_iff] at h
      rcases h with h | h
      · have := Sys.transferred_progress hs hk (by omega)
        exact .inl (by show n < 2; omega)
      · exact .inr h

/-- The input side between two reads of one unit. -/
structure Listening (p : StdPlatform) (cap : Nat) (r : Res Sys) : Prop where
  length : r.buf.data.length = cap
  progress : r.dev.ReadsProgress
  loaded : r.buf.readDirty = false → r.buf.size ≤ cap ∧ r.buf.position ≤ r.buf.size
  held : p.unit ∣ r.held.length
  supply : p.unit ∣ r.dev.supply.length

/-- What a read of one unit does to the system: nothing if the buffer holds one, and otherwise it
only asks, and not again once it was given something. -/
structure Asking (r r' : Res Sys) (as : List StdEvent) : Prop where
  writes : r'.dev.writes = r.dev.writes
  log : r'.dev.log = r.dev.log ++ as
  asked : Sys.AllAsked as
  given : Sys.given as + r'.dev.supply.length = r.dev.supply.length
  needed : ∀ pre n g post, as = pre ++ StdEvent.asked n g :: post →
    r.held = [] ∧ Sys.given pre = 0

theorem Asking.none {r r' : Res Sys} (h : r'.dev = r.dev) : Asking r r' [] :=
  ⟨by rw [h], by rw [h]; simp, by simp [Sys.AllAsked], by rw [h]; simp, by simp⟩

theorem Asking.one {r r' : Res Sys} {n : Nat} {g : List Byte} (hh : r.held = [])
    (hw : r'.dev.writes = r.dev.writes) (hl : r'.dev.log = r.dev.log ++ [.asked n g.length])
    (hs : r.dev.supply = g ++ r'.dev.supply) : Asking r r' [.asked n g.length] := by
  refine ⟨hw, hl, by simp [Sys.AllAsked], ?_, ?_⟩
  · rw [hs, List.length_append]; simp [Sys.given]
  · intro pre m k post h
    cases pre with
    | nil => exact ⟨hh, rfl⟩
    | cons x pre => simp at h

theorem Asking.more {r r1 r' : Res Sys} {as : List StdEvent} {n : Nat} (hh : r.held = [])
    (hw : r1.dev.writes = r.dev.writes) (hl : r1.dev.log = r.dev.log ++ [.asked n 0])
    (hs : r.dev.supply = r1.dev.supply) (h : Asking r1 r' as) :
    Asking r r' (.asked n 0 :: as) := by
  refine ⟨h.writes.trans hw, by rw [h.log, hl, List.append_assoc]; rfl, ?_, ?_, ?_⟩
  · intro e he
    rcases List.mem_cons.mp he with rfl | he
    · exact ⟨_, _, rfl⟩
    · exact h.asked e he
  · rw [hs, ← h.given]; simp [Sys.given]
  · intro pre m k post e
    cases pre with
    | nil => exact ⟨hh, rfl⟩
    | cons x pre =>
      simp only [List.cons_append, List.cons.injEq] at e
      obtain ⟨rfl, e⟩ := e
      have := (h.needed pre m k post e).2
      exact ⟨hh, by simpa [Sys.given] using this⟩

theorem dvd_cases {u n : Nat} (h : u ∣ n) : n = 0 ∨ u ≤ n := by
  rcases Nat.eq_zero_or_pos n with h0 | h0
  · exact .inl h0
  · exact .inr (Nat.le_of_dvd h0 h)

theorem held_clean {b : IoBuffer} (h : b.readDirty = false) (d : Sys) :
    (⟨b, d⟩ : Res Sys).held = b.unread := by
  simp [Res.held, h]

theorem take_unit {u : Nat} (g rest : List Byte) (hg : u ∣ g.length)
    (h0 : g = [] → rest = []) : g.take u = (g ++ rest).take u ∧
      g.drop u ++ rest = (g ++ rest).drop u := by
  rcases dvd_cases hg with h | h
  · have := List.eq_nil_of_length_eq_zero h
    subst this
    simp [h0 rfl]
  · exact ⟨(List.take_append_of_le_length h).symm, (List.drop_append_of_le_length h).symm⟩

theorem readLoaded_listening (p : StdPlatform) {cap : Nat} {r : Res Sys} (h : Listening p cap r)
    (hd : r.buf.readDirty = false) :
    ∃ r' as, Res.readLoaded p.readRaw p.unit r =
        (.ok ⟨(r.held ++ r.dev.supply).take p.unit,
          ((r.held ++ r.dev.supply).take p.unit).length⟩, r') ∧
      Listening p cap r' ∧ r'.held ++ r'.dev.supply = (r.held ++ r.dev.supply).drop p.unit ∧
      Asking r r' as := by
  obtain ⟨hl, hp, hs, hh, hsu⟩ := h
  obtain ⟨hs, hpos⟩ := hs hd
  have hu := p.unit_pos
  have hheld : r.held = r.buf.unread := by simp [Res.held, hd]
  have hul := r.buf.unread_length (by omega)
  rw [hheld] at hh ⊢
  rcases dvd_cases hh with h0 | h0
  · have hnil : r.buf.unread = [] := List.eq_nil_of_length_eq_zero h0
    have hdiff : r.buf.size - r.buf.position = 0 := by omega
    by_cases hc : p.unit > r.buf.data.length
    · obtain ⟨g, s', e, e1, e2, e3, e4, e5, e6, e7⟩ := p.readRaw_eq p.unit .leanRetrieval r.dev hp
      have e' := Res.readLoaded_lean (raw := p.readRaw) (n := p.unit) (by omega) hpos (by omega)
        (by omega) (by rw [hdiff, Nat.sub_zero]; exact e)
      have hun : ({ r.buf with position := r.buf.size } : IoBuffer).unread = [] := by
        simp [IoBuffer.unread]
      have hg := e6 hsu
      have h0' : g = [] → s'.supply = [] := by
        intro hg0
        rcases e7 hg0 with h | h
        · omega
        · rw [e1, hg0] at h; simpa using h
      have ht := take_unit g s'.supply hg.1 h0'
      have hgl : g.take p.unit = g := List.take_of_length_le (by omega)
      have hgd : g.drop p.unit = [] := List.drop_eq_nil_of_le (by omega)
      refine ⟨⟨{ r.buf with position := r.buf.size }, s'⟩, [.asked p.unit g.length], ?_,
        ⟨hl, e4, fun _ => ⟨hs, Nat.le_refl _⟩, ?_, hg.2⟩, ?_,
        Asking.one (by rw [hheld, hnil]) e3 e2 e1⟩
      · rw [e', hnil, e1, List.nil_append, List.nil_append, ← ht.1, hgl]
        simp
      · simp [Res.held, hun]
      · rw [held_clean (b := { r.buf with position := r.buf.size }) hd, hun, hnil, e1, List.nil_append,
          List.nil_append, ← ht.2, hgd]
        rfl
    · obtain ⟨g, s', e, e1, e2, e3, e4, e5, e6, e7⟩ := p.readRaw_eq r.buf.data.length .fillBuffer
        r.dev hp
      have e' := Res.readLoaded_fill (raw := p.readRaw) (n := p.unit) (by omega) hpos (by omega)
        (by omega) e5 e
      have hun : ∀ k, ({ Res.filled r.buf ⟨g, g.length⟩ with position := k } : IoBuffer).unread =
          g.drop k := by
        intro k
        have := Res.filled_unread r.buf g e5
        simp only [IoBuffer.unread, Res.filled, List.drop_zero] at this ⊢
        rw [this]
      have hg := e6 hsu
      have h0' : g = [] → s'.supply = [] := by
        intro hg0
        rcases e7 hg0 with h | h
        · omega
        · rw [e1, hg0] at h; simpa using h
      have ht := take_unit g s'.supply hg.1 h0'
      have hmin : g.drop (min g.length p.unit) = g.drop p.unit := by
        by_cases hle : g.length ≤ p.unit
        · rw [Nat.min_eq_left hle, List.drop_eq_nil_of_le (Nat.le_refl _),
            List.drop_eq_nil_of_le hle]
        · rw [Nat.min_eq_right (by omega)]
      refine ⟨⟨{ Res.filled r.buf ⟨g, g.length⟩ with
          position := min g.length (p.unit - r.buf.unread.length) }, s'⟩,
        [.asked r.buf.data.length g.length], ?_, ⟨?_, e4, fun _ => ⟨?_, ?_⟩, ?_, hg.2⟩, ?_,
        Asking.one (by rw [hheld, hnil]) e3 e2 e1⟩
      · rw [e', hnil, e1, List.nil_append, List.nil_append, ← ht.1]
        simp
      · rw [← hl]; exact Res.filled_length _ _ _
      · simp only [Res.filled]; omega
      · simp only [Res.filled]; omega
      · simp only [Res.held, Res.filled, Bool.false_eq_true, if_false]
        have := hun (min g.length (p.unit - r.buf.unread.length))
        simp only [Res.filled] at this
        rw [this, hnil, List.length_nil, Nat.sub_zero, hmin, List.length_drop]
        exact Nat.dvd_sub hg.1 (Nat.dvd_refl _)
      · simp only [Res.held, Res.filled, Bool.false_eq_true, if_false]
        have := hun (min g.length (p.unit - r.buf.unread.length))
        simp only [Res.filled] at this
        rw [this, hnil, List.length_nil, Nat.sub_zero, hmin, e1, List.nil_append, ht.2]
  · have e := Res.readLoaded_within p.readRaw r p.unit (by omega) (by omega)
    have hlen : (r.buf.unread.take p.unit).length = p.unit := by
      rw [List.length_take]; omega
    have hun : ({ r.buf with position := r.buf.position + p.unit } : IoBuffer).unread =
        r.buf.unread.drop p.unit := by simp [IoBuffer.unread, List.drop_drop]
    refine ⟨{ r with buf := { r.buf with position := r.buf.position + p.unit } }, [], ?_,
      ⟨hl, hp, fun _ => ⟨hs, by simp only; omega⟩, ?_, hsu⟩, ?_, Asking.none rfl⟩
    · rw [e, List.take_append_of_le_length h0, hlen]
    · rw [held_clean (b := { r.buf with position := r.buf.position + p.unit }) hd, hun, List.length_drop]
      exact Nat.dvd_sub hh (Nat.dvd_refl _)
    · rw [held_clean (b := { r.buf with position := r.buf.position + p.unit }) hd, hun]
      exact (List.drop_append_of_le_length h0).symm

/-- Reading one unit. -/
theorem read_listening (p : StdPlatform) {cap : Nat} {r : Res Sys} (h : Listening p cap r) :
    ∃ r' as, Res.read p.readRaw p.unit r =
        (.ok ⟨(r.held ++ r.dev.supply).take p.unit,
          ((r.held ++ r.dev.supply).take p.unit).length⟩, r') ∧
      Listening p cap r' ∧ r'.held ++ r'.dev.supply = (r.held ++ r.dev.supply).drop p.unit ∧
      Asking r r' as := by
  have hu := p.unit_pos
  by_cases hc : 0 < r.buf.data.length
  · rw [Res.read_buffered _ _ _ hc]
    cases hd : r.buf.readDirty with
    | false =>
      rw [Res.readBuffered_clean _ _ _ hd]
      exact readLoaded_listening p h hd
    | true =>
      obtain ⟨g, s', e, e1, e2, e3, e4, e5, e6, e7⟩ := p.readRaw_eq r.buf.data.length .fillBuffer
        r.dev h.progress
      rw [Res.readBuffered_dirty hd e]
      have hheld : r.held = [] := by simp [Res.held, hd]
      have hg := e6 h.supply
      have hf := Res.filled_unread r.buf g e5
      have hf' : (⟨Res.filled r.buf ⟨g, g.length⟩, s'⟩ : Res Sys).held = g := by
        rw [held_clean rfl, hf]
      have hL : Listening p cap ⟨Res.filled r.buf ⟨g, g.length⟩, s'⟩ :=
        ⟨by rw [← h.length]; exact Res.filled_length _ _ _, e4,
          fun _ => ⟨by rw [← h.length]; exact e5, Nat.zero_le _⟩, by rw [hf']; exact hg.1, hg.2⟩
      obtain ⟨r', as, q1, q2, q3, q4⟩ := readLoaded_listening p hL rfl
      rw [hf'] at q1 q3
      have hall : r.held ++ r.dev.supply = g ++ s'.supply := by rw [hheld, List.nil_append, e1]
      rw [hall]
      by_cases h0 : g = []
      · subst h0
        exact ⟨r', _, q1, q2, q3, Asking.more (n := r.buf.data.length) hheld e3 e2
          (by simpa using e1) q4⟩
      · have hno : as = [] := by
          have hq := q4.asked
          cases as with
          | nil => rfl
          | cons a as =>
            obtain ⟨n, k, rfl⟩ := hq a (by simp)
            have := (q4.needed [] n k as rfl).1
            rw [hf'] at this
            exact absurd this h0
        subst hno
        have hdev : r'.dev.log = s'.log := by simpa using q4.log
        have hsup : r'.dev.supply.length = s'.supply.length := by simpa using q4.given
        refine ⟨r', [.asked r.buf.data.length g.length], q1, q2, q3,
          ⟨q4.writes.trans e3, by rw [hdev, e2], by simp [Sys.AllAsked], ?_, ?_⟩⟩
        · rw [hsup, e1, List.length_append]; simp [Sys.given]
        · intro pre m k post hx
          cases pre with
          | nil => exact ⟨hheld, rfl⟩
          | cons x pre => simp at hx
  · rw [Res.read_unbuffered _ _ _ (by omega)]
    obtain ⟨g, s', e, e1, e2, e3, e4, e5, e6, e7⟩ := p.readRaw_eq p.unit .leanRetrieval r.dev
      h.progress
    have hz : ∀ d : Sys, (⟨r.buf, d⟩ : Res Sys).held = [] := by
      intro d
      unfold Res.held
      cases hd : r.buf.readDirty with
      | true => rfl
      | false =>
        have := (h.loaded hd).1
        have hl := h.length
        simp only [Bool.false_eq_true, if_false, IoBuffer.unread]
        rw [show r.buf.size = 0 by omega]; simp
    have hz' : r.held = [] := hz r.dev
    have hg := e6 h.supply
    have h0' : g = [] → s'.supply = [] := by
      intro hg0
      rcases e7 hg0 with h | h
      · omega
      · rw [e1, hg0] at h; simpa using h
    have ht := take_unit g s'.supply hg.1 h0'
    have hgl : g.take p.unit = g := List.take_of_length_le (by omega)
    have hgd : g.drop p.unit = [] := List.drop_eq_nil_of_le (by omega)
    refine ⟨⟨r.buf, s'⟩, [.asked p.unit g.length], ?_, ⟨h.length, e4, h.loaded, by simp [hz], hg.2⟩, ?_, Asking.one hz' e3 e2 e1⟩
    · rw [Res.onDev_ok e, hz', List.nil_append, e1, ← ht.1, hgl]
    · rw [hz, hz', e1, List.nil_append, List.nil_append, ← ht.2, hgd]
      rfl

/-! ### Order of events -/

/-- Whenever the system was asked in `log`, what had happened until then satisfies `Q`. -/
def AskedWhen (Q : List StdEvent → Prop) (before log : List StdEvent) : Prop :=
  ∀ pre n g post, log = pre ++ StdEvent.asked n g :: post → Q (before ++ pre)

theorem AskedWhen.mono {Q Q' : List StdEvent → Prop} (h : ∀ l, Q l → Q' l)
    {before log : List StdEvent} (ha : AskedWhen Q before log) : AskedWhen Q' before log :=
  fun pre n g post e => h _ (ha pre n g post e)

theorem AskedWhen.append {Q : List StdEvent → Prop} {before a b : List StdEvent}
    (ha : AskedWhen Q before a) (hb : AskedWhen Q (before ++ a) b) :
    AskedWhen Q before (a ++ b) := by
  intro pre n g post e
  rcases List.append_eq_append_iff.mp e with ⟨l, h1, h2⟩ | ⟨l, h1, h2⟩
  · rw [h1, ← List.append_assoc]
    exact hb l n g post h2
  · cases l with
    | nil =>
      simp only [List.append_nil, List.nil_append] at h1 h2
      have := hb [] n g post (by simpa using h2.symm)
      rwa [List.append_nil, h1] at this
    | cons x l =>
      simp only [List.cons_append, List.cons.injEq] at h2
      obtain ⟨rfl, -⟩ := h2
      exact ha pre n g l h1

theorem AskedWhen.wrote {Q : List StdEvent → Prop} {before ws : List StdEvent}
    (h : Sys.AllWrote ws) : AskedWhen Q before ws := by
  intro pre n g post e
  obtain ⟨b, hb⟩ := h (.asked n g) (by rw [e]; simp)
  cases hb

/-! ### The two resources together -/

theorem StdPlatform.takes (p : StdPlatform) : Res.Takes p.writeRaw (fun _ => True) Sys.Got := by
  cases p with
  | unix => exact Stdout.takes
  | windows =>
    constructor
    intro s w bytes hg _ _
    show ∃ d', Stdout.writeRawWindows bytes s = _ ∧ _
    simp only [Stdout.writeRawWindows]
    rw [M.bind_ok (Sys.write_all s bytes hg.2)]
    refine ⟨_, rfl, ?_, hg.2⟩
    rw [Sys.output_append, hg.1]
    simp [Sys.output]

theorem StdPlatform.writes (p : StdPlatform) (bytes : List Byte) (s : Sys) :
    Sys.Writes s (p.writeRaw bytes s).2 := by
  cases p with
  | unix => exact Stdout.writes bytes s
  | windows => exact ⟨rfl, rfl, [_], rfl, by simp⟩

/-- The state of standard input and output: `w` was written, `bs` is still to be read, and the
system had `total` bytes of input at the beginning. -/
structure Talking (p : StdPlatform) (capIn capOut total : Nat) (w bs : List Byte) (t : Tied Sys) :
    Prop where
  out : Res.Writing capOut (fun _ => True) Sys.Got ⟨t.out, t.world⟩ w
  inp : Listening p capIn ⟨t.inp, t.world⟩
  bytes : (⟨t.inp, t.world⟩ : Res Sys).held ++ t.world.supply = bs
  given : Sys.given t.world.log + t.world.supply.length = total

theorem Talking.input {p : StdPlatform} {capIn capOut total : Nat} {w w' bs : List Byte}
    {t : Tied Sys} {out : IoBuffer} {s : Sys} (h : Talking p capIn capOut total w bs t)
    (hw : t.world.Writes s)
    (ho : Res.Writing capOut (fun _ => True) Sys.Got ⟨out, s⟩ w') :
    Talking p capIn capOut total w' bs { t with out := out, world := s } := by
  obtain ⟨h1, h2, ws, h3, h4⟩ := hw
  have hheld : (⟨t.inp, s⟩ : Res Sys).held = (⟨t.inp, t.world⟩ : Res Sys).held := rfl
  refine ⟨ho, ⟨h.inp.length, fun x hx => h.inp.progress x (by simpa [h1] using hx), h.inp.loaded,
    h.inp.held, by simpa [h2] using h.inp.supply⟩, ?_, ?_⟩
  · simp only [hheld, h2]; exact h.bytes
  · simp only [h2, h3, Sys.given_append, Sys.given_wrote h4, Nat.add_zero]
    exact h.given

/-- While input is read: the system is asked only when all of `w` has arrived and what it has handed
out is used up.  Once anything has been read of the first `start` bytes, all of `w` has arrived. -/
def Talking.Reads (p : StdPlatform) (capIn capOut total start : Nat) (w : List Byte)
    (before : List StdEvent) (bs : List Byte) (t : Tied Sys) : Prop :=
  Talking p capIn capOut total w bs t ∧ (bs.length < start → Sys.output t.world.log = w) ∧ ∃ new, t.world.log = before ++ new ∧
    AskedWhen (fun l => Sys.output l = w ∧ (Sys.given l + bs.length < total ∨ bs = [])) before new

/-- While output is written the system is not asked for anything. -/
def Talking.Writes (p : StdPlatform) (capIn capOut total : Nat) (bs : List Byte)
    (before : List StdEvent) (w : List Byte) (t : Tied Sys) : Prop :=
  Talking p capIn capOut total w bs t ∧ ∃ new, t.world.log = before ++ new ∧ Sys.AllWrote new

theorem Talking.delivers (p : StdPlatform) (capIn capOut total start : Nat) (w : List Byte)
    (before : List StdEvent) :
    p.stdin.Delivers (· = p.unit) false (Talking.Reads p capIn capOut total start w before) where
  read := by
    rintro bs t n rfl ⟨h, -, new, hlog, hnew⟩
    have hu := p.unit_pos
    obtain ⟨d, e, hw', hg⟩ := Res.flush_writing p.takes h.out trivial
    have hm := Res.moves_flush Sys.writes_refl Sys.writes_trans _ p.writes ⟨t.out, t.world⟩
    rw [e] at hm
    have h1 := h.input hm hw'
    obtain ⟨r', as, e', hL, hrest, hA⟩ := read_listening p h1.inp
    simp only at e' hrest
    have hb : (⟨t.inp, d⟩ : Res Sys).held ++ d.supply = bs := h1.bytes
    rw [hb] at e' hrest
    have hout : r'.dev.Got w := by
      refine ⟨?_, hA.writes.trans hg.2⟩
      rw [hA.log, Sys.output_append, Sys.output_asked hA.asked, List.append_nil]
      exact hg.1
    have hgiven : Sys.given r'.dev.log + r'.dev.supply.length = total := by
      have := hA.given
      have := h1.given
      rw [hA.log, Sys.given_append]
      simp only at *
      omega
    refine ⟨{ t with
        out := { t.out with writeDirty := false, position := 0 }, inp := r'.buf, world := r'.dev },
      ?_, ⟨⟨hw'.length, hw'.position, hw'.clean, w, hout, trivial, by simp [IoBuffer.pending]⟩,
        hL, hrest, hgiven⟩, fun _ => hout.1, ?_⟩
    · show Tied.read p.readRaw p.writeRaw p.unit t = _
      simp only [Tied.read]
      rw [M.bind_ok (Tied.onOut_ok e)]
      exact Tied.onIn_ok (t := { t with
        out := { t.out with writeDirty := false, position := 0 }, world := d }) e'
    · obtain ⟨-, -, ws, hws, hwrote⟩ := hm
      simp only at hws
      refine ⟨new ++ (ws ++ as), by simp only [hA.log, hws, hlog, List.append_assoc], ?_⟩
      refine AskedWhen.append (hnew.mono ?_) (AskedWhen.append (AskedWhen.wrote hwrote) ?_)
      · rintro l ⟨h2, h3⟩
        refine ⟨h2, ?_⟩
        rcases h3 with h3 | h3
        · left; rw [List.length_drop]; omega
        · right; rw [h3]; simp
      · intro pre m g post has
        obtain ⟨hz, h0⟩ := hA.needed pre m g post has
        have hpre : Sys.AllAsked pre := fun x hx => hA.asked x (by rw [has]; simp [hx])
        have hd : before ++ new ++ ws = d.log := by rw [hws, hlog]
        rw [hd, Sys.output_append, Sys.output_asked hpre, List.append_nil, Sys.given_append, h0]
        refine ⟨hg.1, ?_⟩
        have hg1 := h1.given
        simp only at hg1
        have hlen : bs.length = d.supply.length := by
          rw [← hb]
          have : (⟨t.inp, d⟩ : Res Sys).held = [] := hz
          rw [this]; rfl
        by_cases hle : bs.length = 0
        · right
          rw [List.eq_nil_of_length_eq_zero hle]; simp
        · left
          rw [List.length_drop]
          omega
  isAtEnd := fun _ _ _ => rfl

theorem Talking.collects (p : StdPlatform) (capIn capOut total : Nat) (bs : List Byte)
    (before : List StdEvent) :
    p.stdout.Collects (fun _ => True) (Talking.Writes p capIn capOut total bs before)
      (Talking.Writes p capIn capOut total bs before) where
  shorter := fun _ _ _ => trivial
  write := by
    rintro w t bytes - ⟨h, new, hlog, hnew⟩
    obtain ⟨r, e, h', -⟩ := Res.write_writing p.takes h.out trivial (bytes := bytes) trivial
    have hm := Res.moves_write Sys.writes_refl Sys.writes_trans _ p.writes bytes ⟨t.out, t.world⟩
    rw [e] at hm
    refine ⟨_, _, Tied.onOut_ok e, h.input hm h', ?_⟩
    obtain ⟨-, -, ws, hws, hwrote⟩ := hm
    refine ⟨new ++ ws, by simp only at hws ⊢; rw [hws, hlog, List.append_assoc], ?_⟩
    intro x hx
    rcases List.mem_append.mp hx with hx | hx
    · exact hnew x hx
    · exact hwrote x hx
  flush := by
    rintro w t ⟨h, new, hlog, hnew⟩
    obtain ⟨d, e, h', -⟩ := Res.flush_writing p.takes h.out trivial
    have hm := Res.moves_flush Sys.writes_refl Sys.writes_trans _ p.writes ⟨t.out, t.world⟩
    rw [e] at hm
    refine ⟨_, Tied.onOut_ok e, h.input hm h', ?_⟩
    obtain ⟨-, -, ws, hws, hwrote⟩ := hm
    refine ⟨new ++ ws, by simp only at hws ⊢; rw [hws, hlog, List.append_assoc], ?_⟩
    intro x hx
    rcases List.mem_append.mp hx with hx | hx
    · exact hnew x hx
    · exact hwrote x hx

/-- Switching from writing to reading. -/
theorem Talking.Writes.reads {p : StdPlatform} {capIn capOut total : Nat} {w bs : List Byte}
    {before : List StdEvent} {t : Tied Sys} (h : Talking.Writes p capIn capOut total bs before w t) :
    Talking.Reads p capIn capOut total bs.length w before bs t := by
  obtain ⟨h, new, hlog, hnew⟩ := h
  exact ⟨h, fun h => absurd h (Nat.lt_irrefl _), new, hlog, AskedWhen.wrote hnew⟩

/-- Beginning to write. -/
theorem Talking.start {p : StdPlatform} {capIn capOut total : Nat} {w bs : List Byte}
    {t : Tied Sys} (h : Talking p capIn capOut total w bs t) :
    Talking.Writes p capIn capOut total bs t.world.log w t :=
  ⟨h, [], by simp, by simp [Sys.AllWrote]⟩

/-! ### One line and one word -/

namespace InStream

variable {ρ : Type} {R : Reader ρ} {sizes : Nat → Prop} {tells : Bool}
  {left : List Byte → ρ → Prop}

theorem isAtEnd_text (D : R.Delivers sizes tells left) (s : InStream ρ) {cs : List Nat}
    (hne : cs ≠ []) {rest : List Byte} (h : left (textBytes s.form s.endian cs ++ rest) s.res) :
    isAtEnd R s = (.ok false, s) := by
  rw [isAtEnd_eq D s _ h]
  cases cs with
  | nil => exact absurd rfl hne
  | cons c cs =>
    rw [textBytes_cons]
    have := cpBytes_ne_nil s.form s.endian c
    cases hx : cpBytes s.form s.endian c with
    | nil => exact absurd hx this
    | cons x xs => simp

/-- Reading a character that is no carriage return takes exactly its bytes. -/
theorem readFiltered_char (D : R.Delivers sizes tells left) (native : Endian) (s : InStream ρ)
    (hs : sizes s.form.form.unitSize) {c : Nat} (hc : Spec.IsScalar c) (h13 : c ≠ 13)
    {cs : List Nat} {rest : List Byte}
    (h : left (textBytes s.form s.endian (c :: cs) ++ rest) s.res) :
    ∃ r', readFiltered native R s = (.ok (BitVec.ofNat 32 c), { s with res := r' }) ∧
      left (textBytes s.form s.endian cs ++ rest) r' := by
  rw [textBytes_cons, List.append_assoc] at h
  obtain ⟨r1, e1, q1⟩ := readCodePoint_text D native s hs c hc _ h
  have n13 : BitVec.ofNat 32 c ≠ 13#32 := by
    intro hx
    exact h13 ((ofNat32_inj (isScalar_lt hc) (by omega)).mp hx)
  exact ⟨r1, by rw [readFiltered, M.bind_ok e1, if_neg n13]; rfl, q1⟩

/-- Reading the end of a line takes exactly its bytes. -/
theorem readFiltered_newline (D : R.Delivers sizes tells left) (native : Endian) (s : InStream ρ)
    (hs : sizes s.form.form.unitSize) (nl : Spec.Newline) {rest : List Byte}
    (h : left (textBytes s.form s.endian nl.text ++ rest) s.res) :
    ∃ r', readFiltered native R s = (.ok 10#32, { s with res := r' }) ∧ left rest r' := by
  cases nl with
  | lf =>
    obtain ⟨r1, e1, q1⟩ := readFiltered_char (c := 10) (cs := []) D native s hs (by decide)
      (by decide) h
    exact ⟨r1, e1, q1⟩
  | crlf =>
    have h' : left (textBytes s.form s.endian [13, 10] ++ rest) s.res := h
    rw [textBytes_cons, List.append_assoc] at h'
    obtain ⟨r1, e1, q1⟩ := readCodePoint_text D native s hs 13 (by decide) _ h'
    have ea := isAtEnd_text D { s with res := r1 } (by simp) q1
    rw [textBytes_cons, List.append_assoc] at q1
    obtain ⟨r2, e2, q2⟩ := readCodePoint_text D native { s with res := r1 } hs 10 (by decide) _ q1
    refine ⟨r2, ?_, q2⟩
    rw [readFiltered, M.bind_ok e1, if_pos rfl, M.bind_ok ea]
    simp only [Bool.false_eq_true, if_false]
    exact e2

theorem newline_ne (nl : Spec.Newline) : nl.text ≠ [] := by cases nl <;> simp [Spec.Newline.text]

/-- Reading a terminated line takes exactly its bytes. -/
theorem appendLine_exact (D : R.Delivers sizes tells left) (native : Endian) (e : Enc)
    (nl : Spec.Newline) (rest : List Byte) (l : List Nat) (ht : Spec.IsText l) (h13 : 13 ∉ l)
    (h10 : 10 ∉ l) (hi : ∀ c ∈ l, InsOk e c) :
    ∀ (fuel : Nat) (target : Str e) (s : InStream ρ), sizes s.form.form.unitSize →
      l.length < fuel → left (textBytes s.form s.endian (l ++ nl.text) ++ rest) s.res →
      ∃ r', appendLine native R e fuel target s = (.ok (target ++ encs e l), { s with res := r' }) ∧
        left rest r' := by
  induction l with
  | nil =>
    intro fuel target s hs hf h
    obtain ⟨fuel, rfl⟩ : ∃ n, fuel = n + 1 := ⟨fuel - 1, by omega⟩
    obtain ⟨r1, e1, q1⟩ := readFiltered_newline D native s hs nl h
    refine ⟨r1, ?_, q1⟩
    rw [appendLine, M.bind_ok (isAtEnd_text D s (by simp [newline_ne]) h)]
    simp only [Bool.false_eq_true, if_false]
    rw [M.bind_ok e1, if_pos rfl]
    simp
  | cons c l ih =>
    intro fuel target s hs hf h
    obtain ⟨fuel, rfl⟩ : ∃ n, fuel = n + 1 := ⟨fuel - 1, by omega⟩
    have hc : Spec.IsScalar c := ht c (by simp)
    obtain ⟨r1, e1, q1⟩ := readFiltered_char (cs := l ++ nl.text) D native s hs hc
      (fun hx => h13 (by simp [hx])) h
    obtain ⟨r2, e2, q2⟩ := ih (fun x hx => ht x (by simp [hx])) (fun hx => h13 (by simp [hx]))
      (fun hx => h10 (by simp [hx])) (fun x hx => hi x (by simp [hx])) fuel (target ++ encU e c)
      { s with res := r1 } hs (by simp at hf; omega) q1
    refine ⟨r2, ?_, q2⟩
    have n10 : BitVec.ofNat 32 c ≠ 10#32 := by
      intro hx
      have := (ofNat32_inj (isScalar_lt hc) (by omega)).mp hx
      subst this
      simp at h10
    rw [appendLine, M.bind_ok (isAtEnd_text D s (by simp) h)]
    simp only [Bool.false_eq_true, if_false]
    rw [M.bind_ok e1, if_neg n10,
      appendCP_enc e c (hi c (by simp)), M.bind_ok (M.lift_apply _ _), e2]
    simp

/-- Skipping whitespace in front of a word takes exactly its bytes and those of the first
character. -/
theorem skipSpace_exact (D : R.Delivers sizes tells left) (native : Endian) (e : Enc)
    (rest : List Byte) (sp : List Nat) (c : Nat) (more : List Nat)
    (ht : Spec.IsText sp) (h13 : 13 ∉ sp)
    (hsp : ∀ x ∈ sp, isWhitespace (BitVec.ofNat 32 x) = true) (hc : Spec.IsScalar c)
    (hcw : isWhitespace (BitVec.ofNat 32 c) = false) (hi : InsOk e c) :
    ∀ (fuel : Nat) (s : InStream ρ), sizes s.form.form.unitSize →
      sp.length < fuel → left (textBytes s.form s.endian (sp ++ c :: more) ++ rest) s.res →
      ∃ r', skipSpace native R e fuel s = (.ok (encU e c), { s with res := r' }) ∧
        left (textBytes s.form s.endian more ++ rest) r' := by
  have hc13 : c ≠ 13 := by rintro rfl; simp [isWhitespace] at hcw
  induction sp with
  | nil =>
    intro fuel s hs hf h
    obtain ⟨fuel, rfl⟩ : ∃ n, fuel = n + 1 := ⟨fuel - 1, by omega⟩
    obtain ⟨r1, e1, q1⟩ := readFiltered_char (cs := more) D native s hs hc hc13 h
    refine ⟨r1, ?_, q1⟩
    rw [skipSpace, M.bind_ok (isAtEnd_text D s (by simp) h)]
    simp only [Bool.false_eq_true, if_false]
    rw [M.bind_ok e1, hcw, if_neg (by simp), appendCP_enc e c hi]
    simp
  | cons x sp ih =>
    intro fuel s hs hf h
    obtain ⟨fuel, rfl⟩ : ∃ n, fuel = n + 1 := ⟨fuel - 1, by omega⟩
    obtain ⟨r1, e1, q1⟩ := readFiltered_char (cs := sp ++ c :: more) D native s hs
      (ht x (by simp)) (fun hx => h13 (by simp [hx])) h
    obtain ⟨r2, e2, q2⟩ := ih (fun x hx => ht x (by simp [hx])) (fun hx => h13 (by simp [hx]))
      (fun x hx => hsp x (by simp [hx])) fuel { s with res := r1 } hs (by simp at hf; omega) q1
    refine ⟨r2, ?_, q2⟩
    rw [skipSpace, M.bind_ok (isAtEnd_text D s (by simp) h)]
    simp only [Bool.false_eq_true, if_false]
    rw [M.bind_ok e1, hsp x (by simp), if_pos rfl, e2]

/-- Reading the rest of a word and the end of the line takes exactly its bytes. -/
theorem takeWord_exact (D : R.Delivers sizes tells left) (native : Endian) (e : Enc)
    (nl : Spec.Newline) (rest : List Byte) (w : List Nat) (ht : Spec.IsText w)
    (hw : ∀ x ∈ w, isWhitespace (BitVec.ofNat 32 x) = false) (hi : ∀ c ∈ w, InsOk e c) :
    ∀ (fuel : Nat) (target : Str e) (s : InStream ρ), sizes s.form.form.unitSize →
      w.length < fuel → left (textBytes s.form s.endian (w ++ nl.text) ++ rest) s.res →
      ∃ r', takeWord native R e fuel target s = (.ok (target ++ encs e w), { s with res := r' }) ∧
        left rest r' := by
  induction w with
  | nil =>
    intro fuel target s hs hf h
    obtain ⟨fuel, rfl⟩ : ∃ n, fuel = n + 1 := ⟨fuel - 1, by omega⟩
    obtain ⟨r1, e1, q1⟩ := readFiltered_newline D native s hs nl h
    refine ⟨r1, ?_, q1⟩
    rw [takeWord, M.bind_ok (isAtEnd_text D s (by simp [newline_ne]) h)]
    simp only [Bool.false_eq_true, if_false]
    rw [M.bind_ok e1, if_pos (by decide)]
    simp
  | cons c w ih =>
    intro fuel target s hs hf h
    obtain ⟨fuel, rfl⟩ : ∃ n, fuel = n + 1 := ⟨fuel - 1, by omega⟩
    have hcw := hw c (by simp)
    obtain ⟨r1, e1, q1⟩ := readFiltered_char (cs := w ++ nl.text) D native s hs (ht c (by simp))
      (by rintro rfl; simp [isWhitespace] at hcw) h
    obtain ⟨r2, e2, q2⟩ := ih (fun x hx => ht x (by simp [hx])) (fun x hx => hw x (by simp [hx]))
      (fun x hx => hi x (by simp [hx])) fuel (target ++ encU e c)
      { s with res := r1 } hs (by simp at hf; omega) q1
    refine ⟨r2, ?_, q2⟩
    rw [takeWord, M.bind_ok (isAtEnd_text D s (by simp) h)]
    simp only [Bool.false_eq_true, if_false]
    rw [M.bind_ok e1, hcw, if_neg (by simp), appendCP_enc e c (hi c (by simp)),
      M.bind_ok (M.lift_apply _ _), e2]
    simp

/-- Reading a word at the end of a line takes exactly its bytes and those of the line end. -/
theorem readWord_exact (D : R.Delivers sizes tells left) (native : Endian) (e : Enc)
    (nl : Spec.Newline) (rest : List Byte) (sp w : List Nat) (hsp : Spec.IsText sp)
    (h13 : 13 ∉ sp) (hsw : ∀ x ∈ sp, isWhitespace (BitVec.ofNat 32 x) = true)
    (hne : w ≠ []) (ht : Spec.IsText w)
    (hw : ∀ x ∈ w, isWhitespace (BitVec.ofNat 32 x) = false) (hi : ∀ c ∈ w, InsOk e c)
    (fuel : Nat) (s : InStream ρ) (hs : sizes s.form.form.unitSize)
    (hf : sp.length + w.length < fuel)
    (h : left (textBytes s.form s.endian (sp ++ w ++ nl.text) ++ rest) s.res) :
    ∃ r', readWord native R e fuel s = (.ok (encs e w), { s with res := r' }) ∧ left rest r' := by
  cases w with
  | nil => exact absurd rfl hne
  | cons c w =>
    have h1 : left (textBytes s.form s.endian (sp ++ c :: (w ++ nl.text)) ++ rest) s.res := by
      simpa using h
    obtain ⟨r1, e1, q1⟩ := skipSpace_exact D native e rest sp c _ hsp h13 hsw (ht c (by simp))
      (hw c (by simp)) (hi c (by simp)) fuel s hs (by omega) h1
    obtain ⟨r2, e2, q2⟩ := takeWord_exact D native e nl rest w (fun x hx => ht x (by simp [hx]))
      (fun x hx => hw x (by simp [hx])) (fun x hx => hi x (by simp [hx])) fuel (encU e c)
      { s with res := r1 } hs (by simp at hf; omega) q1
    exact ⟨r2, by rw [readWord, M.bind_ok e1, e2, encs_cons], q2⟩

end InStream

end Cmp
