import Verif.Props.TextOutput
import Verif.Proofs.Console

/-
Properties C83 and C84: dialogues on the standard streams.
-/

namespace Cmp

open InStream OutStream

/-- What a program asks for and what the user types. -/
inductive Answer
  /-- a line -/
  | line (e : Enc) (text : List Nat)
  /-- a word, typed with whitespace in front -/
  | word (e : Enc) (space text : List Nat)
  /-- an integer, typed with whitespace in front -/
  | number (T : IntTy) (space text : List Nat)

/-- What a program gets. -/
inductive Reply
  | text (units : List Nat)
  | number (value : Int)
  deriving DecidableEq

namespace Answer

/-- What is typed in front of the line end. -/
def text : Answer → List Nat
  | line _ cs => cs
  | word _ sp cs => sp ++ cs
  | number _ sp cs => sp ++ cs

/-- `uin.read_line(string)`, `uin >> string` and `uin >> integer`. -/
def read {ρ : Type} (native : Endian) (R : Reader ρ) (fuel : Nat) : Answer → M (InStream ρ) Reply
  | line e _ => do
    let s ← readLine native R e fuel
    pure (.text (units s))
  | word e _ _ => do
    let s ← readWord native R e fuel
    pure (.text (units s))
  | number T _ _ => do
    let v ← readInteger native R T fuel
    pure (.number v)

/-- Lines without line ends, words without whitespace, numbers in decimal notation. -/
def Ok (fuel : Nat) : Answer → Reply → Prop
  | line e cs, a => IsLine cs ∧ Holds e cs ∧ cs.length < fuel ∧ a = .text (e.form.encode cs)
  | word e sp cs, a => (∀ c ∈ sp, Spec.IsWhiteSpace c) ∧ 13 ∉ sp ∧ Spec.IsText cs ∧ cs ≠ [] ∧
      (∀ c ∈ cs, ¬ Spec.IsWhiteSpace c) ∧ Holds e cs ∧ sp.length + cs.length < fuel ∧
      a = .text (e.form.encode cs)
  | number T sp cs, a => (∀ c ∈ sp, Spec.IsWhiteSpace c) ∧ 13 ∉ sp ∧ T.Std ∧
      sp.length + cs.length < fuel ∧ ∃ neg ds, Spec.Numeral 10 none false cs neg ds ∧
      (neg = true → T.signed = true) ∧ (Spec.positional 10 ds : Int) ≤ T.max ∧ ds.length ≤ 19 ∧
      a = .number (Spec.denote 10 neg ds)

end Answer

/-- One turn of a dialogue: what the program prints, with the texts this stands for, and what the
user answers. -/
structure Turn where
  prompt : List (Printed × List Nat)
  answer : Answer
  newline : Spec.Newline

namespace Turn

/-- The prompt as the UTF-8 the terminal gets. -/
def shown (t : Turn) : List Byte := asBytes (Spec.Form.utf8.serialize .big (t.prompt.flatMap (·.2)))

/-- The answer as it is typed. -/
def typed (p : StdPlatform) (native : Endian) (t : Turn) : List Byte :=
  asBytes (p.inForm.form.serialize native.order (t.answer.text ++ t.newline.text))

/-- `uout << ...; uin.read_line(answer);` or `uout << ...; uin >> answer;`. -/
def run (p : StdPlatform) (native : Endian) (fuel : Nat) (t : Turn) : M Console Reply := do
  let _ ← Console.uout (printAll native p.stdout (t.prompt.map (·.1)))
  Console.uin (t.answer.read native p.stdin fuel)

/-- Prompts that can be printed (C77) and answers that can be read. -/
def Ok (native : Endian) (fuel : Nat) (t : Turn) (a : Reply) : Prop :=
  (∀ i ∈ t.prompt, i.1.Means i.2 ∧ i.1.Supported native native .utf8 i.2) ∧ t.answer.Ok fuel a

end Turn

/-- The order of events in a dialogue.  `shown` and `before` is what was shown and what happened
before.  In every turn the system is asked for input only when all prompts up to this turn have
arrived, and at the end of the turn they have. -/
def Prompted (shown : List Byte) (before : List StdEvent) :
    List Turn → List StdEvent → Prop
  | [], log => log = []
  | t :: turns, log => ∃ now later, log = now ++ later ∧
      (∀ pre n given post, now = pre ++ .asked n given :: post →
        Sys.output (before ++ pre) = shown ++ t.shown) ∧
      Sys.output (before ++ now) = shown ++ t.shown ∧
      Prompted (shown ++ t.shown) (before ++ now) turns later

/-- In every turn the system is asked for input only as long as it has not handed out the end of the
answer.  `typed` is the length of the answers before. -/
def Prompt (p : StdPlatform) (native : Endian) (typed : Nat) (before : List StdEvent) :
    List Turn → List StdEvent → Prop
  | [], log => log = []
  | t :: turns, log => ∃ now later, log = now ++ later ∧
      (∀ pre n given post, now = pre ++ .asked n given :: post →
        Sys.given (before ++ pre) < typed + (t.typed p native).length) ∧
      Prompt p native (typed + (t.typed p native).length) (before ++ now) turns later

/-- Both, for the induction. -/
def Orderly (p : StdPlatform) (native : Endian) (more : Prop) (shown : List Byte) (typed : Nat)
    (before : List StdEvent) : List Turn → List StdEvent → Prop
  | [], log => log = []
  | t :: turns, log => ∃ now later, log = now ++ later ∧
      AskedWhen (fun l => Sys.output l = shown ++ t.shown ∧
        (more → Sys.given l < typed + (t.typed p native).length)) before now ∧
      Sys.output (before ++ now) = shown ++ t.shown ∧
      Orderly p native more (shown ++ t.shown) (typed + (t.typed p native).length) (before ++ now)
        turns later

theorem Orderly.prompted {p : StdPlatform} {native : Endian} {more : Prop} {turns : List Turn} :
    ∀ {shown : List Byte} {typed : Nat} {before log : List StdEvent},
      Orderly p native more shown typed before turns log → Prompted shown before turns log := by
  induction turns with
  | nil => intro _ _ _ _ h; exact h
  | cons t turns ih =>
    rintro _ _ _ _ ⟨now, later, h1, h2, h3, h4⟩
    exact ⟨now, later, h1, fun pre n g post e => (h2 pre n g post e).1, h3, ih h4⟩

theorem Orderly.prompt {p : StdPlatform} {native : Endian} {more : Prop} (hm : more)
    {turns : List Turn} :
    ∀ {shown : List Byte} {typed : Nat} {before log : List StdEvent},
      Orderly p native more shown typed before turns log →
      Prompt p native typed before turns log := by
  induction turns with
  | nil => intro _ _ _ _ h; exact h
  | cons t turns ih =>
    rintro _ _ _ _ ⟨now, later, h1, h2, -, h4⟩
    exact ⟨now, later, h1, fun pre n g post e => (h2 pre n g post e).2 hm, ih h4⟩

theorem textBytes_utf8 (o o' : Endian) (cs : List Nat) : textBytes .utf8 o cs = textBytes .utf8 o' cs := by
  have : ∀ o : Spec.ByteOrder, o.bytes 1 = Spec.ByteOrder.big.bytes 1 := by
    intro o
    cases o
    · rfl
    · funext n
      simp [Spec.ByteOrder.bytes]
  simp only [textBytes, EncodingForm.form, Spec.Form.serialize, Spec.Form.unitSize, this]

theorem textBytes_units (f : EncodingForm) (o : Endian) (cs : List Nat) :
    f.form.unitSize ∣ (textBytes f o cs).length := by
  have hl : ∀ n, (o.order.bytes f.form.unitSize n).length = f.form.unitSize := by
    intro n
    cases o <;> simp [Endian.order, Spec.ByteOrder.bytes]
  simp only [textBytes, asBytes, Spec.Form.serialize, List.length_map]
  generalize f.form.encode cs = us
  induction us with
  | nil => simp
  | cons u us ih =>
    rw [List.flatMap_cons, List.length_append, hl]
    exact (Nat.dvd_add_right (Nat.dvd_refl _)).mpr ih

theorem whiteSpace_scalar {c : Nat} (h : Spec.IsWhiteSpace c) : Spec.IsScalar c := by
  unfold Spec.IsWhiteSpace Spec.whiteSpaceRanges at h
  unfold Spec.IsScalar
  simp at h
  omega

/-- Reading an answer takes exactly what was typed for it. -/
theorem Answer.read_eq {ρ : Type} {R : Reader ρ} {sizes : Nat → Prop} {tells : Bool}
    {left : List Byte → ρ → Prop} (D : R.Delivers sizes tells left) (native : Endian)
    (nl : Spec.Newline) (rest : List Byte) (a : Answer) (reply : Reply) (fuel : Nat)
    (s : InStream ρ) (hs : sizes s.form.form.unitSize) (ha : a.Ok fuel reply)
    (h : left (textBytes s.form s.endian (a.text ++ nl.text) ++ rest) s.res) :
    ∃ r', a.read native R fuel s = (.ok reply, { s with res := r' }) ∧ left rest r' := by
  cases a with
  | line e cs =>
    obtain ⟨hline, hholds, hfuel, rfl⟩ := ha
    obtain ⟨r1, e1, q1⟩ := appendLine_exact D native e nl rest cs hline.1 hline.2.1 hline.2.2
      (hholds.insOk hline.1) fuel [] s hs hfuel h
    refine ⟨r1, ?_, q1⟩
    rw [Answer.read, readLine, M.bind_ok e1, List.nil_append, units_encs e cs hline.1 hholds.1]
    rfl
  | word e sp cs =>
    obtain ⟨hsp, h13, ht, hne, hw, hholds, hfuel, rfl⟩ := ha
    obtain ⟨r1, e1, q1⟩ := readWord_exact D native e nl rest sp cs
      (fun c hc => whiteSpace_scalar (hsp c hc)) h13
      (fun c hc => (isWhitespace_iff c (isScalar_lt (whiteSpace_scalar (hsp c hc)))).mpr (hsp c hc))
      hne ht (fun c hc => by
        have := hw c hc
        rw [← isWhitespace_iff c (isScalar_lt (ht c hc))] at this
        simpa using this) (hholds.insOk ht) fuel s hs hfuel h
    refine ⟨r1, ?_, q1⟩
    rw [Answer.read, M.bind_ok e1, units_encs e cs ht hholds.1]
    rfl
  | number T sp cs =>
    obtain ⟨hsp, h13, hT, hfuel, neg, ds, hnum, hneg, hfit, hplace, rfl⟩ := ha
    have hvis : Visible cs := by
      obtain ⟨sign, body, rfl, ⟨-, hd, chars, hm, hb⟩, hsign⟩ := hnum
      intro c hc
      rcases List.mem_append.mp hc with hc | hc
      · rcases hsign with ⟨rfl, -⟩ | ⟨rfl, -⟩ | ⟨rfl, -⟩ <;> simp at hc <;> omega
      · rw [hb] at hc
        have hc : c ∈ chars := hc
        have h1 : Spec.digitValue c ∈ chars.map Spec.digitValue := List.mem_map.mpr ⟨c, hc, rfl⟩
        rw [hm] at h1
        obtain ⟨d, hd', h2⟩ := List.mem_map.mp h1
        unfold Spec.digitValue at h2
        split at h2
        · omega
        · split at h2
          · omega
          · split at h2
            · omega
            · simp at h2
    have hne : cs ≠ [] := by
      obtain ⟨sign, body, rfl, ⟨hx, -, chars, hm, hb⟩, -⟩ := hnum
      intro h0
      simp only [List.append_eq_nil_iff] at h0
      apply hx
      have hb : body = chars := hb
      rw [h0.2] at hb
      rw [← hb] at hm
      simpa using hm.symm
    have hasc : ∀ c ∈ cs, c < 128 := fun c hc => by have := hvis c hc; omega
    have hholds : Holds .char8 cs :=
      ⟨by simp, fun _ c hc => by have := hasc c hc; unfold LowSurrogate; omega⟩
    obtain ⟨r1, e1, q1⟩ := readWord_exact D native .char8 nl rest sp cs
      (fun c hc => whiteSpace_scalar (hsp c hc)) h13
      (fun c hc => (isWhitespace_iff c (isScalar_lt (whiteSpace_scalar (hsp c hc)))).mpr (hsp c hc))
      hne hvis.text hvis.word
      (hholds.insOk hvis.text) fuel s hs hfuel h
    refine ⟨r1, ?_, q1⟩
    rw [Answer.read, readInteger]
    have := C22_partial .char8 T .default _ cs neg ds hT (by decide) (textOf_ascii .char8 cs hasc)
      hnum hneg hfit (fun h64 => by
        have h1 : (10 : Nat) ^ (ds.length - 1) ≤ 10 ^ 18 := Nat.pow_le_pow_right (by decide) (by omega)
        have h2 : T.max = 2 ^ 63 - 1 := by simp [IntTy.max, h64.1, h64.2]
        rw [h2]
        have h3 : ((10 : Nat) ^ (ds.length - 1) : Int) ≤ (10 ^ 18 : Nat) := by exact_mod_cast h1
        show (((10 : Nat) ^ (ds.length - 1) : Nat) : Int) ≤ _
        push_cast at h3 ⊢
        omega)
    rw [M.bind_ok (show (readWord native R .char8 fuel >>= _) s = (.ok _, _) by
      rw [M.bind_ok e1, this]; rfl)]
    rfl

/-- One turn. -/
theorem Turn.run_eq (p : StdPlatform) (native : Endian) (capIn capOut total : Nat)
    (fuel : Nat) (t : Turn) (a : Reply) (ht : t.Ok native fuel a) (w rest : List Byte) (c : Console)
    (hc : c.inEndian = native ∧ c.inForm = p.inForm ∧ c.outEndian = native ∧ c.outForm = .utf8)
    (h : Talking p capIn capOut total w (t.typed p native ++ rest) c.res) :
    ∃ res, t.run p native fuel c = (.ok a, { c with res := res }) ∧
      Talking p capIn capOut total (w ++ t.shown) rest res ∧
      Sys.output res.world.log = w ++ t.shown ∧
      ∃ now, res.world.log = c.res.world.log ++ now ∧
        AskedWhen (fun l => Sys.output l = w ++ t.shown ∧
          (Sys.given l + rest.length < total ∨ rest = [])) c.res.world.log now := by
  obtain ⟨res, ie, jf, oe, of⟩ := c
  obtain ⟨h1, h2, h3, h4⟩ := hc
  simp only at h1 h2 h3 h4
  subst h1 h2 h4
  subst h3
  obtain ⟨hp, hans⟩ := ht
  obtain ⟨us, r1, e1, q1⟩ := C77_partial
    (Talking.collects p capIn capOut total (t.typed p oe ++ rest) res.world.log) oe
    ⟨res, oe, .utf8⟩ w t.prompt (fun i hi => (hp i hi).1) (fun i hi => (hp i hi).2)
    trivial h.start
  have hshown : t.shown = asBytes (EncodingForm.utf8.form.serialize oe.order
      (t.prompt.flatMap (·.2))) := textBytes_utf8 .big oe _
  simp only at q1
  rw [← hshown] at q1
  obtain ⟨r2, e2, q2⟩ := Answer.read_eq
    (Talking.delivers p capIn capOut total (t.typed p oe ++ rest).length (w ++ t.shown)
      res.world.log) oe t.newline rest t.answer a fuel ⟨r1, oe, p.inForm⟩
    p.unit_form hans q1.reads
  have hne : 0 < (t.typed p oe).length := by
    have h1 : t.typed p oe = textBytes p.inForm oe (t.answer.text ++ t.newline.text) := rfl
    rw [h1, textBytes_append, List.length_append]
    have h2 := textBytes_isEmpty p.inForm oe t.newline.text
    cases hx : textBytes p.inForm oe t.newline.text with
    | nil => rw [hx] at h2; cases hn : t.newline <;> rw [hn] at h2 <;> simp [Spec.Newline.text] at h2
    | cons x xs => simp
  refine ⟨r2, ?_, q2.1, q2.2.1 (by rw [List.length_append]; omega), q2.2.2⟩
  rw [Turn.run, M.bind_ok (show Console.uout _ _ = _ by
    simp only [Console.uout]; rw [e1])]
  simp only [Console.uin]
  rw [e2]

theorem turns_eq (p : StdPlatform) (native : Endian) (capIn capOut total : Nat)
    (fuel : Nat) (turns : List (Turn × Reply)) (ht : ∀ t ∈ turns, t.1.Ok native fuel t.2)
    (rest : List Byte) :
    ∀ (w : List Byte) (typed : Nat) (c : Console),
      (c.inEndian = native ∧ c.inForm = p.inForm ∧ c.outEndian = native ∧ c.outForm = .utf8) →
      Talking p capIn capOut total w ((turns.map (·.1)).flatMap (Turn.typed p native) ++ rest) c.res →
      typed + ((turns.map (·.1)).flatMap (Turn.typed p native) ++ rest).length = total →
      ∃ res later, M.runList (Turn.run p native fuel) (turns.map (·.1)) c =
          (.ok (turns.map (·.2)), { c with res := res }) ∧
        res.world.log = c.res.world.log ++ later ∧
        Orderly p native (rest ≠ []) w typed c.res.world.log (turns.map (·.1)) later := by
  induction turns with
  | nil => intro w typed c hc h hl; exact ⟨c.res, [], rfl, by simp, rfl⟩
  | cons t turns ih =>
    obtain ⟨t, a⟩ := t
    intro w typed c hc h hl
    simp only [List.map_cons, List.flatMap_cons, List.append_assoc] at h hl
    obtain ⟨r1, e1, q1, ho, now, hnow, hasked⟩ := Turn.run_eq p native capIn capOut total fuel t a
      (ht (t, a) (by simp)) w _ c hc h
    obtain ⟨r2, later, e2, hlater, hord⟩ := ih (fun x hx => ht x (by simp [hx])) (w ++ t.shown)
      (typed + (t.typed p native).length) { c with res := r1 } hc q1
      (by rw [List.length_append] at hl; omega)
    refine ⟨r2, now ++ later, M.runList_cons e1 e2, ?_, now, later, rfl, hasked.mono ?_, ?_, ?_⟩
    · rw [hlater]; simp only [hnow, List.append_assoc]
    · rintro l ⟨h1, h2⟩
      refine ⟨h1, fun hm => ?_⟩
      rw [List.length_append] at hl
      rcases h2 with h2 | h2
      · simp only
        omega
      · simp only [List.append_eq_nil_iff] at h2
        exact absurd h2.2 hm
    · rw [← hnow, ho]
    · simp only [hnow] at hord
      exact hord

theorem typed_units (p : StdPlatform) (native : Endian) (turns : List Turn) (rest : List Byte)
    (hrest : p = .windows → 2 ∣ rest.length) :
    p.unit ∣ (turns.flatMap (Turn.typed p native) ++ rest).length := by
  rw [List.length_append]
  refine Nat.dvd_add ?_ ?_
  · induction turns with
    | nil => simp
    | cons t turns ih =>
      rw [List.flatMap_cons, List.length_append]
      refine Nat.dvd_add ?_ ih
      rw [← p.unit_form]
      exact textBytes_units _ _ _
  · cases p with
    | unix => exact Nat.one_dvd _
    | windows => exact hrest rfl

/-- The state in which a program starts. -/
theorem talking_make (p : StdPlatform) (native : Endian) (capIn capOut : Nat) (supply : List Byte)
    (reads : List (Option Nat)) (hreads : ∀ e ∈ reads, ∃ k, e = some (k + 1))
    (hu : p.unit ∣ supply.length) :
    Talking p capIn capOut supply.length [] supply
      (Console.make p native capIn capOut ⟨supply, reads, [], []⟩).res :=
  ⟨Res.writing_make capOut _ [] ⟨rfl, rfl⟩ trivial,
    ⟨by simp [Console.make, IoBuffer.make], hreads, by simp [Console.make, IoBuffer.make],
      by simp [Res.held, Console.make, IoBuffer.make], hu⟩,
    by simp [Res.held, Console.make, IoBuffer.make], by simp [Console.make]⟩

/-- C83.  On a system that accepts all output, whatever portions it hands input out in: a program
that prints and reads lines, words and integers in turns gets what the user types, and whenever it
makes the system wait for input all it has printed is on the terminal. -/
theorem C83_dialogue (p : StdPlatform) (native : Endian) (capIn capOut : Nat) (fuel : Nat)
    (reads : List (Option Nat)) (hreads : ∀ e ∈ reads, ∃ k, e = some (k + 1))
    (turns : List (Turn × Reply)) (ht : ∀ t ∈ turns, t.1.Ok native fuel t.2) (rest : List Byte)
    (hrest : p = .windows → 2 ∣ rest.length) :
    ∃ c, M.runList (Turn.run p native fuel) (turns.map (·.1))
        (Console.make p native capIn capOut
          ⟨(turns.map (·.1)).flatMap (Turn.typed p native) ++ rest, reads, [], []⟩) =
          (.ok (turns.map (·.2)), c) ∧
      Prompted [] [] (turns.map (·.1)) c.res.world.log := by
  have hd := typed_units p native (turns.map (·.1)) rest hrest
  obtain ⟨res, later, e1, h1, h2⟩ := turns_eq p native capIn capOut _ fuel turns ht rest [] 0
    (Console.make p native capIn capOut
      ⟨(turns.map (·.1)).flatMap (Turn.typed p native) ++ rest, reads, [], []⟩) ⟨rfl, rfl, rfl, rfl⟩
    (talking_make p native capIn capOut _ reads hreads hd) (Nat.zero_add _)
  refine ⟨_, e1, ?_⟩
  simp only [h1]
  exact h2.prompted

/-- C84.  Under the same conditions, if input follows the answers: reading an answer never makes the
system wait for input behind the end of its line. -/
theorem C84_prompt (p : StdPlatform) (native : Endian) (capIn capOut : Nat) (fuel : Nat)
    (reads : List (Option Nat)) (hreads : ∀ e ∈ reads, ∃ k, e = some (k + 1))
    (turns : List (Turn × Reply)) (ht : ∀ t ∈ turns, t.1.Ok native fuel t.2) (rest : List Byte)
    (hrest : p = .windows → 2 ∣ rest.length) (hmore : rest ≠ []) :
    ∃ c, M.runList (Turn.run p native fuel) (turns.map (·.1))
        (Console.make p native capIn capOut
          ⟨(turns.map (·.1)).flatMap (Turn.typed p native) ++ rest, reads, [], []⟩) =
          (.ok (turns.map (·.2)), c) ∧
      Prompt p native 0 [] (turns.map (·.1)) c.res.world.log := by
  have hd := typed_units p native (turns.map (·.1)) rest hrest
  obtain ⟨res, later, e1, h1, h2⟩ := turns_eq p native capIn capOut _ fuel turns ht rest [] 0
    (Console.make p native capIn capOut
      ⟨(turns.map (·.1)).flatMap (Turn.typed p native) ++ rest, reads, [], []⟩) ⟨rfl, rfl, rfl, rfl⟩
    (talking_make p native capIn capOut _ reads hreads hd) (Nat.zero_add _)
  refine ⟨_, e1, ?_⟩
  simp only [h1]
  exact h2.prompt hmore

/-- `uout << "N? "; uin.read_line(name); uout << 7; uin >> number; uin >> word;`. -/
def sampleTurns : List (Turn × Reply) :=
  [(⟨[(.view .char8 [0x4E#8, 0x3F#8, 0x20#8], [0x4E, 0x3F, 0x20])],
      .line .char16 [0x41, 0x1F600], .lf⟩, .text [0x41, 0xD83D, 0xDE00]),
   (⟨[(.int .int 7, [55])], .number .int [32, 10] [45, 48, 52], .crlf⟩, .number (-4)),
   (⟨[], .word .char8 [] [0xE9], .lf⟩, .text [0xC3, 0xA9])]

example : ∀ t ∈ sampleTurns, t.1.Ok .little 9 t.2 := by
  intro t ht
  simp only [sampleTurns, List.mem_cons, List.not_mem_nil, or_false] at ht
  rcases ht with rfl | rfl | rfl
  · refine ⟨?_, by decide, by decide, by decide, by decide⟩
    intro i hi
    simp only [List.mem_cons, List.not_mem_nil, or_false] at hi
    subst hi
    exact ⟨⟨⟨by unfold Spec.IsText; decide, by decide⟩, by simp⟩, .inl (by decide)⟩
  · refine ⟨?_, by decide, by decide, by decide, by decide, true, [0, 4], ⟨[45], [48, 52], rfl,
      ⟨by simp, by decide, [48, 52], by decide, rfl⟩, by simp⟩, by decide, by decide, by decide,
      by decide⟩
    intro i hi
    simp only [List.mem_cons, List.not_mem_nil, or_false] at hi
    subst hi
    exact ⟨⟨by decide, by decide, by simp [Spec.decimal, Spec.decimalDigits]⟩, by intro; decide⟩
  · exact ⟨by simp, by decide, by decide, by unfold Spec.IsText; decide, by decide, by decide,
      by decide, by decide, by decide⟩

/-- What happens in this dialogue with buffers of 8 bytes, if the system hands out three bytes at
first. -/
example : (M.runList (Turn.run .unix .little 9) (sampleTurns.map (·.1))
    (Console.make .unix .little 8 8
      ⟨(sampleTurns.map (·.1)).flatMap (Turn.typed .unix .little) ++ [0x21#8], [some 3], [], []⟩)).2.res.world.log =
    [.wrote [0x4E#8, 0x3F#8, 0x20#8], .asked 8 3, .asked 8 8, .wrote [0x37#8], .asked 8 6] := by
  decide +kernel

end Cmp
