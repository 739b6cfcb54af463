import Verif.Proofs.StdioExample

/-
C129: the example program for the standard streams.
-/

namespace Cmp

open InStream OutStream
open _root_.Spec (Item Ending Itemised passReturns gather skipChars takes8 firstWord asks answers codes)

/-- Text as the UTF-8 a terminal gets. -/
def shownText (cs : List Nat) : List Byte := asBytes (Spec.Form.utf8.serialize .big cs)

theorem shownText_append (a b : List Nat) : shownText (a ++ b) = shownText a ++ shownText b :=
  textBytes_append .utf8 .big a b

/-- Writing one argument. -/
theorem uout_print (p : StdPlatform) (native : Endian) (capIn capOut total : Nat) (bs w : List Byte)
    (before : List StdEvent) (c : Console) (hc : c.outEndian = native ∧ c.outForm = .utf8)
    (i : Printed) (t : List Nat) (hm : i.Means t) (hs : i.Supported native native .utf8 t)
    (h : Talking.Writes p capIn capOut total bs before w c.res) :
    ∃ r', Console.uout (i.write native p.stdout) c = (.ok (), { c with res := r' }) ∧
      Talking.Writes p capIn capOut total bs before (w ++ shownText t) r' := by
  obtain ⟨res, ie, jf, oe, of⟩ := c
  obtain ⟨h3, h4⟩ := hc
  simp only at h3 h4 h
  subst h4
  subst h3
  obtain ⟨r1, e1, q1⟩ := print_one (Talking.collects p capIn capOut total bs before) oe
    ⟨res, oe, .utf8⟩ w i t hm hs trivial h
  refine ⟨r1, by simp only [Console.uout]; rw [e1], ?_⟩
  have : shownText t = textBytes .utf8 oe t := textBytes_utf8 .big oe _
  rw [this]
  exact q1

/-- The argument is a string literal. -/
theorem literal_means (e : Enc) (text : String) (hl : literal e text = encs e (codes text) ++ [0])
    (h0 : 0 ∉ encs e (codes text)) (ht : Spec.IsText (codes text))
    (hn : e = .narrow → ∀ c ∈ codes text, c < 128) :
    (Printed.array e (literal e text)).Means (codes text) :=
  ⟨encs e (codes text), [], hl, h0, textOf_encs e _ ht hn⟩

/-- What is printed before the question. -/
def greeting : String := "I dunno, try it ¯\\_(ツ)_/¯\n"

/-- The question. -/
def question : String := "Huh, let me see. Say something in Unicode: "

theorem ask_eq (p : StdPlatform) (native : Endian) (capIn capOut total : Nat) (bs w : List Byte)
    (before : List StdEvent) (c : Console) (hc : c.outEndian = native ∧ c.outForm = .utf8)
    (h : Talking.Writes p capIn capOut total bs before w c.res) :
    ∃ r', StdioExample.ask p native c = (.ok (), { c with res := r' }) ∧
      Talking.Writes p capIn capOut total bs before (w ++ shownText asks) r' := by
  obtain ⟨r1, e1, q1⟩ := uout_print p native capIn capOut total bs w before c hc
    (.array .char8 (literal .char8 greeting)) (codes greeting)
    (literal_means _ _ (by decide +kernel) (by decide +kernel)
      (by unfold Spec.IsText; decide +kernel) (by simp)) (.inl ⟨rfl, .inl rfl⟩) h
  obtain ⟨r2, e2, q2⟩ := uout_print p native capIn capOut total bs _ before { c with res := r1 } hc
    (.array .char16 (literal .char16 question)) (codes question)
    (literal_means _ _ (by decide +kernel) (by decide +kernel)
      (by unfold Spec.IsText; decide +kernel) (by simp))
    (.inr ⟨fun _ => by unfold Spec.IsBmp; decide +kernel, fun _ => by decide +kernel⟩) q1
  refine ⟨r2, ?_, ?_⟩
  · rw [StdioExample.ask]
    exact (M.bind_ok e1).trans e2
  · have : asks = codes greeting ++ codes question := by decide +kernel
    rw [this, shownText_append, ← List.append_assoc]
    exact q2

theorem answer_eq (p : StdPlatform) (native : Endian) (capIn capOut total : Nat) (bs w : List Byte)
    (before : List StdEvent) (c : Console) (hc : c.outEndian = native ∧ c.outForm = .utf8)
    (h : Talking.Writes p capIn capOut total bs before w c.res) (word : List Nat)
    (hw : Spec.IsText word) :
    ∃ r', StdioExample.answer p native (encs .char8 word) c = (.ok (), { c with res := r' }) ∧
      Talking.Writes p capIn capOut total bs before (w ++ shownText (answers word)) r' := by
  obtain ⟨r1, e1, q1⟩ := uout_print p native capIn capOut total bs w before c hc
    (.array .char32 (literal .char32 "You said: ")) (codes "You said: ")
    (literal_means _ _ (by decide +kernel) (by decide +kernel)
      (by unfold Spec.IsText; decide +kernel) (by simp))
    (.inr ⟨by simp [Enc.form], fun _ => by decide +kernel⟩) h
  obtain ⟨r2, e2, q2⟩ := uout_print p native capIn capOut total bs _ before { c with res := r1 } hc
    (.view .char8 (encs .char8 word)) word (textOf_encs _ _ hw (by simp)) (.inl ⟨rfl, .inl rfl⟩) q1
  obtain ⟨r3, e3, q3⟩ := uout_print p native capIn capOut total bs _ before { c with res := r2 } hc
    (.char 10#8) [10] ⟨by decide, rfl⟩ trivial q2
  obtain ⟨r4, e4, q4⟩ := uout_print p native capIn capOut total bs _ before { c with res := r3 } hc
    (.array .narrow (literal .narrow "Cool.\n")) (codes "Cool.\n")
    (literal_means _ _ (by decide +kernel) (by decide +kernel)
      (by unfold Spec.IsText; decide +kernel) (fun _ => by decide +kernel)) (.inl ⟨rfl, .inl rfl⟩) q3
  refine ⟨r4, ?_, ?_⟩
  · rw [StdioExample.answer]
    exact (M.bind_ok e1).trans ((M.bind_ok e2).trans ((M.bind_ok e3).trans e4))
  · have h1 : codes "\nCool.\n" = [10] ++ codes "Cool.\n" := by decide +kernel
    rw [answers, h1]
    simp only [shownText_append, List.append_assoc] at q4 ⊢
    exact q4

/-- `uin >> input`. -/
theorem hear_eq (p : StdPlatform) (native : Endian) (capIn capOut total fuel : Nat)
    (bs w : List Byte) (before : List StdEvent) (c : Console)
    (hc : c.inEndian = native ∧ c.inForm = p.inForm)
    (h : Talking.Writes p capIn capOut total bs before w c.res) (js : List Item)
    (hj : Itemised p.inForm.form native.order (nats bs) js) (hf : js.length < fuel) :
    let g := firstWord (passReturns false js)
    ∃ r' rest, Console.uin (readLocalWord native p.stdin fuel) c =
        (ending g.2.1 >>= fun _ => .ok (encs .char8 g.1), { c with res := r' }) ∧
      Talking.Shown p capIn capOut total w before rest r' := by
  intro g
  obtain ⟨res, ie, jf, oe, of⟩ := c
  obtain ⟨h1, h2⟩ := hc
  simp only at h1 h2 h
  subst h2
  subst h1
  obtain ⟨h, new, hlog, hnew⟩ := h
  obtain ⟨t', ht', ho, ⟨ws, hws, hwrote⟩, -, hsame⟩ := h.flushed
  have hmem := passReturns_mem false js
  have hshown : Talking.Shown p capIn capOut total w before bs t' :=
    ⟨ht', ho, new ++ ws, by rw [hws, hlog, List.append_assoc],
      (AskedWhen.wrote hnew).append (AskedWhen.wrote hwrote)⟩
  obtain ⟨fuel, rfl⟩ : ∃ k, fuel = k + 1 := ⟨fuel - 1, by omega⟩
  obtain ⟨r', e1, q⟩ := C116_word (Talking.delivers_shown p capIn capOut total w before) ie .char8
    (fuel + 1) ⟨t', ie, p.inForm⟩ (passReturns false js)
    ⟨p.unit_form, bs, js, hshown, hj, rfl⟩ (by omega) []
  rw [← readWordTo_same hsame rfl rfl] at e1
  have hg := gather_units Spec.space (skipChars Spec.space (passReturns false js)) fun v hv =>
    itemised_all_lt hj bs rfl v (hmem.2 v (skipChars_mem hv))
  have hg' : gather false (fun v => decide (Spec.IsWhiteSpace v)) (grown .char8)
      (skipChars (fun v => decide (Spec.IsWhiteSpace v)) (passReturns false js)) =
        (encs .char8 g.1, g.2) := hg
  rw [hg'] at e1 q
  obtain ⟨-, rest, js', hl, -, -⟩ := q
  refine ⟨r', rest, ?_, hl⟩
  simp only [Console.uin, readLocalWord]
  rw [e1]
  cases g.2.1 <;> rfl

/-- C129, for all input: with the items `js` of the input, the program prints its question, and the
system is asked for input only when all of it has arrived.  If the first word can be read, it repeats
it and returns 0; otherwise it is terminated with only the question shown. -/
theorem C129_exact (p : StdPlatform) (native : Endian) (capIn capOut fuel : Nat)
    (supply : List Byte) (hu : p = .windows → 2 ∣ supply.length) (reads : List (Option Nat))
    (hreads : ∀ e ∈ reads, ∃ k, e = some (k + 1)) (js : List Item)
    (hj : Itemised p.inForm.form native.order (nats supply) js) (hf : js.length < fuel) :
    let g := firstWord (passReturns false js)
    let c := StdioExample.main p native fuel
      (Console.make p native capIn capOut ⟨supply, reads, [], []⟩)
    c.1 = (if g.2.1 = .finished then .ok 0 else .terminate) ∧
    Sys.output c.2.res.world.log =
      shownText (if g.2.1 = .finished then asks ++ answers g.1 else asks) ∧
    ∀ pre n given post, c.2.res.world.log = pre ++ .asked n given :: post →
      Sys.output pre = shownText asks := by
  intro g c
  have hu' : p.unit ∣ supply.length := by
    cases p with
    | unix => exact Nat.one_dvd _
    | windows => exact hu rfl
  have h0 := (talking_make p native capIn capOut supply reads hreads hu').start
  obtain ⟨r1, e1, q1⟩ := ask_eq p native capIn capOut _ _ _ _ _ ⟨rfl, rfl⟩ h0
  obtain ⟨r2, rest, e2, q2, ho2, new, hlog, hnew⟩ := hear_eq p native capIn capOut _ fuel _ _ _
    { Console.make p native capIn capOut ⟨supply, reads, [], []⟩ with res := r1 } ⟨rfl, rfl⟩ q1 js hj hf
  rw [List.nil_append] at q2 ho2 hnew
  have hbefore : (Console.make p native capIn capOut ⟨supply, reads, [], []⟩).res.world.log = [] := rfl
  rw [hbefore] at hlog hnew
  rw [List.nil_append] at hlog
  by_cases hfin : g.2.1 = .finished
  · have e2' : Console.uin (readLocalWord native p.stdin fuel)
        { Console.make p native capIn capOut ⟨supply, reads, [], []⟩ with res := r1 } =
        (.ok (encs .char8 g.1),
          { Console.make p native capIn capOut ⟨supply, reads, [], []⟩ with res := r2 }) := by
      rw [e2]
      show (ending g.2.1 >>= fun _ => _, _) = _
      rw [hfin]
      rfl
    obtain ⟨r3, e3, q3⟩ := answer_eq p native capIn capOut _ _ _ _
      { Console.make p native capIn capOut ⟨supply, reads, [], []⟩ with res := r2 } ⟨rfl, rfl⟩
      q2.start g.1 (gather_text _ _)
    obtain ⟨q3, new3, hlog3, hnew3⟩ := q3
    obtain ⟨r4, -, ho4, ⟨ws, hws, hwrote⟩, e4, -⟩ := q3.flushed
    have hc : c = (.ok 0,
        { Console.make p native capIn capOut ⟨supply, reads, [], []⟩ with res := r4 }) := by
      have eb : (StdioExample.ask p native >>= fun _ =>
          Console.uin (readLocalWord native p.stdin fuel) >>= fun input =>
            StdioExample.answer p native input)
          (Console.make p native capIn capOut ⟨supply, reads, [], []⟩) =
          (.ok (), { Console.make p native capIn capOut ⟨supply, reads, [], []⟩ with res := r3 }) := by
        rw [M.bind_ok e1, M.bind_ok e2', e3]
      have e5 : M.noexcept (Console.uout (OutStream.flush p.stdout))
          { Console.make p native capIn capOut ⟨supply, reads, [], []⟩ with res := r3 } =
          (.ok (), { Console.make p native capIn capOut ⟨supply, reads, [], []⟩ with res := r4 }) := by
        simp only [M.noexcept_apply, Console.uout, OutStream.flush, OutStream.onRes]
        rw [e4]
        rfl
      have e6 : M.noexcept (do
          StdioExample.ask p native
          let input ← Console.uin (readLocalWord native p.stdin fuel)
          StdioExample.answer p native input)
          (Console.make p native capIn capOut ⟨supply, reads, [], []⟩) =
          (.ok (), { Console.make p native capIn capOut ⟨supply, reads, [], []⟩ with res := r3 }) := by
        rw [M.noexcept_apply, eb]
        rfl
      show StdioExample.main p native fuel _ = _
      rw [StdioExample.main]
      exact (M.bind_ok e6).trans ((M.bind_ok e5).trans rfl)
    rw [hc]
    refine ⟨by rw [if_pos hfin], ?_, ?_⟩
    · rw [if_pos hfin, shownText_append]
      exact ho4
    · have hall : r4.world.log = new ++ (new3 ++ ws) := by
        rw [hws, hlog3, hlog, List.append_assoc]
      have := hnew.append ((AskedWhen.wrote hnew3 (before := [] ++ new)).append
        (AskedWhen.wrote hwrote))
      intro pre n given post hx
      have hx : r4.world.log = _ := hx
      rw [hall] at hx
      exact this pre n given post hx
  · have hc : c = (.terminate,
        { Console.make p native capIn capOut ⟨supply, reads, [], []⟩ with res := r2 }) := by
      have e2' : (StdioExample.ask p native >>= fun _ =>
          Console.uin (readLocalWord native p.stdin fuel) >>= fun input =>
            StdioExample.answer p native input)
          (Console.make p native capIn capOut ⟨supply, reads, [], []⟩) =
          ((ending g.2.1 >>= fun _ => .ok ()),
            { Console.make p native capIn capOut ⟨supply, reads, [], []⟩ with res := r2 }) := by
        rw [M.bind_ok e1, M.bind_apply, e2]
        show _ = (ending g.2.1 >>= fun _ => _, _)
        cases hg : g.2.1 with
        | finished => exact absurd hg hfin
        | _ => rfl
      show StdioExample.main p native fuel _ = _
      rw [StdioExample.main, M.bind_apply, M.noexcept_apply, e2']
      cases hg : g.2.1 with
      | finished => exact absurd hg hfin
      | _ => rfl
    rw [hc]
    refine ⟨by rw [if_neg hfin], ?_, ?_⟩
    · rw [if_neg hfin]
      exact ho2
    · intro pre n given post hx
      have hx : r2.world.log = _ := hx
      rw [hlog] at hx
      exact hnew pre n given post hx

theorem passReturns_text (cs : List Nat) (h : 13 ∉ cs) (is : List Item) (hne : is ≠ []) :
    passReturns false (cs.map .char ++ is) = cs.map .char ++ passReturns false is := by
  induction cs with
  | nil => rfl
  | cons c cs ih =>
    have h13 : c ≠ 13 := fun hc => h (by simp [hc])
    have ih := ih fun hc => h (by simp [hc])
    rw [List.map_cons, List.cons_append]
    have : ∃ j js, cs.map Item.char ++ is = j :: js := by
      cases hx : cs.map Item.char ++ is with
      | nil => simp only [List.append_eq_nil_iff] at hx; exact absurd hx.2 hne
      | cons j js => exact ⟨j, js, rfl⟩
    obtain ⟨j, js, hj⟩ := this
    rw [hj] at ih ⊢
    rw [passReturns, if_neg (by simp [h13]), ih]
    rfl

theorem space_eq (v : Nat) : Spec.space v = decide (Spec.IsWhiteSpace v) := rfl

theorem firstWord_eq (sp word : List Nat) (hsp : ∀ c ∈ sp, Spec.IsWhiteSpace c)
    (hw : ∀ c ∈ word, ¬ Spec.IsWhiteSpace c ∧ Spec.IsScalar c ∧ ¬ LowSurrogate c)
    (hne : word ≠ []) (stop : Nat) (hs : Spec.IsWhiteSpace stop) (is : List Item) :
    firstWord (sp.map .char ++ (word.map .char ++ .char stop :: is)) = (word, .finished, is) := by
  have h1 : skipChars Spec.space (sp.map .char ++ (word.map .char ++ .char stop :: is)) =
      word.map .char ++ .char stop :: is := by
    induction sp with
    | nil =>
      cases word with
      | nil => exact absurd rfl hne
      | cons c word =>
        have : Spec.space c = false := by
          rw [space_eq]; simpa using (hw c (by simp)).1
        simp [skipChars, this]
    | cons c sp ih =>
      have : Spec.space c = true := by
        rw [space_eq]; simpa using hsp c (by simp)
      have ih := ih fun x hx => hsp x (by simp [hx])
      simpa [skipChars, this] using ih
  rw [firstWord, h1]
  clear h1 hne
  have hst : Spec.space stop = true := by rw [space_eq]; simpa using hs
  induction word with
  | nil => simp [gather, hst]
  | cons c word ih =>
    obtain ⟨h1, h2, h3⟩ := hw c (by simp)
    have hc : Spec.space c = false := by rw [space_eq]; simpa using h1
    have h8 : takes8 c = some [c] := by
      unfold takes8
      rw [if_pos ⟨h2, h3⟩]
    have ih := ih fun x hx => hw x (by simp [hx])
    simp [gather, hc, h8, ih]

/-- What is provable of the claim that the program repeats the first word of what is typed: there is
whitespace behind the word, no carriage return before it, and none of its characters has a surrogate
as its low 16 bits.  Whatever comes behind. -/
theorem C129_partial (p : StdPlatform) (native : Endian) (capIn capOut fuel : Nat)
    (sp word : List Nat) (stop : Nat) (rest : List Byte)
    (hsp : ∀ c ∈ sp, Spec.IsWhiteSpace c) (h13 : 13 ∉ sp)
    (hw : ∀ c ∈ word, ¬ Spec.IsWhiteSpace c ∧ Spec.IsScalar c ∧ ¬ LowSurrogate c)
    (hne : word ≠ []) (hs : Spec.IsWhiteSpace stop) (hs13 : stop ≠ 13)
    (hrest : p = .windows → 2 ∣ rest.length) (reads : List (Option Nat))
    (hreads : ∀ e ∈ reads, ∃ k, e = some (k + 1))
    (hf : sp.length + word.length + 1 + rest.length < fuel) :
    let typed := asBytes (p.inForm.form.serialize native.order (sp ++ word ++ [stop]))
    let c := StdioExample.main p native fuel
      (Console.make p native capIn capOut ⟨typed ++ rest, reads, [], []⟩)
    c.1 = .ok 0 ∧ Sys.output c.2.res.world.log = shownText (asks ++ answers word) := by
  intro typed c
  have hw13 : 13 ∉ word := by
    intro hc
    exact (hw 13 hc).1 (by unfold Spec.IsWhiteSpace Spec.whiteSpaceRanges; decide)
  have ht : Spec.IsText (sp ++ word ++ [stop]) := by
    intro c hc
    simp only [List.mem_append, List.mem_singleton] at hc
    rcases hc with (hc | hc) | hc
    · exact whiteSpace_scalar (hsp c hc)
    · exact (hw c hc).2.1
    · rw [hc]; exact whiteSpace_scalar hs
  obtain ⟨is, his⟩ := itemised_exists p.inForm.form native.order (nats rest)
  have hj := itemised_text p.inForm native _ ht rest is his
  have hlen : is.length ≤ rest.length := by
    have := itemised_length his
    simpa [nats] using this
  have hu : p = .windows → 2 ∣ (typed ++ rest).length := by
    intro hp
    rw [List.length_append]
    refine Nat.dvd_add ?_ (hrest hp)
    have := textBytes_units p.inForm native (sp ++ word ++ [stop])
    rw [p.unit_form, hp] at this
    subst hp
    exact this
  obtain ⟨h1, h2, -⟩ := C129_exact p native capIn capOut fuel (typed ++ rest) hu reads hreads _ hj
    (by simp; omega)
  have hg : ∃ is', firstWord (passReturns false ((sp ++ word ++ [stop]).map .char ++ is)) =
      (word, .finished, is') := by
    by_cases h0 : is = []
    · subst h0
      refine ⟨[], ?_⟩
      rw [List.map_append, List.append_assoc, passReturns_text _ (by simp [h13, hw13]) _ (by simp)]
      have : passReturns false ([stop].map Item.char ++ []) = [.char stop] := by
        simp [passReturns, hs13]
      rw [this, List.map_append, List.append_assoc]
      exact firstWord_eq sp word hsp hw hne stop hs []
    · refine ⟨passReturns false is, ?_⟩
      rw [passReturns_text _ (by simp [h13, hw13]; exact fun h => hs13 h.symm) _ h0]
      have := firstWord_eq sp word hsp hw hne stop hs (passReturns false is)
      simpa using this
  obtain ⟨is', hg⟩ := hg
  rw [hg] at h1 h2
  exact ⟨h1, h2⟩

/-- The full claim fails for input that ends right behind the word, such as that of `printf hi |`. -/
theorem C129_violated :
    ¬ ∀ (p : StdPlatform) (native : Endian) (capIn capOut : Nat) (word : List Nat),
      word ≠ [] → (∀ c ∈ word, ¬ Spec.IsWhiteSpace c ∧ Spec.IsScalar c) →
      ∃ fuel, (StdioExample.main p native fuel (Console.make p native capIn capOut
        ⟨asBytes (p.inForm.form.serialize native.order word), [], [], []⟩)).1 = .ok 0 := by
  intro h
  obtain ⟨fuel, hx⟩ := h .unix .little 8 8 [0x68, 0x69] (by decide) (by decide)
  have hj : Itemised .utf8 .little
      (nats (asBytes (StdPlatform.unix.inForm.form.serialize Endian.little.order [0x68, 0x69])))
      [.char 0x68, .char 0x69] :=
    .char (n := 1) (by decide +kernel) (.char (n := 1) (by decide +kernel) .none)
  rcases Nat.lt_or_ge 2 fuel with hf | hf
  · have := (C129_exact .unix .little 8 8 fuel _ (by simp) [] (by simp) _ hj hf).1
    rw [this] at hx
    revert hx
    decide +kernel
  · have : fuel = 0 ∨ fuel = 1 ∨ fuel = 2 := by omega
    rcases this with rfl | rfl | rfl <;> revert hx <;> decide +kernel

/-- And for characters that `std::u8string` does not take, such as U+1D800. -/
theorem C129_violated_character (native : Endian) (capIn capOut fuel : Nat) (hf : 2 < fuel) :
    (StdioExample.main .unix native fuel (Console.make .unix native capIn capOut
      ⟨asBytes (Spec.Form.utf8.serialize .big [0x1D800, 10]), [], [], []⟩)).1 = .terminate := by
  have hj : Itemised .utf8 native.order
      (nats (asBytes (Spec.Form.utf8.serialize .big [0x1D800, 10]))) [.char 0x1D800, .char 10] :=
    .char (n := 4) (by cases native <;> decide +kernel)
      (.char (n := 1) (by cases native <;> decide +kernel) (by cases native <;> exact .none))
  have := (C129_exact .unix native capIn capOut fuel _ (by simp) [] (by simp) _ hj hf).1
  rw [this]
  decide +kernel

/-- A dialogue: `¡héllo 𝄞!` typed with a space in front, handed out three bytes at first, with buffers
of 16 bytes.  The word `¡héllo` is repeated. -/
example : ∀ c ∈ codes "¡héllo", ¬ Spec.IsWhiteSpace c ∧ Spec.IsScalar c ∧ ¬ LowSurrogate c := by
  decide +kernel

example : (StdioExample.main .unix .little 30 (Console.make .unix .little 16 16
      ⟨shownText (codes " ¡héllo 𝄞!\n"), [some 3], [], []⟩)).1 = .ok 0 ∧
    Sys.output (StdioExample.main .unix .little 30 (Console.make .unix .little 16 16
      ⟨shownText (codes " ¡héllo 𝄞!\n"), [some 3], [], []⟩)).2.res.world.log =
    shownText (codes "I dunno, try it ¯\\_(ツ)_/¯\nHuh, let me see. Say something in Unicode: You said: ¡héllo\nCool.\n") := by
  decide +kernel

example : Itemised .utf8 .little [0x68, 0xFF, 0x0A] [.char 0x68, .bad, .char 10] :=
  .char (n := 1) (by decide) (.bad (n := 1) (by decide) (.char (n := 1) (by decide) .none))

end Cmp
