import Verif.Proofs.UioTest
import Verif.Proofs.TestModule
import Verif.Proofs.TiesToEven

/-
C133: the manual test of the standard streams.
-/

namespace Cmp

open InStream OutStream UioTest
open _root_.Spec (Item Ending Itemised passReturns gather skipChars takes8 firstWord firstLine codes
  askLine askReal askInteger wholeTalk)

/-! ### Failures are not forgotten -/

/-- A computation after which no failed test is forgotten. -/
def Remembers {α : Type} (x : M UioTest α) : Prop :=
  ∀ s, s.module.failed <+: (x s).2.module.failed

namespace Remembers

variable {α β : Type}

theorem bind {x : M UioTest α} {f : α → M UioTest β} (hx : Remembers x) (hf : ∀ a, Remembers (f a)) :
    Remembers (x >>= f) := by
  intro s
  have h1 := hx s
  rw [M.bind_apply]
  rcases hy : x s with ⟨o, s'⟩
  rw [hy] at h1
  cases o with
  | ok a => exact h1.trans (hf a s')
  | _ => exact h1

theorem noexcept {x : M UioTest α} (hx : Remembers x) : Remembers (M.noexcept x) := hx

theorem pure (a : α) : Remembers (Pure.pure a : M UioTest α) := fun _ => List.prefix_refl _

theorem lift (o : Outcome α) : Remembers (M.lift o : M UioTest α) := fun _ => List.prefix_refl _

theorem onConsole (x : M Console α) : Remembers (UioTest.onConsole x) := fun _ => List.prefix_refl _

theorem put (x : M (OutStream (Tied Sys)) α) : Remembers (UioTest.put x) := fun _ => List.prefix_refl _

theorem onErr (x : M (OutStream (Tied Sys)) α) : Remembers (UioTest.onErr x) :=
  fun _ => List.prefix_refl _

theorem ite {c : Prop} [Decidable c] {x y : M UioTest α} (hx : Remembers x) (hy : Remembers y) :
    Remembers (if c then x else y) := by
  split
  · exact hx
  · exact hy

theorem startTest (name : List Char) : Remembers (onModule (TestModule.startTest name)) := by
  intro s
  simp only [onModule, TestModule.startTest, M.bind_apply, M.modify_apply, M.get_apply, M.lift_apply]
  cases TestModule.zeroPad s.module.total ((s.module.index + 1).setWidth 32) <;>
    simp [TestModule.print]

theorem print (text : List Char) : Remembers (onModule (TestModule.print text)) :=
  fun _ => List.prefix_refl _

theorem endStage : Remembers (onModule TestModule.endStage) := fun _ => List.prefix_refl _

theorem endTest (ok : Bool) : Remembers (onModule (TestModule.endTest ok)) := by
  intro s
  simp only [onModule]
  cases h : TestModule.zeroPad s.module.total (s.module.index.setWidth 32) with
  | ok num =>
    rw [TestModule.endTest_eq ok s.module num h]
    cases ok <;> simp
  | _ =>
    rw [TestModule.endTest, M.bind_ok (M.get_apply _), h]
    exact List.prefix_refl _

end Remembers

/-! ### The states of the program -/

/-- The state of the program: what the test module has seen, what was written to the two streams, and
what is left to be read. -/
structure At (p : StdPlatform) (native : Endian) (capIn capOut capErr : Nat) (P : List Byte → Prop)
    (m : TestModule) (w we : List Byte) (is : List Item) (t : UioTest) : Prop where
  module : t.module = m
  console : Ready p native capIn capOut P w is t.console
  err : Ready p native 0 capErr (fun _ => True) we [] t.err

namespace At

variable {p : StdPlatform} {native : Endian} {capIn capOut capErr : Nat} {P : List Byte → Prop}
  {m : TestModule} {w we : List Byte} {is : List Item} {t : UioTest}

theorem put (h : At p native capIn capOut capErr P m w we is t) (i : Printed) (cs : List Nat)
    (hm : i.Means cs) (hs : i.Supported native native .utf8 cs) :
    ∃ t', UioTest.put (i.write native p.stdout) t = (.ok (), t') ∧
      At p native capIn capOut capErr P m (w ++ shownText cs) we is t' := by
  obtain ⟨c', e, q⟩ := h.console.print i cs hm hs
  exact ⟨{ t with console := c' }, by simp only [UioTest.put, UioTest.onConsole, e], h.module, q, h.err⟩

theorem flush (h : At p native capIn capOut capErr P m w we is t) :
    ∃ t', UioTest.put (OutStream.flush p.stdout) t = (.ok (), t') ∧
      At p native capIn capOut capErr P m w we is t' ∧ Sys.output t'.console.res.world.log = w ∧
      t'.err = t.err := by
  obtain ⟨c', e, q, ho⟩ := h.console.flush
  exact ⟨{ t with console := c' }, by simp only [UioTest.put, UioTest.onConsole, e],
    ⟨h.module, q, h.err⟩, ho, rfl⟩

theorem putErr (h : At p native capIn capOut capErr P m w we is t) (i : Printed) (cs : List Nat)
    (hm : i.Means cs) (hs : i.Supported native native .utf8 cs) :
    ∃ t', UioTest.onErr (i.write native p.stdout) t = (.ok (), t') ∧
      At p native capIn capOut capErr P m w (we ++ shownText cs) is t' := by
  obtain ⟨c', e, q⟩ := h.err.print i cs hm hs
  exact ⟨{ t with err := c' }, by simp only [UioTest.onErr, e], h.module, h.console, q⟩

theorem flushErr (h : At p native capIn capOut capErr P m w we is t) :
    ∃ t', UioTest.onErr (OutStream.flush p.stdout) t = (.ok (), t') ∧
      At p native capIn capOut capErr P m w we is t' ∧ Sys.output t'.err.res.world.log = we := by
  obtain ⟨c', e, q, ho⟩ := h.err.flush
  exact ⟨{ t with err := c' }, by simp only [UioTest.onErr, e], ⟨h.module, h.console, q⟩, ho⟩

theorem report (h : At p native capIn capOut capErr P m w we is t) {α : Type} {x : M TestModule α} {a : α}
    (hx : (x m).1 = .ok a) :
    ∃ t', UioTest.onModule x t = (.ok a, t') ∧ At p native capIn capOut capErr P (x m).2 w we is t' := by
  refine ⟨{ t with module := (x m).2 }, ?_, rfl, h.console, h.err⟩
  simp only [UioTest.onModule, h.module]
  rw [hx]

theorem line (h : At p native capIn capOut capErr P m w we is t) (hP : P w) (fuel : Nat)
    (hf : is.length < fuel) :
    ∃ t', UioTest.onConsole (Console.uin (UioTest.readLocalLine native p.stdin fuel)) t =
        (ending (firstLine is).2.1 >>= fun _ => .ok (encs .char8 (firstLine is).1), t') ∧
      At p native capIn capOut capErr P m w we (firstLine is).2.2 t' := by
  obtain ⟨c', e, q⟩ := h.console.hearLine hP fuel hf
  exact ⟨{ t with console := c' }, by simp only [UioTest.onConsole, e], h.module, q, h.err⟩

theorem word (h : At p native capIn capOut capErr P m w we is t) (hP : P w) (fuel : Nat)
    (hf : is.length < fuel) :
    ∃ t', UioTest.onConsole (Console.uin (readLocalWord native p.stdin fuel)) t =
        (ending (firstWord is).2.1 >>= fun _ => .ok (encs .char8 (firstWord is).1), t') ∧
      At p native capIn capOut capErr P m w we (firstWord is).2.2 t' := by
  obtain ⟨c', e, q⟩ := h.console.hearWord hP fuel hf
  exact ⟨{ t with console := c' }, by simp only [UioTest.onConsole, e], h.module, q, h.err⟩

end At

/-- A literal in UTF-8 on UTF-8. -/
theorem literal8 (native : Endian) (text : String)
    (hl : literal .char8 text = encs .char8 (codes text) ++ [0]) (h0 : 0 ∉ encs .char8 (codes text))
    (ht : Spec.IsText (codes text)) :
    (Printed.array .char8 (literal .char8 text)).Means (codes text) ∧
      (Printed.array .char8 (literal .char8 text)).Supported native native .utf8 (codes text) :=
  ⟨literal_means _ _ hl h0 ht (by simp), .inl ⟨rfl, .inl rfl⟩⟩

/-- An ASCII literal on UTF-8. -/
theorem literalNarrow (native : Endian) (text : String)
    (hl : literal .narrow text = encs .narrow (codes text) ++ [0]) (h0 : 0 ∉ encs .narrow (codes text))
    (ht : ∀ c ∈ codes text, c < 128) :
    (Printed.array .narrow (literal .narrow text)).Means (codes text) ∧
      (Printed.array .narrow (literal .narrow text)).Supported native native .utf8 (codes text) :=
  ⟨literal_means _ _ hl h0 (fun c hc => by have := ht c hc; unfold Spec.IsScalar; omega) fun _ => ht,
    .inl ⟨rfl, .inl rfl⟩⟩

/-- Literals in UTF-16 and UTF-32 on UTF-8. -/
theorem literalWide (native : Endian) (e : Enc) (hn : e ≠ .narrow) (text : String)
    (hl : literal e text = encs e (codes text) ++ [0]) (h0 : 0 ∉ encs e (codes text))
    (ht : ∀ c ∈ codes text, c < 0xD800) :
    (Printed.array e (literal e text)).Means (codes text) ∧
      (Printed.array e (literal e text)).Supported native native .utf8 (codes text) :=
  ⟨literal_means _ _ hl h0 (fun c hc => by have := ht c hc; unfold Spec.IsScalar; omega)
    fun h => absurd h hn,
    .inr ⟨fun _ c hc => by have := ht c hc; unfold Spec.IsBmp; omega,
      fun _ c hc => by have := ht c hc; unfold LowSurrogate; omega⟩⟩

/-- A string object made from a literal. -/
theorem object_means (native : Endian) (e : Enc) (hn : e ≠ .narrow) (text : String)
    (hl : textObject e text = encs e (codes text)) (ht : ∀ c ∈ codes text, c < 0xD800) :
    (Printed.view e (textObject e text)).Means (codes text) ∧
      (Printed.view e (textObject e text)).Supported native native .utf8 (codes text) := by
  refine ⟨?_, .inr ⟨fun _ c hc => by have := ht c hc; unfold Spec.IsBmp; omega,
      fun _ c hc => by have := ht c hc; unfold LowSurrogate; omega⟩⟩
  rw [hl]
  exact textOf_encs e _ (fun c hc => by have := ht c hc; unfold Spec.IsScalar; omega)
    fun h => absurd h hn

/-- Three lines on one of the streams. -/
theorem threeLines_eq (p : StdPlatform) (native : Endian)
    (send : M (OutStream (Tied Sys)) Unit → M UioTest Unit) (G : List Byte → UioTest → Prop)
    (hs : ∀ t w (i : Printed) cs, G w t → i.Means cs → i.Supported native native .utf8 cs →
      ∃ t', send (i.write native p.stdout) t = (.ok (), t') ∧ G (w ++ shownText cs) t')
    (hf : ∀ t w, G w t → ∃ t', send (OutStream.flush p.stdout) t = (.ok (), t') ∧ G w t')
    (t : UioTest) (w : List Byte) (h : G w t) :
    ∃ t', UioTest.threeLines p native send t = (.ok (), t') ∧ G (w ++ shownText Spec.threeLines) t' := by
  obtain ⟨m1, s1⟩ := object_means native .char8 (by decide) "¯\\_(ツ)_/¯1" (by decide +kernel)
    (by decide +kernel)
  obtain ⟨t1, e1, q⟩ := hs t w _ _ h m1 s1
  obtain ⟨m2, s2⟩ := literal8 native ".\n" (by decide +kernel) (by decide +kernel)
    (by unfold Spec.IsText; decide +kernel)
  obtain ⟨t2, e2, q⟩ := hs t1 _ _ _ q m2 s2
  obtain ⟨m3, s3⟩ := object_means native .char16 (by decide) "¯\\_(ツ)_/¯2" (by decide +kernel)
    (by decide +kernel)
  obtain ⟨t3, e3, q⟩ := hs t2 _ _ _ q m3 s3
  obtain ⟨m4, s4⟩ := literalWide native .char16 (by decide) ".\n" (by decide +kernel) (by decide +kernel)
    (by decide +kernel)
  obtain ⟨t4, e4, q⟩ := hs t3 _ _ _ q m4 s4
  obtain ⟨m5, s5⟩ := object_means native .char32 (by decide) "¯\\_(ツ)_/¯3" (by decide +kernel)
    (by decide +kernel)
  obtain ⟨t5, e5, q⟩ := hs t4 _ _ _ q m5 s5
  obtain ⟨m6, s6⟩ := literalWide native .char32 (by decide) ".\n" (by decide +kernel) (by decide +kernel)
    (by decide +kernel)
  obtain ⟨t6, e6, q⟩ := hs t5 _ _ _ q m6 s6
  obtain ⟨t7, e7, q⟩ := hf t6 _ q
  refine ⟨t7, ?_, ?_⟩
  · rw [UioTest.threeLines]
    exact (M.bind_ok e1).trans ((M.bind_ok e2).trans ((M.bind_ok e3).trans ((M.bind_ok e4).trans
      ((M.bind_ok e5).trans ((M.bind_ok e6).trans e7)))))
  · have : Spec.threeLines = codes "¯\\_(ツ)_/¯1" ++ codes ".\n" ++ codes "¯\\_(ツ)_/¯2" ++ codes ".\n"
        ++ codes "¯\\_(ツ)_/¯3" ++ codes ".\n" := by decide +kernel
    rw [this]
    simp only [shownText_append, List.append_assoc] at q ⊢
    exact q

/-! ### What the test module goes through -/

/-- `test_output` has been announced. -/
def begun1 : TestModule := (TestModule.startTest "test_output".toList (TestModule.make 3)).2

/-- Its first stage is over. -/
def stage1 : TestModule := (TestModule.endStage begun1).2

/-- Its second stage is over. -/
def stage2 : TestModule := (TestModule.endStage stage1).2

/-- It has succeeded. -/
def done1 : TestModule := (TestModule.endTest true stage2).2

/-- `test_input` has been announced. -/
def begun2 : TestModule := (TestModule.startTest "test_input".toList done1).2

/-- Its only stage is over. -/
def stage3 : TestModule := (TestModule.endStage begun2).2

/-- It has succeeded. -/
def done2 : TestModule := (TestModule.endTest true stage3).2

/-- `test_parsing_and_formatting` has been announced. -/
def begun3 : TestModule := (TestModule.startTest "test_parsing_and_formatting".toList done2).2

/-- Its first stage is over. -/
def stage4 : TestModule := (TestModule.endStage begun3).2

/-- Its second stage is over. -/
def stage5 : TestModule := (TestModule.endStage stage4).2

/-- It has succeeded. -/
def done3 : TestModule := (TestModule.endTest true stage5).2

/-- The totals have been printed. -/
def reported : TestModule := (reportAll done3).2

/-! ### The test functions -/

theorem bind_inv {σ α β : Type} {x : M σ α} {f : α → M σ β} {s : σ} {b : β}
    (h : ((x >>= f) s).1 = .ok b) : ∃ a s', x s = (.ok a, s') ∧ (f a s').1 = .ok b := by
  rw [M.bind_apply] at h
  rcases hx : x s with ⟨o, s'⟩
  rw [hx] at h
  cases o with
  | ok a => exact ⟨a, s', rfl, h⟩
  | _ => cases h

theorem noexcept_inv {σ α : Type} {x : M σ α} {s : σ} {a : α} (h : (M.noexcept x s).1 = .ok a) :
    (x s).1 = .ok a := by
  rw [M.noexcept_apply] at h
  rcases hx : x s with ⟨o, s'⟩
  rw [hx] at h
  cases o with
  | throw e => cases h
  | _ => exact h

theorem noexcept_ok {σ α : Type} {x : M σ α} {s s' : σ} {a : α} (h : x s = (.ok a, s')) :
    M.noexcept x s = (.ok a, s') := by
  rw [M.noexcept_apply, h]
  rfl

/-- UTF-8 strings with the same units have the same text. -/
theorem sameUnits8 {a b : List Nat} (ha : ∀ c ∈ a, Spec.IsScalar c) (hb : ∀ c ∈ b, Spec.IsScalar c)
    (h : encs .char8 a = encs .char8 b) : a = b := by
  have key : ∀ cs : List Nat, (∀ c ∈ cs, Spec.IsScalar c) →
      convertString .char8 .char32 (encs .char8 cs) = .ok (encs .char32 cs) := fun cs hc =>
    convertString_enc _ _ _ hc fun c hx => by
      have := (hc c hx).1
      show c < 2 ^ 32
      omega
  have h1 := key a ha
  rw [h, key b hb] at h1
  simp only [Outcome.ok.injEq] at h1
  have h2 := (textOf_encs .char32 a ha (by simp)).1.2
  rw [← h1, (textOf_encs .char32 b hb (by simp)).1.2] at h2
  have e32 : ∀ cs : List Nat, Spec.Form.utf32.encode cs = cs := fun cs => by
    induction cs with
    | nil => rfl
    | cons c cs ih =>
      show c :: Spec.Form.utf32.encode cs = _
      rw [ih]
  have h3 : Spec.Form.utf32.encode b = Spec.Form.utf32.encode a := h2
  rw [e32, e32] at h3
  exact h3.symm

/-- A word or line was read: nothing was wrong with it, and it is what was taken. -/
theorem wasRead {e : Ending} {us a : Str .char8} {s s' : UioTest}
    (h : ((ending e >>= fun _ => .ok us : Outcome (Str .char8)), s) = (.ok a, s')) :
    e = .finished ∧ a = us ∧ s' = s := by
  simp only [Prod.mk.injEq] at h
  cases e with
  | finished => exact ⟨rfl, (Outcome.ok.inj h.1).symm, h.2.symm⟩
  | _ => cases h.1

section Tests

variable {p : StdPlatform} {native : Endian} {capIn capOut capErr : Nat} {P : List Byte → Prop}
  {m : TestModule} {w we : List Byte} {is : List Item} {t : UioTest}

theorem testOutput_eq (h : At p native capIn capOut capErr P (TestModule.make 3) w we is t) :
    ∃ t', testOutput p native t = (.ok true, t') ∧
      At p native capIn capOut capErr P stage2 (w ++ shownText Spec.threeLines)
        (we ++ shownText Spec.threeLines) is t' := by
  obtain ⟨t1, e1, q⟩ := h.report (x := TestModule.startTest "test_output".toList) (a := ())
    (by decide +kernel)
  obtain ⟨t2, e2, q⟩ := threeLines_eq p native UioTest.put
    (fun w t => At p native capIn capOut capErr P begun1 w we is t)
    (fun t w i cs h hm hs => h.put i cs hm hs) (fun t w h => by
      obtain ⟨t', e, q, -⟩ := h.flush
      exact ⟨t', e, q⟩) t1 w q
  obtain ⟨t3, e3, q⟩ := q.report (x := TestModule.endStage) (a := ()) (by decide +kernel)
  obtain ⟨t4, e4, q⟩ := threeLines_eq p native UioTest.onErr
    (fun we t => At p native capIn capOut capErr P stage1 (w ++ shownText Spec.threeLines) we is t)
    (fun t w i cs h hm hs => h.putErr i cs hm hs) (fun t w h => by
      obtain ⟨t', e, q, -⟩ := h.flushErr
      exact ⟨t', e, q⟩) t3 we q
  obtain ⟨t5, e5, q⟩ := q.report (x := TestModule.endStage) (a := ()) (by decide +kernel)
  refine ⟨t5, ?_, q⟩
  rw [testOutput]
  exact noexcept_ok ((M.bind_ok e1).trans ((M.bind_ok e2).trans ((M.bind_ok e3).trans
    ((M.bind_ok e4).trans ((M.bind_ok e5).trans rfl)))))

theorem testInput_eq (h : At p native capIn capOut capErr P done1 w we is t)
    (hP : P (w ++ shownText (codes "Enter ツ: "))) (fuel : Nat) (hf : is.length < fuel) :
    ((firstLine is).2.1 = .finished → (firstLine is).1 = codes "ツ" →
      ∃ t', testInput p native fuel t = (.ok true, t') ∧
        At p native capIn capOut capErr P stage3
          (w ++ shownText (codes "Enter ツ: ") ++ shownText (codes "Entered line: ツ\n")) we
          (firstLine is).2.2 t') ∧
    ((testInput p native fuel t).1 = .ok true →
      (firstLine is).2.1 = .finished ∧ (firstLine is).1 = codes "ツ") := by
  obtain ⟨t1, e1, q⟩ := h.report (x := TestModule.startTest "test_input".toList) (a := ())
    (by decide +kernel)
  obtain ⟨m2, s2⟩ := literal8 native "Enter ツ: " (by decide +kernel) (by decide +kernel)
    (by unfold Spec.IsText; decide +kernel)
  obtain ⟨t2, e2, q⟩ := q.put _ _ m2 s2
  obtain ⟨t3, e3, q⟩ := q.line hP fuel hf
  have htsu : textObject .char8 "ツ" = encs .char8 (codes "ツ") := by decide +kernel
  refine ⟨fun hfin hline => ?_, fun hok => ?_⟩
  · rw [hfin, hline] at e3
    have e3 : onConsole (Console.uin (readLocalLine native p.stdin fuel)) t2 =
      (.ok (encs .char8 (codes "ツ")), t3) := e3
    obtain ⟨m4, s4⟩ := literalNarrow native "Entered line: " (by decide +kernel) (by decide +kernel)
      (by decide +kernel)
    obtain ⟨t4, e4, q⟩ := q.put _ _ m4 s4
    obtain ⟨m5, s5⟩ := object_means native .char8 (by decide) "ツ" htsu (by decide +kernel)
    obtain ⟨t5, e5, q⟩ := q.put _ _ m5 s5
    obtain ⟨t6, e6, q⟩ := q.put (.char 10#8) [10] ⟨by decide, rfl⟩ trivial
    obtain ⟨t7, e7, q, -⟩ := q.flush
    obtain ⟨t8, e8, q⟩ := q.report (x := TestModule.endStage) (a := ()) (by decide +kernel)
    rw [htsu] at e5
    refine ⟨t8, ?_, ?_⟩
    · rw [testInput]
      refine noexcept_ok ((M.bind_ok e1).trans ((M.bind_ok e2).trans ((M.bind_ok e3).trans
        ((M.bind_ok e4).trans ((M.bind_ok e5).trans ((M.bind_ok e6).trans ((M.bind_ok e7).trans ?_)))))))
      rw [if_neg (by rw [htsu]; simp)]
      exact (M.bind_ok e8).trans rfl
    · have : codes "Entered line: ツ\n" = codes "Entered line: " ++ codes "ツ" ++ [10] := by
        decide +kernel
      rw [this]
      simp only [shownText_append, List.append_assoc] at q ⊢
      exact q
  · rw [testInput] at hok
    have hok := noexcept_inv hok
    obtain ⟨a1, u1, f1, hok⟩ := bind_inv hok
    cases e1.symm.trans f1
    obtain ⟨a2, u2, f2, hok⟩ := bind_inv hok
    cases e2.symm.trans f2
    obtain ⟨a3, u3, f3, hok⟩ := bind_inv hok
    obtain ⟨hfin, rfl, rfl⟩ := wasRead (e3.symm.trans f3)
    obtain ⟨a4, u4, -, hok⟩ := bind_inv hok
    obtain ⟨a5, u5, -, hok⟩ := bind_inv hok
    obtain ⟨a6, u6, -, hok⟩ := bind_inv hok
    obtain ⟨a7, u7, -, hok⟩ := bind_inv hok
    refine ⟨hfin, ?_⟩
    by_cases hi : encs .char8 (firstLine is).1 = textObject .char8 "ツ"
    · rw [htsu] at hi
      exact sameUnits8 (gather_text _ _) (by decide +kernel) hi
    · rw [if_pos hi] at hok
      obtain ⟨a8, u8, -, hok⟩ := bind_inv hok
      cases hok

theorem put_5_5 (h : At p native capIn capOut capErr P m w we is t) {rnd : ℚ → ℚ} {places : Nat}
    (hformat : formatFloat .char8 rnd places (11 / 2) FloatFormat.default = .ok [0x35#8, 0x2E#8, 0x35#8]) :
    ∃ t', UioTest.put (writeFloat native p.stdout rnd places (11 / 2)) t = (.ok (), t') ∧
      At p native capIn capOut capErr P m (w ++ shownText (codes "5.5")) we is t' := by
  have hm : (Printed.view .char8 [0x35#8, 0x2E#8, 0x35#8]).Means (codes "5.5") := by
    have : ([0x35#8, 0x2E#8, 0x35#8] : Str .char8) = encs .char8 (codes "5.5") := by decide +kernel
    rw [this]
    exact textOf_encs _ _ (by unfold Spec.IsText; decide +kernel) (by simp)
  obtain ⟨t', e, q⟩ := h.put (.view .char8 [0x35#8, 0x2E#8, 0x35#8]) (codes "5.5") hm (.inl ⟨rfl, .inl rfl⟩)
  refine ⟨t', ?_, q⟩
  rw [← e]
  have hform := h.console.outForm
  obtain ⟨⟨res, ie, jf, oe, of⟩, er, mo⟩ := t
  simp only at hform
  subst hform
  have : writeFloat native p.stdout rnd places (11 / 2) ⟨res, oe, .utf8⟩ =
      writeString native p.stdout .char8 [0x35#8, 0x2E#8, 0x35#8] ⟨res, oe, .utf8⟩ := by
    rw [writeFloat, M.bind_ok (M.get_apply _)]
    simp only [formatEnc, hformat, M.bind_apply, M.lift_apply]
  simp only [UioTest.put, UioTest.onConsole, Console.uout, this, Printed.write]

theorem testParsing_eq (h : At p native capIn capOut capErr P done2 w we is t)
    (hP : P (w ++ shownText (codes "Enter 5.5: ")))
    (hP' : P (w ++ shownText (codes "Enter 5.5: ") ++ shownText (codes "Entered value: 5.5\nEnter -75: ")))
    (rnd : ℚ → ℚ) (fuel places : Nat) (hf : is.length < fuel)
    (hformat : formatFloat .char8 rnd places (11 / 2) FloatFormat.default = .ok [0x35#8, 0x2E#8, 0x35#8]) :
    let w1 := firstWord is
    let w2 := firstWord w1.2.2
    (w1.2.1 = .finished → parseFloat .char8 rnd (encs .char8 w1.1) FloatFormat.default = .ok (11 / 2) →
      w2.2.1 = .finished → parseInteger .char8 .int (encs .char8 w2.1) IntegerFormat.default = .ok (-75) →
      ∃ t', testParsing p native rnd fuel places t = (.ok true, t') ∧
        At p native capIn capOut capErr P stage5
          (w ++ shownText (codes "Enter 5.5: ") ++ shownText (codes "Entered value: 5.5\nEnter -75: ")
            ++ shownText (codes "Entered value: -75\n")) we w2.2.2 t') ∧
    ((testParsing p native rnd fuel places t).1 = .ok true →
      w1.2.1 = .finished ∧ parseFloat .char8 rnd (encs .char8 w1.1) FloatFormat.default = .ok (11 / 2) ∧
      w2.2.1 = .finished ∧
      parseInteger .char8 .int (encs .char8 w2.1) IntegerFormat.default = .ok (-75)) := by
  intro w1 w2
  obtain ⟨t1, e1, q⟩ := h.report (x := TestModule.startTest "test_parsing_and_formatting".toList)
    (a := ()) (by decide +kernel)
  obtain ⟨m2, s2⟩ := literal8 native "Enter 5.5: " (by decide +kernel) (by decide +kernel)
    (by unfold Spec.IsText; decide +kernel)
  obtain ⟨t2, e2, q⟩ := q.put _ _ m2 s2
  obtain ⟨t3, e3, q⟩ := q.word hP fuel hf
  obtain ⟨mv, sv⟩ := literalNarrow native "Entered value: " (by decide +kernel) (by decide +kernel)
    (by decide +kernel)
  obtain ⟨t5, e5, q⟩ := q.put _ _ mv sv
  obtain ⟨t6, e6, q⟩ := put_5_5 q hformat
  obtain ⟨t7, e7, q⟩ := q.put (.char 10#8) [10] ⟨by decide, rfl⟩ trivial
  obtain ⟨t8, e8, q, -⟩ := q.flush
  obtain ⟨t9, e9, q⟩ := q.report (x := TestModule.endStage) (a := ()) (by decide +kernel)
  obtain ⟨m10, s10⟩ := literal8 native "Enter -75: " (by decide +kernel) (by decide +kernel)
    (by unfold Spec.IsText; decide +kernel)
  obtain ⟨t10, e10, q⟩ := q.put _ _ m10 s10
  have hw : w ++ shownText (codes "Enter 5.5: ") ++ shownText (codes "Entered value: ")
      ++ shownText (codes "5.5") ++ shownText [10] ++ shownText (codes "Enter -75: ") =
      w ++ shownText (codes "Enter 5.5: ") ++ shownText (codes "Entered value: 5.5\nEnter -75: ") := by
    have : codes "Entered value: 5.5\nEnter -75: " =
        codes "Entered value: " ++ codes "5.5" ++ [10] ++ codes "Enter -75: " := by decide +kernel
    rw [this]
    simp only [shownText_append, List.append_assoc]
  rw [hw] at q
  obtain ⟨t11, e11, q⟩ := q.word hP' fuel (Nat.lt_of_le_of_lt (firstWord_length is) hf)
  refine ⟨fun hfin1 hparse1 hfin2 hparse2 => ?_, fun hok => ?_⟩
  · have e3 : onConsole (Console.uin (readLocalWord native p.stdin fuel)) t2 =
        (.ok (encs .char8 w1.1), t3) := by
      rw [e3]
      show (ending w1.2.1 >>= _, _) = _
      rw [hfin1]
      rfl
    have e11 : onConsole (Console.uin (readLocalWord native p.stdin fuel)) t10 =
        (.ok (encs .char8 w2.1), t11) := by
      rw [e11]
      show (ending w2.2.1 >>= _, _) = _
      rw [hfin2]
      rfl
    obtain ⟨t13, e13, q⟩ := q.put _ _ mv sv
    obtain ⟨t14, e14, q⟩ := q.put (.int .int (-75)) (_root_.Spec.decimal (-75))
      ⟨by decide, by decide, rfl⟩ (fun _ => by decide)
    obtain ⟨t15, e15, q⟩ := q.put (.char 10#8) [10] ⟨by decide, rfl⟩ trivial
    obtain ⟨t16, e16, q, -⟩ := q.flush
    obtain ⟨t17, e17, q⟩ := q.report (x := TestModule.endStage) (a := ()) (by decide +kernel)
    refine ⟨t17, ?_, ?_⟩
    · rw [testParsing]
      refine noexcept_ok ((M.bind_ok e1).trans ((M.bind_ok e2).trans ((M.bind_ok e3).trans ?_)))
      have e4 : (M.lift (parseFloat .char8 rnd (encs .char8 w1.1) FloatFormat.default) : M UioTest ℚ) t3 =
          (.ok (11 / 2), t3) := by rw [M.lift_apply, hparse1]
      refine (M.bind_ok e4).trans ((M.bind_ok e5).trans ((M.bind_ok e6).trans ((M.bind_ok e7).trans
        ((M.bind_ok e8).trans ?_))))
      rw [if_neg (by simp)]
      refine (M.bind_ok e9).trans ((M.bind_ok e10).trans ((M.bind_ok e11).trans ?_))
      have e12 : (M.lift (parseInteger .char8 .int (encs .char8 w2.1) IntegerFormat.default) :
          M UioTest Int) t11 = (.ok (-75), t11) := by rw [M.lift_apply, hparse2]
      refine (M.bind_ok e12).trans ((M.bind_ok e13).trans ((M.bind_ok e14).trans ((M.bind_ok e15).trans
        ((M.bind_ok e16).trans ?_))))
      rw [if_neg (by simp)]
      exact (M.bind_ok e17).trans rfl
    · have : codes "Entered value: -75\n" = codes "Entered value: " ++ _root_.Spec.decimal (-75) ++ [10] := by
        decide +kernel
      rw [this]
      simp only [shownText_append, List.append_assoc] at q ⊢
      exact q
  · rw [testParsing] at hok
    have hok := noexcept_inv hok
    obtain ⟨a1, u1, f1, hok⟩ := bind_inv hok
    cases e1.symm.trans f1
    obtain ⟨a2, u2, f2, hok⟩ := bind_inv hok
    cases e2.symm.trans f2
    obtain ⟨a3, u3, f3, hok⟩ := bind_inv hok
    obtain ⟨hfin1, rfl, rfl⟩ := wasRead (e3.symm.trans f3)
    obtain ⟨a4, u4, f4, hok⟩ := bind_inv hok
    rw [M.lift_apply] at f4
    obtain ⟨g4, rfl⟩ := Prod.mk.inj f4
    by_cases hv : a4 = 11 / 2
    · subst hv
      obtain ⟨a5, u5, f5, hok⟩ := bind_inv hok
      cases e5.symm.trans f5
      obtain ⟨a6, u6, f6, hok⟩ := bind_inv hok
      cases e6.symm.trans f6
      obtain ⟨a7, u7, f7, hok⟩ := bind_inv hok
      cases e7.symm.trans f7
      obtain ⟨a8, u8, f8, hok⟩ := bind_inv hok
      cases e8.symm.trans f8
      rw [if_neg (by simp)] at hok
      obtain ⟨a9, u9, f9, hok⟩ := bind_inv hok
      cases e9.symm.trans f9
      obtain ⟨a10, u10, f10, hok⟩ := bind_inv hok
      cases e10.symm.trans f10
      obtain ⟨a11, u11, f11, hok⟩ := bind_inv hok
      obtain ⟨hfin2, rfl, rfl⟩ := wasRead (e11.symm.trans f11)
      obtain ⟨a12, u12, f12, hok⟩ := bind_inv hok
      rw [M.lift_apply] at f12
      obtain ⟨g12, rfl⟩ := Prod.mk.inj f12
      by_cases hv : a12 = -75
      · subst hv
        exact ⟨hfin1, g4, hfin2, g12⟩
      · obtain ⟨-, u13, -, hok⟩ := bind_inv hok
        obtain ⟨-, u14, -, hok⟩ := bind_inv hok
        obtain ⟨-, u15, -, hok⟩ := bind_inv hok
        obtain ⟨-, u16, -, hok⟩ := bind_inv hok
        rw [if_pos hv] at hok
        obtain ⟨-, u17, -, hok⟩ := bind_inv hok
        cases hok
    · obtain ⟨-, u13, -, hok⟩ := bind_inv hok
      obtain ⟨-, u14, -, hok⟩ := bind_inv hok
      obtain ⟨-, u15, -, hok⟩ := bind_inv hok
      obtain ⟨-, u16, -, hok⟩ := bind_inv hok
      rw [if_pos hv] at hok
      obtain ⟨-, u17, -, hok⟩ := bind_inv hok
      cases hok

end Tests

/-! ### The whole program -/

/-- What is left to be done when the tests `tests` have not run yet. -/
def remaining (tests : List (M UioTest Bool)) : M UioTest Nat := do
  let _ ← M.runList (fun t => do
    let ok ← t
    onModule (TestModule.endTest ok)) tests
  onModule reportAll

theorem remaining_cons (t : M UioTest Bool) (ts : List (M UioTest Bool)) (s : UioTest) :
    remaining (t :: ts) s =
      (t >>= fun ok => onModule (TestModule.endTest ok) >>= fun _ => remaining ts) s := by
  simp only [remaining, M.runList, M.bind_apply]
  rcases t s with ⟨o, s1⟩
  cases o with
  | ok b =>
    simp only
    rcases onModule (TestModule.endTest b) s1 with ⟨o, s2⟩
    cases o with
    | ok u =>
      simp only
      rcases M.runList (fun t => (t >>= fun ok => onModule (TestModule.endTest ok) : M UioTest Unit)) ts s2
        with ⟨o, s3⟩
      cases o <;> rfl
    | _ => rfl
  | _ => rfl

theorem reportAll_ok {s : TestModule} {n : Nat} (h : (reportAll s).1 = .ok n) : n = s.failed.length := by
  rw [reportAll, M.bind_ok (M.get_apply _)] at h
  obtain ⟨-, s1, -, h⟩ := bind_inv h
  obtain ⟨-, s2, -, h⟩ := bind_inv h
  obtain ⟨-, s3, -, h⟩ := bind_inv h
  obtain ⟨-, s4, -, h⟩ := bind_inv h
  exact (Outcome.ok.inj h).symm

/-- The number returned is at least the number of failures so far. -/
theorem remaining_failed (tests : List (M UioTest Bool)) (hr : ∀ t ∈ tests, Remembers t) :
    ∀ (s : UioTest) (n : Nat), (remaining tests s).1 = .ok n → s.module.failed.length ≤ n := by
  induction tests with
  | nil =>
    intro s n h
    have h : (reportAll s.module).1 = .ok n := h
    rw [reportAll_ok h]
  | cons t ts ih =>
    intro s n h
    rw [remaining_cons] at h
    obtain ⟨b, s1, e1, h⟩ := bind_inv h
    obtain ⟨u, s2, e2, h⟩ := bind_inv h
    have h1 := hr t (by simp) s
    rw [e1] at h1
    have h2 := Remembers.endTest b s1
    rw [e2] at h2
    have h3 := ih (fun t ht => hr t (by simp [ht])) s2 n h
    exact Nat.le_trans h1.length_le (Nat.le_trans h2.length_le h3)

/-- If no failure is counted, the next test returned true. -/
theorem remaining_zero {t : M UioTest Bool} {ts : List (M UioTest Bool)} (hr : ∀ t ∈ ts, Remembers t)
    {s : UioTest} (h : (remaining (t :: ts) s).1 = .ok 0) :
    ∃ s1 s2, t s = (.ok true, s1) ∧ onModule (TestModule.endTest true) s1 = (.ok (), s2) ∧
      (remaining ts s2).1 = .ok 0 := by
  rw [remaining_cons] at h
  obtain ⟨b, s1, e1, h⟩ := bind_inv h
  obtain ⟨u, s2, e2, h'⟩ := bind_inv h
  cases b with
  | true => exact ⟨s1, s2, e1, e2, h'⟩
  | false =>
    have h0 := remaining_failed ts hr s2 0 h'
    have h1 : s2.module.failed ≠ [] := by
      simp only [onModule] at e2
      cases hz : TestModule.zeroPad s1.module.total (s1.module.index.setWidth 32) with
      | ok num =>
        rw [TestModule.endTest_eq false s1.module num hz] at e2
        rw [← (Prod.mk.inj e2).2]
        simp
      | _ =>
        rw [TestModule.endTest, M.bind_ok (M.get_apply _), hz] at e2
        cases (Prod.mk.inj e2).1
    exact absurd (List.length_eq_zero_iff.mp (Nat.le_zero.mp h0)) h1

theorem testInput_remembers (p : StdPlatform) (native : Endian) (fuel : Nat) :
    Remembers (testInput p native fuel) := by
  unfold testInput
  refine Remembers.noexcept ?_
  refine (Remembers.startTest _).bind fun _ => (Remembers.put _).bind fun _ =>
    (Remembers.onConsole _).bind fun _ => (Remembers.put _).bind fun _ => (Remembers.put _).bind fun _ =>
    (Remembers.put _).bind fun _ => (Remembers.put _).bind fun _ => ?_
  exact ((Remembers.print _).bind fun _ => .pure _).ite (Remembers.endStage.bind fun _ => .pure _)

theorem testParsing_remembers (p : StdPlatform) (native : Endian) (rnd : ℚ → ℚ) (fuel places : Nat) :
    Remembers (testParsing p native rnd fuel places) := by
  unfold testParsing
  refine Remembers.noexcept ?_
  refine (Remembers.startTest _).bind fun _ => (Remembers.put _).bind fun _ =>
    (Remembers.onConsole _).bind fun _ => (Remembers.lift _).bind fun _ => (Remembers.put _).bind fun _ =>
    (Remembers.put _).bind fun _ => (Remembers.put _).bind fun _ => (Remembers.put _).bind fun _ => ?_
  refine ((Remembers.print _).bind fun _ => .pure _).ite (Remembers.endStage.bind fun _ => ?_)
  refine (Remembers.put _).bind fun _ =>
    (Remembers.onConsole _).bind fun _ => (Remembers.lift _).bind fun _ => (Remembers.put _).bind fun _ =>
    (Remembers.put _).bind fun _ => (Remembers.put _).bind fun _ => (Remembers.put _).bind fun _ => ?_
  exact ((Remembers.print _).bind fun _ => .pure _).ite (Remembers.endStage.bind fun _ => .pure _)

/-- The person at the terminal has typed what was asked for: the line `ツ`, then a word that is a
numeral for 5.5, then one for -75. -/
def TypedAsAsked (rnd : ℚ → ℚ) (is : List Item) : Prop :=
  let line := firstLine is
  let w1 := firstWord line.2.2
  let w2 := firstWord w1.2.2
  (line.2.1 = .finished ∧ line.1 = codes "ツ") ∧
  w1.2.1 = .finished ∧ parseFloat .char8 rnd (encs .char8 w1.1) FloatFormat.default = .ok (11 / 2) ∧
  w2.2.1 = .finished ∧ parseInteger .char8 .int (encs .char8 w2.1) IntegerFormat.default = .ok (-75)

/-- What is printed by the test module when everything was right. -/
def passedOutput : List Char :=
  Spec.runOutput [
    ⟨"test_output".toList, true, 2,
      "Stage 1 completed successfully.\nStage 2 completed successfully.\n".toList⟩,
    ⟨"test_input".toList, true, 1, "Stage 1 completed successfully.\n".toList⟩,
    ⟨"test_parsing_and_formatting".toList, true, 2,
      "Stage 1 completed successfully.\nStage 2 completed successfully.\n".toList⟩]

section Whole

variable (p : StdPlatform) (native : Endian) (capIn capOut capErr fuel places : Nat) (rnd : ℚ → ℚ)
  (supply : List Byte) (reads : List (Option Nat))

theorem main_eq (hu : p = .windows → 2 ∣ supply.length)
    (hreads : ∀ e ∈ reads, ∃ k, e = some (k + 1)) (js : List Item)
    (hj : Itemised p.inForm.form native.order (nats supply) js) (hf : js.length < fuel)
    (hformat : formatFloat .char8 rnd places (11 / 2) FloatFormat.default = .ok [0x35#8, 0x2E#8, 0x35#8]) :
    let c := UioTest.main p native rnd fuel places
      (UioTest.start p native capIn capOut capErr ⟨supply, reads, [], []⟩ ⟨[], [], [], []⟩)
    (TypedAsAsked rnd (passReturns false js) →
      c.1 = .ok 0 ∧ Sys.output c.2.console.res.world.log = shownText wholeTalk ∧
      Sys.output c.2.err.res.world.log = shownText Spec.threeLines ∧
      c.2.module.out = passedOutput ∧
      ∀ pre n given post, c.2.console.res.world.log = pre ++ .asked n given :: post →
        Sys.output pre = shownText askLine ∨ Sys.output pre = shownText askReal ∨
        Sys.output pre = shownText askInteger) ∧
    (c.1 = .ok 0 → TypedAsAsked rnd (passReturns false js)) := by
  intro c
  let P : List Byte → Prop := fun w => w = shownText askLine ∨ w = shownText askReal ∨
    w = shownText askInteger
  have hlen : (passReturns false js).length < fuel := Nat.lt_of_le_of_lt (passReturns_length false js) hf
  have h0 : At p native capIn capOut capErr P (TestModule.make 3) [] [] (passReturns false js)
      (UioTest.start p native capIn capOut capErr ⟨supply, reads, [], []⟩ ⟨[], [], [], []⟩) := by
    refine ⟨rfl, Ready.make p native capIn capOut P supply reads hreads hu js hj, ?_⟩
    have := Ready.make p native 0 capErr (fun _ => True) [] [] (by simp) (fun _ => ⟨0, rfl⟩) [] .none
    exact this
  obtain ⟨t1, e1, q⟩ := testOutput_eq h0
  obtain ⟨t2, e2, q⟩ := q.report (x := TestModule.endTest true) (a := ()) (by decide +kernel)
  have hw2 : [] ++ shownText Spec.threeLines ++ shownText (codes "Enter ツ: ") = shownText askLine := by
    rw [askLine, shownText_append, List.nil_append]
  have hT2 := testInput_eq q (by rw [hw2]; exact .inl rfl) fuel hlen
  rw [hw2] at hT2
  have hrem : ∀ n, c.1 = .ok n → (remaining [testOutput p native, testInput p native fuel,
      testParsing p native rnd fuel places]
      (UioTest.start p native capIn capOut capErr ⟨supply, reads, [], []⟩ ⟨[], [], [], []⟩)).1 = .ok n := by
    intro n hc
    obtain ⟨m, s1, f1, hc⟩ := bind_inv hc
    obtain ⟨-, s2, f2, hc⟩ := bind_inv hc
    obtain ⟨-, s3, f3, hc⟩ := bind_inv hc
    cases hc
    have : (UioTest.runTests [testOutput p native, testInput p native fuel,
      testParsing p native rnd fuel places]
      (UioTest.start p native capIn capOut capErr ⟨supply, reads, [], []⟩ ⟨[], [], [], []⟩)).1 = .ok n := by
      rw [f1]
    exact noexcept_inv this
  have hlen2 : (firstLine (passReturns false js)).2.2.length < fuel :=
    Nat.lt_of_le_of_lt (firstLine_length _) hlen
  have hw3 : shownText askLine ++ shownText (codes "Entered line: ツ\n") ++
      shownText (codes "Enter 5.5: ") = shownText askReal := by
    have : askReal = askLine ++ codes "Entered line: ツ\n" ++ codes "Enter 5.5: " := by decide +kernel
    rw [this, shownText_append, shownText_append]
  have hw4 : shownText askReal ++ shownText (codes "Entered value: 5.5\nEnter -75: ") =
      shownText askInteger := by rw [askInteger, shownText_append]
  have hw5 : shownText askInteger ++ shownText (codes "Entered value: -75\n") = shownText wholeTalk := by
    rw [wholeTalk, shownText_append]
  -- the third test, on the way to success
  have hT3 : ∀ t3, At p native capIn capOut capErr P stage3
      (shownText askLine ++ shownText (codes "Entered line: ツ\n")) ([] ++ shownText Spec.threeLines)
      (firstLine (passReturns false js)).2.2 t3 → ∃ t4, onModule (TestModule.endTest true) t3 = (.ok (), t4) ∧
      let w1 := firstWord (firstLine (passReturns false js)).2.2
      let w2 := firstWord w1.2.2
      (w1.2.1 = .finished → parseFloat .char8 rnd (encs .char8 w1.1) FloatFormat.default = .ok (11 / 2) →
        w2.2.1 = .finished → parseInteger .char8 .int (encs .char8 w2.1) IntegerFormat.default = .ok (-75) →
        ∃ t', testParsing p native rnd fuel places t4 = (.ok true, t') ∧
          At p native capIn capOut capErr P stage5 (shownText wholeTalk)
            ([] ++ shownText Spec.threeLines) w2.2.2 t') ∧
      ((testParsing p native rnd fuel places t4).1 = .ok true →
        w1.2.1 = .finished ∧ parseFloat .char8 rnd (encs .char8 w1.1) FloatFormat.default = .ok (11 / 2) ∧
        w2.2.1 = .finished ∧
        parseInteger .char8 .int (encs .char8 w2.1) IntegerFormat.default = .ok (-75)) := by
    intro t3 q
    obtain ⟨t4, e4, q⟩ := q.report (x := TestModule.endTest true) (a := ()) (by decide +kernel)
    have := testParsing_eq q (by rw [hw3]; exact .inr (.inl rfl))
      (by rw [hw3, hw4]; exact .inr (.inr rfl)) rnd fuel places hlen2 hformat
    rw [hw3, hw4, hw5] at this
    exact ⟨t4, e4, this⟩
  refine ⟨fun ⟨⟨g1, g2⟩, g3, g4, g5, g6⟩ => ?_, fun hc => ?_⟩
  · obtain ⟨t3, e3, q⟩ := hT2.1 g1 g2
    obtain ⟨t4, e4, h3, -⟩ := hT3 t3 q
    obtain ⟨t5, e5, q⟩ := h3 g3 g4 g5 g6
    obtain ⟨t6, e6, q⟩ := q.report (x := TestModule.endTest true) (a := ()) (by decide +kernel)
    obtain ⟨t7, e7, q⟩ := q.report (x := reportAll) (a := 0) (by decide +kernel)
    obtain ⟨t8, e8, q, ho8⟩ := q.flushErr
    obtain ⟨t9, e9, q, ho9, herr⟩ := q.flush
    have er : remaining [testOutput p native, testInput p native fuel, testParsing p native rnd fuel places]
        (UioTest.start p native capIn capOut capErr ⟨supply, reads, [], []⟩ ⟨[], [], [], []⟩) =
        (.ok 0, t7) := by
      rw [remaining_cons, M.bind_ok e1, M.bind_ok e2, remaining_cons, M.bind_ok e3, M.bind_ok e4,
        remaining_cons, M.bind_ok e5, M.bind_ok e6]
      exact e7
    have hc : c = (.ok 0, t9) := (M.bind_ok (noexcept_ok er)).trans
      ((M.bind_ok (noexcept_ok e8)).trans ((M.bind_ok (noexcept_ok e9)).trans rfl))
    rw [hc]
    refine ⟨rfl, ho9, ?_, ?_, ?_⟩
    · show Sys.output t9.err.res.world.log = _
      rw [herr, ho8, List.nil_append]
    · show t9.module.out = _
      rw [q.module]
      decide +kernel
    · intro pre n given post e
      exact q.console.asked pre n given post e
  · have hz := hrem 0 hc
    obtain ⟨s1, s2, f1, f2, hz⟩ := remaining_zero (by
      intro t ht
      simp only [List.mem_cons, List.not_mem_nil, or_false] at ht
      rcases ht with rfl | rfl
      · exact testInput_remembers _ _ _
      · exact testParsing_remembers _ _ _ _ _) hz
    cases e1.symm.trans f1
    cases e2.symm.trans f2
    obtain ⟨s3, s4, f3, f4, hz⟩ := remaining_zero (by
      intro t ht
      simp only [List.mem_cons, List.not_mem_nil, or_false] at ht
      subst ht
      exact testParsing_remembers _ _ _ _ _) hz
    obtain ⟨g1, g2⟩ := hT2.2 (by rw [f3])
    obtain ⟨t3, e3, q⟩ := hT2.1 g1 g2
    cases e3.symm.trans f3
    obtain ⟨t4, e4, -, h3⟩ := hT3 _ q
    cases e4.symm.trans f4
    obtain ⟨s5, s6, f5, -, -⟩ := remaining_zero (by simp) hz
    exact ⟨⟨g1, g2⟩, h3 (by rw [f5])⟩

end Whole

theorem has_small {q : ℚ} (m : Int) (hm : m.natAbs < 2 ^ 53) (hq : q = m * (2 : ℚ) ^ (-1 : Int)) :
    Spec.binary64.Has q := ⟨m, -1, hm, by decide, hq⟩

/-- IEEE doubles are exact on what the test uses. -/
theorem nearest_5_5 {rnd : ℚ → ℚ} (hn : Spec.binary64.Nearest rnd) (places : Nat) (hp : 2 ≤ places) :
    formatFloat .char8 rnd places (11 / 2) FloatFormat.default = .ok [0x35#8, 0x2E#8, 0x35#8] ∧
    parseFloat .char8 rnd (encs .char8 (codes "5.5")) FloatFormat.default = .ok (11 / 2) := by
  have h1 : rnd (1 / 2) = 1 / 2 := hn.exact (has_small 1 (by decide) (by norm_num))
  have h2 : rnd 5 = 5 := hn.exact (has_small 10 (by decide) (by norm_num))
  have h0 : rnd 0 = 0 := hn.exact (has_small 0 (by decide) (by norm_num))
  have h10 : rnd 10 = 10 := hn.exact (has_small 20 (by decide) (by norm_num))
  have h11 : rnd (11 / 2) = 11 / 2 := hn.exact (has_small 11 (by decide) (by norm_num))
  refine ⟨?_, ?_⟩
  · obtain ⟨n, rfl⟩ : ∃ n, places = n + 2 := ⟨places - 2, by omega⟩
    exact format_5_5 rnd h1 h2 h0 n
  · have he : encs .char8 (codes "5.5") = [0x35#8, 0x2E#8, 0x35#8] := by decide +kernel
    rw [he, parseFloat]
    have hc : convertString .char8 .char32 [0x35#8, 0x2E#8, 0x35#8] = .ok [0x35#32, 0x2E#32, 0x35#32] := by
      decide +kernel
    have hm : IntegerFormat.make FloatFormat.default.radix FloatFormat.default.sign
        FloatFormat.default.separator = .ok ⟨10, .onlyWhenNegative, .none⟩ := by decide
    have hi : parseInteger .char32 .llong [0x35#32] ⟨10, .onlyWhenNegative, .none⟩ = .ok 5 := by
      decide +kernel
    rw [hc, Outcome.ok_bind, hm, Outcome.ok_bind]
    have hfind : ([0x35#32, 0x2E#32, 0x35#32] : List Char32).findIdx?
        (· == BitVec.ofNat 32 FloatFormat.default.radixCharacter.char) = some 1 := by decide
    rw [hfind]
    have ht : ([0x35#32, 0x2E#32, 0x35#32] : List Char32).take 1 = [0x35#32] := rfl
    have hd : ([0x35#32, 0x2E#32, 0x35#32] : List Char32).drop (1 + 1) = [0x35#32] := rfl
    have hdig : digitCharacterToInteger 0x35#32 10 = .ok 5 := by decide
    have hr : FloatFormat.default.radix = 10 := rfl
    simp only [ht, hd, hi, Outcome.ok_bind, List.length_cons, List.length_nil, hr, List.foldlM_cons,
      List.foldlM_nil, parseFractionStep, hdig]
    rw [if_neg (by simp), if_neg (by simp), if_neg (by decide), appendDigit]
    have e10 : (1 * ((10 : Nat) : ℚ)) = 10 := by norm_num
    have e5 : (((5 : Int) : ℚ)) = 5 := by norm_num
    have e12 : (5 / 10 : ℚ) = 1 / 2 := by norm_num
    have e112 : (5 + 1 / 2 : ℚ) = 11 / 2 := by norm_num
    simp only [e10, e5, h10, h2, e12, h1, e112, h11]
    norm_num

/-- C133, for all input: the program returns 0, which is to say that no test failed, if and only if
what was typed is what was asked for. -/
theorem C133_exact (p : StdPlatform) (native : Endian) (capIn capOut capErr fuel places : Nat)
    (rnd : ℚ → ℚ) (hn : Spec.binary64.Nearest rnd) (hp : 2 ≤ places) (supply : List Byte)
    (hu : p = .windows → 2 ∣ supply.length) (reads : List (Option Nat))
    (hreads : ∀ e ∈ reads, ∃ k, e = some (k + 1)) (js : List Item)
    (hj : Itemised p.inForm.form native.order (nats supply) js) (hf : js.length < fuel) :
    (UioTest.main p native rnd fuel places (UioTest.start p native capIn capOut capErr
      ⟨supply, reads, [], []⟩ ⟨[], [], [], []⟩)).1 = .ok 0 ↔ TypedAsAsked rnd (passReturns false js) := by
  have h := main_eq p native capIn capOut capErr fuel places rnd supply reads hu hreads js hj hf
    (nearest_5_5 hn places hp).1
  exact ⟨h.2, fun ht => (h.1 ht).1⟩

/-- C133, what is seen when the program returns 0: both streams show the three lines in full, standard
output goes on with the dialogue, the module reports three successes, and each time the system is asked
for input, standard output shows everything up to the question. -/
theorem C133_shown (p : StdPlatform) (native : Endian) (capIn capOut capErr fuel places : Nat)
    (rnd : ℚ → ℚ) (hn : Spec.binary64.Nearest rnd) (hp : 2 ≤ places) (supply : List Byte)
    (hu : p = .windows → 2 ∣ supply.length) (reads : List (Option Nat))
    (hreads : ∀ e ∈ reads, ∃ k, e = some (k + 1)) (js : List Item)
    (hj : Itemised p.inForm.form native.order (nats supply) js) (hf : js.length < fuel) :
    let c := UioTest.main p native rnd fuel places
      (UioTest.start p native capIn capOut capErr ⟨supply, reads, [], []⟩ ⟨[], [], [], []⟩)
    c.1 = .ok 0 → Sys.output c.2.console.res.world.log = shownText wholeTalk ∧
      Sys.output c.2.err.res.world.log = shownText Spec.threeLines ∧
      c.2.module.out = passedOutput ∧
      ∀ pre n given post, c.2.console.res.world.log = pre ++ .asked n given :: post →
        Sys.output pre = shownText askLine ∨ Sys.output pre = shownText askReal ∨
        Sys.output pre = shownText askInteger := by
  intro c hc
  have h := main_eq p native capIn capOut capErr fuel places rnd supply reads hu hreads js hj hf
    (nearest_5_5 hn places hp).1
  exact (h.1 (h.2 hc)).2

theorem passReturns_newline (nl : Spec.Newline) (is : List Item) :
    passReturns false (nl.text.map .char ++ is) = .char 10 :: passReturns false is := by
  cases nl with
  | lf =>
    cases is with
    | nil => rfl
    | cons j js =>
      show passReturns false (.char 10 :: j :: js) = _
      rw [passReturns, if_neg (by decide)]
  | crlf =>
    show passReturns false (.char 13 :: .char 10 :: is) = _
    rw [passReturns, if_pos rfl]

/-- C133, what is to be typed: the three answers as they are asked for, each with a line ending behind
it; whatever comes behind that. -/
theorem C133_typed (p : StdPlatform) (native : Endian) (capIn capOut capErr fuel places : Nat)
    (rnd : ℚ → ℚ) (hn : Spec.binary64.Nearest rnd) (hp : 2 ≤ places) (nl1 nl2 nl3 : Spec.Newline)
    (rest : List Byte) (hrest : p = .windows → 2 ∣ rest.length) (reads : List (Option Nat))
    (hreads : ∀ e ∈ reads, ∃ k, e = some (k + 1)) (hf : 13 + rest.length < fuel) :
    let typed := asBytes (p.inForm.form.serialize native.order
      (codes "ツ" ++ nl1.text ++ codes "5.5" ++ nl2.text ++ codes "-75" ++ nl3.text))
    (UioTest.main p native rnd fuel places (UioTest.start p native capIn capOut capErr
      ⟨typed ++ rest, reads, [], []⟩ ⟨[], [], [], []⟩)).1 = .ok 0 := by
  intro typed
  have ht : Spec.IsText (codes "ツ" ++ nl1.text ++ codes "5.5" ++ nl2.text ++ codes "-75" ++ nl3.text) := by
    unfold Spec.IsText
    revert nl1 nl2 nl3
    intro nl1 nl2 nl3 _
    cases nl1 <;> cases nl2 <;> cases nl3 <;> decide +kernel
  obtain ⟨is, his⟩ := itemised_exists p.inForm.form native.order (nats rest)
  have hj := itemised_text p.inForm native _ ht rest is his
  have hlen : is.length ≤ rest.length := by
    have := itemised_length his
    simpa [nats] using this
  have hu : p = .windows → 2 ∣ (typed ++ rest).length := by
    intro hp
    rw [List.length_append]
    refine Nat.dvd_add ?_ (hrest hp)
    have := textBytes_units p.inForm native
      (codes "ツ" ++ nl1.text ++ codes "5.5" ++ nl2.text ++ codes "-75" ++ nl3.text)
    rw [p.unit_form, hp] at this
    subst hp
    exact this
  have hnl : ∀ nl : Spec.Newline, nl.text.length ≤ 2 := by intro nl; cases nl <;> decide
  refine (C133_exact p native capIn capOut capErr fuel places rnd hn hp (typed ++ rest) hu reads hreads _
    hj ?_).2 ?_
  · have h1 := hnl nl1
    have h2 := hnl nl2
    have h3 := hnl nl3
    have : (codes "ツ").length = 1 ∧ (codes "5.5").length = 3 ∧ (codes "-75").length = 3 := by
      decide +kernel
    simp only [List.length_append, List.length_map]
    omega
  · have hpass : passReturns false ((codes "ツ" ++ nl1.text ++ codes "5.5" ++ nl2.text ++ codes "-75"
        ++ nl3.text).map .char ++ is) =
        (codes "ツ").map .char ++ .char 10 :: (([] : List Nat).map .char ++ ((codes "5.5").map .char ++
          .char 10 :: (([] : List Nat).map .char ++ ((codes "-75").map .char ++
            .char 10 :: passReturns false is)))) := by
      have hne : ∀ (nl : Spec.Newline) (x : List Item), nl.text.map Item.char ++ x ≠ [] := by
        intro nl x
        cases nl <;> simp [Spec.Newline.text]
      simp only [List.map_append, List.append_assoc, List.map_nil, List.nil_append]
      rw [passReturns_text _ (by decide +kernel) _ (hne _ _), passReturns_newline,
        passReturns_text _ (by decide +kernel) _ (hne _ _), passReturns_newline,
        passReturns_text _ (by decide +kernel) _ (hne _ _), passReturns_newline]
    have hws : Spec.IsWhiteSpace 10 := by unfold Spec.IsWhiteSpace Spec.whiteSpaceRanges; decide
    rw [hpass]
    have hl : firstLine ((codes "ツ").map .char ++ .char 10 :: (([] : List Nat).map .char ++
        ((codes "5.5").map .char ++ .char 10 :: (([] : List Nat).map .char ++ ((codes "-75").map .char ++
            .char 10 :: passReturns false is))))) = (codes "ツ", .finished, ([] : List Nat).map .char ++
        ((codes "5.5").map .char ++ .char 10 :: (([] : List Nat).map .char ++ ((codes "-75").map .char ++
            .char 10 :: passReturns false is)))) := by
      have : codes "ツ" = [0x30C4] := by decide +kernel
      have h8 : takes8 0x30C4 = some [0x30C4] := by
        unfold takes8
        decide
      rw [this, firstLine]
      simp [gather, h8]
    have hw1 := firstWord_eq [] (codes "5.5") (by simp) (by decide +kernel) (by decide +kernel) 10 hws
      (([] : List Nat).map .char ++ ((codes "-75").map .char ++ .char 10 :: passReturns false is))
    have hw2 := firstWord_eq [] (codes "-75") (by simp) (by decide +kernel) (by decide +kernel) 10 hws
      (passReturns false is)
    unfold TypedAsAsked
    rw [hl]
    simp only [hw1, hw2]
    refine ⟨⟨trivial, trivial⟩, trivial, (nearest_5_5 hn places hp).2, trivial, ?_⟩
    · have he : encs .char8 (codes "-75") = [0x2D#8, 0x37#8, 0x35#8] := by decide +kernel
      rw [he]
      decide +kernel

/-- An answer at the end of the input does not count: without a line ending behind the last one, the
program is terminated. -/
example : (UioTest.main .unix .little _root_.id 30 5 (UioTest.start .unix .little 8 8 8
    ⟨shownText (codes "ツ\n5.5\n-75"), [some 2], [], []⟩ ⟨[], [], [], []⟩)).1 = .terminate := by
  decide +kernel

/-- A wrong answer is counted. -/
example : (UioTest.main .unix .little _root_.id 30 5 (UioTest.start .unix .little 8 8 8
    ⟨shownText (codes "tsu\n5.5\n-75\n"), [some 2], [], []⟩ ⟨[], [], [], []⟩)).1 = .ok 1 := by
  decide +kernel

/-- The rounding of the machine may be the default of IEEE arithmetic. -/
example : Spec.binary64.Nearest Spec.binary64.tiesToEven :=
  Spec.BinFmt.tiesToEven_nearest (.inr rfl)

/-- A dialogue through the theorems. -/
example : (UioTest.main .windows .little Spec.binary64.tiesToEven 30 5
    (UioTest.start .windows .little 8 4096 16 ⟨asBytes (Spec.Form.utf16.serialize .little
      (codes "ツ" ++ [13, 10] ++ codes "5.5" ++ [13, 10] ++ codes "-75" ++ [13, 10])) ++ [],
      [some 1, some 3], [], []⟩ ⟨[], [], [], []⟩)).1 = .ok 0 :=
  C133_typed .windows .little 8 4096 16 30 5 _
    (Spec.BinFmt.tiesToEven_nearest (.inr rfl)) (by decide) .crlf .crlf .crlf []
    (by simp) [some 1, some 3] (by simp) (by simp)

end Cmp
