/-
C141: what can be passed to the functions that take text.
-/
import Verif.Spec.TextCalls
import Verif.Proofs.TextCalls

namespace Cmp

open Spec Types

/-- The calls that read one argument given by reference.  `wchar_t` has two bytes or four, as on every
platform the library knows. -/
theorem C141_exact {L : Layout} {A : CType} (hw : L.wide = 2 ∨ L.wide = 4) (ha : Argument A) :
    parseInteger L A = byReference L A ∧ parseFloatingPoint L A = byReference L A ∧
    ∀ u, toStringOf L u A = (byReference L A).bind fun c => .compiled (c, some (writingOf L u)) := by
  have ht := text_deduced L ha.1
  have hb := body_eq A
  have out : ∀ u, isWritableRaiiTextObject L (.string u) = some true := fun u => by
    rw [(C140_exact (T := .string u) trivial rfl).writableOwning]; rfl
  have app : ∀ u, appendCodePoint L (.string u) = .compiled (some (writingOf L u)) := fun u => by
    have := insert_eq hw (T := .string u) trivial rfl
    simp only [appendCodePoint, out, constrained, stringMember, this]
    rfl
  have conv : ∀ u, toStringOf L u A =
      (byReference L A).bind fun c => .compiled (c, some (writingOf L u)) := fun u => by
    simp only [toStringOf, convertString, deduced_again, out, app, ht, hb, stringSize_eq, byReference]
    cases A.sizeof L with
    | none => rfl
    | some n =>
      cases volatilePointer A <;> cases h : textType A <;> cases hv : volatileText A <;>
        simp [constrained, readable, h, hv, Use.bind, Use.inside, bind, pure, stringMember]
  refine ⟨?_, ?_, conv⟩
  · simp only [parseInteger, numberParserInteger, deduced_again, ht, hb, stringSize_eq, byReference]
    cases A.sizeof L with
    | none => rfl
    | some n =>
      cases volatilePointer A <;> cases h : textType A <;> cases hv : volatileText A <;>
        simp [constrained, readable, h, hv, Use.bind, Use.inside, bind]
  · have conv' : ∀ u, toStringOf L u A.deducedByReference.addConst = toStringOf L u A := fun u => by
      simp only [toStringOf, deduced_again]
    simp only [parseFloatingPoint, numberParserFloatingPoint, deduced_again, conv', conv, ht, byReference]
    cases A.sizeof L with
    | none => rfl
    | some n =>
      cases volatilePointer A <;> cases h : textType A <;> cases hv : volatileText A <;>
        simp [constrained, Use.bind, Use.inside, bind, pure]

/-- The conversion into a string that the caller names: it may not be `volatile`, which is found out too late,
and nothing but a string class that may be changed can be named. -/
theorem C141_exact_convert {L : Layout} {Out A : CType} (hw : L.wide = 2 ∨ L.wide = 4) (ho : Valid Out)
    (hs : Sized L Out) (ha : Argument A) :
    (∀ u, Out = .string u → convertString L Out A =
      (byReference L A).bind fun c => .compiled (c, some (writingOf L u))) ∧
    (∀ u, Out = .object false true (.string u) → convertString L Out A =
      match byReference L A with | .refused => .refused | _ => .broken) ∧
    ((∀ v u, Out ≠ .object false v (.string u)) → convertString L Out A = .refused) := by
  have ht := text_deduced L ha.1
  have hb := body_eq A
  have hi := insert_eq hw ho hs
  have hc := (C140_exact ho hs).writableOwning
  refine ⟨?_, ?_, ?_⟩
  · rintro u rfl
    have hc' : isWritableRaiiTextObject L (.string u) = some true := hc
    have hi' : insertCodePoint L (.string u) = .compiled (some (writingOf L u)) := hi
    simp only [convertString, appendCodePoint, hc', ht, hb, hi', stringSize_eq, byReference]
    cases A.sizeof L with
    | none => rfl
    | some n =>
      cases volatilePointer A <;> cases h : textType A <;> cases hv : volatileText A <;>
        simp [constrained, readable, h, hv, Use.bind, Use.inside, bind, pure, stringMember]
  · rintro u rfl
    have hc' : isWritableRaiiTextObject L (.object false true (.string u)) = some true := hc
    simp only [convertString, hc', ht, byReference]
    cases A.sizeof L with
    | none => rfl
    | some n =>
      cases volatilePointer A <;> cases h : textType A <;> cases hv : volatileText A <;>
        simp [constrained, Use.bind, bind, stringMember]
  · intro hn
    have hf : (holds Out (fun t => t.form = .owner ∧ t.writable) && !volatilePointer Out) = false := by
      cases Out with
      | object a b k => cases k <;> cases a <;> first | rfl | exact absurd rfl (hn _ _)
      | pointer a b t =>
        cases t with
        | object c d k => cases k <;> cases c <;> rfl
        | _ => rfl
      | array n t =>
        cases t with
        | object c d k => cases k <;> cases c <;> rfl
        | _ => rfl
      | unbounded t =>
        cases t with
        | object c d k => cases k <;> cases c <;> rfl
        | _ => rfl
      | _ => rfl
    rw [convertString, hc, hf]
    rfl

/-- The calls that read two arguments compile when both can be read, and are alike. -/
theorem C141_exact_two {L : Layout} {A B : CType} (ha : Argument A) (hb : Argument B) :
    endsWith L A B = startsWith L A B ∧ ∀ c d, startsWith L A B = .compiled (c, d) ↔
      byReference L A = .compiled c ∧ byReference L B = .compiled d := by
  refine ⟨rfl, fun c d => ?_⟩
  simp only [startsWith, text_deduced L ha.1, text_deduced L hb.1, body_eq, byReference]
  cases A.sizeof L with
  | none => simp [constrained]
  | some n =>
    cases volatilePointer A <;> cases h : textType A <;> cases hv : volatileText A <;>
      cases B.sizeof L <;> cases volatilePointer B <;> cases h' : textType B <;> cases hv' : volatileText B <;>
      simp [constrained, readable, h, hv, h', hv', Use.bind, bind, pure]

/-- Only the string classes and arrays can be validated: neither views nor pointers are admitted. -/
theorem C141_exact_validate {L : Layout} {A : CType} (ha : Argument A) (hs : Sized L A) :
    validateString L A = match textType A with
      | some ⟨.owner, c, _⟩ => if volatileText A then .refused else .compiled c
      | some ⟨.array, c, _⟩ => if volatileText A then .refused else .compiled c
      | _ => .refused := by
  simp only [validateString, text_deduced L ha.1, body_eq]
  have hs : (A.sizeof L).isSome = true := hs
  simp only [hs, if_true]
  cases A with
  | object a b k =>
    cases k <;> cases a <;> cases b <;>
      simp [constrained, textType, volatileText, volatilePointer, CType.deducedByReference, CType.removeConst,
        valueType, hasIterator, readable, Use.bind, bind, pure]
  | pointer a b t =>
    cases t with
    | object c d k =>
      cases k <;> cases b <;>
        simp [constrained, textType, volatilePointer, CType.deducedByReference, CType.removeConst, valueType]
    | _ => simp [constrained, textType]
  | array n t =>
    cases t with
    | object c d k =>
      cases k <;> cases d <;>
        simp [constrained, textType, volatileText, volatilePointer, CType.deducedByReference,
          CType.removeConst, valueType, hasIterator, readable, Use.bind, bind, pure]
    | _ => simp [constrained, textType]
  | unbounded t => simp [CType.sizeof] at hs
  | _ => simp [constrained, textType]

/-- The argument that is given by value may be a `volatile` pointer and an array of unknown size; of pointers
to `volatile` characters the library finds out too late. -/
theorem C141_exact_bool {L : Layout} {A : CType} (hw : L.wide = 2 ∨ L.wide = 4) (ha : Argument A)
    (hs : Sized L A.decay) :
    parseBool L A = match textType A with
      | none => .refused
      | some t => if volatileText A then
          (if t.form = .owner ∨ t.form = .view then .refused else .broken) else .compiled t.unit := by
  have hv : Valid A.decay := by
    cases A with
    | object a b k => trivial
    | pointer a b t => exact ha.1
    | array n e => exact ⟨ha.1.2.1, ha.1.2.2.1⟩
    | unbounded e => exact ⟨ha.1.1, ha.1.2.1⟩
    | reference r t => exact absurd rfl (ha.2 r t)
    | function n => exact ⟨trivial, fun _ _ h => nomatch h⟩
  have hr : Argument A.decay := ⟨hv, fun r t h => by
    cases A with
    | reference r t => exact absurd rfl (ha.2 r t)
    | _ => simp [CType.decay, CType.removeReference, CType.removeCv, CType.removeVolatile,
        CType.removeConst] at h⟩
  have h1 := (C140_exact hv hs).text
  have h2 := (C140_exact hv hs).utf8
  have h3 := (C141_exact hw hr).2.2 .char8
  have hn : (A.decay.sizeof L).isNone = false := by
    have : (A.decay.sizeof L).isSome = true := hs
    cases h : A.decay.sizeof L <;> simp_all
  simp only [parseBool, CType.deducedByValue, h1, h2, h3, stringSize_eq, byCodePoint_eq, byReference, hn]
  cases A with
  | object a b k =>
    cases k <;> cases b <;> first
      | rfl
      | (rename_i c; cases c <;> rfl)
  | pointer a b t =>
    cases t with
    | object c d k => cases k <;> cases d <;> first
      | rfl
      | (rename_i c; cases c <;> rfl)
    | _ => rfl
  | array n t =>
    cases t with
    | object c d k => cases k <;> cases d <;> first
      | rfl
      | (rename_i c; cases c <;> rfl)
    | _ => rfl
  | unbounded t =>
    cases t with
    | object c d k => cases k <;> cases d <;> first
      | rfl
      | (rename_i c; cases c <;> rfl)
    | _ => rfl
  | reference r t => exact absurd rfl (ha.2 r t)
  | function n => rfl

/-- The calls that write: on a `volatile` string two of them compile and do nothing, and the third does not
compile. -/
theorem C141_exact_writing {L : Layout} {T : CType} (hw : L.wide = 2 ∨ L.wide = 4) (hv : Valid T)
    (hs : Sized L T) :
    (∀ c, T = .object false true (.string c) → insertCodePoint L T = .compiled none ∧
      prependCodePoint L T = .compiled none ∧ appendCodePoint L T = .broken) ∧
    ((∀ c, T ≠ .object false true (.string c)) → insertCodePoint L T = wantedWriting L T ∧
      prependCodePoint L T = wantedWriting L T ∧ appendCodePoint L T = wantedWriting L T) := by
  have hi := insert_eq hw hv hs
  have hc := (C140_exact hv hs).writableOwning
  refine ⟨?_, ?_⟩
  · rintro c rfl
    refine ⟨hi, ?_, ?_⟩
    · rw [prependCodePoint, hc, hi]; rfl
    · rw [appendCodePoint, hc]; rfl
  · intro hn
    rw [prependCodePoint, appendCodePoint, hc, hi]
    cases T with
    | object a b k => cases k <;> cases a <;> cases b <;> first
      | exact ⟨rfl, rfl, rfl⟩
      | exact absurd rfl (hn _)
    | pointer a b t =>
      cases t with
      | object c d k => cases k <;> cases c <;> exact ⟨rfl, rfl, rfl⟩
      | _ => exact ⟨rfl, rfl, rfl⟩
    | array n t =>
      cases t with
      | object c d k => cases k <;> cases c <;> exact ⟨rfl, rfl, rfl⟩
      | _ => exact ⟨rfl, rfl, rfl⟩
    | unbounded t =>
      cases t with
      | object c d k => cases k <;> cases c <;> exact ⟨rfl, rfl, rfl⟩
      | _ => exact ⟨rfl, rfl, rfl⟩
    | reference r t => exact ⟨rfl, rfl, rfl⟩
    | function n => exact ⟨rfl, rfl, rfl⟩

/-- The calls that make or fill a string: on a `volatile` string they are admitted and do not compile. -/
theorem C141_exact_output {L : Layout} {T : CType} (hw : L.wide = 2 ∨ L.wide = 4) (hv : Valid T)
    (hs : Sized L T) (call : Layout → CType → Use (Option Writing))
    (hc : call ∈ [formatBool, formatInteger, formatFloatingPoint, appendLine, readLine, appendAll, readAll,
      extractWord]) :
    (∀ c, T = .object false true (.string c) → call L T = .broken) ∧
    ((∀ c, T ≠ .object false true (.string c)) → call L T = wantedWriting L T) := by
  have ho := (C140_exact hv hs).writableOwning
  have hd : Argument (.string .char8) := ⟨trivial, fun _ _ h => nomatch h⟩
  obtain ⟨k1, k2, k3⟩ := C141_exact_convert (L := L) hw hv hs hd
  obtain ⟨w1, w2⟩ := C141_exact_writing hw hv hs
  by_cases h1 : ∃ c, T = .object false true (.string c)
  · obtain ⟨c, rfl⟩ := h1
    refine ⟨fun d _ => ?_, fun h => absurd rfl (h c)⟩
    have ho' : isWritableRaiiTextObject L (.object false true (.string c)) = some true := ho
    have ha := (w1 c rfl).2.2
    have hk : convertString L (.object false true (.string c)) (.string .char8) = .broken := k2 c rfl
    simp only [List.mem_cons, List.not_mem_nil, or_false] at hc
    rcases hc with rfl | rfl | rfl | rfl | rfl | rfl | rfl | rfl <;>
      simp [formatBool, formatInteger, numberFormatterInteger, formatFloatingPoint,
        numberFormatterFloatingPoint, appendLine, readLine, appendAll, readAll, extractWord, ho', ha, hk,
        constrained, Use.inside, Use.bind, bind, stringMember]
  · have hn : ∀ c, T ≠ .object false true (.string c) := fun c h => h1 ⟨c, h⟩
    refine ⟨fun c h => absurd h (hn c), fun _ => ?_⟩
    obtain ⟨a1, a2, a3⟩ := w2 hn
    by_cases h2 : ∃ c, T = .string c
    · obtain ⟨c, rfl⟩ := h2
      have ho' : isWritableRaiiTextObject L (.string c) = some true := ho
      have hw' : wantedWriting L (.string c) = .compiled (some (writingOf L c)) := rfl
      have hk : convertString L (.string c) (.string .char8) = .compiled (.char8, some (writingOf L c)) :=
        k1 c rfl
      rw [hw'] at a2 a3 ⊢
      simp only [List.mem_cons, List.not_mem_nil, or_false] at hc
      rcases hc with rfl | rfl | rfl | rfl | rfl | rfl | rfl | rfl <;>
        simp [formatBool, formatInteger, numberFormatterInteger, formatFloatingPoint,
          numberFormatterFloatingPoint, appendLine, readLine, appendAll, readAll, extractWord, ho', a2, a3, hk,
          constrained, Use.inside, Use.bind, bind, stringMember, pure]
    · have hf : isWritableRaiiTextObject L T = some false ∧ wantedWriting L T = .refused := by
        rw [ho]
        cases T with
        | object a b k => cases k <;> cases a <;> cases b <;> first
          | exact ⟨rfl, rfl⟩
          | exact absurd rfl (hn _)
          | exact absurd ⟨_, rfl⟩ h2
        | pointer a b t =>
          cases t with
          | object c d k => cases k <;> cases c <;> exact ⟨rfl, rfl⟩
          | _ => exact ⟨rfl, rfl⟩
        | array n t =>
          cases t with
          | object c d k => cases k <;> cases c <;> exact ⟨rfl, rfl⟩
          | _ => exact ⟨rfl, rfl⟩
        | unbounded t =>
          cases t with
          | object c d k => cases k <;> cases c <;> exact ⟨rfl, rfl⟩
          | _ => exact ⟨rfl, rfl⟩
        | _ => exact ⟨rfl, rfl⟩
      rw [hf.2]
      simp only [List.mem_cons, List.not_mem_nil, or_false] at hc
      rcases hc with rfl | rfl | rfl | rfl | rfl | rfl | rfl | rfl <;>
        simp [formatBool, formatInteger, formatFloatingPoint, appendLine, readLine, appendAll, readAll,
          extractWord, hf.1, constrained]

/-- **C141**, in part: an argument that has a size and in which nothing is `volatile` is read by every function
but `validate_string` if there is something to read, and is refused otherwise; strings that may be changed are
changed.  Missing: `volatile` and unsized arguments, and `validate_string` for views and pointers, for which
the theorems before this one say what happens. -/
theorem C141_partial {L : Layout} {A : CType} (hw : L.wide = 2 ∨ L.wide = 4) (ha : Argument A)
    (hs : Sized L A) (hp : volatilePointer A = false) (ht : volatileText A = false) :
    parseInteger L A = wanted A ∧ parseFloatingPoint L A = wanted A ∧ parseBool L A = wanted A ∧
    (∀ u, toStringOf L u A = (wanted A).bind fun c => .compiled (c, some (writingOf L u))) ∧
    insertCodePoint L A = wantedWriting L A ∧ prependCodePoint L A = wantedWriting L A ∧
    appendCodePoint L A = wantedWriting L A ∧
    ∀ call ∈ [formatBool, formatInteger, formatFloatingPoint, appendLine, readLine, appendAll, readAll,
      extractWord], call L A = wantedWriting L A := by
  have hn : (A.sizeof L).isNone = false := by
    have : (A.sizeof L).isSome = true := hs
    cases h : A.sizeof L <;> simp_all
  have hr : byReference L A = wanted A := by
    simp only [byReference, hn, hp, ht, wanted, readable]
    cases textType A <;> rfl
  have hd : Sized L A.decay := by
    cases A with
    | object a b k => cases k <;> exact hs
    | pointer a b t => rfl
    | array n e => rfl
    | unbounded e => rfl
    | reference r t => exact absurd rfl (ha.2 r t)
    | function n => rfl
  obtain ⟨e1, e2, e3⟩ := C141_exact hw ha
  rw [hr] at e1 e2
  have hx : ∀ c, A ≠ .object false true (.string c) := by
    rintro c rfl
    exact absurd ht (by simp [volatileText])
  obtain ⟨x1, x2, x3⟩ := (C141_exact_writing hw ha.1 hs).2 hx
  refine ⟨e1, e2, ?_, fun u => hr ▸ e3 u, x1, x2, x3,
    fun call hc => (C141_exact_output hw ha.1 hs call hc).2 hx⟩
  rw [C141_exact_bool hw ha hd, ht, wanted, readable, ht]
  cases textType A <;> rfl

/-- **C141** does not hold: a view and a pointer can be read but not validated; a `volatile` string is admitted
where it cannot be read, and a code point put in front of it is dropped without a word; a `volatile` pointer
to characters that can be read is refused. -/
theorem C141_violated : ∀ L : Layout, L.wide = 2 ∨ L.wide = 4 →
    (readable (.view .char8) = some .char8 ∧ validateString L (.view .char8) = .refused) ∧
    (readable (.pointer false false (.unit true false .char8)) = some .char8 ∧
      validateString L (.pointer false false (.unit true false .char8)) = .refused) ∧
    (readable (.object false true (.string .char8)) = none ∧
      parseInteger L (.object false true (.string .char8)) = .broken ∧
      prependCodePoint L (.object false true (.string .char8)) = .compiled none) ∧
    (readable (.pointer false true (.unit true false .char8)) = some .char8 ∧
      parseInteger L (.pointer false true (.unit true false .char8)) = .refused) := by
  intro L hw
  refine ⟨⟨rfl, ?_⟩, ⟨rfl, ?_⟩, ⟨rfl, ?_, ?_⟩, rfl, ?_⟩
  · exact C141_exact_validate (A := .view .char8) ⟨trivial, fun _ _ h => nomatch h⟩ rfl
  · exact C141_exact_validate (A := .pointer false false (.unit true false .char8))
      ⟨⟨trivial, fun _ _ h => nomatch h⟩, fun _ _ h => nomatch h⟩ rfl
  · exact (C141_exact hw (A := .object false true (.string .char8)) ⟨trivial, fun _ _ h => nomatch h⟩).1
  · exact ((C141_exact_writing hw (T := .object false true (.string .char8)) trivial rfl).1 _ rfl).2.1
  · exact (C141_exact hw (A := .pointer false true (.unit true false .char8))
      ⟨⟨trivial, fun _ _ h => nomatch h⟩, fun _ _ h => nomatch h⟩).1

/- A literal meets the hypotheses, and so does a string that may be changed. -/
example : Argument (.array 4 (.unit true false .char16)) ∧ Sized platform64 (.array 4 (.unit true false .char16)) ∧
    volatilePointer (.array 4 (.unit true false .char16)) = false ∧
    volatileText (.array 4 (.unit true false .char16)) = false :=
  ⟨⟨by simp [Valid], fun _ _ h => nomatch h⟩, rfl, rfl, rfl⟩
example : parseBool platform64 (.array 4 (.unit true false .char16)) = .compiled .char16 ∧
    toStringOf platform64 .wide (.array 4 (.unit true false .char16)) = .compiled (.char16, some .utf32) ∧
    startsWith platform64 (.view .char) (.string .wide) = .compiled (.char, .wide) ∧
    validateString platform64 (.array 4 (.unit true false .char16)) = .compiled .char16 ∧
    insertCodePoint platform64 (.string .char8) = .compiled (some .utf8) ∧
    insertCodePoint platform64 (.array 4 (.unit false false .char8)) = .refused ∧
    parseBool platform64 (.pointer false false (.unit false true .char)) = .broken := by decide

/- A string is filled in its encoding, an array is not, and a `volatile` string is let in and not filled. -/
example : formatInteger platform64 (.string .wide) = .compiled (some .utf32) ∧
    readLine platform64 (.string .char) = .compiled (some .char) ∧
    extractWord platform64 (.array 4 (.unit false false .char8)) = .refused ∧
    formatBool platform64 (.object false true (.string .char16)) = .broken := by decide

end Cmp
