import Verif.Base.History
import Verif.Proofs.Buffer

/-
Output resources: what was written is what the device received and what is pending.
-/

namespace Cmp

/-- An operation of a user on an output resource. -/
inductive OutOp
  | write (bytes : List Byte)
  | flush
  deriving DecidableEq, Repr

namespace OutOp

/-- The bytes an operation writes. -/
def bytes : OutOp → List Byte
  | write bytes => bytes
  | flush => []

end OutOp

namespace Res

variable {δ : Type}

/-- Perform an operation; the result is the count `write` returns. -/
def doOut (raw : List Byte → M δ Nat) : OutOp → M (Res δ) Nat
  | .write bytes => write raw bytes
  | .flush => do
    flush raw
    pure 0

/-- A device that takes all data it is given, as long as what it has taken altogether stays
`admissible`; `got d w` says that the device, in state `d`, has taken `w`. -/
structure Takes (raw : List Byte → M δ Nat) (admissible : List Byte → Prop)
    (got : δ → List Byte → Prop) : Prop where
  take : ∀ d w bytes, got d w → admissible w → admissible (w ++ bytes) →
    ∃ d', raw bytes d = (.ok bytes.length, d') ∧ got d' (w ++ bytes)

/-- The state of an output resource that has been given `written`. -/
structure Writing (cap : Nat) (adm : List Byte → Prop) (got : δ → List Byte → Prop)
    (r : Res δ) (written : List Byte) : Prop where
  length : r.buf.data.length = cap
  position : r.buf.position ≤ cap
  clean : r.buf.writeDirty = false → r.buf.position = 0
  written : ∃ w, got r.dev w ∧ adm w ∧ w ++ r.buf.pending = written

variable {raw : List Byte → M δ Nat} {adm : List Byte → Prop} {got : δ → List Byte → Prop}

theorem flush_writing (T : Takes raw adm got) {cap : Nat} {r : Res δ} {w : List Byte}
    (h : Writing cap adm got r w) (ha : adm w) :
    ∃ d, flush raw r = (.ok (), ⟨{ r.buf with writeDirty := false, position := 0 }, d⟩) ∧
      Writing cap adm got ⟨{ r.buf with writeDirty := false, position := 0 }, d⟩ w ∧
      got d w := by
  obtain ⟨w0, hg, ha0, hw⟩ := h.written
  cases hd : r.buf.writeDirty with
  | true =>
    have hp : r.buf.pending = r.buf.data.take r.buf.position := by simp [IoBuffer.pending, hd]
    obtain ⟨d, e, q⟩ := T.take r.dev w0 r.buf.pending hg ha0 (by rw [hw]; exact ha)
    rw [hw] at q
    rw [hp] at e
    exact ⟨d, flush_dirty hd (by rw [h.length]; exact h.position) e,
      ⟨h.length, Nat.zero_le _, fun _ => rfl, w, q, ha, by simp [IoBuffer.pending]⟩, q⟩
  | false =>
    have hw : w0 = w := by simpa [IoBuffer.pending, hd] using hw
    have e : ({ r.buf with writeDirty := false, position := 0 } : IoBuffer) = r.buf := by
      have := h.clean hd
      cases r with | mk b d => cases b with | mk a b c e f => simp_all
    refine ⟨r.dev, ?_, ?_, hw ▸ hg⟩
    · rw [e]; exact flush_clean raw r hd
    · rw [e]; exact h

theorem bufWrite_writing {cap : Nat} {r : Res δ} {w bytes : List Byte}
    (h : Writing cap adm got r w) (hn : r.buf.position + bytes.length ≤ cap) :
    ∃ r', bufWrite bytes r = (.ok bytes.length, r') ∧
      Writing cap adm got r' (w ++ bytes) ∧ r'.buf.readDirty = r.buf.readDirty := by
  have hl := h.length
  refine ⟨_, bufWrite_ok r bytes (by omega), ?_, rfl⟩
  have hp : r.buf.data.take r.buf.position = r.buf.pending := by
    cases hd : r.buf.writeDirty with
    | true => simp [IoBuffer.pending, hd]
    | false => simp [IoBuffer.pending, hd, h.clean hd]
  have hk : (r.buf.data.take r.buf.position ++ bytes).length = r.buf.position + bytes.length := by
    simp; omega
  have hpend : (r.buf.data.take r.buf.position ++ bytes ++
      r.buf.data.drop (r.buf.position + bytes.length)).take (r.buf.position + bytes.length) =
      r.buf.pending ++ bytes := by
    rw [List.take_left' hk, hp]
  obtain ⟨w0, hg, ha0, hw⟩ := h.written
  refine ⟨?_, hn, fun h => by simp at h, w0, hg, ha0, ?_⟩
  · simp only [List.length_append, List.length_take, List.length_drop]; omega
  · simp only [IoBuffer.pending, if_true]
    rw [hpend, ← List.append_assoc, hw]

theorem write_writing (T : Takes raw adm got) {cap : Nat} {r : Res δ}
    {w bytes : List Byte} (h : Writing cap adm got r w) (ha : adm w)
    (hb : adm (w ++ bytes)) :
    ∃ r', write raw bytes r = (.ok bytes.length, r') ∧
      Writing cap adm got r' (w ++ bytes) ∧ r'.buf.readDirty = r.buf.readDirty := by
  have hl := h.length
  simp only [write]
  rw [M.bind_ok (M.get_apply r)]
  by_cases hc : r.buf.capacity > 0
  · rw [if_pos hc]
    simp only [writeBuffered]
    rw [M.bind_ok (M.get_apply r)]
    by_cases hn : r.buf.position + bytes.length > r.buf.capacity
    · rw [if_pos hn]
      obtain ⟨d, e, h', q⟩ := flush_writing T h ha
      rw [M.bind_ok e]
      by_cases hb' : bytes.length > r.buf.capacity
      · rw [if_pos hb']
        obtain ⟨d', e', q'⟩ := T.take d w bytes q ha hb
        exact ⟨_, onDev_ok e', ⟨hl, Nat.zero_le _, fun _ => rfl, _, q', hb,
          by simp [IoBuffer.pending]⟩, rfl⟩
      · rw [if_neg hb']
        simp only [IoBuffer.capacity] at hb'
        obtain ⟨r', e', h'', f⟩ := bufWrite_writing (bytes := bytes) h' (by simp only; omega)
        exact ⟨r', e', h'', f⟩
    · rw [if_neg hn]
      simp only [IoBuffer.capacity] at hn
      exact bufWrite_writing h (by omega)
  · rw [if_neg hc]
    simp only [IoBuffer.capacity] at hc
    have hz : r.buf.position = 0 := by have := h.position; omega
    have hp : r.buf.pending = [] := by simp [IoBuffer.pending, hz]
    obtain ⟨w0, hg, ha0, hw⟩ := h.written
    rw [hp, List.append_nil] at hw
    subst hw
    obtain ⟨d', e', q'⟩ := T.take r.dev w0 bytes hg ha hb
    exact ⟨_, onDev_ok e', ⟨hl, h.position, h.clean, _, q', hb, by simp [hp]⟩, rfl⟩

theorem doOut_writing (T : Takes raw adm got) {cap : Nat} {r : Res δ}
    {w : List Byte} (h : Writing cap adm got r w) (op : OutOp) (ha : adm w)
    (hb : adm (w ++ op.bytes)) :
    ∃ r', doOut raw op r = (.ok op.bytes.length, r') ∧
      Writing cap adm got r' (w ++ op.bytes) := by
  cases op with
  | write bytes =>
    obtain ⟨r', e, h', -⟩ := write_writing T h ha hb
    exact ⟨r', e, h'⟩
  | flush =>
    obtain ⟨d, e, h', -⟩ := flush_writing T h ha
    refine ⟨_, by simp only [doOut]; rw [M.bind_ok e]; rfl, ?_⟩
    simpa [OutOp.bytes] using h'

theorem runOut_writing (T : Takes raw adm got) {cap : Nat} {r : Res δ}
    {w : List Byte} (h : Writing cap adm got r w) (ops : List OutOp)
    (ha : ∀ pre, pre <+: ops → adm (w ++ pre.flatMap (·.bytes))) :
    ∃ r', M.runList (doOut raw) ops r = (.ok (ops.map (·.bytes.length)), r') ∧
      Writing cap adm got r' (w ++ ops.flatMap (·.bytes)) := by
  induction ops generalizing r w with
  | nil => exact ⟨r, rfl, by simpa using h⟩
  | cons op ops ih =>
    obtain ⟨r', e, h'⟩ := doOut_writing T h op (by simpa using ha [] (by simp))
      (by simpa using ha [op] (by simp))
    obtain ⟨r'', e', h''⟩ := ih h' (fun pre hp => by
      simpa using ha (op :: pre) (by simpa using hp))
    exact ⟨r'', M.runList_cons e e', by simpa [List.flatMap_cons] using h''⟩

theorem writing_make (cap : Nat) (d : δ) (w : List Byte) (hd : got d w) (ha : adm w) :
    Writing cap adm got ⟨IoBuffer.make cap, d⟩ w :=
  ⟨by simp [IoBuffer.make], by simp [IoBuffer.make], fun _ => rfl, w, hd, ha,
    by simp [IoBuffer.make, IoBuffer.pending]⟩

/- ### Memory safety, whatever the device does -/

/-- The position stays in the buffer. -/
structure Bounded (cap : Nat) (r : Res δ) : Prop where
  length : r.buf.data.length = cap
  position : r.buf.position ≤ cap
  clean : r.buf.writeDirty = false → r.buf.position = 0

theorem onDev_buf {α : Type} (x : M δ α) (r : Res δ) : (onDev x r).2.buf = r.buf := rfl

theorem flush_bounded {cap : Nat} {r : Res δ} (h : Bounded cap r)
    (hu : ∀ bytes d, (raw bytes d).1 ≠ .ub) :
    (flush raw r).1 ≠ .ub ∧ Bounded cap (flush raw r).2 ∧
      ((flush raw r).1 = .ok () → (flush raw r).2.buf.position = 0) := by
  simp only [flush]
  rw [M.bind_ok (M.get_apply r)]
  cases hd : r.buf.writeDirty with
  | false =>
    rw [if_neg (by simp)]
    exact ⟨by simp, h, fun _ => h.clean hd⟩
  | true =>
    have := h.position; have := h.length
    rw [if_pos rfl, if_neg (by omega), M.bind_apply]
    have hb := hu (r.buf.data.take r.buf.position) r.dev
    simp only [onDev]
    cases e : raw (r.buf.data.take r.buf.position) r.dev with
    | mk o d =>
      rw [e] at hb
      have hB : ∀ d : δ, Bounded cap ⟨r.buf, d⟩ := fun d => ⟨h.length, h.position, h.clean⟩
      cases o with
      | ok n =>
        refine ⟨by simp, ⟨?_, ?_, ?_⟩, fun _ => ?_⟩ <;>
          simp [IoBuffer.setWriteDirty, h.length]
      | throw => exact ⟨by simp, hB d, by simp⟩
      | terminate => exact ⟨by simp, hB d, by simp⟩
      | ub => exact absurd rfl hb
      | hang => exact ⟨by simp, hB d, by simp⟩

theorem bufWrite_bounded {cap : Nat} {r : Res δ} (h : Bounded cap r) (bytes : List Byte)
    (hn : r.buf.position + bytes.length ≤ cap) :
    (bufWrite bytes r).1 ≠ .ub ∧ Bounded cap (bufWrite bytes r).2 := by
  have := h.length
  rw [bufWrite_ok r bytes (by omega)]
  refine ⟨by simp, ⟨?_, hn, fun h => by simp at h⟩⟩
  simp only [List.length_append, List.length_take, List.length_drop]; omega

theorem doOut_bounded {cap : Nat} {r : Res δ} (h : Bounded cap r)
    (hu : ∀ bytes d, (raw bytes d).1 ≠ .ub) (op : OutOp) :
    (doOut raw op r).1 ≠ .ub ∧ Bounded cap (doOut raw op r).2 := by
  have hl := h.length
  have hdev : ∀ (bytes : List Byte) (r : Res δ), Bounded cap r →
      (onDev (raw bytes) r).1 ≠ .ub ∧ Bounded cap (onDev (raw bytes) r).2 :=
    fun bytes r h => ⟨hu bytes r.dev, ⟨h.length, h.position, h.clean⟩⟩
  cases op with
  | flush =>
    obtain ⟨a, b, -⟩ := flush_bounded (raw := raw) h hu
    simp only [doOut]
    rw [M.bind_apply]
    revert a b
    cases flush raw r with
    | mk o s => cases o <;> simp
  | write bytes =>
    simp only [doOut, write]
    rw [M.bind_ok (M.get_apply r)]
    by_cases hc : r.buf.capacity > 0
    · rw [if_pos hc]
      simp only [writeBuffered]
      rw [M.bind_ok (M.get_apply r)]
      by_cases hn : r.buf.position + bytes.length > r.buf.capacity
      · rw [if_pos hn]
        obtain ⟨a, b, c⟩ := flush_bounded (raw := raw) h hu
        rw [M.bind_apply]
        revert a b c
        cases flush raw r with
        | mk o s =>
          cases o with
          | ok _ =>
            intro _ b c
            by_cases hb : bytes.length > r.buf.capacity
            · simp only [if_pos hb]; exact hdev _ _ b
            · simp only [if_neg hb]
              simp only [IoBuffer.capacity] at hb
              have hz := c rfl
              simp only at hz b
              exact bufWrite_bounded b bytes (by omega)
          | throw => exact fun a b _ => ⟨by simp, b⟩
          | terminate => exact fun a b _ => ⟨by simp, b⟩
          | ub => exact fun a _ _ => absurd rfl a
          | hang => exact fun a b _ => ⟨by simp, b⟩
      · rw [if_neg hn]
        simp only [IoBuffer.capacity] at hn
        exact bufWrite_bounded h bytes (by omega)
    · rw [if_neg hc]
      exact hdev bytes r h

theorem stateAfter_bounded {cap : Nat} {r : Res δ} (h : Bounded cap r)
    (hu : ∀ bytes d, (raw bytes d).1 ≠ .ub) (ops : List OutOp) :
    Bounded cap (M.stateAfter (doOut raw) r ops) := by
  induction ops generalizing r with
  | nil => exact h
  | cons op ops ih => exact ih (doOut_bounded h hu op).2

end Res

end Cmp
