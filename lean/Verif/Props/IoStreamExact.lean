import Verif.Props.IoStream

/-
Property C86 in full: what is loaded in the byte order that is not the host's.
-/

namespace Cmp

open Cmp.Spec (Record RecordOp RecordResult)

/-- What is loaded, with the bytes of each field in reverse. -/
def Spec.exchanged : RecordResult → RecordResult
  | .loaded record => .loaded (record.map List.reverse)
  | result => result

theorem asInFile_native (native : Endian) (x : RecordResult) : asInFile native native x = x := by
  cases x with
  | loaded record =>
    show RecordResult.loaded (record.map (wireBytes native native)) = _
    rw [show wireBytes native native = id by funext o; simp [wireBytes], List.map_id]
  | _ => rfl

theorem asInFile_other {native e : Endian} (he : e ≠ native) (x : RecordResult) :
    asInFile native e x = Spec.exchanged x := by
  cases x with
  | loaded record =>
    show RecordResult.loaded (record.map (wireBytes native e)) = _
    rw [show wireBytes native e = List.reverse by funext o; simp [wireBytes, he]]
    rfl
  | _ => rfl

theorem exchanged_eq (x : RecordResult) :
    Spec.exchanged x = x ↔ ∀ record, x = .loaded record → ∀ o ∈ record, o.reverse = o := by
  cases x with
  | stored => simp [Spec.exchanged]
  | size n => simp [Spec.exchanged]
  | loaded record =>
    simp only [Spec.exchanged, RecordResult.loaded.injEq]
    constructor
    · rintro h _ rfl o ho
      have : ∀ o ∈ record, o.reverse = id o := by
        apply List.map_inj_left.mp
        rw [List.map_id, h]
      exact this o ho
    · intro h
      conv => rhs; rw [← List.map_id record]
      exact List.map_congr_left (h record rfl)

/-- C86 in full, in containers and in files on both platforms.  What arrives is always right.  What is
loaded is what a list of records gives, each field with its bytes in reverse if the byte order is not
the host's; so a program notices nothing exactly if the order is the host's or all fields it loads read
the same in both directions. -/
theorem C86_exact (P : FilePlatform) (reads : List Nat) (hs : P.Steady reads) (native e : Endian)
    (cap : Nat) (sizes : List Nat) (records : List Record) (ops : List RecordOp)
    (hk : ∀ k ∈ sizes, 0 < k ∧ (k ≤ cap ∨ cap = 0))
    (hr : ∀ r ∈ records, r.map List.length = sizes) (hv : Spec.RecordsValid sizes records ops) :
    let results := Spec.recordResults sizes records ops
    let loads := if e = native then results else results.map Spec.exchanged
    CtrRecords native e cap sizes records ops loads
    ∧ (cap ≤ P.most → sizes.sum ≤ P.most → FileRecords P reads native e cap sizes records ops loads)
    ∧ (CtrRecords native e cap sizes records ops results ↔
        e = native ∨ ∀ record, .loaded record ∈ results → ∀ o ∈ record, o.reverse = o) := by
  intro results loads
  have hloads : (Spec.recordResults sizes records ops).map (asInFile native e) = loads := by
    show _ = if e = native then results else results.map Spec.exchanged
    by_cases he : e = native
    · subst he
      rw [if_pos rfl]
      conv => rhs; rw [← List.map_id results]
      exact List.map_congr_left fun x _ => asInFile_native e x
    · rw [if_neg he]
      exact List.map_congr_left fun x _ => asInFile_other he x
  have c := ctrRecords native e cap sizes records ops hk hr hv
  rw [hloads] at c
  refine ⟨c, fun h1 h2 => ?_, ?_⟩
  · have := fileRecords P reads hs native e cap sizes records ops h1 h2 hk hr hv
    rwa [hloads] at this
  · have hiff : loads = results ↔
        e = native ∨ ∀ record, .loaded record ∈ results → ∀ o ∈ record, o.reverse = o := by
      show (if e = native then results else results.map Spec.exchanged) = results ↔ _
      by_cases he : e = native
      · simp [he]
      · rw [if_neg he]
        constructor
        · intro h
          refine .inr fun record hm => ?_
          have h' : ∀ x ∈ results, Spec.exchanged x = id x := by
            apply List.map_inj_left.mp
            rw [List.map_id, h]
          exact (exchanged_eq _).mp (h' _ hm) record rfl
        · intro h
          have h' := h.resolve_left he
          conv => rhs; rw [← List.map_id results]
          refine List.map_congr_left fun x hx => (exchanged_eq x).mpr ?_
          rintro record rfl
          exact h' record hx
    rw [← hiff]
    constructor
    · rintro ⟨r, e1, -⟩
      obtain ⟨r', e2, -⟩ := c
      rw [e1] at e2
      simp only [Outcome.ok.injEq, Prod.mk.injEq] at e2
      exact e2.1.symm
    · intro h
      rwa [h] at c

/-- The case is real: in the other byte order a field that reads the same in both directions is loaded
as it was stored, another one is not. -/
example : Spec.RecordsValid [2] [[[1, 1]]] [.load 0, .store 1 [[1, 2]], .load 1]
    ∧ (Spec.recordResults [2] [[[1, 1]]] [.load 0, .store 1 [[1, 2]], .load 1]).map Spec.exchanged =
      [.loaded [[1, 1]], .stored, .loaded [[2, 1]]] := by decide

end Cmp
