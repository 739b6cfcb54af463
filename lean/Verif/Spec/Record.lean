import Verif.Model.Buffer

/-
What a user expects of records of fixed size in a random access file: a list of records.  Only the
type `Byte` is shared with the model.
-/

namespace Cmp.Spec

/-- A record: the object representations of its fields. -/
abbrev Record := List (List Byte)

/-- What a program does with a store of records. -/
inductive RecordOp
  /-- replace record number `i`, or append it when `i` is the number of records -/
  | store (i : Nat) (record : Record)
  | load (i : Nat)
  /-- ask for the size of the store in bytes -/
  | size
  deriving DecidableEq, Repr

/-- What it gets back. -/
inductive RecordResult
  | stored
  | loaded (record : Record)
  | size (bytes : Int)
  deriving DecidableEq, Repr

/-- The records after an operation. -/
def RecordOp.effect (records : List Record) : RecordOp → List Record
  | store i record => if i < records.length then records.set i record else records ++ [record]
  | load _ => records
  | size => records

/-- The result of an operation on records of fields with the given sizes. -/
def RecordOp.result (sizes : List Nat) (records : List Record) : RecordOp → RecordResult
  | store _ _ => .stored
  | load i => .loaded (records.getD i [])
  | size => .size (records.length * sizes.sum)

/-- Operations on records that are there (or the one to be appended), with fields of the given
sizes. -/
def RecordOp.Valid (sizes : List Nat) (records : List Record) : RecordOp → Prop
  | store i record => i ≤ records.length ∧ record.map List.length = sizes
  | load i => i < records.length
  | size => True

/-- The results of a sequence of operations. -/
def recordResults (sizes : List Nat) (records : List Record) : List RecordOp → List RecordResult
  | [] => []
  | op :: ops => op.result sizes records :: recordResults sizes (op.effect records) ops

/-- The records after a sequence of operations. -/
def recordsAfter (records : List Record) (ops : List RecordOp) : List Record :=
  ops.foldl RecordOp.effect records

/-- Sequences of valid operations. -/
def RecordsValid (sizes : List Nat) (records : List Record) : List RecordOp → Prop
  | [] => True
  | op :: ops => op.Valid sizes records ∧ RecordsValid sizes (op.effect records) ops

instance (sizes : List Nat) (records : List Record) (op : RecordOp) :
    Decidable (op.Valid sizes records) := by
  cases op <;> unfold RecordOp.Valid <;> infer_instance

instance decidableRecordsValid (sizes : List Nat) :
    (records : List Record) → (ops : List RecordOp) → Decidable (RecordsValid sizes records ops)
  | _, [] => isTrue trivial
  | records, op :: ops =>
    have := decidableRecordsValid sizes (op.effect records) ops
    inferInstanceAs (Decidable (_ ∧ _))

end Cmp.Spec
