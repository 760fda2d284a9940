import Verif.Tsc.Spec
import Mathlib.Data.Rat.Defs
import Mathlib.Algebra.Order.Ring.Unbundled.Rat
/-!
# Specification of valid indices and columns (input vocabulary of the constructor)
-/

namespace Verif.Tsc

/-- `numpy.dtype.kind` of the time level of the index (only the distinctions the code makes):
unsigned, signed, float, datetime, anything else. -/
inductive Kind | u | i | f | M | other
deriving DecidableEq, Repr

/-- A pandas index handed to the constructor.  IDs and time values are numbers; `none` stands for NaN / NaT.
Simplification: infinite time values are not modelled. Strings and other objects in the ID level are
outside the model; in the time level they are `Kind.other`. -/
structure RawIndex where
  multi : Bool
  nlevels : Nat
  rows : List (Option Rat × Option Rat)
  kind : Kind
  fixedDelta : Bool
deriving Repr

/-- The column index handed to the constructor: number of levels, and for each label its Python type name and value. -/
structure RawColumns where
  nlevels : Nat
  labels : List (String × String)
deriving Repr

/-- Time value types that are allowed: integers always; floats and datetimes unless a fixed time delta is used. -/
def AllowedKind (fixedDelta : Bool) (k : Kind) : Prop :=
  k = .u ∨ k = .i ∨ (fixedDelta = false ∧ (k = .f ∨ k = .M))

/-- What a user understands by a valid index: it is a non-empty two-level index whose IDs are non-negative integers and
whose time values are numbers, such that ID blocks are contiguous, time values strictly increase inside each ID
(`Valid`), the time type is allowed, and non-datetime time values are non-negative. -/
def ValidIndex (r : RawIndex) : Prop :=
  r.multi = true ∧ r.nlevels = 2 ∧ AllowedKind r.fixedDelta r.kind ∧
  ∃ c : List (Row Rat Unit), c ≠ [] ∧ r.rows = c.map (fun x => (some (x.id : Rat), some x.time)) ∧ Valid c ∧
    (r.kind ≠ .M → ∀ x ∈ c, 0 ≤ x.time)

/-- Valid columns: one level, labels of one type, no label twice. -/
def ValidColumns (c : RawColumns) : Prop :=
  c.nlevels = 1 ∧ (∀ a ∈ c.labels, ∀ b ∈ c.labels, a.1 = b.1) ∧ (c.labels.map (·.2)).Nodup

end Verif.Tsc
