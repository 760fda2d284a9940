import Verif.Np
import Verif.Tsc.IndexSpec
import Mathlib.Data.List.Dedup
/-!
# Model of the index and column validation of `TSCDataFrame`

`datafold/pcfold/timeseries/collection.py`, lines 832-966.
-/

namespace Verif.Tsc

/-- The kinds of rejection, one per `raise` (and per implicit exception) in `_validate_index`/`_validate_columns`. -/
inductive Err
  | notMultiIndex | notTwoLevels | duplicatedIndex | idNotInteger | negativeId | timeDtype | negativeTime
  | indexError | idNotUnique | notSorted
  | columnsNotFlat | columnsMixedTypes | columnsDuplicated
deriving DecidableEq, Repr

/-- `ids_index[bool_new_id]` (collection.py 893-894): the first ID and every ID that differs from its predecessor. -/
def newIds {α : Type} [DecidableEq α] : List α → List α
  | [] => []
  | [a] => [a]
  | a :: b :: l => if a = b then newIds (b :: l) else a :: newIds (b :: l)

/-- Numeric view of a time value used in `np.diff(_time_index_num) <= 0.0` (collection.py 899-907).  For datetimes the
int64 view is used, where NaT is the smallest integer. -/
def timeNum (k : Kind) (t : Option Rat) : Option Rat :=
  match k, t with
  | .M, none => some (-(2 ^ 63))
  | _, t => t

/-- `b - a <= 0` in floating point: false as soon as one side is NaN. -/
def diffNonPos (a b : Option Rat) : Bool :=
  match a, b with
  | some a, some b => decide (b - a ≤ 0)
  | _, _ => false

/-- `np.any(cond_not_sorted)` (collection.py 904-909): a neighbouring pair with equal ID and non-positive time step. -/
def anyNotSorted (k : Kind) : List (Option Rat × Option Rat) → Bool
  | a :: b :: l => (a.1 == b.1 && diffNonPos (timeNum k a.2) (timeNum k b.2)) || anyNotSorted k (b :: l)
  | _ => false

/-- `(x < 0).any()` with NaN comparing false. -/
def anyNeg (l : List (Option Rat)) : Bool := l.any (fun x => match x with | some q => decide (q < 0) | none => false)

/-- `index.duplicated().any()` for a list of entries (NaN equals NaN for pandas). -/
def anyDuplicated {α : Type} [DecidableEq α] (l : List α) : Bool := !decide l.Nodup

/-- IDs can be converted to int without loss (collection.py 855-867); NaN raises in `astype(int)`.
For an integer dtype the check is skipped in the code and trivially true here. -/
def idsInteger (l : List (Option Rat)) : Bool := l.all (fun x => match x with | some q => q.den == 1 | none => false)

/-- Kinds allowed for the time level (collection.py 876-887). -/
def kindAllowed (fixedDelta : Bool) (k : Kind) : Bool :=
  if fixedDelta then k == .u || k == .i else k == .u || k == .i || k == .f || k == .M

/-- `TSCDataFrame._validate_index` (collection.py 832-923), in the order of the checks.  The comparison of block starts uses
`index.codes[0]`; codes differ exactly if the IDs differ, so the IDs themselves are compared here.
An empty index fails at `ids_index[bool_new_id]` because the mask has one element. -/
def validateIndex (r : RawIndex) : Except Err Unit :=
  if !r.multi then .error .notMultiIndex
  else if r.nlevels ≠ 2 then .error .notTwoLevels
  else if anyDuplicated r.rows then .error .duplicatedIndex
  else if !idsInteger (r.rows.map (·.1)) then .error .idNotInteger
  else if anyNeg (r.rows.map (·.1)) then .error .negativeId
  else if !kindAllowed r.fixedDelta r.kind then .error .timeDtype
  else if (r.kind == .u || r.kind == .i || r.kind == .f) && anyNeg (r.rows.map (·.2)) then .error .negativeTime
  else if r.rows.isEmpty then .error .indexError
  else if anyDuplicated (newIds (r.rows.map (·.1))) then .error .idNotUnique
  else if anyNotSorted r.kind r.rows then .error .notSorted
  else .ok ()

/-- `TSCDataFrame._validate_columns` (collection.py 925-950). -/
def validateColumns (c : RawColumns) : Except Err Unit :=
  if c.nlevels ≠ 1 then .error .columnsNotFlat
  else if (c.labels.map (·.1)).dedup.length > 1 then .error .columnsMixedTypes
  else if anyDuplicated (c.labels.map (·.2)) then .error .columnsDuplicated
  else .ok ()

/-- `TSCDataFrame._validate` (collection.py 956-965) on index and columns.  The numeric dtype check of the values
(`_validate_data`) is outside the model: values are numbers by type. -/
def validate (r : RawIndex) (c : RawColumns) : Except Err Unit := do
  validateIndex r
  validateColumns c

/-- The same checks for a typed index, where IDs are already non-negative integers and time values are elements of a
linear order: the constructor as used by all other model functions (collection.py 842-845, 893-911). -/
def construct {τ V : Type} [LinearOrder τ] (c : List (Row τ V)) : Except Err (List (Row τ V)) :=
  if anyDuplicated (c.map (·.key)) then .error .duplicatedIndex
  else if c.isEmpty then .error .indexError
  else if anyDuplicated (newIds (c.map (·.id))) then .error .idNotUnique
  else if notSorted c then .error .notSorted
  else .ok c
where
  /-- neighbouring rows with the same ID and non-increasing time -/
  notSorted : List (Row τ V) → Bool
    | a :: b :: l => (a.id == b.id && decide (b.time ≤ a.time)) || notSorted (b :: l)
    | _ => false

end Verif.Tsc
