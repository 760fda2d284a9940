import Verif.Tsc.DeltaTime
import Verif.Tsc.TimeOps
import Mathlib.Algebra.Order.Floor.Ring
import Mathlib.Data.Rat.Floor
/-!
# Model of collections with a fixed sampling interval (`fixed_delta`)

`TSCDataFrame(..., fixed_delta=0.1)` stores integers in the index and the factor next to it.  `collection.py` 309-356 (constructor), 368-379
(display), 824-826 (frames made by pandas), 1135-1144 (`delta_time`), 1371-1381 (`is_normalized_time`), 1476-1511 (`time_interval`, `time_values`)
and `accessor.py` 639-687 (`normalize_time`).  The float products are exact rationals here.
-/

namespace Verif.Tsc

open Verif.Np

variable {V : Type}

/-- The argument `fixed_delta` as Python sees it. -/
inductive FixArg
  | none
  | float (q : ℚ)
  | other
deriving DecidableEq, Repr

/-- A collection with integer index and the factor of its time values. -/
structure Fixed (V : Type) where
  rows : List (Row Int V)
  delta : Option ℚ
deriving DecidableEq, Repr

/-- Errors of the constructor and of `normalize_time`. -/
inductive FixErr
  | typeError
  | tsc (e : TscErr)
  | notNormalized
deriving DecidableEq, Repr

/-- `TSCDataFrame.__init__` (collection.py 309-356) for integer time values: the argument is checked first, then the index. -/
def fixInit (c : List (Row Int V)) : FixArg → Except FixErr (Fixed V)
  | .other => .error .typeError
  | .float q => if q ≤ 0 then .error .typeError
    else match buildInt .int c with
      | .error e => .error (.tsc e)
      | .ok c' => .ok ⟨c', some q⟩
  | .none => match buildInt .int c with
      | .error e => .error (.tsc e)
      | .ok c' => .ok ⟨c', Option.none⟩

/-- The factor applied by `time_values` and `delta_time`. -/
def Fixed.factor (X : Fixed V) : ℚ := X.delta.getD 1

/-- `time_values(with_fixed_delta)` (collection.py 1493-1511). -/
def Fixed.timeValues (X : Fixed V) (withDelta : Bool := true) : List ℚ :=
  (Tsc.timeValues X.rows).map (fun t : Int => if withDelta then (t : ℚ) * X.factor else (t : ℚ))

/-- `PerId` with another value type. -/
def PerId.mapVals {α β : Type} (f : α → β) : PerId α → PerId β
  | .one a => .one (f a)
  | .per l => .per (l.map (fun p => (p.1, f p.2)))

/-- `delta_time` (collection.py 1135-1144). -/
def Fixed.deltaTime (X : Fixed V) : PerId (Option ℚ) :=
  (Tsc.deltaTime .int X.rows).mapVals (fun d => d.map (fun d : Int => (d : ℚ) * X.factor))

/-- `time_interval()` (collection.py 1486-1490). -/
def Fixed.interval (X : Fixed V) : ℚ × ℚ := (X.timeValues.headD 0, X.timeValues.getLastD 0)

/-- `time_interval(ts_id)` (collection.py 1488-1490): the index of `loc[ts_id, :]`. -/
def Fixed.intervalOf (X : Fixed V) (i : Nat) : ℚ × ℚ :=
  let t : List Int := unique ((X.rows.filter (fun r => r.id == i)).map (fun r => r.time))
  (((t.headD 0 : Int) : ℚ), ((t.getLastD 0 : Int) : ℚ))

/-- `is_normalized_time` (collection.py 1371-1381). -/
def Fixed.isNormalized (X : Fixed V) : Bool :=
  decide (X.deltaTime = .one (some 1)) && decide (X.interval.1 = 0)

/-- `np.array(x, dtype=int)`: truncation. -/
def truncQ (q : ℚ) : Int := if 0 ≤ q then ⌊q⌋ else ⌈q⌉

/-- `tsc.normalize_time` (accessor.py 639-687): the times of the *index* minus the *scaled* start, divided by the *scaled* interval; the index is
assigned to the same object, which keeps its factor. -/
def Fixed.normalize (X : Fixed V) : Except FixErr (Fixed V) :=
  match X.deltaTime with
  | .one (some d) =>
    match buildInt .int (X.rows.map (fun r => { r with time := truncQ (((r.time : ℚ) - X.interval.1) / d) })) with
    | .error e => .error (.tsc e)
    | .ok c' => if Fixed.isNormalized ⟨c', X.delta⟩ then .ok ⟨c', X.delta⟩ else .error .notNormalized
  | _ => .error (.tsc .notConstDelta)

/-- A frame that pandas derives from a collection by selecting rows: `loc`, `iloc`, `head`, `copy`, a boolean mask, ... (collection.py 824-826).
The constructor handed to pandas knows `validate` only. -/
def Fixed.select (X : Fixed V) (p : Row Int V → Bool) : Except FixErr (Fixed V) := fixInit (X.rows.filter p) .none

/-- Time column of `__repr__(with_fixed_delta)` (collection.py 368-379).  For `False` the levels of the index are replaced by the scaled times of all *rows*, and the
codes of the rows (their positions in the sorted unique times) stay. -/
def Fixed.display (X : Fixed V) (withDelta : Bool := true) : List ℚ :=
  if withDelta = false ∧ X.delta.isSome then
    X.rows.map (fun r => (X.rows.map (fun r => (r.time : ℚ) * X.factor)).getD ((Tsc.timeValues X.rows).idxOf r.time) 0)
  else X.rows.map (fun r => (r.time : ℚ))

end Verif.Tsc
