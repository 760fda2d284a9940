import Verif.Tsc.Model
/-!
# Model of `TSCDataFrame.delta_time`, `is_const_delta_time`, `is_normalized_time` and `tsc.normalize_time`

`collection.py` 984-1144, 1330-1347, 1371-1381 and `accessor.py` 639-687, for integer time values and for datetimes, which
are integers (nanoseconds) with a different branch in the code.  Float time values are not modelled (rounding).
Integers are exact here; in the code the per-series values go through float64, exact below 2^53.
-/

namespace Verif.Tsc

open Verif.Np

variable {V : Type}

/-- Type of the time index. -/
inductive TimeKind | int | datetime
deriving DecidableEq, Repr

/-- `np.diff` -/
def npDiff (l : List Int) : List Int := List.zipWith (fun a b => b - a) l l.tail

/-- `np.reshape(l, (m, k))` as list of rows. -/
def reshapeRows {α : Type} (m k : Nat) (l : List α) : List (List α) := (List.range m).map (fun i => (l.drop (i * k)).take k)

/-- Value reported for the differences of one series in the equal length branch (collection.py 1058-1086): one difference is taken as is,
otherwise all have to be equal to the first. `none` is nan/NaT. -/
def rowDelta (l : List Int) : Option Int :=
  match l with
  | [] => none
  | d :: l => if l.all (· == d) then some d else none

/-- `dt_result_series` after the equal length branch (collection.py 1044-1088); entry `k` belongs to the `k`-th *sorted* ID.
The mask removes the differences between the last sample of a series and the first of the next. -/
def deltaEqualLength (c : List (Row Int V)) (n : Nat) : List (Option Int) :=
  if n = 1 then (ids c).map (fun _ => none)
  else
    let diffs := npDiff (c.map (·.time))
    let masked := (diffs.zipIdx.filter (fun p => !(p.2 % n == n - 1))).map (·.1)
    (reshapeRows (nTimeseries c) (n - 1) masked).map rowDelta

/-- `dt_result_series` after the loop for unequal lengths (collection.py 1089-1105): `get_indexer_for([id])[:-1]` are the positions of the
rows of the ID without the last one. -/
def deltaUnequalLength (c : List (Row Int V)) : List (Option Int) :=
  let diffs := npDiff (c.map (·.time))
  (ids c).map (fun i =>
    let pos := ((c.map (·.id)).zipIdx.filter (fun p => p.1 == i)).map (·.2)
    let d := pos.dropLast.map (fun p => diffs.getD p 0)
    if (unique d).length = 1 then d.head? else none)

/-- `np.allclose(np.min(x), x, atol=1e-16, rtol=3e-12)` on integers (collection.py 1110-1113): `|min - x| <= 1e-16 + 3e-12 |x|`,
multiplied by `10^16`.  `np.min` of a Series skips nan, and nan is never close. -/
def allClose (l : List (Option Int)) : Bool :=
  let vals := l.filterMap id
  let m := vals.foldl min (vals.headD 0)
  l.all (fun x => match x with
    | none => false
    | some x => decide ((m - x).natAbs * 10 ^ 16 ≤ 1 + 30000 * x.natAbs))

/-- `dt_result_series` (collection.py 1044-1105), in the order of the sorted IDs it is labelled with. -/
def deltaList (c : List (Row Int V)) : List (Option Int) :=
  match nTimesteps c with
  | .one n => deltaEqualLength c n
  | .per _ => deltaUnequalLength c

/-- `is_global_unique` (collection.py 1107-1124).  For datetimes it is the *number* of unique values, hence always truthy
(line 1109). -/
def globalUnique (k : TimeKind) (dts : List (Option Int)) : Bool :=
  if dts.all (·.isNone) then true
  else match k with
    | .datetime => true
    | .int => allClose dts

/-- `TSCDataFrame.delta_time` (collection.py 984-1144) without `fixed_delta`. -/
def deltaTime (k : TimeKind) (c : List (Row Int V)) : PerId (Option Int) :=
  if nTimeseries c = 1 ∨ globalUnique k (deltaList c) = true then .one ((deltaList c).headD none)
  else .per ((ids c).zip (deltaList c))

/-- `TSCDataFrame.is_const_delta_time` (collection.py 1330-1347). -/
def isConstDeltaTime (k : TimeKind) (c : List (Row Int V)) : Bool :=
  match deltaTime k c with
  | .per _ => false
  | .one d => d.isSome

/-- `time_interval()[0]` for a non-empty collection (collection.py 1476-1490). -/
def minTime (c : List (Row Int V)) : Int := (timeValues c).headD 0

/-- `TSCDataFrame.is_normalized_time` (collection.py 1371-1381). -/
def isNormalizedTime (k : TimeKind) (c : List (Row Int V)) : Bool :=
  isConstDeltaTime k c && minTime c == 0 && decide (deltaTime k c = .one (some 1))

/-- `tsc.normalize_time` (accessor.py 639-687): `int((t - min) / delta)` (truncation; the argument is non-negative), new index validated, then
the assertion; the new index has integer type. -/
def normalizeTime (k : TimeKind) (c : List (Row Int V)) : Except TscErr (List (Row Int V)) :=
  match deltaTime k c with
  | .one (some d) =>
    match build (c.map (fun r => { r with time := (r.time - minTime c) / d })) with
    | .error e => .error e
    | .ok c' => if isNormalizedTime .int c' then .ok c' else .error .incompatible
  | _ => .error .notConstDelta

end Verif.Tsc
