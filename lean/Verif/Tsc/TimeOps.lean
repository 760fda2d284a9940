import Verif.Tsc.DeltaTime
/-!
# Operations that shift, extend or combine collections

Models `shift_time_by_delta`, `expand_time_values`, `fill_timeseries_with_last_state` and `augment_control_input` of the `tsc` accessor
(datafold/pcfold/timeseries/accessor.py), and `feature_to_array` and `const_sampled_time_values` of `TSCDataFrame`
(datafold/pcfold/timeseries/collection.py). Operations that assign to the index of the collection they are called on return the
collection object as it is afterwards as a second component.
-/

namespace Verif.Tsc

open Verif.Np

variable {τ V W : Type}

/-- Assigning an index with integer time values: `__setattr__` (collection.py 358-366) validates the index; next to the checks of `construct`
negative time values are rejected unless they are datetimes (collection.py 886-891). -/
def buildInt (k : TimeKind) (c : List (Row Int V)) : Except TscErr (List (Row Int V)) :=
  if k = .int ∧ c.any (fun r => decide (r.time < 0)) = true then .error (.index .negativeTime) else build c

/-- `tsc.shift_time_by_delta` (accessor.py 469-499): the returned collection (or exception) and the collection the method was called on, as it is
afterwards. The method assigns the index of its own data frame and returns the same object. -/
def shiftTime (k : TimeKind) (c : List (Row Int V)) (s : Int) : Except TscErr (List (Row Int V)) × List (Row Int V) :=
  if s = 0 then (.ok c, c)
  else match buildInt k (c.map (fun r => { r with time := r.time + s })) with
    | .ok c' => (.ok c', c')
    | .error e => (.error e, c)

section
variable [LinearOrder τ]

/-- Rows of a single time series from values and time values, sorted by time: `from_array` / `from_single_timeseries` (collection.py 579-652) for a
constant row value. -/
def constSeries (i : Nat) (times : List τ) (v : V) : Except TscErr (List (Row τ V)) :=
  build ((times.mergeSort (fun a b => decide (a ≤ b))).map (fun t => ⟨i, t, v⟩))

/-- `tsc.expand_time_values` (accessor.py 523-556), `v` is the row filled with `fill_value`. The tensor is reshaped from the rows in index order and labelled
with the sorted IDs. -/
def expandTimeValues (c : List (Row τ V)) (times : List τ) (v : V) : Except TscErr (List (Row τ V)) :=
  if nTimeseries c = 1 then
    match constSeries ((ids c).headD 0) times v with
    | .error e => .error e
    | .ok pad => build (c ++ pad)
  else if !isSameTimeValues c then .error .notSameTimeValues
  else
    let k := (timeValues c).length
    let tensor := reshapeRows (nTimeseries c) k (c.map (·.val))
    fromTensor (k + times.length) (tensor.map (· ++ List.replicate times.length v)) (some (ids c)) (timeValues c ++ times)

/-- `feature_to_array` (collection.py 1545-1588): the column of one feature reshaped to one row per time series, with the labels of `as_frame=True`
(sorted IDs and time values). -/
def featureToArray (c : List (Row τ V)) : Except TscErr (List (Nat × List V) × List τ) :=
  if !isSameTimeValues c then .error .notSameTimeValues
  else .ok ((ids c).zip (reshapeRows (nTimeseries c) (timeValues c).length (c.map (·.val))), timeValues c)

/-- `np.logical_not(np.diff(X_ids, prepend=True).astype(bool))` (accessor.py 1167-1170): `True` is the number 1 here. -/
def exceptFirstMask (prev : Nat) : List Nat → List Bool
  | [] => []
  | i :: l => (i == prev) :: exceptFirstMask i l

/-- `np.append(np.logical_not((X_ids[:-1] - X_ids[1:]).astype(bool)), False)` (accessor.py 1171-1173). -/
def exceptLastMask : List Nat → List Bool
  | [] => []
  | [_] => [false]
  | i :: j :: l => (i == j) :: exceptLastMask (j :: l)

/-- `df.loc[mask]` -/
def maskRows {α : Type} (m : List Bool) (l : List α) : List α := ((l.zip m).filter (·.2)).map (·.1)

/-- `tsc.augment_control_input` (accessor.py 1160-1178). The control rows get the index of all states but the first ones, the outer join leaves `none` (nan) where
there is no control. A new index of another length raises. -/
def augmentControl (X : List (Row τ V)) (U : List (Row τ W)) : Except TscErr (List (Row τ (V × Option W))) :=
  let is := X.map (·.id)
  if (maskRows (exceptLastMask is) X).map (·.key) ≠ U.map (·.key) then .error .incompatible
  else
    let index := (maskRows (exceptFirstMask 1 is) X).map (·.key)
    if index.length ≠ U.length then .error .timeLength
    else .ok (X.map (fun r => ⟨r.id, r.time, (r.val, (index.zip (U.map (·.val))).lookup r.key)⟩))

end

/-- `tsc.fill_timeseries_with_last_state` (accessor.py 1129-1158) for integer time values; `.incompatible` stands for the `NotImplementedError`, `.timeLength` for
a time series that is not shorter than `n`. `from_array` without `ts_id` uses ID 0. -/
def fillWithLast (c : List (Row Int V)) (n : Nat) : Except TscErr (List (Row Int V)) :=
  if nTimeseries c ≠ 1 then .error .incompatible
  else if n ≤ c.length then .error .timeLength
  else match deltaTime .int c, c.getLast? with
    | .one (some d), some last =>
      match build ((List.range (n - c.length)).map (fun j : Nat => (⟨0, last.time + d + j * d, last.val⟩ : Row Int V))) with
      | .error e => .error e
      | .ok attach => build (c ++ attach)
    | _, _ => .error .notConstDelta

/-- `const_sampled_time_values` (collection.py 1513-1543) for integer time values: `arange(start, nextafter(end), delta)`. -/
def constSampledTimeValues (c : List (Row Int V)) : Except TscErr (List Int) :=
  match deltaTime .int c with
  | .one (some d) =>
    let start := minTime c
    let stop := (timeValues c).getLastD 0
    .ok ((List.range (((stop - start) / d).toNat + 1)).map (fun j : Nat => start + j * d))
  | _ => .error .notConstDelta

end Verif.Tsc
