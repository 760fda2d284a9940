import Verif.Tsc.DeltaTime
/-!
# Model of window iteration, cross validation splits and ID reassignment

`datafold/pcfold/timeseries/accessor.py` (`iter_timevalue_window`, `assign_ids_train_test`, `assign_ids_const_delta`) and
`datafold/pcfold/timeseries/metric.py` (`TSCKfoldSeries`, `TSCKFoldTime`).
-/

namespace Verif.Tsc

open Verif.Np

variable {τ V : Type}

/-! ### `iter_timevalue_window` -/

/-- The `while end <= time_values.shape[0]` loop (accessor.py 457-467): the windows of time values, from position `start` on.
The code has checked `offset > 0`. -/
def windowLoop {α : Type} (times : List α) (size offset : Nat) (hoff : 0 < offset) (start : Nat) : List (List α) :=
  if start + size ≤ times.length then
    (times.drop start).take size :: windowLoop times size offset hoff (start + offset)
  else []
termination_by times.length + 1 - start

/-- `TSCDataFrame.select_time_values` (collection.py 1590-1608) for a list of time values on a lexicographically sorted index: the rows whose
time value is listed, in index order.  (On an index that is not lexicographically sorted pandas may order the rows by time instead; the
theorems only use the sorted case.) -/
def selectTimeValues [LinearOrder τ] (c : List (Row τ V)) (ts : List τ) : List (Row τ V) := c.filter (fun r => decide (r.time ∈ ts))

/-- Errors of the functions in this file. -/
inductive FoldErr
  | notConstDelta | windowSize | offset | notEqualLength | notSameTimeValues | nSplits | indices | disjoint | outOfRange
  | index (e : TscErr) | singleSample | irregular
deriving DecidableEq, Repr

/-- `tsc.iter_timevalue_window` (accessor.py 393-467) for integer arguments: all yielded windows. -/
def iterWindows (k : TimeKind) (c : List (Row Int V)) (size offset : Int) (perSeries : Bool) :
    Except FoldErr (List (List (Row Int V))) :=
  if !isConstDeltaTime k c then .error .notConstDelta
  else if size ≤ 0 then .error .windowSize
  else if h : offset ≤ 0 then .error .offset
  else
    let hoff : 0 < offset.toNat := by omega
    let groups : List (List (Row Int V)) := if perSeries then (ids c).map (fun i => c.filter (fun r => r.id == i)) else [c]
    .ok (groups.flatMap (fun g => (windowLoop (timeValues g) size.toNat offset.toNat hoff 0).map (selectTimeValues g)))

/-! ### Folds -/

/-- Fold sizes of `sklearn.model_selection.KFold`: `n // k` each, the first `n % k` folds one more. -/
def foldSizes (n k : Nat) : List Nat := (List.range k).map (fun i => n / k + if i < n % k then 1 else 0)

/-- Consecutive pieces of the given sizes. -/
def pieces {α : Type} : List Nat → List α → List (List α)
  | [], _ => []
  | s :: ss, l => l.take s :: pieces ss (l.drop s)

/-- `KFold(n_splits=k, shuffle).split(X)` of scikit-learn for `n` samples: `order` is `arange(n)`, or its shuffled version. Each fold is given
by (train, test), both ascending because they are read off a Boolean mask. -/
def kfold (n k : Nat) (order : List Nat) : Except FoldErr (List (List Nat × List Nat)) :=
  if k < 2 ∨ n < k then .error .nSplits
  else .ok ((pieces (foldSizes n k) order).map (fun test =>
    ((List.range n).filter (fun i => !(test.contains i)), (List.range n).filter (fun i => test.contains i))))

/-- Rows of `np.arange(m * k).reshape([m, k])`. -/
def rowMajor (m k : Nat) : List (List Nat) := (List.range m).map (fun i => (List.range k).map (fun j => i * k + j))

/-- Rows of `np.arange(m * k).reshape([k, m], order="F")`. -/
def colMajor (k m : Nat) : List (List Nat) := (List.range k).map (fun j => (List.range m).map (fun i => i * k + j))

/-- `np.sort(indices_matrix[rows].flatten())`: select rows, flatten, sort ascending. -/
def pickRows (matrix : List (List Nat)) (rows : List Nat) : List Nat :=
  (rows.flatMap (fun r => matrix.getD r [])).mergeSort (fun a b => decide (a ≤ b))

/-- `TSCKfoldSeries.split` (metric.py 643-690; `get_n_splits`, metric.py 692-711, is `k`).  `order` is the order in which `KFold` takes the series (`range n`, or shuffled). -/
def kfoldSeries [LinearOrder τ] (c : List (Row τ V)) (k : Nat) (order : List Nat) : Except FoldErr (List (List Nat × List Nat)) :=
  match nTimesteps c with
  | .per _ => .error .notEqualLength
  | .one len =>
    let m := rowMajor (nTimeseries c) len
    match kfold m.length k order with
    | .error e => .error e
    | .ok fs => .ok (fs.map (fun f => (pickRows m f.1, pickRows m f.2)))

/-- `TSCKFoldTime.split` (metric.py 732-767; `get_n_splits`, metric.py 769-788, is `k`). -/
def kfoldTime [LinearOrder τ] (c : List (Row τ V)) (k : Nat) : Except FoldErr (List (List Nat × List Nat)) :=
  if !isSameTimeValues c then .error .notSameTimeValues
  else
    match nTimesteps c with
    | .per _ => .error .notEqualLength
    | .one len =>
      let m := colMajor len (nTimeseries c)
      match kfold m.length k (List.range m.length) with
      | .error e => .error e
      | .ok fs => .ok (fs.map (fun f => (pickRows m f.1, pickRows m f.2)))

/-! ### `assign_ids_train_test` -/

/-- `_test_array` (accessor.py 883-893): non-negative by type, strictly increasing. -/
def sortedIndices (l : List Nat) : Bool := (l.zip l.tail).all (fun p => decide (p.1 < p.2))

/-- `np.append(0, np.diff(x)).astype(bool)` (accessor.py 913-919): position differs from its predecessor. -/
def changeIndicator {α : Type} [DecidableEq α] : List α → List Bool
  | [] => []
  | x :: l => false :: List.zipWith (fun a b => !(decide (a = b))) (x :: l) l

/-- `np.cumsum` of Booleans. -/
def cumsumBool (o : Nat) : List Bool → List Nat
  | [] => []
  | b :: l => let o' := o + (if b then 1 else 0); o' :: cumsumBool o' l

/-- The array `new_ids` (accessor.py 903-931). -/
def trainTestIds [LinearOrder τ] (c : List (Row τ V)) (train test : List Nat) : List Nat :=
  let n := c.length
  let maskTest := (List.range n).map (fun i => test.contains i)
  let dropped := (List.range n).map (fun i => !(train.contains i) && !(test.contains i))
  cumsumBool 0 (List.zipWith (· || ·) (List.zipWith (· || ·) (changeIndicator maskTest) (changeIndicator (c.map (·.id)))) dropped)

/-- `splitted_df.iloc[indices]` -/
def ilocRows (rows : List (Row τ V)) (idx : List Nat) : List (Row τ V) := idx.filterMap (fun i => rows[i]?)

/-- `tsc.assign_ids_train_test` (accessor.py 845-967), without the third return value.  If the new frame is not a valid collection the code returns
a plain `DataFrame` (the `except AttributeError`); here that is the error of the constructor. -/
def assignIdsTrainTest [LinearOrder τ] (c : List (Row τ V)) (train test : List Nat) :
    Except FoldErr (List (Row τ V) × List (Row τ V)) :=
  if !sortedIndices train || !sortedIndices test then .error .indices
  else if (unique (train ++ test)).length ≠ (train ++ test).length then .error .disjoint
  else if (train ++ test).any (fun i => decide (c.length ≤ i)) then .error .outOfRange
  else
    let split := List.zipWith (fun (r : Row τ V) i => { r with id := i }) c (trainTestIds c train test)
    match build (ilocRows split train), build (ilocRows split test) with
    | .ok a, .ok b => .ok (a, b)
    | .error e, _ => .error (.index e)
    | _, .error e => .error (.index e)

/-! ### `assign_ids_const_delta` -/

/-- The differences `first_diff` (accessor.py 1017-1024): `none` is the prepended `inf`. -/
def firstDiff (times : List Int) : List (Option Int) := none :: (npDiff times).map some

/-- Is the second difference at a position non-zero (accessor.py 1026-1028)?  `x - inf` is `-inf`, hence non-zero; a final 0 is appended. -/
def secondDiffNonzero (times : List Int) : List Bool :=
  let fd := firstDiff times
  List.zipWith (fun a b => !(decide (a = b))) fd fd.tail ++ [false]

/-- `indicator` (accessor.py 1030-1056): true where a new series starts.  `ind` is the logical and of neighbours; both positions of such a pair
are removed from the second differences. -/
def splitIndicator (times : List Int) : List Bool :=
  let sd := secondDiffNonzero times
  let ind := List.zipWith (· && ·) sd sd.tail
  let sd' := List.zipWith (fun s i => s && !i) sd (false :: ind)
  let sd'' := List.zipWith (fun s i => s && !i) sd' (ind ++ [false])
  List.zipWith (· || ·) (false :: ind) sd''

/-- `split_irregular_time_series` (accessor.py 1000-1091) for the rows of one series with irregular sampling; `none` means all samples dropped.
The special case of two samples cannot occur for an irregular series and is kept as in the code. -/
def splitIrregular (dropSamples : Bool) (minId : Nat) (s : List (Row Int V)) : Except FoldErr (Option (List (Row Int V))) :=
  if s.length = 1 then if dropSamples then .ok none else .error .singleSample
  else if s.length = 2 then .ok (some s)
  else
    let newIds := (cumsumBool 0 (splitIndicator (s.map (·.time)))).map (· + minId)
    let rows := List.zipWith (fun (r : Row Int V) i => { r with id := i }) s newIds
    if dropSamples then
      let kept := rows.filter (fun r => !(newIds.count r.id == 1))
      if kept.length = 2 then .ok none
      else match build kept with
        | .ok d => .ok (some d)
        | .error e => .error (.index e)
    else if newIds.any (fun i => newIds.count i == 1) then .error .irregular
    else match build rows with
      | .ok d => .ok (some d)
      | .error e => .error (.index e)

/-- Body of the loop (accessor.py 1096-1102): a series with finite `delta_time` only gets the ID `minId`, others are split. -/
def splitOne (k : TimeKind) (dropSamples : Bool) (minId : Nat) (s : List (Row Int V)) : Except FoldErr (Option (List (Row Int V))) :=
  match deltaTime k s with
  | .one (some _) => .ok (some (s.map (fun r => { r with id := minId })))
  | _ => splitIrregular dropSamples minId s

/-- The loop over the series in ID order (accessor.py 1095-1112), with the running `min_id`. -/
def constDeltaLoop (k : TimeKind) (dropSamples : Bool) : (minId : Nat) → List (List (Row Int V)) →
    Except FoldErr (List (List (Row Int V)))
  | _, [] => .ok []
  | minId, s :: l =>
    match splitOne k dropSamples minId s with
    | .error e => .error e
    | .ok none => constDeltaLoop k dropSamples minId l
    | .ok (some d) =>
      match constDeltaLoop k dropSamples ((ids d).foldl max 0 + 1) l with
      | .error e => .error e
      | .ok r => .ok (d :: r)

/-- `tsc.assign_ids_const_delta` (accessor.py 969-1127); `none` if everything was dropped. -/
def assignIdsConstDelta (k : TimeKind) (dropSamples : Bool) (c : List (Row Int V)) : Except FoldErr (Option (List (Row Int V))) :=
  match constDeltaLoop k dropSamples 0 ((ids c).map (fun i => c.filter (fun r => r.id == i))) with
  | .error e => .error e
  | .ok [] => .ok none
  | .ok l =>
    match build l.flatten with
    | .error e => .error (.index e)
    | .ok d => match assignIdsSequential d with
      | .error e => .error (.index e)
      | .ok r => .ok (some r)

end Verif.Tsc
