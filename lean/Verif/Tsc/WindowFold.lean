import Verif.Tsc.Folds
import Verif.Tsc.Check
import Mathlib.Data.List.Sort
/-!
# Model of the cross validation with test windows, counted from the end

`datafold/pcfold/timeseries/metric.py` (`TSCWindowFoldTime`).
-/

namespace Verif.Tsc

open Verif.Np

variable {V : Type}

/-- Errors of `TSCWindowFoldTime`. -/
inductive WindowErr
  | parameter | tooShort | overlapping | notConstDelta | fold (e : FoldErr)
deriving DecidableEq, Repr

/-- `np.sort` of natural numbers. -/
def npSort (l : List Nat) : List Nat := l.insertionSort (· ≤ ·)

/-- `_reversed_ids_and_indices_tsc` (metric.py 859-874): row `j` gets the `j`-th smallest of the numbers `max_id - ID`, time `j` and, as its only value, the
row number counted from the end. -/
def reversedIndices (X : List (Row Int V)) : Except WindowErr (List (Row Int Nat)) :=
  let maxId := (X.map (·.id)).foldl max 0
  let rows := (List.zip (npSort (X.map (fun r => maxId - r.id))) (List.range X.length)).map
    (fun p => (⟨p.1, (p.2 : Int), X.length - 1 - p.2⟩ : Row Int Nat))
  match build rows with
  | .error e => .error (.fold (.index e))
  | .ok c => .ok c

/-- The part for `train_min_timesteps` (metric.py 919-937): with different lengths the series that are too short are dropped (an empty result is no valid
collection), with a single length either all stay or an empty `DataFrame` is used. -/
def dropShortTrain (minT : Option Nat) (train : List (Row Int Nat)) : Except WindowErr (List (Row Int Nat)) :=
  match minT with
  | none => .ok train
  | some m =>
    match nTimesteps train with
    | .one n => if n < m then .ok [] else .ok train
    | .per l =>
      let dropIds := (l.filter (fun p => decide (p.2 < m))).map (·.1)
      if dropIds.isEmpty then .ok train
      else match build (train.filter (fun r => !dropIds.contains r.id)) with
        | .error e => .error (.fold (.index e))
        | .ok c => .ok c

/-- Body of the loop (metric.py 905-943) for one test window; `none` if nothing is yielded. -/
def windowFoldStep (minT : Option Nat) (idx test : List (Row Int Nat)) : Except WindowErr (Option (List Nat × List Nat)) :=
  match build (idx.filter (fun r => !(test.map (·.key)).contains r.key)) with
  | .error e => .error (.fold (.index e))
  | .ok train =>
    match assignIdsTrainTest idx ((timeValues train).map Int.toNat) ((timeValues test).map Int.toNat) with
    | .error e => .error (.fold e)
    | .ok (a, b) =>
      match dropShortTrain minT a with
      | .error e => .error e
      | .ok a' => if a'.isEmpty then .ok none else .ok (some (npSort (a'.map (·.val)), npSort (b.map (·.val))))

/-- `TSCWindowFoldTime(test_window_length=w, window_offset=off, train_min_timesteps=minT).split(X)` (metric.py 822-945; `get_n_splits`, metric.py 947-969, counts them): all yielded pairs
(train rows, test rows).  An exception in a later fold is the result here, although the code has yielded the earlier folds before. -/
def windowFold (k : TimeKind) (X : List (Row Int V)) (w off : Int) (minT : Option Nat) : Except WindowErr (List (List Nat × List Nat)) :=
  if w ≤ 0 ∨ off < 0 ∨ minT = some 0 then .error .parameter
  else if (nTimesteps X).values.all (fun n => decide ((n : Int) < w)) then .error .tooShort
  else match reversedIndices X with
    | .error e => .error e
    | .ok idx =>
      if (checkNonOverlapping X).isSome then .error .overlapping
      else if !isConstDeltaTime k X then .error .notConstDelta
      else match iterWindows .int idx w (w + off) true with
        | .error e => .error (.fold e)
        | .ok tests =>
          match tests.mapM (windowFoldStep minT idx) with
          | .error e => .error e
          | .ok l => .ok (l.filterMap id)

/-- two series of five and two samples (test_tsc_metric.py 538-560) -/
example : windowFold .int ([⟨0, 0, ()⟩, ⟨0, 1, ()⟩, ⟨0, 2, ()⟩, ⟨0, 3, ()⟩, ⟨0, 4, ()⟩, ⟨1, 10, ()⟩, ⟨1, 11, ()⟩] : List (Row Int Unit)) 2 0 none =
    .ok [([0, 1, 2, 3, 4], [5, 6]), ([0, 1, 2, 5, 6], [3, 4]), ([0, 3, 4, 5, 6], [1, 2])] := by decide +kernel

/-- one series of six samples, a fold without enough training samples is skipped (test_tsc_metric.py 562-582) -/
example : windowFold .int ((List.range 6).map (fun t : Nat => (⟨0, t, ()⟩ : Row Int Unit))) 2 0 (some 3) =
    .ok [([0, 1, 2, 3], [4, 5]), ([2, 3, 4, 5], [0, 1])] := by decide +kernel

end Verif.Tsc
