import Verif.Tsc.DeltaTime
import Mathlib.Data.Prod.Lex
/-!
# Model of `InitialCondition` and of the reconstruction loop

`datafold/pcfold/timeseries/collection.py` 1723-1975, `datafold/pcfold/timeseries/accessor.py` 1265-1293,
`datafold/dynfold/base.py` 798-820, `datafold/dynfold/dmd.py` 412-463.
-/

namespace Verif.Tsc

open Verif.Np

variable {V W : Type}

/-- `time_interval(id)` (collection.py 1476-1490): smallest and largest time value of the series. -/
def timeInterval (c : List (Row Int V)) (i : Nat) : Int × Int :=
  let t := unique ((c.filter (fun r => r.id == i)).map (·.time))
  (t.headD 0, t.getLastD 0)

/-- Column `delta_time` of `time_values_overview` (accessor.py 1265-1293): a scalar is repeated, a Series is aligned by ID. -/
def deltaOf (k : TimeKind) (c : List (Row Int V)) (i : Nat) : Option Int :=
  match deltaTime k c with
  | .one d => d
  | .per l => ((l.find? (fun p => p.1 == i)).map (·.2)).getD none

/-- Sort key of one row of the table: start, end, delta time. -/
abbrev TimeKey := Int ×ₗ Int ×ₗ Int

/-- `time_values_overview` with the nan check of `iter_reconstruct_ic` (collection.py 1875-1881); `none` if a delta time is nan. -/
def overviewKey (k : TimeKind) (c : List (Row Int V)) (i : Nat) : Option TimeKey :=
  (deltaOf k c i).map (fun d => toLex ((timeInterval c i).1, toLex ((timeInterval c i).2, d)))

/-- `InitialCondition.iter_reconstruct_ic` (collection.py 1849-1897): the pairs of initial states and time values, in the (sorted) order of the
groups. `X.loc[grouped_ids, :]` gathers the rows of the listed IDs. -/
def iterReconstruct (k : TimeKind) (c : List (Row Int V)) (n : Nat) : Except TscErr (List (List (Row Int V) × List Int)) :=
  if !checkMinTimesteps c n then .error .minTimesteps
  else if (ids c).any (fun i => (overviewKey k c i).isNone) then .error .notConstDelta
  else
    let keys := unique ((ids c).filterMap (overviewKey k c))
    keys.mapM (fun key =>
      let grouped := (ids c).filter (fun i => overviewKey k c i == some key)
      let tsc := grouped.flatMap (fun i => c.filter (fun r => r.id == i))
      match initialStates tsc n with
      | .error e => .error e
      | .ok ic => .ok (ic, (timeValues tsc).drop (n - 1)))

/-- `reconstruct` of `DMDBase` (dmd.py 412-463) and of `TSCPredictMixin` (base.py 798-820) without control: `predict` is called for every
group and the results are concatenated to a new collection. -/
def reconstructWith {E : Type} (lift : TscErr → E) (predict : List (Row Int V) → List Int → Except E (List (Row Int W))) (k : TimeKind)
    (c : List (Row Int V)) : Except E (List (Row Int W)) :=
  match iterReconstruct k c 1 with
  | .error e => .error (lift e)
  | .ok groups =>
    match groups.mapM (fun g => predict g.1 g.2) with
    | .error e => .error e
    | .ok parts =>
      match build parts.flatten with
      | .error e => .error (lift e)
      | .ok d => .ok d

end Verif.Tsc
