import Verif.Tsc.Check
import Verif.Tsc.TimeOps
/-!
# Frames as arguments, and initial conditions

Models `TSCDataFrame.insert_ts` together with its effect on the inserted data frame, `TSCDataFrame.from_single_timeseries`, and the class
`InitialCondition` (datafold/pcfold/timeseries/collection.py 579-624, 1416-1474, 1721-1959).
-/

namespace Verif.Tsc

open Verif.Np

variable {τ V : Type}

section
variable [LinearOrder τ]

/-- `TSCDataFrame.from_single_timeseries` (collection.py 579-624): the rows are sorted by time; `ts_id` defaults to 0. Negative IDs are rejected by the validation. -/
def fromSingle (df : List (τ × V)) (tsId : Option Int) : Except TscErr (List (Row τ V)) :=
  let i := tsId.getD 0
  if i < 0 then .error (.index .negativeId)
  else build ((df.mergeSort (fun a b => decide (a.1 ≤ b.1))).map (fun p => ⟨i.toNat, p.1, p.2⟩))

/-- A data frame object: with a flat time index, a `TSCDataFrame`, or a plain `pd.DataFrame` with a two-level index (whose IDs are not validated). -/
inductive Frame (τ V : Type)
  | plain (df : List (τ × V))
  | tsc (c : List (Row τ V))
  | multi (df : List (Int × τ × V))
deriving DecidableEq, Repr

/-- The ID of the new time series (collection.py 1434-1435). -/
def insertId (c : List (Row τ V)) (tsId : Option Int) : Int := tsId.getD (((ids c).foldl max 0 : Nat) + 1)

/-- `TSCDataFrame.insert_ts` (collection.py 1416-1474): the result or exception, and the data frame that was passed, as it is afterwards (line 1467 assigns its index).
Columns and time type agree by typing. -/
def insertFrame (c : List (Row τ V)) (df : Frame τ V) (tsId : Option Int) : Except TscErr (List (Row τ V)) × Frame τ V :=
  let i := insertId c tsId
  if (ids c).any (fun j => (j : Int) == i) then (.error .idExists, df)
  else match df with
    | .multi l => (.error .incompatible, .multi l)
    | .plain l =>
      let after := Frame.multi (l.map (fun p => (i, p.1, p.2)))
      if i < 0 then (.error (.index .negativeId), after) else (build (c ++ l.map (fun p => ⟨i.toNat, p.1, p.2⟩)), after)
    | .tsc d =>
      if i < 0 then (.error (.index .negativeId), .tsc d)
      else match build (d.map (fun r => ({ r with id := i.toNat } : Row τ V))) with
        | .error e => (.error e, .tsc d)
        | .ok d' => (build (c ++ d'), .tsc d')

end

/-- Exceptions of `InitialCondition`. -/
inductive IcErr
  | tsc (e : TscErr) | check (e : CheckErr) | deltaWithoutSamples | deltaWithOneSample
deriving DecidableEq, Repr

/-- The requirements that `InitialCondition.validate` passes to `check_tsc` (collection.py 1949-1957). -/
def icReq (n dt : Option Int) (c : List (Row Int V)) : TscReq where
  constDelta := (Verif.Tsc.nTimesteps c).values.any (fun m => decide (1 < m))
  noDegenerate := false
  sameLength := true
  allFinite := true
  sameTimeValues := true
  nTimesteps := n
  delta := dt

/-- `InitialCondition.validate` (collection.py 1900-1959), for an object that is a `TSCDataFrame`. -/
def icValidate (k : TimeKind) (fin : V → Bool) (nCols : Nat) (n dt : Option Int) (c : List (Row Int V)) : Except IcErr Unit :=
  if n = none ∧ dt ≠ none then .error .deltaWithoutSamples
  else if n = some 1 ∧ dt ≠ none then .error .deltaWithOneSample
  else match checkTsc k fin nCols (icReq n dt c) c with
    | .ok _ => .ok ()
    | .error e => .error (.check e)

/-- `InitialCondition.from_array` (collection.py 1738-1795) for a matrix of states, one row per initial condition. -/
def icFromArray (k : TimeKind) (fin : V → Bool) (nCols : Nat) (X : List V) (t : Int) (tsIds : Option (List Nat)) : Except IcErr (List (Row Int V)) :=
  let l := tsIds.getD (List.range X.length)
  if l.length ≠ X.length then .error (.tsc .idsLength)
  else match buildInt k (List.zipWith (fun i x => (⟨i, t, x⟩ : Row Int V)) l X) with
    | .error e => .error (.tsc e)
    | .ok c => match icValidate k fin nCols (some 1) none c with
      | .ok _ => .ok c
      | .error e => .error e

/-- `InitialCondition.from_tsc` (collection.py 1824-1846). `delta_time` of the whole collection is required of initial conditions with several samples; a nan is never
met. A `delta_time` per series is compared entry by entry in the code; here it is rejected. -/
def icFromTsc (k : TimeKind) (fin : V → Bool) (nCols : Nat) (X : List (Row Int V)) (n : Int) : Except IcErr (List (Row Int V)) :=
  match initialStates X n with
  | .error e => .error (.tsc e)
  | .ok c =>
    if 1 < n then match deltaTime k X with
      | .one (some d) => match icValidate k fin nCols (some n) (some d) c with
        | .ok _ => .ok c
        | .error e => .error e
      | _ => .error (.check .requiredDelta)
    else match icValidate k fin nCols (some n) none c with
      | .ok _ => .ok c
      | .error e => .error e

end Verif.Tsc
