import Verif.Tsc.DeltaTime
/-!
# The checks of `TSCAccessor`

Models `check_tsc` and the single checks it combines (datafold/pcfold/timeseries/accessor.py 48-316), and
`check_equal_delta_time` (318-394). Integer or datetime time values in exact arithmetic; feature values are abstract, `fin` says
whether all values of a row are finite.
-/

namespace Verif.Tsc

open Verif.Np

variable {V : Type}

/-- The exceptions of the checks; `attribute` is the `AttributeError` of accessor.py 245 that is not converted into a `TSCException`, `ambiguous` the
`ValueError` of the truth value of a `pd.Series`. -/
inductive CheckErr
  | notFinite | minSamples | minFeatures | sameLength | constDelta | requiredDelta | attribute | sameTimeValues | normalized
  | nTimeseries | nTimesteps | minTimesteps | degenerate | dtype | requiredIds | overlapping | ambiguous
deriving DecidableEq, Repr

/-- The arguments of `check_tsc` (accessor.py 48-64). -/
structure TscReq where
  allFinite : Bool := true
  minSamples : Int := 1
  minFeatures : Int := 1
  sameLength : Bool := false
  constDelta : Bool := true
  delta : Option Int := none
  sameTimeValues : Bool := false
  normalized : Bool := false
  nTimeseries : Option Int := none
  minTimesteps : Option Int := none
  nTimesteps : Option Int := none
  noDegenerate : Bool := true
  dtype : Option TimeKind := none

/-- `np.testing.assert_allclose(a, d, rtol=1e-12, atol=1e-15)` for one integer value (accessor.py 250-255): `|a - d| <= 1e-15 + 1e-12 |d|`, multiplied by
`10^15`; nan is only close to nan. -/
def closeDelta (a : Option Int) (d : Int) : Bool :=
  match a with
  | none => false
  | some a => decide ((a - d).natAbs * 10 ^ 15 ≤ 1 + 1000 * d.natAbs)

/-- `check_required_time_delta` (accessor.py 223-260) for a single required value. -/
def checkRequiredDelta (k : TimeKind) (c : List (Row Int V)) (d : Int) : Option CheckErr :=
  match k with
  | .datetime => if (deltaTime k c).values.any (fun a => a != some d) then some .attribute else none
  | .int => if (deltaTime k c).values.all (fun a => closeDelta a d) then none else some .requiredDelta

/-- `check_required_n_timesteps` (accessor.py 277-285). -/
def checkNTimesteps (c : List (Row Int V)) (n : Int) : Bool :=
  match nTimesteps c with
  | .per _ => false
  | .one m => (m : Int) == n

/-- A check as `ok` / exception, in the form of one line of `check_tsc`. -/
def failIf (b : Bool) (e : CheckErr) : Option CheckErr := if b then some e else none

/-- The lines of `check_tsc` in the order of the code (accessor.py 113-155). -/
def tscChecks (k : TimeKind) (fin : V → Bool) (nCols : Nat) (q : TscReq) (c : List (Row Int V)) : List (Option CheckErr) :=
  [ failIf (q.allFinite && !c.all (fun r => fin r.val)) .notFinite,
    failIf (decide ((c.length : Int) < q.minSamples)) .minSamples,
    failIf (decide ((nCols : Int) < q.minFeatures)) .minFeatures,
    failIf (q.sameLength && !isEqualLength c) .sameLength,
    failIf (q.constDelta && !isConstDeltaTime k c) .constDelta,
    q.delta.bind (checkRequiredDelta k c),
    failIf (q.sameTimeValues && !isSameTimeValues c) .sameTimeValues,
    failIf (q.normalized && !isNormalizedTime k c) .normalized,
    q.nTimeseries.bind (fun n => failIf ((nTimeseries c : Int) != n) .nTimeseries),
    q.nTimesteps.bind (fun n => failIf (!checkNTimesteps c n) .nTimesteps),
    q.minTimesteps.bind (fun n => failIf (!checkMinTimesteps c n) .minTimesteps),
    failIf (q.noDegenerate && (degenerateIds c).isSome) .degenerate,
    q.dtype.bind (fun t => failIf (t != k) .dtype) ]

/-- Runs checks one after the other, the first exception ends the run. -/
def runChecks (l : List (Option CheckErr)) : Except CheckErr Unit :=
  match l with
  | [] => .ok ()
  | some e :: _ => .error e
  | none :: l => runChecks l

/-- `check_tsc` (accessor.py 48-157). Returns the collection itself. -/
def checkTsc (k : TimeKind) (fin : V → Bool) (nCols : Nat) (q : TscReq) (c : List (Row Int V)) : Except CheckErr (List (Row Int V)) :=
  match runChecks (tscChecks k fin nCols q c) with
  | .ok () => .ok c
  | .error e => .error e

/-- `check_contain_required_ids` (accessor.py 197-212). -/
def checkRequiredIds {τ : Type} [LinearOrder τ] (c : List (Row τ V)) (required : List Nat) (checkOrder : Bool) : Option CheckErr :=
  if checkOrder then failIf (decide ((groupHead 1 [] c).map (·.id) ≠ required)) .requiredIds
  else failIf (decide (ids c ≠ required.mergeSort (· ≤ ·))) .requiredIds

/-- `check_non_overlapping_timeseries` (accessor.py 303-315). -/
def checkNonOverlapping {τ : Type} [LinearOrder τ] (c : List (Row τ V)) : Option CheckErr :=
  failIf ((unique (c.map (·.time))).any (fun t => decide (1 < (c.map (·.time)).count t))) .overlapping

/-- `equal_const_delta_time` (accessor.py 373-394) with `atol = 1e-15` on integers; nan is never close. -/
def equalConstDelta (a b : Option Int) : Bool :=
  match a, b with
  | some a, some b => a == b
  | _, _ => false

/-- `check_equal_delta_time` (accessor.py 317-370) for integer time. In the last branch a `pd.Series` compared with a number gives a `pd.Series`, whose
truth value is ambiguous. `assert_series_equal` compares the index and the values (nan equal to nan). -/
def checkEqualDelta (x y : PerId (Option Int)) (requireConst : Bool) : Except CheckErr Unit :=
  match x, y with
  | .per lx, .per ly => if requireConst then .error .constDelta else if lx = ly then .ok () else .error .requiredDelta
  | .per _, .one _ => if requireConst then .error .constDelta else .error .requiredDelta
  | .one _, .per _ => if requireConst then .error .constDelta else .error .ambiguous
  | .one a, .one b => if equalConstDelta a b then .ok () else .error .requiredDelta

end Verif.Tsc
