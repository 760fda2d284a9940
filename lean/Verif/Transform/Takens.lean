import Verif.Tsc.DeltaTime
/-!
# Model of `TSCTakensEmbedding`

`datafold/dynfold/transform.py` 518-853.  A frame is the column labels and the rows of a time series collection; the value of a row is its
list of feature values.
-/

namespace Verif.Takens

open Verif.Tsc Verif.Np

/-- A time series collection with column labels. -/
structure Frame (α : Type) where
  cols : List String
  rows : List (Row Int (List α))
deriving DecidableEq, Repr

/-- Constructor parameters (transform.py 553-572); `kappa` is separate, see `takensSeries`. -/
structure Params where
  lag : Int
  delays : Int
  frequency : Int
deriving DecidableEq, Repr

/-- Exceptions. -/
inductive TErr | delays | lag | frequency | frequencyDelays | notConstDelta | deltaTime | minTimesteps | features | dupColumns | tsc (e : TscErr)
deriving DecidableEq, Repr

/-- `_validate_parameter` (transform.py 574-609) without the check of `kappa`. -/
def validateParams (p : Params) : Except TErr Unit :=
  if p.delays < 1 then .error .delays
  else if p.lag < 0 then .error .lag
  else if p.frequency < 1 then .error .frequency
  else if 1 < p.frequency ∧ p.delays ≤ 1 then .error .frequencyDelays
  else .ok ()

/-- `np.arange(start, stop, step)` for natural numbers and `step ≥ 1`: `ceil((stop - start) / step)` elements. -/
def arange (start stop step : Nat) : List Nat :=
  (List.range ((stop - start + step - 1) / step)).map (fun k => start + k * step)

/-- `_setup_delay_indices_array` (transform.py 611-617). -/
def delayIndices (p : Params) : List Nat :=
  (arange 1 (p.delays.toNat * p.frequency.toNat + 1) p.frequency.toNat).map (fun a => p.lag.toNat + a)

/-- `max(self.delay_indices_)` -/
def maxDelay (ds : List Nat) : Nat := ds.foldl max 0

/-- `get_feature_names_out` (transform.py 626-649). -/
def featureNamesOut (cols : List String) (ds : List Nat) : List String :=
  cols ++ (ds.map (fun d => cols.map (fun c => c ++ ":d" ++ toString d))).flatten

/-- State after `fit`. -/
structure Fitted where
  delays : List Nat
  cols : List String
  delta : PerId (Option Int)
deriving DecidableEq, Repr

/-- `fit` (transform.py 651-697) for a collection. -/
def fit {α : Type} (p : Params) (k : TimeKind) (X : Frame α) : Except TErr Fitted :=
  match validateParams p with
  | .error e => .error e
  | .ok () =>
    let ds := delayIndices p
    if !isConstDeltaTime k X.rows then .error .notConstDelta
    else if !checkMinTimesteps X.rows (maxDelay ds + 1 : Nat) then .error .minTimesteps
    else .ok ⟨ds, X.cols, deltaTime k X.rows⟩

/-- `np.hstack` of 2-d arrays with the same number of rows. -/
def hstack {α : Type} : List (List (List α)) → List (List α)
  | [] => []
  | [b] => b
  | b :: bs => List.zipWith (· ++ ·) b (hstack bs)

/-- `a[start : -back]` for `back ≥ 1`. -/
def sliceBack {α : Type} (a : List α) (start back : Nat) : List α := (a.take (a.length - back)).drop start

/-- `np.repeat(v, n)` -/
def npRepeat {α : Type} (v : List α) (n : Nat) : List α := v.flatMap (List.replicate n)

/-- The weights of the delay blocks: `none` for `kappa = 0`; otherwise `some f` with `f k = exp(-kappa * k)`
(transform.py 778-786). -/
def kappaVec {α : Type} (w : Option (Nat → α)) (delays nFeatures : Nat) : Option (List α) :=
  w.map (fun f => npRepeat ((List.range delays).map (fun k => f (k + 1))) nFeatures)

/-- `delayed_data *= kappa_vec` row by row, if `kappa > 0` (transform.py 803-806). -/
def applyKappa {α : Type} [Mul α] (kv : Option (List α)) (delayed : List (List α)) : List (List α) :=
  match kv with
  | none => delayed
  | some kv => delayed.map (fun row => List.zipWith (· * ·) row kv)

/-- Loop body of `transform` for one series (transform.py 788-816).
Simplification: exact arithmetic; in numpy an integer `kappa` with integer data raises instead (in-place multiplication). -/
def takensSeries {α : Type} [Mul α] (ds : List Nat) (kv : Option (List α)) (s : List (Row Int (List α))) : List (Row Int (List α)) :=
  let m := maxDelay ds
  let data := s.map (·.val)
  let original := data.drop m
  let delayed := hstack (ds.map (fun d => sliceBack data (m - d) d))
  List.zipWith (fun r v => { r with val := v }) (s.drop m) (hstack [original, applyKappa kv delayed])

/-- `transform` (transform.py 726-819).  Simplification: the time delta is compared exactly (code: relative tolerance 1e-12). The result frame is
validated by the `TSCDataFrame` constructor, in particular no column label may occur twice. -/
def transform {α : Type} [Mul α] (f : Fitted) (w : Option (Nat → α)) (k : TimeKind) (X : Frame α) : Except TErr (Frame α) :=
  if deltaTime k X.rows ≠ f.delta then .error .deltaTime
  else if !checkMinTimesteps X.rows (maxDelay f.delays + 1 : Nat) then .error .minTimesteps
  else if X.cols ≠ f.cols then .error .features
  else
    let names := featureNamesOut f.cols f.delays
    if ¬ names.Nodup then .error .dupColumns
    else match build ((itertimeseries X.rows).flatMap (fun p =>
        takensSeries f.delays (kappaVec w f.delays.length f.cols.length) (p.2.map (fun q => ⟨p.1, q.1, q.2⟩)))) with
    | .error e => .error (.tsc e)
    | .ok rows => .ok ⟨names, rows⟩

/-- `X.loc[:, names]` for labels that exist: the columns with these labels, in this order. -/
def locCols {α : Type} [Inhabited α] (X : Frame α) (names : List String) : Frame α :=
  ⟨names, X.rows.map (fun r => { r with val := names.map (fun n => r.val.getD (X.cols.idxOf n) default) })⟩

/-- `inverse_transform` (transform.py 821-853). -/
def inverseTransform {α : Type} [Inhabited α] (f : Fitted) (X : Frame α) : Except TErr (Frame α) :=
  if X.cols ≠ featureNamesOut f.cols f.delays then .error .features
  else .ok (locCols X f.cols)

end Verif.Takens
