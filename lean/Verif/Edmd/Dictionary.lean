import Verif.Transform.Columns
import Verif.Utils.General
/-!
# Model of the dictionary of `EDMD`

`datafold/appfold/edmd.py`: the pipeline of transformers in `fit` (1020-1040), `transform` (1421-1457), `_compute_n_samples_ic` (474-485), `_set_dict_preserves_id_state` (456-472),
`_attach_id_state` (668-688) and `inverse_transform` (1553-1586); integer time values.

A transformer is what its `fit` returns, a step is its `fit`.
-/

namespace Verif.Dict

open Verif.Tsc Verif.Np Verif.Takens Verif.Utils

variable {α : Type}

/-- Exceptions. -/
inductive DictErr | takens (e : TErr) | col (e : Transform.ColErr) | features | duplicates | assertion | tsc (e : TscErr) | projection
deriving DecidableEq, Repr

/-- A fitted transformer. -/
abbrev Transformer (α : Type) := Frame α → Except DictErr (Frame α)

/-- A step of the dictionary: `fit`. -/
abbrev Step (α : Type) := Frame α → Except DictErr (Transformer α)

/-- `TSCTakensEmbedding` (transform.py 651-819) as a step. -/
def takensStep [Mul α] (p : Params) (w : Option (Nat → α)) : Step α := fun X =>
  match Takens.fit p .int X with
  | .error e => .error (.takens e)
  | .ok f => .ok (fun Y => match Takens.transform f w .int Y with
    | .error e => .error (.takens e)
    | .ok Z => .ok Z)

/-- `TSCMovingAverage` (transform.py 1012-1072) as a step. -/
def averageStep [Add α] [Div α] [NatCast α] (w : Int) : Step α := fun X => .ok (fun Y =>
  if Y.cols ≠ X.cols then .error .features
  else match Transform.movingAverage w .int Y with
    | .error e => .error (.col e)
    | .ok Z => .ok Z)

/-- A transformer that maps every sample by itself with `g`; `cols` are the labels seen in `fit` and `out` the labels of the result. -/
def rowTransform (g : List α → List α) (cols out : List String) : Transformer α := fun Y =>
  if Y.cols ≠ cols then .error .features
  else if ¬ out.Nodup then .error .duplicates
  else match build (Y.rows.map (fun r => (⟨r.id, r.time, g r.val⟩ : Row Int (List α)))) with
    | .error e => .error (.tsc e)
    | .ok rows => .ok ⟨out, rows⟩

/-- A step whose transformer maps every sample by itself with a map `g X` that is found in `fit`; `names` are the labels of the result. With `names cols = cols` this is
`TSCFeaturePreprocess` (transform.py 70-155) for the scalers of `from_name`, with other names `TSCPolynomialFeatures`, `TSCRadialBasis` and the like. -/
def rowStep (g : Frame α → List α → List α) (names : List String → List String) : Step α := fun X => .ok (rowTransform (g X) X.cols (names X.cols))

/-- Smallest and largest value of column `k`. -/
def columnRange (X : Frame ℚ) (k : Nat) : ℚ × ℚ :=
  match X.rows.map (fun r => r.val.getD k 0) with
  | [] => (0, 0)
  | x :: xs => (xs.foldl min x, xs.foldl max x)

/-- The min-max scaler of `TSCFeaturePreprocess.from_name` (transform.py 41-68), fitted to `X`; a column with one value has the scale one (sklearn's `_handle_zeros_in_scale`). -/
def minMax (X : Frame ℚ) (v : List ℚ) : List ℚ :=
  (List.range v.length).map (fun k => (v.getD k 0 - (columnRange X k).1) / (if (columnRange X k).2 = (columnRange X k).1 then 1 else (columnRange X k).2 - (columnRange X k).1))

/-- `self._fit(X)`: the dictionary part of the pipeline calls `fit_transform` of the steps one after the other (edmd.py 1020-1023). -/
def fitSteps : List (Step α) → Frame α → Except DictErr (List (Transformer α) × Frame α)
  | [], X => .ok ([], X)
  | s :: ss, X => match s X with
    | .error e => .error e
    | .ok T => match T X with
      | .error e => .error e
      | .ok Y => match fitSteps ss Y with
        | .error e => .error e
        | .ok (Ts, D) => .ok (T :: Ts, D)

/-- The loop over the transformers (edmd.py 1450-1451, 1461-1462). -/
def runSteps : List (Transformer α) → Frame α → Except DictErr (Frame α)
  | [], X => .ok X
  | T :: Ts, X => match T X with
    | .error e => .error e
    | .ok Y => runSteps Ts Y

/-- The difference of the number of samples of one series; `none` is the nan for a series that is missing in one of the two. -/
def diffOf (b : List (Nat × Nat)) (p : Nat × Nat) : Option Int := (b.lookup p.1).map (fun k : Nat => (p.2 : Int) - (k : Int))

/-- `_compute_n_samples_ic` (edmd.py 474-485). -/
def nSamplesIc (a b : PerId Nat) : Except DictErr Int :=
  match a, b with
  | .one x, .one y => .ok ((x : Int) - y + 1)
  | .per l, .one y => perSeries (l.map (fun p => some ((p.2 : Int) - y)))
  | .one x, .per l => perSeries (l.map (fun p => some ((x : Int) - p.2)))
  | .per l, .per l' => perSeries (l.map (diffOf l') ++ (l'.filter (fun p => (l.lookup p.1).isNone)).map (fun _ => none))
where
  /-- The assertion that all differences are the same. -/
  perSeries (ds : List (Option Int)) : Except DictErr Int :=
    match ds with
    | some d :: rest => if rest.all (fun x => x == some d) then .ok (d + 1) else .error .assertion
    | _ => .error .assertion

/-- `_attach_id_state` (edmd.py 668-688): the features of the sample with the same index in front; a label that occurs twice raises. Simplification: the rows are in the order of the
dictionary. -/
def attach (X D : Frame α) : Except DictErr (Frame α) :=
  if ¬ (X.cols ++ D.cols).Nodup then .error .duplicates
  else match build (D.rows.map (fun r => (⟨r.id, r.time, ((X.rows.find? (fun x => decide (x.key = r.key))).map (·.val)).getD [] ++ r.val⟩ : Row Int (List α)))) with
    | .error e => .error (.tsc e)
    | .ok rows => .ok ⟨X.cols ++ D.cols, rows⟩

/-- What `fit` stores about the dictionary. -/
structure Fit (α : Type) where
  steps : List (Transformer α)
  cols : List String
  nIc : Int
  preserves : Bool

/-- `_set_dict_preserves_id_state` (edmd.py 456-472): `none` is `infer`. -/
def preserves (opt : Option Bool) (feat dict : List String) : Bool :=
  match opt with
  | none => feat.all (fun n => decide (n ∈ dict))
  | some b => b

/-- Attach the original states if they are asked for and not in the dictionary (edmd.py 1040-1042, 1453-1454). -/
def withState (includeId pres : Bool) (X D : Frame α) : Except DictErr (Frame α) := if includeId && !pres then attach X D else .ok D

/-- The dictionary part of `fit` (edmd.py 1020-1042): the stored attributes and the dictionary data for the DMD model. -/
def fitDict (steps : List (Step α)) (includeId : Bool) (opt : Option Bool) (X : Frame α) : Except DictErr (Fit α × Frame α) :=
  match fitSteps steps X with
  | .error e => .error e
  | .ok (Ts, D) => match nSamplesIc (nTimesteps X.rows) (nTimesteps D.rows) with
    | .error e => .error e
    | .ok n => match withState includeId (preserves opt X.cols D.cols) X D with
      | .error e => .error e
      | .ok D' => .ok (⟨Ts, X.cols, n, preserves opt X.cols D.cols⟩, D')

/-- `transform` (edmd.py 1421-1457) of a collection. -/
def transform (f : Fit α) (includeId : Bool) (X : Frame α) : Except DictErr (Frame α) :=
  match runSteps f.steps X with
  | .error e => .error e
  | .ok D => withState includeId f.preserves X D

/-- `inverse_transform` (edmd.py 1553-1586) with the projection that is used if the original states are attached or taken to be preserved (edmd.py 540-550). -/
def inverseProject [Semiring α] (f : Fit α) (D : Frame α) : Except DictErr (Frame α) :=
  match projectionMatrix (α := α) D.cols f.cols with
  | none => .error .projection
  | some P => .ok ⟨f.cols, D.rows.map (fun r => { r with val := (List.range f.cols.length).map (rowMul D.cols.length (fun k => r.val.getD k 0) P) })⟩

end Verif.Dict
