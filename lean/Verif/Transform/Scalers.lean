import Mathlib.Analysis.SpecialFunctions.Pow.Real
/-!
# Model of the feature scalers

`datafold/dynfold/transform.py`: `TSCFeaturePreprocess` with the scalers of `from_name`. From scikit-learn the documented results of `StandardScaler` and `MinMaxScaler` are modelled in exact real
arithmetic (a standard deviation or range of zero is replaced by one).
-/

namespace Verif.Transform

/-- Input and output of a transformer: the labels of the columns (`none` for a numpy array), the number of columns and the rows. The row index is not part of the model: the result always has the index of
the argument (see C159). -/
structure Table (α : Type) where
  cols : Option (List String)
  n : Nat
  rows : List (List α)

/-- Exceptions. -/
inductive TabErr | features | names | broadcast | attribute | type | key | notFitted
deriving DecidableEq, Repr

/-- The scalers of `from_name` (transform.py 41-65). -/
inductive ScaleKind | center | minMax | standard
deriving DecidableEq, Repr

/-- The values of one feature. -/
def colOf (X : Table ℝ) (k : Nat) : List ℝ := X.rows.map (fun v => v.getD k 0)

/-- Mean of the samples. -/
noncomputable def meanOf (l : List ℝ) : ℝ := l.sum / l.length

/-- Variance of the samples (divided by their number). -/
noncomputable def varOf (l : List ℝ) : ℝ := (l.map (fun x => (x - meanOf l) ^ 2)).sum / l.length

/-- Smallest and largest value. -/
def minOf (l : List ℝ) : ℝ := l.tail.foldr min (l.headD 0)

/-- Largest value. -/
def maxOf (l : List ℝ) : ℝ := l.tail.foldr max (l.headD 0)

/-- `_handle_zeros_in_scale` of scikit-learn. -/
noncomputable def noZeros (x : ℝ) : ℝ := open Classical in if x = 0 then 1 else x

/-- What is subtracted from feature values. -/
noncomputable def shiftOf : ScaleKind → List ℝ → ℝ
  | .center, l => meanOf l
  | .standard, l => meanOf l
  | .minMax, l => minOf l

/-- What feature values are divided by. -/
noncomputable def scaleOf : ScaleKind → List ℝ → ℝ
  | .center, _ => 1
  | .standard, l => noZeros (Real.sqrt (varOf l))
  | .minMax, l => noZeros (maxOf l - minOf l)

/-- A fitted scaler. -/
structure ScalerFit where
  names : Option (List String)
  n : Nat
  shift : Nat → ℝ
  scale : Nat → ℝ

/-- `fit` (transform.py 73-105). -/
noncomputable def fitScaler (kind : ScaleKind) (X : Table ℝ) : ScalerFit := ⟨X.cols, X.n, fun k => shiftOf kind (colOf X k), fun k => scaleOf kind (colOf X k)⟩

/-- `_validate_feature_input(direction="transform")` (base.py 280-287): names are compared only if the model and the data have them (scikit-learn warns otherwise). -/
def checkInput {α : Type} (names : Option (List String)) (n : Nat) (X : Table α) : Except TabErr Unit :=
  if X.n ≠ n then .error .features
  else match names with
    | none => .ok ()
    | some a => match X.cols with
      | none => .ok ()
      | some b => if a = b then .ok () else .error .names

/-- `transform` (transform.py 107-130); the names of the result are the names seen in `fit`, or `x0, x1, …`. -/
noncomputable def scale (f : ScalerFit) (X : Table ℝ) : Except TabErr (Table ℝ) :=
  match checkInput f.names f.n X with
  | .error e => .error e
  | .ok () => .ok ⟨X.cols.map (fun _ => f.names.getD ((List.range f.n).map (fun k => s!"x{k}"))), X.n, X.rows.map (fun v => v.mapIdx (fun k x => (x - f.shift k) / f.scale k))⟩

/-- `inverse_transform` (transform.py 159-178). The argument is not validated: only numpy's broadcasting rejects a wrong number of columns (one fitted feature is broadcast to any number of columns; labels of
another number raise). `self.feature_names_in_` is read also for arrays, and does not exist if the model was fitted to an array. -/
noncomputable def unscale (f : ScalerFit) (X : Table ℝ) : Except TabErr (Table ℝ) :=
  if X.n ≠ f.n ∧ f.n ≠ 1 then .error .broadcast
  else match f.names with
    | none => .error .attribute
    | some a => match X.cols with
      | none => .ok ⟨none, X.n, X.rows.map (fun v => v.mapIdx (fun k x => x * f.scale (min k (f.n - 1)) + f.shift (min k (f.n - 1))))⟩
      | some _ => if X.n ≠ f.n then .error .broadcast else .ok ⟨some a, X.n, X.rows.map (fun v => v.mapIdx (fun k x => x * f.scale k + f.shift k))⟩

end Verif.Transform
