import Verif.Tsc.Model
import Mathlib.Algebra.Module.Defs
import Mathlib.Algebra.BigOperators.Group.List.Defs
import Mathlib.Data.Real.Basic
/-!
# Model of the radial basis transformation

`datafold/dynfold/transform.py` 1075-1305 (`TSCRadialBasis`).

A data set is either a plain array (the list of its points) or a time series collection.  Points are elements of a real vector space, a coefficient
row is the list of the kernel values at all centers.
-/

namespace Verif.Transform

open Verif.Tsc

variable {P : Type} [AddCommGroup P] [Module ℝ P]

/-- `X`, either an array or a collection. -/
inductive RbfData (P : Type)
  | array (l : List P)
  | tsc (c : List (Row Int P))

/-- `_X_to_numpy` -/
def RbfData.points : RbfData P → List P
  | .array l => l
  | .tsc c => c.map (·.val)

/-- `center_type` with the number of samples for `random` -/
inductive CenterType | allData | random (n : Nat) | fitParams | initialCondition
deriving DecidableEq, Repr

/-- Errors of the estimator. -/
inductive RbfErr | centersPassed | nSamples | noCenters | notTsc | tsc (e : TscErr) | notFitted | shape
deriving DecidableEq, Repr

/-- The attributes set by `fit` and by `inverse_transform`. -/
structure RbfState (P : Type) where
  centers : Option (List P)
  invCoeff : Option (List P)

/-- Kernel matrix `kernel(centers, X)`: one row per point, one column per center. -/
def kernelRows (k : P → P → ℝ) (centers X : List P) : List (List ℝ) := X.map (fun x => centers.map (fun c => k c x))

/-- The centers selected by `fit` (transform.py 1165-1211). `pick n m` is the random choice of `m` of `n` indices.  The check of the dimension of passed centers is left out:
points have a common dimension by type. -/
def selectCenters (pick : Nat → Nat → List Nat) (ct : CenterType) (X : RbfData P) (passed : Option (List P)) : Except RbfErr (List P) :=
  match ct with
  | .allData => if passed.isSome then .error .centersPassed else .ok X.points
  | .random m => if X.points.length < m then .error .nSamples else .ok ((pick X.points.length m).filterMap (fun i => X.points[i]?))
  | .fitParams => match passed with
    | none => .error .noCenters
    | some c => .ok c
  | .initialCondition => match X with
    | .array _ => .error .notTsc
    | .tsc c => match initialStates c 1 with
      | .error e => .error (.tsc e)
      | .ok d => .ok (d.map (·.val))

/-- `fit` (transform.py 1141-1215): sets `centers_`, and nothing else. -/
def rbfFit (pick : Nat → Nat → List Nat) (ct : CenterType) (s : RbfState P) (X : RbfData P) (passed : Option (List P)) : Except RbfErr (RbfState P) :=
  match selectCenters pick ct X passed with
  | .error e => .error e
  | .ok c => .ok { s with centers := some c }

/-- `transform` (transform.py 1217-1240): the coefficient rows. -/
def rbfTransform (k : P → P → ℝ) (s : RbfState P) (X : RbfData P) : Except RbfErr (List (List ℝ)) :=
  match s.centers with
  | none => .error .notFitted
  | some c => .ok (kernelRows k c X.points)

/-- `fit_transform` (transform.py 1242-1271): for `all_data` the kernel matrix of the data with itself. -/
def rbfFitTransform (k : P → P → ℝ) (pick : Nat → Nat → List Nat) (ct : CenterType) (s : RbfState P) (X : RbfData P) (passed : Option (List P)) :
    Except RbfErr (RbfState P × List (List ℝ)) :=
  match rbfFit pick ct s X passed with
  | .error e => .error e
  | .ok s' => match ct with
    | .allData => .ok (s', kernelRows k X.points X.points)
    | _ => match rbfTransform k s' X with
      | .error e => .error e
      | .ok r => .ok (s', r)

/-- One row of `rbf_coeff @ inv_coeff_matrix_`. -/
def combine (row : List ℝ) (W : List P) : P := (List.zipWith (· • ·) row W).sum

/-- `inverse_transform` (transform.py 1273-1305).  `lst` is `np.linalg.lstsq`.  The matrix is computed at the first call and stored. The number of coefficients is checked
against the number of centers (`_validate_feature_input`), and the product needs as many rows in the matrix. -/
def rbfInverse (k : P → P → ℝ) (lst : List (List ℝ) → List P → List P) (s : RbfState P) (rows : List (List ℝ)) : Except RbfErr (RbfState P × List P) :=
  match s.centers with
  | none => .error .notFitted
  | some c =>
    let W := s.invCoeff.getD (lst (kernelRows k c c) c)
    if rows.any (fun r => decide (r.length ≠ c.length)) ∨ W.length ≠ c.length then .error .shape
    else .ok ({ s with invCoeff := some W }, rows.map (fun r => combine r W))

/-- Calls of a user. -/
inductive RbfOp (P : Type)
  | fit (X : RbfData P) (passed : Option (List P))
  | transform (X : RbfData P)
  | inverse (rows : List (List ℝ))

/-- The state after one call; a call that raises leaves the state as it is. -/
def rbfStep (k : P → P → ℝ) (lst : List (List ℝ) → List P → List P) (pick : Nat → Nat → List Nat) (ct : CenterType) (s : RbfState P) : RbfOp P → RbfState P
  | .fit X passed => ((rbfFit pick ct s X passed).toOption).getD s
  | .transform _ => s
  | .inverse rows => (((rbfInverse k lst s rows).toOption).map Prod.fst).getD s

/-- The state after a history of calls on a new estimator. -/
def rbfRun (k : P → P → ℝ) (lst : List (List ℝ) → List P → List P) (pick : Nat → Nat → List Nat) (ct : CenterType) (ops : List (RbfOp P)) : RbfState P :=
  ops.foldl (rbfStep k lst pick ct) ⟨none, none⟩

end Verif.Transform
