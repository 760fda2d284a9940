import Verif.Kernel.Radial
import Verif.Lin.Lstsq
/-!
# Model of `LocalRegressionSelection`

`datafold/dynfold/dmap.py` 1258-1590: residuals of the local linear regression of an eigenvector on the previous ones, and the selection of indices.  Without subsampling
(`n_subsample=inf`); exact arithmetic (`rcond` of the least squares solver is ignored).
-/

namespace Verif.Kernel

open Matrix

/-- `bandwidth_type`. -/
inductive BandwidthType
  | median | mean
deriving DecidableEq, Repr

open Classical in
/-- `np.median`: the middle entry of the sorted list, or the mean of the two middle entries. -/
noncomputable def median (l : List ℝ) : ℝ :=
  let s := l.mergeSort (fun a b => decide (a ≤ b))
  if l.length % 2 = 1 then s.getD (l.length / 2) 0 else (s.getD (l.length / 2 - 1) 0 + s.getD (l.length / 2) 0) / 2

/-- `np.mean`. -/
noncomputable def mean (l : List ℝ) : ℝ := l.sum / l.length

variable {s q : Nat}

/-- All squared distances between the rows, `np.square(distance_matrix.flatten())`. -/
noncomputable def flatSquares (X : Matrix (Fin s) (Fin q) ℝ) : List ℝ := (List.finRange s).flatMap (fun i => (List.finRange s).map (fun j => Real.sqrt (sqDist (X i) (X j)) ^ 2))

open Classical in
/-- `eps_regression` (dmap.py 1396-1413).  `machineEps` is `np.finfo(float).eps`.  The theorems need `0 < scale`; the constructor also accepts
`eps_med_scale=0`, then the quotient is `inf` or `nan`, which is not modelled. -/
noncomputable def regressionBandwidth (b : BandwidthType) (scale machineEps : ℝ) (X : Matrix (Fin s) (Fin q) ℝ) : ℝ :=
  let e := (match b with
    | .median => median (flatSquares X)
    | .mean => mean (flatSquares X)) / scale
  if e = 0 then machineEps else e

/-- The weights `kernel_eigvec` (dmap.py 1416). -/
noncomputable def regressionWeights (eps : ℝ) (X : Matrix (Fin s) (Fin q) ℝ) (i j : Fin s) : ℝ := Real.exp (-1 * Real.sqrt (sqDist (X i) (X j)) ^ 2 / eps)

/-- The data matrix of the regression at sample `i`: a column of ones and the differences to row `i` (dmap.py 1445-1447). -/
def regressionData (X : Matrix (Fin s) (Fin q) ℝ) (i : Fin s) : Matrix (Fin s) (Option (Fin q)) ℝ :=
  Matrix.of (fun j c => match c with
    | none => 1
    | some a => X j a - X i a)

/-- `row` is a row of coefficients found at sample `i` (dmap.py 1449-1463): the first row of a least squares solution of `(Xᵀ W X) A = Xᵀ W`. -/
def IsCoeffRow (eps : ℝ) (X : Matrix (Fin s) (Fin q) ℝ) (i : Fin s) (row : Fin s → ℝ) : Prop :=
  ∃ A : Matrix (Option (Fin q)) (Fin s) ℝ,
    Lin.IsLstsqM ((regressionData X i)ᵀ * Matrix.diagonal (regressionWeights eps X i) * regressionData X i) ((regressionData X i)ᵀ * Matrix.diagonal (regressionWeights eps X i)) A ∧
    row = A none

open Classical in
/-- `r` is the residual of the regression of `target` on the columns of `X` (dmap.py 1377-1495).  A target of zeros gives `nan`. -/
noncomputable def IsResidual (b : BandwidthType) (scale machineEps : ℝ) (X : Matrix (Fin s) (Fin q) ℝ) (target : Fin s → ℝ) (r : Except KErr ℝ) : Prop :=
  ∃ C : Matrix (Fin s) (Fin s) ℝ, (∀ i, IsCoeffRow (regressionBandwidth b scale machineEps X) X i (C i)) ∧
    r = if ∑ i, target i ^ 2 = 0 then .error .notFinite else .ok (Real.sqrt ((∑ i, (target i - (C *ᵥ target) i) ^ 2) / ∑ i, target i ^ 2))

/-- The array `residuals` used for the selection (dmap.py 1501-1502 and 1569-1578): `-1` for the trivial eigenvector, `1` for the first one, and the computed ones. -/
def selectionResiduals (computed : List ℝ) : List ℝ := -1 :: 1 :: computed

open Classical in
/-- Strategy `"threshold"` (dmap.py 1521-1524 and the check 1352-1360). -/
noncomputable def selectThreshold (thr : ℝ) (computed : List ℝ) : Except KErr (List Nat) :=
  if 0 < thr ∧ thr < 1 then .ok ((List.range (computed.length + 2)).filter (fun i => decide (thr < (selectionResiduals computed).getD i 0)))
  else .error .value

/-- `np.argpartition(-residuals, dim)[:dim]`, as a relation: `dim` different indices, none of the others has a larger residual. -/
def IsLargest (r : List ℝ) (dim : Nat) (idx : List Nat) : Prop :=
  idx.Nodup ∧ idx.length = dim ∧ (∀ i ∈ idx, i < r.length) ∧ ∀ i ∈ idx, ∀ j < r.length, j ∉ idx → r.getD j 0 ≤ r.getD i 0

/-- Strategy `"dim"` (dmap.py 1507-1517 and the check 1343-1350). -/
def SelectDim (dim : Nat) (computed : List ℝ) (res : Except KErr (List Nat)) : Prop :=
  if 1 ≤ dim ∧ dim ≤ computed.length + 1 then
    if dim = 1 then res = .ok [1]
    else ∃ idx, IsLargest (selectionResiduals computed) dim idx ∧ res = .ok (idx.mergeSort (fun a b => decide (a ≤ b)))
  else res = .error .value

end Verif.Kernel
