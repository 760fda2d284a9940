import Verif.Kernel.Neighbor
import Mathlib.Data.Rat.Floor
/-!
# Model of the estimated cut-off distance

`datafold/pcfold/estimators.py` 23-95 (`estimate_cutoff`).  The point cloud is represented by the matrix of its pair-wise Euclidean distances, the random permutation is a parameter.
-/

namespace Verif.Kernel

open Matrix

/-- `np.max` of a list (estimators.py 67, 94); numpy raises a `ValueError` for an empty array. -/
noncomputable def npMax : List ℝ → Except KErr ℝ
  | [] => .error .value
  | a :: l => .ok (l.foldl max a)

/-- The check of `k` (estimators.py 58-61): a `ValueError` if `k <= 1 and not is_integer(k)`, otherwise `int(k)`, which truncates (non-integers are larger than one here).
Whole numbers stand for Python integers; for floats of magnitude less than one `is_integer` itself raises a `ZeroDivisionError` (see `Verif.Utils.isInteger`), the model has a single kind of error here. -/
def checkCutoffK (k : Rat) : Except KErr Int := if k ≤ 1 ∧ k.den ≠ 1 then .error .value else .ok k.floor

/-- The number of neighbours as the natural number the neighbour distances are called with; negative numbers are rejected there just as zero is (kernels.py 343-347). -/
noncomputable def kthRows {m n : Nat} (D : Matrix (Fin m) (Fin n) ℝ) (k : Int) : Except KErr (List ℝ) :=
  match kthDense D k.toNat with
  | .error e => .error e
  | .ok v => .ok (List.ofFn v)

/-- The distances `scipy.spatial.distance.pdist` returns (estimators.py 67). -/
def pdistList {n : Nat} (D : Matrix (Fin n) (Fin n) ℝ) : List ℝ := (List.finRange n).flatMap fun i => ((List.finRange n).filter fun j => decide (i < j)).map fun j => D i j

/-- The number of neighbours after it was limited by the columns of the distance matrix, i.e. by the size of the subsample (estimators.py 86). -/
def limitK (k : Int) (sub : Nat) : Int := min k sub

/-- The distances from the points of the subsample (rows) to all points (columns), i.e. `distance_matrix.T` (estimators.py 72-89). -/
def subRows {n : Nat} (D : Matrix (Fin n) (Fin n) ℝ) (sub : List (Fin n)) : Matrix (Fin sub.length) (Fin n) ℝ := fun i j => D (sub.get i) j

/-- `estimate_cutoff` without a `distance_matrix` (estimators.py 58-95).  `D` has the distances between all points, `perm` is the random permutation of the points. -/
noncomputable def estimateCutoff {n : Nat} (D : Matrix (Fin n) (Fin n) ℝ) (perm : List (Fin n)) (nSubsample : Nat) (k : Rat) : Except KErr ℝ :=
  (checkCutoffK k).bind fun k =>
    if n < 10 then npMax (pdistList D)
    else
      (kthRows (subRows D (perm.take (min n nSubsample))) (limitK k (perm.take (min n nSubsample)).length)).bind npMax

/-- `estimate_cutoff` with a `distance_matrix` of `m` rows (estimators.py 58-67, 90-95); the matrix is not used for less than ten points. -/
noncomputable def estimateCutoffGiven {n m c : Nat} (D : Matrix (Fin n) (Fin n) ℝ) (given : Matrix (Fin m) (Fin c) ℝ) (k : Rat) : Except KErr ℝ :=
  (checkCutoffK k).bind fun k =>
    if n < 10 then npMax (pdistList D) else (kthRows given k).bind npMax

end Verif.Kernel
