import Verif.Dist.Basic
/-!
# Model of `pcm_subsample` and `pcm_remove_outlier`

`datafold/pcfold/pointcloud.py` 286-421.  Distances are in exact arithmetic; the random permutation is an argument.
-/

namespace Verif.Dist

variable {P : Type}

/-- Sizes of the blocks of `np.array_split(a, k)` for `len(a) = n`: the first `n % k` blocks have one more entry. -/
def splitSizes (n k : Nat) : List Nat := (List.range k).map (fun b => n / k + if b < n % k then 1 else 0)

/-- Consecutive blocks of given sizes. -/
def takeBlocks {α : Type} : List Nat → List α → List (List α)
  | [], _ => []
  | s :: ss, l => l.take s :: takeBlocks ss (l.drop s)

/-- `np.array_split`. -/
def arraySplit {α : Type} (l : List α) (k : Nat) : List (List α) := takeBlocks (splitSizes l.length k) l

open Classical in
/-- The loop of `pcm_subsample` (pointcloud.py 338-371).  A point of a block is selected if no value is stored in its row of the distance matrix to the selected points with cut-off `c` (the second
condition never selects another point, because stored values and implicit zeros are smaller than the cut-off). -/
noncomputable def subsampleLoop (e : P → P → ℝ) {n : Nat} (pt : Fin n → P) (c : ℝ) (minAdded : Nat) : List (Fin n) → List (List (Fin n)) → List (Fin n)
  | sel, [] => sel
  | sel, b :: bs =>
    let add := b.filter (fun i => decide (∀ j ∈ sel, ¬ e (pt i) (pt j) < c))
    if add.length ≤ minAdded then sel ++ add else subsampleLoop e pt c minAdded (sel ++ add) bs

open Classical in
/-- `pcm_subsample` (pointcloud.py 286-378): the selected indices.  `minDistance = none` is `inf` (the default for point clouds without cut-off), for which the distance matrix is dense and has no method
`getnnz`. -/
noncomputable def pcmSubsample (e : P → P → ℝ) {n : Nat} (pt : Fin n → P) (perm : List (Fin n)) (nSamples : Nat) (minDistance : Option ℝ) (minAdded : Nat) : Except DErr (List (Fin n)) :=
  if nSamples = 0 then .error .zeroDivision
  else
    match arraySplit perm (n / nSamples + 1) with
    | [] => .error .value
    | [b] => .ok b
    | b :: bs =>
      match setCutOff .euclidean minDistance with
      | .error err => .error err
      | .ok none => if b.length ≤ 1 then .error .value else .error .attribute
      | .ok (some c) => if b.length ≤ 1 then .error .value else .ok (subsampleLoop e pt c minAdded b bs)

/-- `(distance_matrix > 0).sum(axis=1)` (pointcloud.py 415). -/
noncomputable def positiveCount {n : Nat} (D : Fin n → Fin n → ℝ) (i : Fin n) : Nat := open Classical in (Finset.univ.filter (fun j => 0 < D i j)).card

/-- The indices with at least `kmin` counted values, and the others (pointcloud.py 413-419). -/
def splitByCount {n : Nat} (kmin : Int) (f : Fin n → Nat) : List (Fin n) × List (Fin n) :=
  ((List.finRange n).filter (fun i => decide (kmin ≤ f i)), (List.finRange n).filter (fun i => !decide (kmin ≤ f i)))

/-- `pcm_remove_outlier` (pointcloud.py 381-421): the kept and the removed indices.  With a cut-off the matrix is computed by a tree and stored values are counted; without, positive distances. -/
noncomputable def removeOutlier (e : P → P → ℝ) (X : Cloud P) (kmin : Int) (cut : Option ℝ) : Except DErr (List (Fin X.n) × List (Fin X.n)) :=
  if kmin ≤ 0 then .error .value
  else
    match setCutOff .sqeuclidean cut with
    | .error err => .error err
    | .ok none => if X.n ≤ 1 then .error .value else .ok (splitByCount kmin (positiveCount (pdistMatrix (fun x y => Metric.sqeuclidean.apply (e x y)) X)))
    | .ok (some c) => if X.n ≤ 1 then .error .value else .ok (splitByCount kmin (nnz (radiusQuery e .sqeuclidean (radius .sqeuclidean (some c)) X X)))

end Verif.Dist
