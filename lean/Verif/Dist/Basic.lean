import Mathlib.Analysis.Real.Sqrt
import Mathlib.Data.Matrix.Basic
import Mathlib.Data.Finset.Card
/-!
# Model of the distance algorithms

`datafold/pcfold/distance.py`.  A point cloud is a number of points and a function; points are of any type with a Euclidean distance `e`.  A sparse matrix says for each pair which value is
stored, if any; a dense matrix stores a value for all pairs.  Exact arithmetic.  `RDist` (a package that is not published) is not modelled.
-/

namespace Verif.Dist

/-- Exceptions. -/
inductive DErr
  | value | type | attribute | zeroDivision
deriving DecidableEq, Repr

/-- A point cloud. -/
structure Cloud (P : Type) where
  n : Nat
  pt : Fin n → P

/-- Stored values of a (sparse) matrix. -/
abbrev Stored (m n : Nat) := Fin m → Fin n → Option ℝ

/-- A sparse matrix with its shape. -/
structure SMat where
  rows : Nat
  cols : Nat
  val : Stored rows cols

/-- Metrics of the tree algorithms (distance.py `_validate_metric`). -/
inductive Metric
  | euclidean | sqeuclidean
deriving DecidableEq, Repr

/-- The distance in a metric. -/
def Metric.apply (mt : Metric) (r : ℝ) : ℝ :=
  match mt with
  | .euclidean => r
  | .sqeuclidean => r ^ 2

open Classical in
/-- `_set_attrs_range` (distance.py 78-101) after `cut_off or np.inf`: `None`, `0` and `inf` are no cut-off; the cut-off is kept in the metric. -/
noncomputable def setCutOff (mt : Metric) : Option ℝ → Except DErr (Option ℝ)
  | none => .ok none
  | some c => if c = 0 then .ok none else if c < 0 then .error .value else .ok (some (mt.apply c))

/-- `_invalid_dist_value` (distance.py 59). -/
def invalid : ℝ := -999

open Classical in
/-- `_dense2csr_matrix` (distance.py 246-256): zeros become the invalid value, large values become zero, zeros are not stored, the invalid value becomes zero. -/
noncomputable def dense2csr {m n : Nat} (D : Fin m → Fin n → ℝ) (cut : ℝ) : Stored m n := fun i j =>
  let a := if D i j = 0 then invalid else D i j
  let b := if a ≥ cut then 0 else a
  if b = 0 then none else if b = invalid then some 0 else some b

open Classical in
/-- `_set_zeros_diagonal_sparse` (distance.py 211-244). -/
noncomputable def setZerosDiagonal {n : Nat} (S : Stored n n) : Stored n n := fun i j =>
  let a := (S i j).map (fun x => if x = 0 then invalid else x)
  let b := if i = j then some invalid else a
  b.map (fun x => if x = invalid then 0 else x)

section
variable {P : Type}

/-- `squareform(pdist(X))`: the distances of the upper triangle, and zeros (distance.py 506-508). -/
def pdistMatrix (dm : P → P → ℝ) (X : Cloud P) (i j : Fin X.n) : ℝ := if i = j then 0 else dm (X.pt (min i j)) (X.pt (max i j))

/-- `cdist(Y, X)` (distance.py 515-518). -/
def cdistMatrix (dm : P → P → ℝ) (X Y : Cloud P) (i : Fin Y.n) (j : Fin X.n) : ℝ := dm (Y.pt i) (X.pt j)

/-- Keep all values of a dense matrix if there is no cut-off (distance.py 524-529). -/
noncomputable def applyCutOff {m n : Nat} (cut : Option ℝ) (D : Fin m → Fin n → ℝ) : Stored m n :=
  match cut with
  | none => fun i j => some (D i j)
  | some c => dense2csr D c

/-- `BruteForceDist.__call__` (distance.py 482-531); `dm` is any metric and `cut` is already given in it. -/
noncomputable def bruteCall (dm : P → P → ℝ) (cut : Option ℝ) (X : Cloud P) (Y : Option (Cloud P)) : Except DErr SMat :=
  if X.n ≤ 1 then .error .value
  else
    match Y with
    | none => .ok ⟨X.n, X.n, applyCutOff cut (pdistMatrix dm X)⟩
    | some Y => .ok ⟨Y.n, X.n, applyCutOff cut (cdistMatrix dm X Y)⟩

/-- The tree algorithms. -/
inductive Tree
  | scipyKdTree | sklearnBalltree
deriving DecidableEq, Repr

/-- `_get_max_distance` (distance.py 641-652), `_map_metric_and_radius` (distance.py 758-762). -/
noncomputable def radius (mt : Metric) (cut : Option ℝ) : Option ℝ :=
  match mt with
  | .euclidean => cut
  | .sqeuclidean => cut.map Real.sqrt

open Classical in
/-- A query of all neighbours in a radius (the boundary belongs to the ball), with values in the metric (distance.py 685-712, 800-810). -/
noncomputable def radiusQuery (e : P → P → ℝ) (mt : Metric) (r : Option ℝ) (X Y : Cloud P) : Stored Y.n X.n := fun i j =>
  if (match r with
    | none => True
    | some r => e (Y.pt i) (X.pt j) ≤ r) then some (mt.apply (e (Y.pt i) (X.pt j))) else none

/-- `__call__` of `ScipyKdTreeDist` (distance.py 654-714) and `SklearnBalltreeDist` (distance.py 774-820) before `_handle_kmin`.  `st` is the attribute `kdtree_x_` or `nn_`, which holds the
points of an earlier call.  The ball tree does not return a point as its own neighbour in the pair-wise case; the diagonal is inserted. -/
noncomputable def treeCall (t : Tree) (e : P → P → ℝ) (mt : Metric) (cut : Option ℝ) (st : Option (Cloud P)) (X : Cloud P) (Y : Option (Cloud P)) : Except DErr SMat × Option (Cloud P) :=
  if X.n ≤ 1 then (.error .value, st)
  else
    match Y with
    | none =>
      match t with
      | .scipyKdTree => (.ok ⟨X.n, X.n, radiusQuery e mt (radius mt cut) X X⟩, some X)
      | .sklearnBalltree => (.ok ⟨X.n, X.n, setZerosDiagonal (fun i j => if i = j then none else radiusQuery e mt (radius mt cut) X X i j)⟩, some X)
    | some Y =>
      let T := st.getD X
      (.ok ⟨Y.n, T.n, radiusQuery e mt (radius mt cut) T Y⟩, some T)

/-- A sequence of calls on one object: results in order and the last state. -/
noncomputable def treeRun (t : Tree) (e : P → P → ℝ) (mt : Metric) (cut : Option ℝ) : Option (Cloud P) → List (Cloud P × Option (Cloud P)) → Option (Cloud P)
  | st, [] => st
  | st, c :: cs => treeRun t e mt cut (treeCall t e mt cut st c.1 c.2).2 cs

end

/-! ## Minimal number of neighbours -/

/-- Number of stored values in a row. -/
def nnz {m n : Nat} (S : Stored m n) (i : Fin m) : Nat := (Finset.univ.filter (fun j => (S i j).isSome)).card

/-- The result of `BallTree.query` for one point: `k` columns such that no other column is nearer. -/
def IsNearest {n : Nat} (dist : Fin n → ℝ) (k : Nat) (I : Finset (Fin n)) : Prop := I.card = k ∧ ∀ j ∈ I, ∀ j' ∉ I, dist j ≤ dist j'

open Classical in
/-- `_ensure_kmin_nearest_neighbor` (distance.py 258-361) as a relation: rows with less than `kmin` values are queried with the *Euclidean* distance `D`, results that are not zero are written
into the matrix, for the pair-wise case also at the transposed place. -/
def EnsureKmin {m n : Nat} (pairwise : Bool) (hmn : pairwise = true → m = n) (kmin : Nat) (D : Fin m → Fin n → ℝ) (S : Stored m n) (res : Except DErr (Stored m n)) : Prop :=
  if ∃ i, nnz S i < kmin then
    if n < kmin then res = .error .value
    else ∃ I : Fin m → Finset (Fin n), (∀ i, IsNearest (D i) kmin (I i)) ∧
      let new : Fin m → Fin n → Prop := fun i j => nnz S i < kmin ∧ j ∈ I i ∧ D i j ≠ 0
      res = .ok (fun i j =>
        if new i j then some (D i j)
        else if h : pairwise = true then
          if new (Fin.cast (hmn h).symm j) (Fin.cast (hmn h) i) then some (D (Fin.cast (hmn h).symm j) (Fin.cast (hmn h) i)) else S i j
        else S i j)
  else res = .ok S

/-- `_handle_kmin` (distance.py 363-386).  A dense matrix (no cut-off) has no method `getnnz`. -/
def HandleKmin {m n : Nat} (pairwise : Bool) (hmn : pairwise = true → m = n) (kmin : Option Nat) (dense : Bool) (D : Fin m → Fin n → ℝ) (S : Stored m n) (res : Except DErr (Stored m n)) : Prop :=
  match kmin with
  | none => res = .ok S
  | some k =>
    if (k > 0 ∧ pairwise = false) ∨ (k > 1 ∧ pairwise = true) then
      if dense = true then res = .error .attribute else EnsureKmin pairwise hmn k D S res
    else res = .ok S

/-! ## Nearest neighbours -/

open Classical in
/-- `SklearnKNN.__call__` (distance.py 848-882), pair-wise, as a relation: `k - 1` nearest other points for each row, and the diagonal. -/
def KnnPdist {n : Nat} (k : Nat) (D : Fin n → Fin n → ℝ) (res : Except DErr (Stored n n)) : Prop :=
  if n ≤ 1 ∨ k ≤ 1 ∨ n < k then res = .error .value
  else ∃ I : Fin n → Finset (Fin n), (∀ i, i ∉ I i ∧ (I i).card = k - 1 ∧ ∀ j ∈ I i, ∀ j' ∉ I i, j' ≠ i → D i j ≤ D i j') ∧
    res = .ok (setZerosDiagonal (fun i j => if j ∈ I i then some (D i j) else none))

open Classical in
/-- `SklearnKNN.__call__`, component-wise (distance.py 848-882). -/
def KnnCdist {m n : Nat} (k : Nat) (D : Fin m → Fin n → ℝ) (res : Except DErr (Stored m n)) : Prop :=
  if n ≤ 1 ∨ k = 0 ∨ n < k then res = .error .value
  else ∃ I : Fin m → Finset (Fin n), (∀ i, IsNearest (D i) k (I i)) ∧ res = .ok (fun i j => if j ∈ I i then some (D i j) else none)

end Verif.Dist
