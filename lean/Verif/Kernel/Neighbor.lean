import Verif.Kernel.Normalize
/-!
# Model of the nearest neighbour distances and the continuous nearest neighbour kernel

`datafold/pcfold/kernels.py` 319-389 (`_kth_nearest_neighbor_dist`) and 1056-1250 (`ContinuousNNKernel`).  Distances are dense real matrices with one row per query point; the sparse case of
the neighbour distances is modelled by the stored values of each row.
-/

namespace Verif.Kernel

open Matrix

open Classical in
/-- `np.partition(row, k - 1)[k - 1]` (kernels.py 352, 366-368), for `1 ≤ k ≤ len(row)`. -/
noncomputable def kthSmallest (row : List ℝ) (k : Nat) : ℝ := (row.mergeSort (fun a b => decide (a ≤ b))).getD (k - 1) 0

/-- `_kth_nearest_neighbor_dist` for a dense matrix (kernels.py 340-352). -/
noncomputable def kthDense {m n : Nat} (D : Matrix (Fin m) (Fin n) ℝ) (k : Nat) : Except KErr (Fin m → ℝ) :=
  if 0 < k ∧ k ≤ n then .ok (fun i => kthSmallest (List.ofFn (D i)) k) else .error .value

/-- `_kth_nearest_neighbor_dist` for a sparse matrix with `n` columns (kernels.py 340-389): the stored values of each row. -/
noncomputable def kthSparse {m : Nat} (n : Nat) (rows : Fin m → List ℝ) (k : Nat) : Except KErr (Fin m → ℝ) :=
  if 0 < k ∧ k ≤ n then
    if ∃ i, (rows i).length < k then .error .value else .ok (fun i => kthSmallest (rows i) k)
  else .error .value

/-- `ContinuousNNKernel` with its parameters; the constructor rejects `delta <= 0` and `k_neighbor < 1` (kernels.py 1086-1108). -/
structure CkNN where
  k : Nat
  delta : ℝ
  symmetric : Bool

/-- The accepted parameters. -/
def CkNN.Admissible (c : CkNN) : Prop := 0 < c.delta ∧ 1 ≤ c.k

open Classical in
/-- `evaluate(distance_matrix, is_pdist=True)` (kernels.py 1210-1250 with `_validate` 1135-1154): the graph and the attribute `reference_dist_knn_`.  The diagonal is rejected only if it has no
zero at all.  `st` is the attribute before the call: a second pair-wise evaluation is rejected (`_required_attrs`). -/
noncomputable def CkNN.pdist {n : Nat} (c : CkNN) (st : Option (Fin n → ℝ)) (D : Matrix (Fin n) (Fin n) ℝ) : Except KErr ((Fin n → Fin n → Prop) × (Fin n → ℝ)) :=
  if ∀ i, D i i ≠ 0 then .error .value
  else if st.isSome then .error .attribute
  else
    match kthDense D c.k with
    | .error e => .error e
    | .ok v =>
      match divideSquare D (fun i => Real.sqrt (v i)) c.symmetric with
      | .error e => .error e
      | .ok F => .ok (fun i j => F i j < c.delta, v)

open Classical in
/-- `evaluate(distance_matrix, is_pdist=False)` (kernels.py 1210-1250 with `_validate` 1155-1167). -/
noncomputable def CkNN.cdist {m n : Nat} (c : CkNN) (st : Option (Fin n → ℝ)) (D : Matrix (Fin m) (Fin n) ℝ) : Except KErr (Fin m → Fin n → Prop) :=
  if c.k < 1 ∨ c.k > n - 1 then .error .value
  else
    match st with
    | none => .error .attribute
    | some w =>
      match kthDense D c.k with
      | .error e => .error e
      | .ok v =>
        match divide D (fun i => Real.sqrt (v i)) (fun j => Real.sqrt (w j)) with
        | .error e => .error e
        | .ok F => .ok (fun i j => F i j < c.delta)

end Verif.Kernel
