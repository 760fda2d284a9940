import Verif.Kernel.Dmap
/-!
# Model of the Roseland kernel and the class `Roseland`

`datafold/pcfold/kernels.py` 1728-1950 (`RoselandKernel`) and `datafold/dynfold/dmap.py` 975-1255 (`Roseland`).  Dense kernel matrices with one row per data point and one column per landmark, in
exact arithmetic; the singular value decomposition (`eigsolver.py` 275-319) is a relation.  Singular vectors are lists of columns as in `Verif.Kernel.Dmap`.
-/

namespace Verif.Kernel

open Matrix

variable {m n l : Type} [Fintype m] [Fintype n] [Fintype l]

/-- Column sums, `kernel_matrix.sum(axis=0)`. -/
def colSums (K : Matrix n l ℝ) : l → ℝ := fun j => ∑ i, K i j

/-- The result of a kernel evaluation: the matrix, `normalize_diagonal_`, and `stochastic_normalization_`. -/
structure RoseOut (n l : Type) where
  M : Matrix n l ℝ
  normalize : n → ℝ
  stochastic : l → ℝ

open Classical in
/-- `_compute_normalize_diagonal` (kernels.py 1796-1839): reciprocal square roots of `Σ_j K_ij c_j`, where `inf` is replaced by zero.  A negative sum is `nan`. -/
noncomputable def normalizeDiagonal (c : l → ℝ) (K : Matrix n l ℝ) : Except KErr (n → ℝ) :=
  if ∃ i, ∑ j, K i j * c j < 0 then .error .notFinite
  else .ok (fun i => if ∑ j, K i j * c j = 0 then 0 else (Real.sqrt (∑ j, K i j * c j))⁻¹)

open Classical in
/-- `RoselandKernel._eval_kernel_matrix` (kernels.py 1841-1893); `st` is the attribute `stochastic_normalization_` of an earlier evaluation.  For `alpha > 0` the expression
`scipy.sparse.spmatrix(kernel_matrix)` (line 1777) raises, because that class cannot be instantiated. -/
noncomputable def roseEval (alpha : ℝ) (st : Option (l → ℝ)) (K : Matrix n l ℝ) : Except KErr (RoseOut n l) :=
  if 0 < alpha then .error .value
  else
    let c := st.getD (colSums K)
    match normalizeDiagonal c K with
    | .error e => .error e
    | .ok d => .ok ⟨Matrix.of (fun i j => d i * K i j), d, c⟩

/-- A singular value with its left and right singular vector. -/
structure Triple (n l : Type) where
  sigma : ℝ
  left : n → ℝ
  right : l → ℝ

/-- `compute_kernel_svd` (eigsolver.py 275-319): `k` singular triplets of `M`. -/
def IsSvd (M : Matrix n l ℝ) (k : Nat) (ts : List (Triple n l)) : Prop :=
  ts.length = k ∧ ∀ t ∈ ts, 0 ≤ t.sigma ∧ t.left ⬝ᵥ t.left = 1 ∧ t.right ⬝ᵥ t.right = 1 ∧ M *ᵥ t.right = t.sigma • t.left ∧ Mᵀ *ᵥ t.left = t.sigma • t.right

/-- `Roseland._compute_kernel_svd` (dmap.py 977-1006): the left vectors are scaled with `normalize_diagonal_`. -/
def roseFit (o : RoseOut n l) (k : Nat) (ts : List (Triple n l)) : Prop :=
  ∃ raw, IsSvd o.M k raw ∧ ts = raw.map (fun t => { t with left := fun i => o.normalize i * t.left i })

/-- `_select_svdpairs_target_coords` (dmap.py 1008-1025). -/
def selectTriples (coords : Option (List Nat)) (ts : List (Triple n l)) : List (Triple n l) :=
  match coords with
  | none => ts
  | some c => c.filterMap (fun i => ts[i]?)

/-- `fit_transform` after the singular value decomposition (dmap.py 1224-1255): the (selected) left vectors. -/
def roseFitTransform (coords : Option (List Nat)) (ts : List (Triple n l)) : List (n → ℝ) := (selectTriples coords ts).map Triple.left

open Classical in
/-- `Roseland._nystrom` (dmap.py 1027-1049): `normalize_diagonal * (K V Σ⁻¹)`; a singular value zero yields `inf`. -/
noncomputable def roseNystrom (o : RoseOut m l) (sel : List (Triple n l)) : Except KErr (List (m → ℝ)) :=
  if ∃ t ∈ sel, t.sigma = 0 then .error .notFinite
  else .ok (sel.map (fun t => fun i => o.normalize i * (o.M *ᵥ (fun j => t.sigma⁻¹ * t.right j)) i))

open Classical in
/-- `_perform_roseland_embedding` (dmap.py 1051-1067) with the selected singular values.  The exponent is an integer or a float; singular values are not negative. -/
noncomputable def roseEmbed (te : ℝ) (sel : List (Triple n l)) (cols : List (m → ℝ)) : Except KErr (List (m → ℝ)) :=
  if te = 0 then .ok cols
  else
    match (sel.map Triple.sigma).mapM (fun x => npPower x (2 * te)) with
    | .error e => .error e
    | .ok p => matDotDiag cols p

/-- `transform` on the matrix `Kc` of the internal kernel between query points and landmarks (dmap.py 1163-1222).  The stored normalisation of the first evaluation is used. -/
noncomputable def roseTransform (alpha te : ℝ) (c : l → ℝ) (coords : Option (List Nat)) (ts : List (Triple n l)) (Kc : Matrix m l ℝ) : Except KErr (List (m → ℝ)) :=
  match roseEval alpha (some c) Kc with
  | .error e => .error e
  | .ok o =>
    match roseNystrom o (selectTriples coords ts) with
    | .error e => .error e
    | .ok cols => roseEmbed te (selectTriples coords ts) cols

end Verif.Kernel
