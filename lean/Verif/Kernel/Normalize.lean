import Mathlib.Data.Matrix.Mul
import Mathlib.Data.Real.Basic
import Mathlib.Data.Real.Sqrt
import Mathlib.Analysis.SpecialFunctions.Pow.Real
/-!
# Model of the kernel normalisations

`datafold/pcfold/kernels.py` 58-316 (`_symmetric_matrix_division`, `_conjugate_stochastic_kernel_matrix`, `_stochastic_kernel_matrix`) and 1450-1725 (`DmapKernelFixed`).
Exact real arithmetic.  A kernel matrix is a `Matrix m n ℝ` with one row per query point and one column per reference point, so that the shape checks are in the types.
Where numpy would produce `nan` or `inf` the model returns the error `notFinite` (the eigensolver rejects such matrices, eigsolver.py 229-237).
-/

namespace Verif.Kernel

open Matrix

/-- Exceptions raised by this part of the code. -/
inductive KErr
  | zeroDivision | attribute | notFinite | value | shape
deriving DecidableEq, Repr

variable {m n : Type} [Fintype m] [Fintype n]

/-- `kernel_matrix.sum(axis=1)`. -/
def rowSums (K : Matrix m n ℝ) : m → ℝ := fun i => ∑ j, K i j

open Classical in
/-- `_symmetric_matrix_division` with `vec_right` given (kernels.py 58-186), `value_zero_division="raise"` and `scalar=1`: dense case. -/
noncomputable def divide (M : Matrix m n ℝ) (v : m → ℝ) (w : n → ℝ) : Except KErr (Matrix m n ℝ) :=
  if ∃ i, v i = 0 then .error .zeroDivision
  else if ∃ j, w j = 0 then .error .zeroDivision
  else .ok (Matrix.of (fun i j => ((v i)⁻¹ * M i j) * (w j)⁻¹))

/-- `remove_numeric_noise_symmetric_matrix` (utils/general.py 529-578): `(M + Mᵀ) / 2`. -/
noncomputable def removeNoise (M : Matrix n n ℝ) : Matrix n n ℝ := Matrix.of (fun i j => (M i j + M j i) / 2)

/-- `_symmetric_matrix_division` with `vec_right=None` (kernels.py 58-186): the left vector is used on both sides, and the result is symmetrised if `is_symmetric`. -/
noncomputable def divideSquare (M : Matrix n n ℝ) (v : n → ℝ) (isSymmetric : Bool) : Except KErr (Matrix n n ℝ) :=
  match divide M v v with
  | .error e => .error e
  | .ok R => .ok (if isSymmetric then removeNoise R else R)

open Classical in
/-- `_conjugate_stochastic_kernel_matrix` (kernels.py 189-260): the matrix `D^{-1/2} K D^{-1/2}` and the diagonal of `D^{-1/2}`. -/
noncomputable def conjugateStochastic (K : Matrix n n ℝ) : Except KErr (Matrix n n ℝ × (n → ℝ)) :=
  if ∃ i, rowSums K i < 0 then .error .notFinite
  else
    match divideSquare K (fun i => Real.sqrt (rowSums K i)) true with
    | .error e => .error e
    | .ok A => .ok (A, fun i => (Real.sqrt (rowSums K i))⁻¹)

open Classical in
/-- `_stochastic_kernel_matrix` for a dense matrix (kernels.py 296-316): reciprocals of the row sums, where infinite and negative reciprocals are replaced by zero. -/
noncomputable def stochastic (K : Matrix m n ℝ) : Matrix m n ℝ :=
  Matrix.of (fun i j => (if rowSums K i = 0 ∨ (rowSums K i)⁻¹ < 0 then 0 else (rowSums K i)⁻¹) * K i j)

open Classical in
/-- `_stochastic_kernel_matrix` for a sparse matrix (kernels.py 292-295): scikit-learn's `normalize(norm="l1")` divides each row by the sum of the absolute values
and leaves rows with sum zero as they are.  `none` is an entry that is not stored. -/
noncomputable def stochasticSparse (K : m → n → Option ℝ) : m → n → Option ℝ :=
  fun i j => (K i j).map (fun x => let s := ∑ k, |(K i k).getD 0|; if s = 0 then x else x / s)

/-- The parameters of a `DmapKernelFixed` (kernels.py 1495-1516) and whether the distance of its internal kernel is symmetric. -/
structure DmapKernel where
  isStochastic : Bool
  alpha : ℝ
  symmetrize : Bool
  distSymmetric : Bool

/-- The constructor's check of `alpha` (kernels.py 1503-1509). -/
def DmapKernel.Admissible (k : DmapKernel) : Prop := 0 ≤ k.alpha ∧ k.alpha ≤ 1

/-- `DmapKernelFixed.is_conjugate` (kernels.py 1531-1541) with `_is_symmetric_kernel = symmetrize_kernel or not is_stochastic`. -/
def DmapKernel.isConjugate (k : DmapKernel) : Bool := k.isStochastic && (k.symmetrize || !k.isStochastic) && k.distSymmetric

/-- The attributes `row_sums_alpha_` and (diagonal of) `basis_change_matrix_` set by the first pair-wise evaluation. -/
structure Fitted (n : Type) where
  rowSumsAlpha : Option (n → ℝ)
  basisChange : Option (n → ℝ)

open Classical in
/-- The power of the row sums (kernels.py 1562-1570): `np.power(row_sums, alpha)` if `alpha < 1`.  A negative number to a power strictly between 0 and 1 is `nan`. -/
noncomputable def powSums (k : DmapKernel) (s : m → ℝ) : Except KErr (m → ℝ) :=
  if k.alpha < 1 then
    if ∃ i, s i < 0 then .error .notFinite else .ok (fun i => s i ^ k.alpha)
  else .ok s

/-- `_normalize_sampling_density` for the pair-wise case (kernels.py 1543-1586). -/
noncomputable def densityPdist (k : DmapKernel) (K : Matrix n n ℝ) : Except KErr (Matrix n n ℝ × (n → ℝ)) :=
  match powSums k (rowSums K) with
  | .error e => .error e
  | .ok v =>
    match divideSquare K v k.distSymmetric with
    | .error e => .error e
    | .ok R => .ok (R, v)

/-- `_normalize_sampling_density` for the component-wise case (kernels.py 1543-1586): left division by the row sums of the query points, right division by the stored ones. -/
noncomputable def densityCdist (k : DmapKernel) (w : n → ℝ) (K : Matrix m n ℝ) : Except KErr (Matrix m n ℝ) :=
  match powSums k (rowSums K) with
  | .error e => .error e
  | .ok v => divide K v w

open Classical in
/-- The first part of `_normalize` for the pair-wise case (kernels.py 1601-1609). -/
noncomputable def alphaPdist (k : DmapKernel) (K : Matrix n n ℝ) : Except KErr (Matrix n n ℝ × Option (n → ℝ)) :=
  if 0 < k.alpha then
    match densityPdist k K with
    | .error e => .error e
    | .ok r => .ok (r.1, some r.2)
  else .ok (K, none)

/-- `DmapKernelFixed.__call__(X)` on the internal kernel matrix (kernels.py 1588-1656): the matrix and the new attributes.  `st` is what an earlier
pair-wise evaluation has stored; a second one is rejected (`_required_attrs`, kernels.py 518-533). -/
noncomputable def evalPdist (k : DmapKernel) (st : Option (Fitted n)) (K : Matrix n n ℝ) : Except KErr (Matrix n n ℝ × Fitted n) :=
  match st with
  | some _ => .error .attribute
  | none =>
    if k.isStochastic then
      match alphaPdist k K with
      | .error e => .error e
      | .ok (R, v) =>
        if k.isConjugate then
          match conjugateStochastic R with
          | .error e => .error e
          | .ok (A, b) => .ok (A, ⟨v, some b⟩)
        else .ok (stochastic R, ⟨v, none⟩)
    else .ok (K, ⟨none, none⟩)

open Classical in
/-- The first part of `_normalize` for the component-wise case (kernels.py 1601-1609).  A stored `None` has no attribute `shape`. -/
noncomputable def alphaCdist (k : DmapKernel) (f : Fitted n) (K : Matrix m n ℝ) : Except KErr (Matrix m n ℝ) :=
  if 0 < k.alpha then
    match f.rowSumsAlpha with
    | none => .error .attribute
    | some w => densityCdist k w K
  else .ok K

/-- `DmapKernelFixed.__call__(X, Y)` on the internal kernel matrix (kernels.py 1588-1656). -/
noncomputable def evalCdist (k : DmapKernel) (st : Option (Fitted n)) (K : Matrix m n ℝ) : Except KErr (Matrix m n ℝ) :=
  match st with
  | none => .error .attribute
  | some f =>
    if k.isStochastic then
      match alphaCdist k f K with
      | .error e => .error e
      | .ok R => .ok (stochastic R)
    else .ok K

/-- `_DmapKernelAlgorithms.unsymmetric_kernel_matrix` (dynfold/dmap.py 109-158): `B A B⁻¹` for the diagonal matrix `B` with diagonal `b`. -/
noncomputable def unsymmetric (A : Matrix n n ℝ) (b : n → ℝ) : Matrix n n ℝ := Matrix.of (fun i j => b i * A i j * (b j)⁻¹)

end Verif.Kernel
