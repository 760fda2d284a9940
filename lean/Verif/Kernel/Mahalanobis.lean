import Verif.Kernel.Harmonics
import Mathlib.Analysis.SpecialFunctions.Exp
import Mathlib.Analysis.Real.Sqrt
/-!
# Model of `MahalanobisKernel` and of the gradient of `GeometricHarmonicsInterpolator`

`datafold/pcfold/kernels.py` 1252-1447 and `datafold/dynfold/outofsample.py` 259-315.
-/

namespace Verif.Kernel

open Matrix

section
variable {ι d : Type} [Fintype d] [DecidableEq ι]

/-- `x @ A @ x.T`. -/
def quadForm (A : Matrix d d ℝ) (x : d → ℝ) : ℝ := x ⬝ᵥ (A *ᵥ x)

open Classical in
/-- `scipy.sparse.csr_matrix(distance_matrix)` of a dense matrix: zeros are not stored. -/
noncomputable def csrOfDense (D : ι → ι → ℝ) : ι → ι → Option ℝ := fun i j => if D i j = 0 then none else some (D i j)

/-- The loop of `MahalanobisKernel.evaluate` (kernels.py 1352-1379), also of `eval2` (kernels.py 1407-1424): stored entries off the diagonal are replaced. -/
noncomputable def mahaDist (X : ι → d → ℝ) (C : ι → Matrix d d ℝ) (D : ι → ι → Option ℝ) : ι → ι → Option ℝ := fun i j =>
  (D i j).map (fun v => if j ≠ i then Real.sqrt (0.5 * quadForm (C i + C j) (X i - X j)) else v)

/-- The stored values are squared and mapped by the Gaussian; entries that are not stored are zeros. -/
noncomputable def mahaGauss (eps : ℝ) (X : ι → d → ℝ) (C : ι → Matrix d d ℝ) (D : ι → ι → Option ℝ) : Matrix ι ι ℝ :=
  Matrix.of (fun i j => ((mahaDist X C D i j).map (fun v => Real.exp (-1 / (2 * eps) * v ^ 2))).getD 0)

/-- `MahalanobisKernel.evaluate` (kernels.py 1326-1399) for a given `epsilon`, after the conversion of the distance matrix: the kernel matrix is averaged with its transpose. -/
noncomputable def mahaEvaluate (eps : ℝ) (X : ι → d → ℝ) (C : ι → Matrix d d ℝ) (D : ι → ι → Option ℝ) : Matrix ι ι ℝ :=
  (0.5 : ℝ) • (mahaGauss eps X C D + (mahaGauss eps X C D)ᵀ)

end

/-- `MahalanobisKernel.__call__` (kernels.py 1280-1324) with query points, shapes only: the loop runs over the `nY` rows of the distance matrix and reads row `i` of the reference points; the sum with the
transpose needs a square matrix. -/
def mahaQuery (nX nY : Nat) : Except KErr Unit :=
  if nX < nY then .error .value
  else if nX ≠ nY then .error .value
  else .ok ()

section
variable {n d c : Type} [Fintype n] [Fintype d]

/-- Selection of the column of the target values in `gradient` (outofsample.py 286-303): `value` is the error of the check, `shape` the `IndexError` of the array. -/
def gradColumn (nTargets : Nat) (vcol : Option Int) : Except KErr Nat :=
  match vcol with
  | none => if 1 < nTargets then .error .value else if 0 < nTargets then .ok 0 else .error .shape
  | some v => if ¬(0 ≤ v ∧ v ≤ nTargets) then .error .value else if v.toNat < nTargets then .ok v.toNat else .error .shape

/-- The loop of `GeometricHarmonicsInterpolator.gradient` (outofsample.py 305-315) at one point `x`, with the row `k` of the kernel matrix: `(x - X_fit).T @ (k * values)`. -/
def ghGradient (X : n → d → ℝ) (k : n → ℝ) (y : n → ℝ) (x : d → ℝ) : d → ℝ := fun l => ∑ j, (x l - X j l) * (k j * y j)

end

end Verif.Kernel
