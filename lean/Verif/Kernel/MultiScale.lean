import Mathlib.Analysis.Real.Sqrt
import Mathlib.LinearAlgebra.Matrix.NonsingularInverse

/-!
# Model of the multi-scale geometric harmonics

`datafold/dynfold/outofsample.py` 383-492 (`MultiScaleGeometricHarmonicsInterpolator`), for one target function, with exact real numbers.
The eigensolver is a parameter: `eig s` are the `k` computed eigenpairs of the kernel matrix with scale `s` after `sort_eigenpairs`
(the code computes `k = 300`).
-/

namespace Verif.Kernel

open Matrix

open Classical in
/-- `np.argmax(~(ratio_eigenvalues < condition))` (outofsample.py 446-447): the first position at which the ratio reaches the condition; `0` if there is none. -/
noncomputable def msCount {k : Nat} (cond : ℝ) (mu : Fin k → ℝ) : Nat :=
  let l := (List.ofFn mu).findIdx (fun m => decide (¬ ((List.ofFn mu).headD 0 / m < cond)))
  if l = k then 0 else l

/-- `coeff_ = phi.T @ y` (outofsample.py 444). -/
def msCoeff {n k : Nat} (phi : Matrix (Fin n) (Fin k) ℝ) (y : Fin n → ℝ) : Fin k → ℝ := phiᵀ *ᵥ y

/-- `np.sqrt(np.sum(np.abs(coeff_l_err_) ** 2))` (outofsample.py 449, 454). -/
noncomputable def msError {k : Nat} (c : Fin k → ℝ) (l : Nat) : ℝ := Real.sqrt (∑ i, if l ≤ i.val then |c i| ^ 2 else 0)

/-- `phi_l_ @ diagmat_dot_mat(np.reciprocal(mu_l_), phi_l_.T) @ y` with the first `l` eigenpairs (outofsample.py 451-452, 465). -/
noncomputable def msAux {n k : Nat} (mu : Fin k → ℝ) (phi : Matrix (Fin n) (Fin k) ℝ) (l : Nat) (y : Fin n → ℝ) : Fin n → ℝ :=
  phi *ᵥ fun i => if i.val < l then (mu i)⁻¹ * msCoeff phi y i else 0

open Classical in
/-- The loop of `_multi_scale_optimize` (outofsample.py 431-465) with at most `fuel` passes: the scale at its end and `_aux`. -/
noncomputable def msLoop {n k : Nat} (eig : ℝ → (Fin k → ℝ) × Matrix (Fin n) (Fin k) ℝ) (cond tau : ℝ) (y : Fin n → ℝ) : Nat → ℝ → Option (ℝ × (Fin n → ℝ))
  | 0, _ => none
  | fuel + 1, s =>
    if msError (msCoeff (eig s).2 y) (msCount cond (eig s).1) ≤ tau then some (s, msAux (eig s).1 (eig s).2 (msCount cond (eig s).1) y)
    else msLoop eig cond tau y fuel (s / 2)

end Verif.Kernel
