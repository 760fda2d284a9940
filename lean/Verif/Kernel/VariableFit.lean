import Verif.Kernel.Variable
import Verif.Kernel.Dmap
/-!
# Model of `DiffusionMapsVariable`

`datafold/dynfold/dmap.py` 696-804.  The eigensolver is the relation `Solves` of `Kernel/Dmap.lean`.
-/

namespace Verif.Kernel

open Matrix

variable {n : Nat}

/-- `generator_matrix_` after the basis change is undone (dmap.py 769-778): `is_symmetric_transform` (kernels.py 2410-2413) is `symmetrize_kernel`, with which a basis change is stored. -/
noncomputable def vbGenerator (r : VbResult n) : Matrix (Fin n) (Fin n) ℝ :=
  match r.basis with
  | some b => unsymmetric r.op b
  | none => r.op

/-- The final form of one eigenpair (dmap.py 780-788): the power `1 / epsilon` of the eigenvalue and the eigenvector times `sqrt(n_samples)`.  The code stores `nan` or `inf` where the model returns `notFinite`. -/
noncomputable def vbScale (eps : ℝ) (p : Pair (Fin n)) : Except KErr (Pair (Fin n)) :=
  match npPower p.1 (1 / eps) with
  | .error e => .error e
  | .ok x => .ok (x, fun i => p.2 i * Real.sqrt n)

/-- `generator_matrix_`, and `eigenvalues_` with `eigenvectors_`. -/
structure VbFitted (n : Nat) where
  generator : Matrix (Fin n) (Fin n) ℝ
  pairs : List (Pair (Fin n))

/-- The result of `fit` (dmap.py 751-792) for the eigenpairs `pairs` of the solver. -/
noncomputable def vbFit (p : VbParam) (r : VbResult n) (pairs : List (Pair (Fin n))) : Except KErr (VbFitted n) :=
  match pairs.mapM (vbScale p.eps) with
  | .error e => .error e
  | .ok l => .ok ⟨vbGenerator r, l⟩

/-- `peq_est_` (dmap.py 737-746), for a positive `epsilon`. -/
noncomputable def vbPeq (p : VbParam) (r : VbResult n) (i : Fin n) : ℝ := r.qs i / (n * (4 * Real.pi * p.eps) ^ (p.dim / 2))

/-- `fit_transform` (dmap.py 802-804): the stored eigenvectors, whatever the eigenvalues. -/
def vbFitTransform (f : VbFitted n) : List (Fin n → ℝ) := f.pairs.map Prod.snd

end Verif.Kernel
