import Verif.Kernel.Dmap
/-!
# Model of `GeometricHarmonicsInterpolator`

`datafold/dynfold/outofsample.py` 60-380: `fit`, `_precompute_aux`, `predict` and `score`.  The eigensolver is the relation `Solves` of `Verif.Kernel.Dmap`; the kernel is evaluated by
`evalPdist` and `evalCdist`.  Target functions are the columns of a matrix with rows for the training points.  The method `gradient` is in `Verif.Kernel.Mahalanobis`.
-/

namespace Verif.Kernel

open Matrix

/-- `fit` checks the number of eigenpairs (outofsample.py 207-213): between one and one less than the number of training points. -/
def checkEigenpairs (nSamples nEigenpairs : Nat) : Except KErr Unit := if 1 ≤ nEigenpairs ∧ nEigenpairs ≤ nSamples - 1 then .ok () else .error .value

section
variable {m n d : Type} [Fintype m] [Fintype n] [Fintype d]

open Classical in
/-- `_precompute_aux` (outofsample.py 94-108): `(Ψ Λ⁻¹) (Ψᵀ y)`, as sum over the eigenpairs.  An eigenvalue zero yields `inf`. -/
noncomputable def precomputeAux (pairs : List (Pair n)) (y : Matrix n d ℝ) : Except KErr (Matrix n d ℝ) :=
  if ∃ p ∈ pairs, p.1 = 0 then .error .notFinite
  else .ok (Matrix.of (fun i c => (pairs.map (fun p => p.2 i * p.1⁻¹ * (∑ j, p.2 j * y j c))).sum))

/-- `predict` on the matrix `Kc` of the internal kernel between query and training points (outofsample.py 236-257), before `np.squeeze`. -/
noncomputable def ghPredict (k : DmapKernel) (f : Fitted n) (aux : Matrix n d ℝ) (Kc : Matrix m n ℝ) : Except KErr (Matrix m d ℝ) :=
  match evalCdist k (some f) Kc with
  | .error e => .error e
  | .ok P => .ok (P * aux)

end

/-! ## Shape of the result and score -/

/-- A numpy array with up to two dimensions. -/
inductive Arr
  | scalar (x : ℝ)
  | vec (k : Nat) (x : Fin k → ℝ)
  | mat (r c : Nat) (x : Matrix (Fin r) (Fin c) ℝ)

/-- `np.squeeze` of a two-dimensional array with at least one row and one column. -/
def squeeze {r c : Nat} (hr : 0 < r) (hc : 0 < c) (M : Matrix (Fin r) (Fin c) ℝ) : Arr :=
  if r = 1 ∧ c = 1 then .scalar (M ⟨0, hr⟩ ⟨0, hc⟩)
  else if r = 1 then .vec c (fun j => M ⟨0, hr⟩ j)
  else if c = 1 then .vec r (fun i => M i ⟨0, hc⟩)
  else .mat r c M

/-- How scikit-learn's `mean_squared_error` reads its second argument: vectors are columns, a single number is rejected (`_check_reg_targets`, `check_array(ensure_2d=False)`). -/
def asColumns : Arr → Except KErr (Σ r c : Nat, Matrix (Fin r) (Fin c) ℝ)
  | .scalar _ => .error .value
  | .vec k x => .ok ⟨k, 1, Matrix.of (fun i _ => x i)⟩
  | .mat r c M => .ok ⟨r, c, M⟩

/-- `mean_squared_error(y, y_pred, sample_weight=None, multioutput="raw_values")`: one number for each column; the shapes must agree. -/
noncomputable def meanSquaredError {r c : Nat} (y : Matrix (Fin r) (Fin c) ℝ) (pred : Arr) : Except KErr (Fin c → ℝ) :=
  match asColumns pred with
  | .error e => .error e
  | .ok ⟨r', c', P⟩ =>
    if h : r' = r ∧ c' = c then .ok (fun j => (∑ i, (y i j - P (Fin.cast h.1.symm i) (Fin.cast h.2.symm j)) ^ 2) / r)
    else .error .value

/-- `score` with `multioutput="raw_values"` (outofsample.py 320-379), given the (not squeezed) prediction.  `sample_weight` is an argument of the method that is not used. -/
noncomputable def ghScore {r c : Nat} (hr : 0 < r) (hc : 0 < c) (y pred : Matrix (Fin r) (Fin c) ℝ) (_sampleWeight : Option (Fin r → ℝ)) : Except KErr (Fin c → ℝ) :=
  match meanSquaredError y (squeeze hr hc pred) with
  | .error e => .error e
  | .ok s => .ok (fun j => -1 * Real.sqrt (s j))

end Verif.Kernel
