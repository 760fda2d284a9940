import Verif.Kernel.Selection
/-!
# Model of `LocalRegressionSelection.fit` and `transform`

`datafold/dynfold/dmap.py` 1546-1619: the loop over the eigenvectors and the selection of columns.  Without subsampling; the validation of the input is modelled in `Transform`.
-/

namespace Verif.Kernel

open Matrix

variable {s p : Nat}

/-- `eigvec[:, 1:i]` with `i = t + 2` (dmap.py 1585-1588): all eigenvectors between the trivial one and the target. -/
def domainColumns (V : Matrix (Fin s) (Fin (p + 2)) ℝ) (t : Fin p) : Matrix (Fin s) (Fin (t + 1)) ℝ := Matrix.of (fun a b => V a ⟨b + 1, by omega⟩)

/-- `eigvec[:, i]` with `i = t + 2` (dmap.py 1585-1588). -/
def targetColumn (V : Matrix (Fin s) (Fin (p + 2)) ℝ) (t : Fin p) : Fin s → ℝ := fun a => V a ⟨t + 2, by omega⟩

/-- The loop over the eigenvectors from the third one (dmap.py 1580-1588): `computed` are the entries `residuals_[2:]`.  A residual that is `nan` (target of zeros) is an error here. -/
def FitResiduals (b : BandwidthType) (scale machineEps : ℝ) (V : Matrix (Fin s) (Fin (p + 2)) ℝ) (computed : List ℝ) : Prop :=
  ∃ h : computed.length = p, ∀ t : Fin p, IsResidual b scale machineEps (domainColumns V t) (targetColumn V t) (.ok (computed[t]'(by omega)))

/-- `transform` (dmap.py 1596-1619): `np.asarray(X)[:, self.evec_indices_]`, an index out of range raises an `IndexError`. -/
def selectColumns {m : Nat} (idx : List Nat) (V : Matrix (Fin s) (Fin m) ℝ) : Except KErr (List (Fin s → ℝ)) :=
  idx.mapM (fun i => if h : i < m then .ok (fun a => V a ⟨i, h⟩) else .error .value)

end Verif.Kernel
