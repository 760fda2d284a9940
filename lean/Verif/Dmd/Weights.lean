import Verif.Dmd.Standard
/-!
# Model of the fit parameter `sample_weights` of `DMDStandard`

`datafold/dynfold/dmd.py`; the weighted matrices themselves are `gram` in `Verif/Dmd/Standard.lean`.
-/

namespace Verif.Dmd

open Verif.Tsc Verif.Np Verif.Lin Verif.Dyn Matrix

variable {ι : Type} [Fintype ι]

/-- Exceptions caused by the weights. -/
inductive WeightErr | shape | reducedRank
deriving DecidableEq, Repr

/-- `diagmat_dot_mat(sample_weights, M)` for a matrix with `m` rows, followed by the product with a matrix with `m` columns (dmd.py 796-801; general.py 406-413):
numpy multiplies row by row, spreads a single weight over all the rows, and fails for all other lengths (for `m = 1` and several weights the matrix product fails). -/
noncomputable def spreadWeights (m : Nat) (w : List ℝ) : Except WeightErr (List ℝ) :=
  if w.length = m then .ok w
  else match w with
    | [a] => .ok (List.replicate m a)
    | _ => .error .shape

/-- What `fit` does with `sample_weights` (dmd.py 849-852, 1239-1270): weights are only read by the model of full rank. -/
noncomputable def readWeights (rank : Option Nat) (m : Nat) (w : Option (List ℝ)) : Except WeightErr (Option (List ℝ)) :=
  match w with
  | none => .ok none
  | some w => match rank with
    | some _ => .error .reducedRank
    | none => match spreadWeights m w with
      | .error e => .error e
      | .ok v => .ok (some v)

/-- `DMDStandard(rank=None).fit(X, sample_weights=w)` (dmd.py 1200-1328): `K` is a possible system matrix.  The matrices have one row per snapshot pair. -/
def FitsWeighted (k : TimeKind) (c : List (Row Int (ι → ℝ))) (w : Option (List ℝ)) (K : Matrix ι ι ℝ) : Prop :=
  ∃ v, readWeights none ((shiftRows c).1.zip (shiftRows c).2).length w = .ok v ∧ Fits k c v K

/-- Numerator and denominator of the squared residuals of `_remove_spectral_pollution` with weights (dmd.py 796-811, 890-899). -/
noncomputable def weightedResidual (ps : List ((ι → ℝ) × (ι → ℝ))) (w : Fin ps.length → ℝ) (ev : ℂ) (v : ι → ℂ) : ℝ × ℝ :=
  residualParts (gram 0 (some w) (startM ps) (startM ps)) (gram 0 (some w) (startM ps) (endM ps)) (gram 0 (some w) (endM ps) (endM ps)) ev v

end Verif.Dmd
