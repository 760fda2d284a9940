import Verif.Tsc.Model
import Verif.Tsc.DeltaTime
import Verif.Lin.Lstsq
import Verif.Dyn.Spectral
/-!
# Model of `DMDStandard`, `DMDControl` and `gDMDFull`: the computation of the system matrix

`datafold/dynfold/dmd.py`, real data in exact arithmetic.
-/

namespace Verif.Dmd

open Verif.Tsc Verif.Np Verif.Lin Verif.Dyn Matrix

variable {ι κ : Type} [Fintype ι] [Fintype κ]

/-- Row oriented snapshot matrix of the first entries (`shift_start_transposed`). -/
def startM (ps : List ((ι → ℝ) × (κ → ℝ))) : Matrix (Fin ps.length) ι ℝ := Matrix.of (fun k => ps[k].1)

/-- Row oriented snapshot matrix of the second entries (`shift_end_transposed`). -/
def endM (ps : List ((ι → ℝ) × (κ → ℝ))) : Matrix (Fin ps.length) κ ℝ := Matrix.of (fun k => ps[k].2)

/-- `G` (dmd.py 789-803): `X^T X / n` or `X^T diag(w) X`; `n` is the number of rows of the collection (not of the snapshot pairs). -/
noncomputable def gram {μ : Type} [Fintype μ] [DecidableEq μ] (n : Nat) (w : Option (μ → ℝ)) (X : Matrix μ ι ℝ) (Y : Matrix μ κ ℝ) : Matrix ι κ ℝ :=
  match w with
  | none => (1 / (n : ℝ)) • (Xᵀ * Y)
  | some w => Xᵀ * (diagonal w * Y)

/-- `_compute_full_system_matrix` (dmd.py 758-846): `K` is a possible result.  `LinearRegression(fit_intercept=False).fit(G, G')` holds in
`coef_` the transposed least squares solution of `G Z = G'`. -/
def IsSystemMatrix (n : Nat) (ps : List ((ι → ℝ) × (ι → ℝ))) (w : Option (Fin ps.length → ℝ)) (K : Matrix ι ι ℝ) : Prop :=
  IsLstsqM (gram n w (startM ps) (startM ps)) (gram n w (startM ps) (endM ps)) Kᵀ

/-- `DMDStandard(rank=None).fit(X)` (dmd.py 1200-1328) up to the spectral decomposition: `K` is a possible system matrix for the collection `c` (constant sampling
interval required) without or with sample weights, one per snapshot pair. -/
def Fits (k : TimeKind) (c : List (Row Int (ι → ℝ))) (w : Option (List ℝ)) (K : Matrix ι ι ℝ) : Prop :=
  isConstDeltaTime k c = true ∧ ∃ L R, shiftMatrices c = .ok (L, R) ∧
    match w with
    | none => IsSystemMatrix c.length (L.zip R) none K
    | some w => w.length = (L.zip R).length ∧ IsSystemMatrix c.length (L.zip R) (some (fun i => w.getD i 0)) K

/-- `_compute_reduced_system_matrix` (dmd.py 848-875) given the truncated singular value decomposition `U, S, V` of the (column oriented) start snapshots;
`Y` are the column oriented end snapshots. -/
noncomputable def reducedMatrix {ν ρ : Type} [Fintype ν] [Fintype ρ] [DecidableEq ρ] (Y : Matrix ι ν ℝ) (U : Matrix ι ρ ℝ) (S : ρ → ℝ) (V : Matrix ν ρ ℝ) :
    Matrix ρ ρ ℝ := Uᵀ * Y * (V * diagonal (fun i => (S i)⁻¹))

/-- The modes of `_compute_spectral_components` with a rank (dmd.py 990-1008), `W` the eigenvectors of the reduced matrix:
`exact` is `Y V S⁻¹ W`. -/
noncomputable def exactModes {ν ρ : Type} [Fintype ν] [Fintype ρ] [DecidableEq ρ] (Y : Matrix ι ν ℝ) (S : ρ → ℝ) (V : Matrix ν ρ ℝ) (W : Matrix ρ ρ ℂ) :
    Matrix ι ρ ℂ := toCM Y * toCM V * (diagonal (fun i => (((S i)⁻¹ : ℝ) : ℂ)) * W)

/-- `project` is `U W` (dmd.py 1005-1006). -/
noncomputable def projectedModes {ρ : Type} [Fintype ρ] (U : Matrix ι ρ ℝ) (W : Matrix ρ ρ ℂ) : Matrix ι ρ ℂ := toCM U * W

/-- `DMDControl._compute_koopman_and_control_matrix` (dmd.py 1617-1659) on rows `((x, u), y)`: `G = XU XU^T / n`, `V = Y XU^T / n`, the result is the transposed least
squares solution of `G^T M = V^T`, cut into the columns of the states and of the controls. -/
def IsControlMatrices (n : Nat) (ps : List ((ι ⊕ κ → ℝ) × (ι → ℝ))) (A : Matrix ι ι ℝ) (B : Matrix ι κ ℝ) : Prop :=
  ∃ Mu : Matrix (ι ⊕ κ) ι ℝ,
    IsLstsqM ((1 / (n : ℝ)) • ((startM ps)ᵀ * startM ps))ᵀ ((1 / (n : ℝ)) • ((endM ps)ᵀ * startM ps))ᵀ Mu ∧
    A = Matrix.of (fun i j => Mu (Sum.inl j) i) ∧ B = Matrix.of (fun i j => Mu (Sum.inr j) i)

/-- The index check of `_validate_and_setup_fit_attrs` (base.py 460-475) with `_requires_last_control_state = False`: the index of the control has to be
the index of the states without the last sample of each series. -/
def controlIndexMatches (c : List (Row Int (ι → ℝ))) (u : List (Row Int (κ → ℝ))) : Prop :=
  ∃ d, dropLastN c 1 = .ok d ∧ d.map (·.key) = u.map (·.key)

/-- `DMDControl.fit(X, U)` (dmd.py 1661-1716) up to the spectral decomposition: `Um` are the values of `U` in row order. -/
def FitsControl (k : TimeKind) (c : List (Row Int (ι → ℝ))) (u : List (Row Int (κ → ℝ))) (A : Matrix ι ι ℝ) (B : Matrix ι κ ℝ) : Prop :=
  isConstDeltaTime k c = true ∧ controlIndexMatches c u ∧ ∃ L R, shiftMatrices c = .ok (L, R) ∧
    IsControlMatrices c.length (((L.zip (u.map (·.val))).map (fun p => Sum.elim p.1 p.2)).zip R) A B

/-- `gDMDFull._compute_koopman_generator` (dmd.py 1420-1436) on rows `(x, x')`. -/
def IsGenerator (ps : List ((ι → ℝ) × (ι → ℝ))) (K : Matrix ι ι ℝ) : Prop :=
  IsLstsqM ((startM ps)ᵀ * startM ps) ((startM ps)ᵀ * endM ps) Kᵀ

/-- Residual (squared) of one component in `_remove_spectral_pollution` (dmd.py 877-903); numerator and denominator of the quotient. -/
noncomputable def residualParts (G G' R : Matrix ι ι ℝ) (ev : ℂ) (v : ι → ℂ) : ℝ × ℝ :=
  let num := toCM R - ev • (toCM G')ᵀ - (star ev) • toCM G' + ((Complex.normSq ev : ℝ) : ℂ) • toCM G
  ((star v ⬝ᵥ num *ᵥ v).re, (star v ⬝ᵥ toCM G *ᵥ v).re)

end Verif.Dmd
