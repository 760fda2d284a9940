import Verif.Dyn.Linear
import Mathlib.Analysis.Normed.Algebra.MatrixExponential
import Mathlib.Analysis.SpecialFunctions.Exponential
/-!
# Model of the spectral mode and of the differential systems

`datafold/dynfold/dynsystem.py`, exact complex arithmetic.
-/

namespace Verif.Dyn

open Verif.Tsc Matrix NormedSpace

variable {ι κ : Type} [Fintype ι] [DecidableEq ι] [Fintype κ]

/-- A real state as a complex one (numpy promotes). -/
def toC (x : ι → ℝ) : ι → ℂ := fun i => (x i : ℂ)

/-- `np.real` -/
def reV (x : ι → ℂ) : ι → ℝ := fun i => (x i).re

/-- A real matrix as a complex one. -/
def toCM {κ : Type} (A : Matrix ι κ ℝ) : Matrix ι κ ℂ := A.map (fun a => (a : ℂ))

/-- `DMDStandard._compute_left_eigenvectors` (dmd.py 974-988): `np.linalg.solve(Ψ Λ, A)`, which raises `LinAlgError` for a singular left
hand side. -/
noncomputable def leftEigenvectors (A : Matrix ι ι ℝ) (ev : ι → ℂ) (Ψ : Matrix ι ι ℂ) : Option (Matrix ι ι ℂ) := by
  classical exact if (Ψ * diagonal ev).det = 0 then none else some ((Ψ * diagonal ev)⁻¹ * toCM A)

/-- Sum of squared residuals of `Ψ b = x`. -/
noncomputable def residual {ρ : Type} [Fintype ρ] (Ψ : Matrix ι ρ ℂ) (x : ι → ℂ) (b : ρ → ℂ) : ℝ := ∑ i, Complex.normSq ((Ψ *ᵥ b - x) i)

/-- What `np.linalg.lstsq(Ψ, x)` returns: a minimiser of the residual (one of them; unique for an invertible `Ψ`). -/
def IsLstsq {ρ : Type} [Fintype ρ] (Ψ : Matrix ι ρ ℂ) (x : ι → ℂ) (b : ρ → ℂ) : Prop := ∀ b', residual Ψ x b ≤ residual Ψ x b'

/-- `compute_spectral_system_states` (dynsystem.py 705-778): a spectral state of `x`; with left eigenvectors their product with the state, else
the least squares solution with the right eigenvectors. -/
def IsSpectralState {ρ : Type} [Fintype ρ] (left : Option (Matrix ρ ι ℂ)) (Ψ : Matrix ι ρ ℂ) (x : ι → ℂ) (b : ρ → ℂ) : Prop :=
  (∃ L, left = some L ∧ b = L *ᵥ x) ∨ (left = none ∧ IsLstsq Ψ x b)

/-- `SystemSolveStrategy.flowmap_spectral` (dynsystem.py 190-235) at multiples of `time_delta`; `bs` are the spectral states. -/
noncomputable def flowmapSpectral {ρ : Type} [Fintype ρ] (Ψ : Matrix ι ρ ℂ) (ev : ρ → ℂ) (bs : List (ρ → ℂ)) (times : List Int) (dt : Int) : List (List (ι → ℝ)) :=
  bs.map (fun b => times.map (fun t => reV (Ψ *ᵥ (fun i => ev i ^ stepCount dt t * b i))))

/-- `SystemSolveStrategy.differential_matrix` (dynsystem.py 23-44), any real time values. -/
noncomputable def differentialMatrix (A : Matrix ι ι ℝ) (ics : List (ι → ℝ)) (times : List ℝ) : List (List (ι → ℝ)) :=
  ics.map (fun x => times.map (fun t => exp (t • A) *ᵥ x))

/-- `SystemSolveStrategy.differential_spectral` (dynsystem.py 122-152). -/
noncomputable def differentialSpectral (Ψ : Matrix ι ι ℂ) (ev : ι → ℂ) (bs : List (ι → ℂ)) (times : List ℝ) : List (List (ι → ℝ)) :=
  bs.map (fun b => times.map (fun (t : ℝ) => reV (Ψ *ᵥ (fun i => Complex.exp (ev i * t) * b i))))

/-- The loop of `SystemSolveStrategy.flowmap_spectral_controlled` (dynsystem.py 317-326) for one initial condition; `M` is the reconstructed
system matrix. -/
noncomputable def spectralControlledLoop (M : Matrix ι ι ℂ) (B : Matrix ι κ ℝ) : (ι → ℝ) → List Int → List (κ → ℝ) → List (ι → ℝ)
  | x, _ :: ds, u :: us => x :: spectralControlledLoop M B (reV (M *ᵥ toC x + toCM B *ᵥ toC' u)) ds us
  | x, _, _ => [x]
where
  /-- promotion of the control input -/
  toC' (u : κ → ℝ) : κ → ℂ := fun i => (u i : ℂ)

/-- `SystemSolveStrategy.flowmap_spectral_controlled` (dynsystem.py 297-326): the first state is `Re(Ψ b)`, the system matrix is put together
again from the eigenpairs; the loop runs over `time_values[1:]`. -/
noncomputable def flowmapSpectralControlled (Ψ L : Matrix ι ι ℂ) (ev : ι → ℂ) (B : Matrix ι κ ℝ) (bs : List (ι → ℂ))
    (us : List (List (κ → ℝ))) (times : List Int) : List (List (ι → ℝ)) :=
  List.zipWith (fun b u => spectralControlledLoop (Ψ * (diagonal ev * L)) B (reV (Ψ *ᵥ b)) times.tail u) bs us

end Verif.Dyn
