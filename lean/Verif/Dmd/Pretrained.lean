import Verif.Dyn.System
/-!
# Model of `PretrainedDMD` and of `PyDMDWrapper`

`datafold/dynfold/dmd.py` 32-50, 527-570 and 1860-2053.  The eigenpairs of `np.linalg.eig` are arguments, complex arithmetic is exact.
-/

namespace Verif.Dmd

open Verif.Tsc Verif.Dyn Matrix

variable {ι : Type} [Fintype ι] [DecidableEq ι]

/-- `np.linalg.norm(V, axis=0)`: the norm of a column. -/
noncomputable def colNorm (Ψ : Matrix ι ι ℂ) (k : ι) : ℝ := Real.sqrt (∑ i, Complex.normSq (Ψ i k))

/-- `compute_spectral_components` (dmd.py 32-50): the eigenpairs `ev`, `Ψ` of `np.linalg.eig` are brought into the order `σ` of `sort_eigenpairs`, the right eigenvectors are normalised, and the left
eigenvectors are `np.linalg.solve(Ψ Λ, A)`. `none`: `LinAlgError` for a singular left hand side. -/
noncomputable def spectralComponents (A : Matrix ι ι ℝ) (ev : ι → ℂ) (Ψ : Matrix ι ι ℂ) (σ : Equiv.Perm ι) (diagonalize : Bool) :
    Option (Matrix ι ι ℂ × (ι → ℂ) × Option (Matrix ι ι ℂ)) :=
  let Φ : Matrix ι ι ℂ := Matrix.of (fun i k => Ψ i (σ k) / (colNorm Ψ (σ k) : ℂ))
  let w : ι → ℂ := fun k => ev (σ k)
  if diagonalize then (leftEigenvectors A w Φ).map (fun L => (Φ, w, some L)) else some (Φ, w, none)

/-- The system of a pretrained model. -/
inductive Pretrained (ι : Type) | matrix (A : Matrix ι ι ℝ) | spectral (Φ : Matrix ι ι ℂ) (ev : ι → ℂ) (L : Option (Matrix ι ι ℂ))

/-- `PretrainedDMD.from_available_system_matrix` (dmd.py 536-561). -/
noncomputable def fromSystemMatrix (mode : SysMode) (A : Matrix ι ι ℝ) (diagonalize : Bool) (ev : ι → ℂ) (Ψ : Matrix ι ι ℂ) (σ : Equiv.Perm ι) : Option (Pretrained ι) :=
  match mode with
  | .matrix => some (.matrix A)
  | .spectral => (spectralComponents A ev Ψ σ diagonalize).map (fun s => .spectral s.1 s.2.1 s.2.2)

/-- The predicted states of a flowmap system (dynsystem.py 89-120, 190-235), for initial conditions `ics` at time values `times`. The spectral states are those of
`compute_spectral_system_states`. -/
def PredictsFlow (s : Pretrained ι) (dt : Int) (ics : List (ι → ℝ)) (times : List Int) (out : List (List (ι → ℝ))) : Prop :=
  match s with
  | .matrix A => out = flowmapMatrix A ics times dt
  | .spectral Φ ev L => ∃ bs, List.Forall₂ (fun x b => IsSpectralState L Φ (toC x) b) ics bs ∧ out = flowmapSpectral Φ ev bs times dt

/-- The predicted states of a differential system (dynsystem.py 23-44, 122-152). -/
def PredictsDiff (s : Pretrained ι) (ics : List (ι → ℝ)) (times : List ℝ) (out : List (List (ι → ℝ))) : Prop :=
  match s with
  | .matrix A => out = differentialMatrix A ics times
  | .spectral Φ ev L => ∃ bs, List.Forall₂ (fun x b => IsSpectralState L Φ (toC x) b) ics bs ∧ out = differentialSpectral Φ ev bs times

/-- `PretrainedDMD.fit` (dmd.py 563-570): the number of features is stored, the system is not looked at ("TODO: perform validation if dimensions with setup system are correct"). -/
def pretrainedFit {α : Type} (s : Sys α) (nFeatures : Nat) : Sys α × Nat := (s, nFeatures)

/-- Prediction with the fitted model for `m` initial conditions of the features it was fitted with (dmd.py 304-411 and 203-297, only the checks of `evolve_system`). -/
def pretrainedPredict {α : Type} (m : Sys α × Nat) (nIc nTimes : Nat) (dt : ℚ) : Except SysErr (Evolve α) :=
  evolveCheck m.1 false (.array [m.2, nIc]) none none (.array [nTimes] true) (.number dt) (some m.2)

/-! ### PyDMD -/

/-- The methods of `PyDMDWrapper` (dmd.py 1948-1992). -/
inductive PyMethod | dmd | hodmd | fbdmd | mrdmd | cdmd | dmdc | unknown
deriving DecidableEq, Repr

/-- Exceptions of `PyDMDWrapper.fit` and of the prediction. -/
inductive PyErr | method | severalSeries | noControl | notSetup
deriving DecidableEq, Repr

/-- What is handed to the PyDMD model: the states as columns, and the control input. -/
structure PyInput (V W : Type) where
  states : List V
  control : Option (List W)

/-- `PyDMDWrapper.fit` (dmd.py 1994-2053): the input of the PyDMD model, and whether the linear system is set up afterwards. -/
def pyFit {V W : Type} (m : PyMethod) (X : List (Row Int V)) (U : Option (List (Row Int W))) : Except PyErr (PyInput V W × Bool) :=
  if m = .unknown then .error .method
  else if 1 < (ids X).length then .error .severalSeries
  else if m = .dmdc then
    match U with
    | none => .error .noControl
    | some U => .ok (⟨X.map (·.val), some ((U.drop 1).map (·.val))⟩, false)
  else .ok (⟨X.map (·.val), none⟩, true)

/-- `predict` of the wrapper (dmd.py 213): the first step of `_evolve_dmd_system` is `is_linear_system_setup(raise_error_if_not_setup=True)`. -/
def pyPredict {V W : Type} (m : PyInput V W × Bool) : Except PyErr Unit := if m.2 then .ok () else .error .notSetup

end Verif.Dmd
