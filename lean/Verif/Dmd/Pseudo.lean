import Verif.Dmd.Standard
import Mathlib.Analysis.SpecialFunctions.Sqrt
import Mathlib.Analysis.SpecialFunctions.Exp
/-!
# Model of `DMDStandard.pseudospectrum` and `DMDStandard.spectral_measure`

`datafold/dynfold/dmd.py`; exact arithmetic. The routines of numpy and scipy (`eigh`, `eigs`, `qz`, `solve`) are relations between their input and a possible output.
-/

namespace Verif.Dmd

open Verif.Lin Verif.Dyn Matrix

variable {ι : Type} [Fintype ι] [DecidableEq ι]

/-- The matrix `num` at the grid point `z` (dmd.py 1084-1089). -/
noncomputable def pseudoNum (G G' R : Matrix ι ι ℝ) (z : ℂ) : Matrix ι ι ℂ :=
  toCM R - z • (toCM G')ᵀ - (star z) • toCM G' + ((Complex.normSq z : ℝ) : ℂ) • toCM G

/-- `np.linalg.norm` of a matrix. -/
noncomputable def frob (G : Matrix ι ι ℝ) : ℝ := √(∑ i, ∑ j, G i j ^ 2)

/-- `G_adapt` (dmd.py 1057-1058): the regularisation on the diagonal. -/
noncomputable def regularised (G : Matrix ι ι ℝ) (reg : ℝ) : Matrix ι ι ℝ := G + (frob G * reg) • (1 : Matrix ι ι ℝ)

/-- `np.linalg.eigh`: orthonormal eigenvectors (columns of `V`) and eigenvalues. -/
def IsEigh (A V : Matrix ι ι ℝ) (d : ι → ℝ) : Prop := Vᵀ * V = 1 ∧ A = V * diagonal d * Vᵀ

/-- `SQ` (dmd.py 1061-1065). -/
noncomputable def invRoot (V : Matrix ι ι ℝ) (d : ι → ℝ) : Matrix ι ι ℝ := V * diagonal (fun i => if d i = 0 then 0 else √(1 / |d i|)) * Vᵀ

/-- `scipy.sparse.linalg.eigs(M, k=1, sigma=0, which="LM")`: an eigenvalue of smallest magnitude and an eigenvector. -/
def IsSmallest (M : Matrix ι ι ℂ) (ev : ℂ) (f : ι → ℂ) : Prop :=
  f ≠ 0 ∧ M *ᵥ f = ev • f ∧ ∀ (ev' : ℂ) (u : ι → ℂ), u ≠ 0 → M *ᵥ u = ev' • u → ‖ev‖ ≤ ‖ev'‖

/-- `pseudospectrum` (dmd.py 1019-1117) at one grid point, for stored matrices `G`, `G'` and `R`: `res` and `f` are a possible residual and pseudo eigenfunction. (Grid points at which `eigs` does not converge
get `inf`, this is not modelled. `eigs` needs at least three observables.) -/
def IsPseudo (G G' R : Matrix ι ι ℝ) (reg : ℝ) (z : ℂ) (res : ℝ) (f : ι → ℂ) : Prop :=
  ∃ (V : Matrix ι ι ℝ) (d : ι → ℝ) (ev : ℂ), IsEigh (regularised G reg) V d ∧ IsSmallest (toCM (invRoot V d) * pseudoNum G G' R z * toCM (invRoot V d)) ev f ∧ res = √ev.re

/-- The call after a fit without a rank (matrices of dmd.py 789-816, no sample weights). -/
def PseudoFull (n : Nat) (ps : List ((ι → ℝ) × (ι → ℝ))) : ℝ → ℂ → ℝ → (ι → ℂ) → Prop :=
  IsPseudo (gram n none (startM ps) (startM ps)) (gram n none (startM ps) (endM ps)) (gram n none (endM ps) (endM ps))

/-- The call after a fit with a rank (matrices of dmd.py 869-871). -/
def PseudoReduced (ps : List ((ι → ℝ) × (ι → ℝ))) : ℝ → ℂ → ℝ → (ι → ℂ) → Prop :=
  IsPseudo ((startM ps)ᵀ * startM ps) ((endM ps)ᵀ * startM ps) ((endM ps)ᵀ * endM ps)

/-- `_calc_z` (dmd.py 1119-1120), `j` counted from zero. -/
noncomputable def calcZ (m : Nat) (j : Fin m) : ℂ := 1 + Complex.I * ((2 * ((j : ℂ) + 1)) / ((m : ℂ) + 1) - 1)

/-- The points `sigma` in `_calc_c` (dmd.py 1122-1124). -/
noncomputable def calcSigma {m : Nat} (z : Fin m → ℂ) (eps : ℝ) (j : Fin m) : ℂ := (1 / (1 + eps * star (z j)) - 1) / eps

/-- `np.linalg.solve(np.vstack([z**i for i in range(m)]), np.eye(m, 1))` (dmd.py 1125, 1129). -/
def IsWeights {m : Nat} (z c : Fin m → ℂ) : Prop := ∀ i : Fin m, ∑ j, z j ^ (i : Nat) * c j = if (i : Nat) = 0 then 1 else 0

/-- `S, T, Q, Z = scipy.linalg.qz(A, B)` (dmd.py 1179): `A = Q S Z^T`, `B = Q T Z^T` with orthogonal `Q`, `Z` (that `S` and `T` are triangular is not used). -/
def IsQz (A B S T Q Z : Matrix ι ι ℝ) : Prop := Qᵀ * Q = 1 ∧ Zᵀ * Z = 1 ∧ A = Q * S * Zᵀ ∧ B = Q * T * Zᵀ

/-- The loop of `spectral_measure` at one evaluation point (dmd.py 1179-1196): `h j` is the solution of the linear system for the `j`-th pole; `g` is the normed observable (1174). The solver is `scipy.linalg.solve`. -/
noncomputable def measureRun {m : Nat} (S T Q : Matrix ι ι ℝ) (g : ι → ℝ) (c d : Fin m → ℂ) (eps theta : ℝ) (h : Fin m → ι → ℂ) : ℝ :=
  let v2 := toC (Tᵀ *ᵥ (Qᵀ *ᵥ g))
  let v3 := toC (Sᵀ *ᵥ (Qᵀ *ᵥ g))
  ∑ j, -((c j * star (Complex.exp (Complex.I * theta) * (1 + eps * calcZ m j)) * (star (h j) ⬝ᵥ v2) + d j * (star v3 ⬝ᵥ h j)).re / (2 * Real.pi))

/-- `spectral_measure` (dmd.py 1133-1198) at one evaluation point with the results `S, T, Q, Z` of `qz`: a possible value. -/
def MeasureWith (S T Q Z : Matrix ι ι ℝ) (g : ι → ℝ) (m : Nat) (eps theta nu : ℝ) : Prop :=
  ∃ (c d : Fin m → ℂ) (h : Fin m → ι → ℂ), IsWeights (calcZ m) d ∧ IsWeights (calcSigma (calcZ m) eps) c ∧
    (∀ j, (toCM S - (Complex.exp (Complex.I * theta) * (1 + eps * calcZ m j)) • toCM T) *ᵥ h j = toC (T *ᵥ (Z *ᵥ g))) ∧ nu = measureRun S T Q g c d eps theta h

/-- A possible value for any admissible result of `qz` (dmd.py 1179). -/
def IsMeasure (G G' : Matrix ι ι ℝ) (g : ι → ℝ) (m : Nat) (eps theta nu : ℝ) : Prop :=
  ∃ S T Q Z : Matrix ι ι ℝ, IsQz G' G S T Q Z ∧ MeasureWith S T Q Z g m eps theta nu

/-! ### When the methods are available -/

/-- What the methods raise. -/
inductive PsErr | attribute | value
deriving DecidableEq, Repr

/-- Parameters of `DMDStandard` that matter here: `compute_pseudospectrum`, whether `rank` and `residual_filter` are set, and the mode. -/
structure PsParams where
  compute : Bool
  rank : Bool
  filter : Bool
  spectral : Bool

/-- The matrices in the attributes `_G`, `_G_dash`, `_R`: missing, `None`, or computed from data `δ`. -/
inductive PsStored (δ : Type)
  | missing | null | of (x : δ)

/-- `fit` on data `x` (dmd.py 832-835, 1262-1318): what is stored afterwards. -/
def psFit {δ : Type} (p : PsParams) (x : δ) (s : PsStored δ) : PsStored δ :=
  if p.spectral && p.compute then (if !p.rank && !p.filter then .null else .of x) else s

/-- A history of `set_params` and `fit`, the last call first. -/
def psFits {δ : Type} : List (PsParams × δ) → PsStored δ
  | [] => .missing
  | (p, x) :: hs => psFit p x (psFits hs)

/-- Reading the matrices: `self._G.copy()` and `self._G.shape` raise an `AttributeError` if the attribute is missing or `None`. -/
def psRead {δ : Type} : PsStored δ → Except PsErr δ
  | .of x => .ok x
  | _ => .error .attribute

/-- The data from which `pseudospectrum` computes (dmd.py 1043-1057). The message of the `ValueError` in 1044 reads the attribute `compute_pesudospectrum`, which does not exist. -/
def psCall {δ : Type} (p : PsParams) (s : PsStored δ) : Except PsErr δ :=
  if !p.compute then .error .attribute else psRead s

/-- The data from which `spectral_measure` computes (dmd.py 1161-1168). -/
def smCall {δ : Type} (p : PsParams) (s : PsStored δ) : Except PsErr δ :=
  if !p.filter then .error .attribute else psRead s

/-- The array of the caller after `observable /= np.linalg.norm(observable, 2)` (dmd.py 1167, 1174): `if1dim_colvec` returns a view. -/
noncomputable def observableAfter (g : ι → ℝ) : ι → ℝ := fun i => g i / √(∑ j, g j ^ 2)

end Verif.Dmd
