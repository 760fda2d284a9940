import Verif.Dmd.Standard
import Verif.Tsc.Derivative
import Verif.Tsc.Folds
import Mathlib.Logic.Equiv.Fin.Basic
/-!
# Model of `gDMDAffine.fit` and of the choice of samples in `gDMDFull.fit`

`datafold/dynfold/dmd.py`, real data in exact arithmetic; `n` states and `q` control inputs. The finite difference coefficients are a parameter.
-/

namespace Verif.Dmd

open Verif.Tsc Verif.Np Verif.Lin Verif.Dyn Matrix

variable {n q : Nat}

/-- Exceptions of `fit`. -/
inductive AffErr | tsc (e : TscErr) | index | shape
deriving DecidableEq, Repr

/-- One row of `np.einsum("ij,ik->ijk", U, X).reshape(n_snapshots, control_cols * state_cols)` (dmd.py 1821-1823): entry `j * n + k` is `u_j x_k`. -/
def kronRow (u : Fin q → ℝ) (x : Fin n → ℝ) : Fin (q * n) → ℝ := fun e => u (finProdFinEquiv.symm e).1 * x (finProdFinEquiv.symm e).2

/-- One column of `Psi_XU` (dmd.py 1826). -/
def affineLift (x : Fin n → ℝ) (u : Fin q → ℝ) : Fin n ⊕ Fin (q * n) → ℝ := Sum.elim x (kronRow u x)

/-- `control_matrix.reshape(state_cols, control_cols, state_cols).swapaxes(1, 2)` (dmd.py 1848-1851): entry `[i, k, j]` of the tensor. -/
def controlTensor (B : Matrix (Fin n) (Fin (q * n)) ℝ) : Fin n → Fin n → Fin q → ℝ := fun i k j => B i (finProdFinEquiv (j, k))

/-- The regression of `gDMDAffine._compute_koopman_and_control_matrix` (dmd.py 1820-1854) on samples `(x, u, x')`; the normal equations are those of `DMDControl`. -/
def IsAffine (ps : List ((Fin n → ℝ) × (Fin q → ℝ) × (Fin n → ℝ))) (A : Matrix (Fin n) (Fin n) ℝ) (T : Fin n → Fin n → Fin q → ℝ) : Prop :=
  ∃ B : Matrix (Fin n) (Fin (q * n)) ℝ, IsControlMatrices ps.length (ps.map (fun p => (affineLift p.1 p.2.1, p.2.2))) A B ∧ T = controlTensor B

/-- The samples of `gDMDAffine._compute_koopman_and_control_matrix` (dmd.py 1800-1809, 1821-1833) for the time derivative `d`: states and controls are selected by the time values of `d` (all
series), the rows are then combined by position; different numbers of rows raise a `ValueError` in `einsum` or in the matrix product. -/
def affineRows (c : List (Row Int (Fin n → ℝ))) (u : List (Row Int (Fin q → ℝ))) (d : List (Row Int (Fin n → ℝ))) :
    Except AffErr (List ((Fin n → ℝ) × (Fin q → ℝ) × (Fin n → ℝ))) :=
  let X := selectTimeValues c (timeValues d)
  let U := selectTimeValues u (timeValues d)
  if U.length ≠ X.length ∨ d.length ≠ X.length then .error .shape
  else .ok ((X.map (·.val)).zip ((U.map (·.val)).zip (d.map (·.val))))

/-- `gDMDAffine.fit(X, U)` (dmd.py 1661-1705 as `DMDControl.fit`, with `_requires_last_control_state = True`, 1795-1833) up to the regression: the index of `U` has to be that of `X`; the samples
of the regression. -/
noncomputable def affineSamples (scheme : Scheme) (st : Stencil) (c : List (Row Int (Fin n → ℝ))) (u : List (Row Int (Fin q → ℝ))) :
    Except AffErr (List ((Fin n → ℝ) × (Fin q → ℝ) × (Fin n → ℝ))) :=
  if c.map (·.key) ≠ u.map (·.key) then .error .index
  else match timeDerivative scheme st 1 false c with
    | .error e => .error (.tsc e)
    | .ok d => affineRows c u d

/-- `X.loc[X_grad.index, :]` (dmd.py 1521): the rows with the keys of `d`, in that order. -/
def locKeys {V : Type} (c d : List (Row Int V)) : List (Row Int V) := d.filterMap (fun r => c.find? (fun x => decide (x.key = r.key)))

/-- The samples of `gDMDFull.fit(X)` (dmd.py 1518-1523) up to the regression. -/
noncomputable def generatorSamples (scheme : Scheme) (st : Stencil) (shift : Bool) (c : List (Row Int (Fin n → ℝ))) : Except AffErr (List ((Fin n → ℝ) × (Fin n → ℝ))) :=
  match timeDerivative scheme st 1 shift c with
  | .error e => .error (.tsc e)
  | .ok d => .ok (((locKeys c d).map (·.val)).zip (d.map (·.val)))

end Verif.Dmd
