import Verif.Kernel.Normalize
import Verif.Utils.General
import Mathlib.Data.Complex.Basic
import Mathlib.Analysis.SpecialFunctions.Pow.NNReal
/-!
# Model of the eigensolver wrappers

`datafold/pcfold/eigsolver.py` 23-344 and `_DmapKernelAlgorithms.solve_eigenproblem` (dynfold/dmap.py 50-106).  The routines of scipy are a relation between the matrix and the returned pairs.
Exact arithmetic; all values are finite.
-/

namespace Verif.Kernel

open Matrix Verif.Utils

variable {n : Nat}

/-- The routines of scipy the wrapper chooses from. -/
inductive EigRoutine | eigh | eig | eigsh | eigs
deriving DecidableEq, Repr

/-- The choice in `scipy_eigsolver` (eigsolver.py 72-93): for all eigenpairs `kernel._is_symmetric_kernel` (`flag`) decides, for some of them `kernel.is_symmetric`, which is true if also the distance is symmetric (kernels.py 428-435). -/
def chooseEig (flag distSym : Bool) (nPairs n : Nat) : EigRoutine := if nPairs = n then (if flag then .eigh else .eig) else if flag && distSym then .eigsh else .eigs

/-- The symmetric matrix `scipy.linalg.eigh` works with: only the lower triangle is read (`lower=True`). -/
def lowerSym (A : Matrix (Fin n) (Fin n) ℝ) : Matrix (Fin n) (Fin n) ℝ := fun i j => if j ≤ i then A i j else A j i

/-- Right eigenpair of a real matrix over the complex numbers. -/
def IsCEigenpair (A : Matrix (Fin n) (Fin n) ℝ) (lam : ℂ) (v : Fin n → ℂ) : Prop := v ≠ 0 ∧ A.map (fun x : ℝ => (x : ℂ)) *ᵥ v = lam • v

/-- A pair of real numbers. -/
def RealPair (q : ℂ × (Fin n → ℂ)) : Prop := q.1.im = 0 ∧ ∀ i, (q.2 i).im = 0

/-- What the routines return for `k` eigenpairs: `eigh` real eigenpairs of the matrix given by the lower triangle, `eigsh` real eigenpairs if the matrix is symmetric (nothing is known otherwise),
`eig` and `eigs` complex eigenpairs. -/
def EigResult (s : EigRoutine) (A : Matrix (Fin n) (Fin n) ℝ) (k : Nat) (pairs : List (ℂ × (Fin n → ℂ))) : Prop :=
  pairs.length = k ∧
    match s with
    | .eigh => ∀ q ∈ pairs, RealPair q ∧ IsCEigenpair (lowerSym A) q.1 q.2
    | .eigsh => (∀ i j, A i j = A j i) → ∀ q ∈ pairs, RealPair q ∧ IsCEigenpair A q.1 q.2
    | .eig | .eigs => ∀ q ∈ pairs, IsCEigenpair A q.1 q.2

/-- Errors of this part. -/
inductive EigErr | numerical | value
deriving DecidableEq, Repr

/-- `np.real` of eigenvalue and eigenvector (eigsolver.py 281-282). -/
def realPart (q : ℂ × (Fin n → ℂ)) : ℂ × (Fin n → ℂ) := ((q.1.re : ℂ), fun i => ((q.2 i).re : ℂ))

/-- The numbers `sort_eigenpairs` sorts. -/
def cpxOf (z : ℂ) : Cpx ℝ := ⟨z.re, z.im⟩

/-- `100 * sys.float_info.epsilon`. -/
noncomputable def imagTol : ℝ := 100 * 2 ^ (-52 : ℤ)

open Classical in
/-- `compute_kernel_eigenpairs` without normalisation after the routine returned `pairs` (eigsolver.py 268-288); `idx` is the result of `np.argsort`. -/
noncomputable def kernelEigenpairs (flag : Bool) (pairs : List (ℂ × (Fin n → ℂ))) (idx : List Nat) : Except EigErr (List (ℂ × (Fin n → ℂ))) :=
  if flag = true ∧ ∃ q ∈ pairs, imagTol < q.1.im then .error .numerical
  else
    .ok (idx.reverse.filterMap fun i => ((if flag then pairs.map realPart else pairs))[i]?)

open Classical in
/-- `solve_eigenproblem` (dynfold/dmap.py 73-97) after the eigenpairs were computed: imaginary parts are rejected (in magnitude) or dropped, the basis is changed by the diagonal matrix `b` and the vectors are normalised. -/
noncomputable def solveEigen (b : Option (Fin n → ℝ)) (pairs : List (ℂ × (Fin n → ℂ))) : Except EigErr (List (ℝ × (Fin n → ℝ))) :=
  if ∃ q ∈ pairs, imagTol < |q.1.im| ∨ ∃ i, imagTol < |(q.2 i).im| then .error .numerical
  else .ok (pairs.map fun q => (q.1.re, fun i => (b.getD (fun _ => 1) i * (q.2 i).re) / Real.sqrt (∑ j, (b.getD (fun _ => 1) j * (q.2 j).re) ^ 2)))

/-- A singular value with its left and right vectors. -/
structure SvdTriplet (m n : Nat) where
  s : ℝ
  u : Fin m → ℝ
  v : Fin n → ℝ

/-- `compute_kernel_svd` (eigsolver.py 291-344) for real matrices; `solver` stands for the routines of scipy, `idx` for the result of `np.argsort`. -/
def kernelSvd {m n : Nat} (A : Matrix (Fin m) (Fin n) ℝ) (k : Nat) (solver : Matrix (Fin m) (Fin n) ℝ → Nat → List (SvdTriplet m n)) (idx : List Nat) : Except EigErr (List (SvdTriplet m n)) :=
  if min m n < k then .error .value else .ok (idx.reverse.filterMap fun i => (solver A k)[i]?)

end Verif.Kernel
