import Verif.Kernel.Neighbor
import Mathlib.Analysis.SpecialFunctions.Trigonometric.Basic
/-!
# Model of the variable bandwidth diffusion maps kernel

`datafold/pcfold/kernels.py` 2346-2602 (`DmapKernelVariable`) and its use in `DiffusionMapsVariable.fit` (dynfold/dmap.py 751-792).  Exact real arithmetic; `D` has the squared distances.
Where numpy would produce `nan` or `inf` the model returns `notFinite` (the symmetry assertion or the eigensolver rejects such matrices).
-/

namespace Verif.Kernel

open Matrix

/-- The parameters (kernels.py 2364-2377); the types of `expected_dim` decide some of the checks. -/
structure VbParam where
  eps : ℝ
  k : Int
  dim : ℝ
  dimIsInteger : Bool
  dimIsFloat : Bool
  beta : ℝ
  symmetrize : Bool

/-- `alpha` (kernels.py 2378). -/
noncomputable def VbParam.alpha (p : VbParam) : ℝ := -p.dim / 4

/-- `c2` (kernels.py 2379-2385). -/
noncomputable def VbParam.c2 (p : VbParam) : ℝ := 1 / 2 - 2 * p.alpha + 2 * p.dim * p.alpha + p.dim * p.beta / 2 + p.beta

open Classical in
/-- The checks of the constructor (kernels.py 2367-2393). -/
noncomputable def VbParam.check (p : VbParam) : Except KErr Unit :=
  if p.dim ≤ 0 ∧ p.dimIsInteger = false then .error .value
  else if p.eps < 0 ∧ p.dimIsFloat = true then .error .value
  else if p.k ≤ 0 ∧ p.dimIsInteger = false then .error .value
  else if 0 ≤ p.c2 then .error .value
  else .ok ()

/-- `np.mean` of a vector. -/
noncomputable def vecMean {n : Nat} (v : Fin n → ℝ) : ℝ := (∑ i, v i) / n

open Classical in
/-- A row of `np.sort(np.sqrt(distance_matrix), axis=1)[:, 1 : self.k + 1]` (kernels.py 2425-2427), for `k ≥ 0`. -/
noncomputable def nearestDists {n : Nat} (D : Matrix (Fin n) (Fin n) ℝ) (k : Nat) (i : Fin n) : List ℝ :=
  (((List.ofFn fun j => Real.sqrt (D i j)).mergeSort (fun a b => decide (a ≤ b))).drop 1).take k

/-- `_compute_rho0` (kernels.py 2416-2460). -/
noncomputable def vbRho0 {n : Nat} (D : Matrix (Fin n) (Fin n) ℝ) (k : Nat) (i : Fin n) : ℝ :=
  Real.sqrt (((nearestDists D k i).map (· ^ 2)).sum / (nearestDists D k i).length)

/-- The matrix division by `vec` on both sides, symmetrised, and by the scalar (kernels.py 58-186). -/
noncomputable def divideScaled {n : Nat} (M : Matrix (Fin n) (Fin n) ℝ) (v : Fin n → ℝ) (scalar : ℝ) : Except KErr (Matrix (Fin n) (Fin n) ℝ) :=
  match divideSquare M v true with
  | .error e => .error e
  | .ok R => .ok (fun i j => R i j * (1 / scalar))

/-- `_compute_q0` (kernels.py 2462-2484). -/
noncomputable def vbQ0 {n : Nat} (D : Matrix (Fin n) (Fin n) ℝ) (dim : ℝ) (rho0 : Fin n → ℝ) : Except KErr (Fin n → ℝ) :=
  match divideScaled (-D) (fun i => rho0 i / vecMean rho0) (2 * vecMean rho0 ^ 2) with
  | .error e => .error e
  | .ok E => .ok (fun i => (2 * Real.pi * vecMean rho0 ^ 2) ^ (-dim / 2) / (rho0 i ^ dim * n) * ∑ j, Real.exp (E i j))

/-- `_compute_rho` (kernels.py 2486-2491). -/
noncomputable def vbRho {n : Nat} (beta : ℝ) (q0 : Fin n → ℝ) (i : Fin n) : ℝ := q0 i ^ beta / vecMean (fun j => q0 j ^ beta)

/-- `_compute_kernel_eps_s` (kernels.py 2493-2498). -/
noncomputable def vbKernelS {n : Nat} (D : Matrix (Fin n) (Fin n) ℝ) (rho : Fin n → ℝ) (eps : ℝ) : Except KErr (Matrix (Fin n) (Fin n) ℝ) :=
  match divideScaled D rho (-4 * eps) with
  | .error e => .error e
  | .ok E => .ok (fun i j => Real.exp (E i j))

/-- `_compute_q_eps_s` (kernels.py 2500-2503). -/
noncomputable def vbQs {n : Nat} (Ks : Matrix (Fin n) (Fin n) ℝ) (rho : Fin n → ℝ) (dim : ℝ) (i : Fin n) : ℝ := ∑ j, Ks i j / rho i ^ dim

/-- `_compute_matrix_l` (kernels.py 2512-2516). -/
noncomputable def vbMatrixL {n : Nat} (Ka : Matrix (Fin n) (Fin n) ℝ) (rho : Fin n → ℝ) (eps : ℝ) : Matrix (Fin n) (Fin n) ℝ :=
  fun i j => (Ka i j - if i = j then 1 else 0) / (eps * rho i ^ 2)

/-- `_compute_matrix_s_inv` (kernels.py 2518-2520): the diagonal of the basis change. -/
noncomputable def vbSinv {n : Nat} (rho q : Fin n → ℝ) (i : Fin n) : ℝ := (rho i * Real.sqrt (q i))⁻¹

/-- `_compute_matrix_l_conjugate` (kernels.py 2522-2535). -/
noncomputable def vbConjugate {n : Nat} (Ka : Matrix (Fin n) (Fin n) ℝ) (rho q : Fin n → ℝ) : Matrix (Fin n) (Fin n) ℝ :=
  removeNoise (fun i j => vbSinv rho q i * Ka i j * vbSinv rho q j - if i = j then (rho i ^ 2)⁻¹ - 1 else 0)

/-- The result of `evaluate`: the operator matrix and the diagonal of the basis change (`none` without symmetrisation), with the bandwidth, the normalised kernel
and the density `q_eps_s`. -/
structure VbResult (n : Nat) where
  op : Matrix (Fin n) (Fin n) ℝ
  basis : Option (Fin n → ℝ)
  rho : Fin n → ℝ
  ka : Matrix (Fin n) (Fin n) ℝ
  qs : Fin n → ℝ

open Classical in
/-- `evaluate` (kernels.py 2562-2602) after the checks of `__call__` (2537-2548), for `0 ≤ k`.  The matrix must be symmetric with zero diagonal. -/
noncomputable def vbEvaluate {n : Nat} (p : VbParam) (D : Matrix (Fin n) (Fin n) ℝ) : Except KErr (VbResult n) :=
  if (n : Int) < p.k then .error .value
  else if ¬ ((∀ i j, D i j = D j i) ∧ ∀ i, D i i = 0) then .error .value
  else if ∃ i, nearestDists D p.k.toNat i = [] then .error .notFinite
  else if vecMean (vbRho0 D p.k.toNat) = 0 then .error .notFinite
  else
    (vbQ0 D p.dim (vbRho0 D p.k.toNat)).bind fun q0 =>
      if p.eps = 0 then .error .zeroDivision
      else
        (vbKernelS D (vbRho p.beta q0) p.eps).bind fun Ks =>
          (divideSquare Ks (fun i => vbQs Ks (vbRho p.beta q0) p.dim i ^ p.alpha) true).bind fun Ka =>
            .ok (if p.symmetrize then ⟨vbConjugate Ka (vbRho p.beta q0) (rowSums Ka), some (vbSinv (vbRho p.beta q0) (rowSums Ka)), vbRho p.beta q0, Ka,
                vbQs Ks (vbRho p.beta q0) p.dim⟩
              else ⟨vbMatrixL Ka (vbRho p.beta q0) p.eps, none, vbRho p.beta q0, Ka, vbQs Ks (vbRho p.beta q0) p.dim⟩)

end Verif.Kernel
