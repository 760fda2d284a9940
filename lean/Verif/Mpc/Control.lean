import Verif.Mpc.Kmpc
import Verif.Utils.General
import Mathlib.LinearAlgebra.Matrix.NonsingularInverse
/-!
# Model of the selection matrix of `KMPC`, of `LQR` and of the cost of `AffineKgMPC`

`datafold/appfold/mpc.py` 254-262, 607-664 and 667-1098.  Exact real arithmetic.
-/

namespace Verif.Mpc

open Matrix Verif.Utils

/-- The matrix `Cb` of `KMPC` with given `qois` (mpc.py 254-262): the transposed projection matrix; `none` is the ValueError. -/
def kmpcC (features qois : List String) : Option (Matrix (Fin qois.length) (Fin features.length) ℝ) :=
  (projectionMatrix (α := ℝ) features qois).map (fun P => Matrix.of (fun r n => P n r))

section lqr

variable {ν : Type} [Fintype ν] [DecidableEq ν] {nu : Nat}

/-- A possible result of `scipy.linalg.solve_discrete_are(A, B, Q, R)`. -/
structure IsDare (A : Matrix ν ν ℝ) (B : Matrix ν (Fin nu) ℝ) (Q : Matrix ν ν ℝ) (R : Matrix (Fin nu) (Fin nu) ℝ) (P : Matrix ν ν ℝ) : Prop where
  symm : Pᵀ = P
  unit : IsUnit (R + Bᵀ * P * B).det
  eq : P = Aᵀ * P * A - (Aᵀ * P * B) * (R + Bᵀ * P * B)⁻¹ * (Bᵀ * P * A) + Q

/-- The feedback matrix `Flqr` (mpc.py 620-628). -/
noncomputable def lqrGain (A : Matrix ν ν ℝ) (B : Matrix ν (Fin nu) ℝ) (R : Matrix (Fin nu) (Fin nu) ℝ) (P : Matrix ν ν ℝ) : Matrix (Fin nu) ν ℝ :=
  (R + Bᵀ * P * B)⁻¹ * Bᵀ * P * A

/-- `LQR.control_sequence` (mpc.py 641-664) for a single lifted state `z` and a target given as argument: `u = -F (z - target)ᵀ` has the shape (number of inputs, 1), but is used as
data with one row and one column per input. -/
noncomputable def lqrControl (F : Matrix (Fin nu) ν ℝ) (z target : ν → ℝ) : Except MpcErr (Fin nu → ℝ) :=
  if nu ≠ 1 then .error .shape else .ok (-(F *ᵥ (z - target)))

end lqr

section affine

variable {n m : Nat}

/-- `AffineKgMPC.cost` (mpc.py 850-890): states `x i k`, inputs `u c k` for the time steps `k = 0, …, horizon`. -/
def affineCost (horizon : Nat) (q : Fin n → ℝ) (r : Fin m → ℝ) (ref x : Fin n → Nat → ℝ) (u : Fin m → Nat → ℝ) : ℝ :=
  ∑ k ∈ Finset.range (horizon + 1), (∑ i, (q i * (x i k - ref i k)) ^ 2 + ∑ c, (r c * u c k) ^ 2)

/-- `_dcost_dx` (mpc.py 968-974), the rows of the original states. -/
def dcostDx (q : Fin n → ℝ) (ref x : Fin n → Nat → ℝ) (i : Fin n) (k : Nat) : ℝ := 2 * q i * (x i k - ref i k)

/-- `_dcost_du` (mpc.py 976-978). -/
def dcostDu (r : Fin m → ℝ) (u : Fin m → Nat → ℝ) (c : Fin m) (k : Nat) : ℝ := 2 * r c * u c k

/-- The bounds handed to the optimiser (mpc.py 765-767): `np.repeat(np.fliplr(input_bounds).T, horizon + 1, axis=1).T`. -/
def affineBounds (horizon : Nat) (bounds : List (ℝ × ℝ)) : List (ℝ × ℝ) := (bounds.map (fun b => (b.2, b.1))).flatMap (fun b => List.replicate (horizon + 1) b)

/-- The returned control sequence (mpc.py 1098): `res.x.reshape(m, horizon + 1).T[:-1, :]`. -/
def affineResult (horizon m : Nat) (x : List ℝ) : List (List ℝ) :=
  ((List.range (horizon + 1)).map (fun k => (List.range m).map (fun c => x.getD (c * (horizon + 1) + k) 0))).dropLast

end affine

end Verif.Mpc
