import Verif.Mpc.Control
import Mathlib.Analysis.Calculus.Deriv.Basic
/-!
# Model of the prediction and the adjoint of the control-affine controller (`AffineKgMPC`)

`datafold/appfold/mpc.py` 775-811 (`_predict` with its cache), 813-848 (`cost_and_jacobian`), 892-966 (`jacobian`, adjoint equation).  The numerical integration (`solve_ivp`) and the
interpolation of the inputs are replaced by exact solutions; `interp1d(kind="previous")` is the piecewise constant function.
-/

namespace Verif.Mpc

open Matrix

/-! ## The cache of the lifted initial state -/

section cache

variable {State Lifted : Type}

/-- The memory: the content of the array objects of the caller. -/
abbrev Heap (State : Type) := Nat → State

/-- The two cache attributes (mpc.py 769-770): a reference to the array object of the last call (not a copy) and its lifted state. -/
structure LiftCache (Lifted : Type) where
  ref : Option Nat
  lifted : Option Lifted
deriving DecidableEq, Repr

/-- Value of the attributes after `__init__`. -/
def LiftCache.empty : LiftCache Lifted := ⟨none, none⟩

/-- `_predict` (mpc.py 778-788): is the lifted state computed again?  `None != x0` is true everywhere. -/
def needsLift [DecidableEq State] (h : Heap State) (c : LiftCache Lifted) (a : Nat) : Bool :=
  match c.ref with
  | none => true
  | some b => decide (h b ≠ h a)

/-- `_predict` (mpc.py 775-788): the lifted state used for the array at address `a` and the cache afterwards.  `none` would be a missing lifted state. -/
def useLift [DecidableEq State] (lift : State → Lifted) (h : Heap State) (c : LiftCache Lifted) (a : Nat) : Option Lifted × LiftCache Lifted :=
  if needsLift h c a then (some (lift (h a)), ⟨some a, some (lift (h a))⟩) else (c.lifted, c)

/-- What a program does with a controller: overwrite one of its own arrays, or ask for a control signal with one of them as initial state
(`generate_control_signal` with an array, mpc.py 1056-1062: the array object is handed through). -/
inductive McOp (State : Type)
  | write (a : Nat) (v : State)
  | call (a : Nat)

/-- All lifted states used by the calls of a program, each with the state the caller asked for. -/
def runOps [DecidableEq State] (lift : State → Lifted) : Heap State → LiftCache Lifted → List (McOp State) → List (State × Option Lifted)
  | _, _, [] => []
  | h, c, .write a v :: l => runOps lift (Function.update h a v) c l
  | h, c, .call a :: l => (h a, (useLift lift h c a).1) :: runOps lift h (useLift lift h c a).2 l

end cache

/-! ## Prediction and adjoint equation -/

section adjoint

variable {N m : Nat}

/-- The control tensor of the model, shape (N, N, m). -/
abbrev Tensor (N m : Nat) := Fin N → Fin N → Fin m → ℝ

/-- `self.B @ u` for a vector of inputs (mpc.py 792-794): the last axis is contracted. -/
def applyInput (B : Tensor N m) (u : Fin m → ℝ) : Matrix (Fin N) (Fin N) ℝ := Matrix.of fun i j => ∑ k, B i j k * u k

/-- Right hand side of the predicted system (mpc.py 792-794). -/
def affineRhs (L : Matrix (Fin N) (Fin N) ℝ) (B : Tensor N m) (u : Fin m → ℝ) (x : Fin N → ℝ) : Fin N → ℝ := L *ᵥ x + applyInput B u *ᵥ x

/-- `B.T`: all axes are reversed. -/
def tensorT (B : Tensor N m) (i : Fin m) (j k : Fin N) : ℝ := B k j i

/-- Right hand side of the adjoint equation, `_lambda_ajoint_ODE` (mpc.py 943-948): `einsum("ijk,i->jk", B.T, u)`. -/
def adjointRhs (L : Matrix (Fin N) (Fin N) ℝ) (B : Tensor N m) (u : Fin m → ℝ) (γ y : Fin N → ℝ) : Fin N → ℝ :=
  -γ - Lᵀ *ᵥ y - (Matrix.of fun j k => ∑ i, tensorT B i j k * u i) *ᵥ y

/-- One column of the Jacobian (mpc.py 933-941): `einsum("ijk,kj->ij", x.T @ B.T, lambda) + rho` at one time value. -/
def jacEntry (B : Tensor N m) (r : Fin m → ℝ) (u : Fin m → ℝ) (x y : Fin N → ℝ) (i : Fin m) : ℝ :=
  ∑ k, (∑ j, x j * tensorT B i j k) * y k + 2 * r i * u i

/-- `_dcost_dx` (mpc.py 968-974): the gradient with respect to the lifted state; the rows after the first `n` are zero. -/
def gammaAt {n : Nat} (q : Fin n → ℝ) (ref : Fin n → ℝ) (x : Fin N → ℝ) (hn : n ≤ N) : Fin N → ℝ :=
  fun j => if h : (j : Nat) < n then 2 * q ⟨j, h⟩ * (x (Fin.castLE hn ⟨j, h⟩) - ref ⟨j, h⟩) else 0

/-- `_compute_lambda_adjoint` (mpc.py 950-966) with `interp1d(kind="previous")` (mpc.py 925-926): the exact solution, with end value zero, for the values `u k`, `γ k` on the interval from
`t k` to `t (k+1)`. -/
structure AdjointSol (L : Matrix (Fin N) (Fin N) ℝ) (B : Tensor N m) (horizon : Nat) (t : Nat → ℝ) (u : Nat → Fin m → ℝ) (γ : Nat → Fin N → ℝ) (y : ℝ → Fin N → ℝ) : Prop where
  last : y (t horizon) = 0
  eq : ∀ k < horizon, ∀ s ∈ Set.Icc (t k) (t (k + 1)), HasDerivWithinAt y (adjointRhs L B (u k) (γ k) (y s)) (Set.Icc (t k) (t (k + 1))) s

/-- The array returned by `jacobian` (mpc.py 892-941) before `ravel`: entry (input, time step). -/
def affineJacobian (B : Tensor N m) (r : Fin m → ℝ) (t : Nat → ℝ) (u : Nat → Fin m → ℝ) (x : Nat → Fin N → ℝ) (y : ℝ → Fin N → ℝ) (i : Fin m) (k : Nat) : ℝ :=
  jacEntry B r (u k) (x k) (y (t k)) i

end adjoint

end Verif.Mpc
