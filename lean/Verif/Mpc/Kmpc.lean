import Mathlib.Data.Matrix.Mul
import Mathlib.Data.Matrix.Block
import Mathlib.Data.Real.Basic
/-!
# Model of Koopman model predictive control

`datafold/appfold/mpc.py` 26-50 (`_cost_to_array`), 53-458 (`KMPC`).  Exact real arithmetic.  Stacked vectors over the horizon are indexed by pairs (time step, component);
the flat position used by the code is `step * n + component`.
-/

namespace Verif.Mpc

open Matrix

/-- Exceptions raised by this part of the code. -/
inductive MpcErr
  | value | type | shape | infeasible
deriving DecidableEq, Repr

/-- A cost parameter: `None`, a number or a one-dimensional array. -/
inductive Cost
  | absent
  | number (c : ℝ)
  | array (l : List ℝ)

open Classical in
/-- `_cost_to_array` (mpc.py 26-50). -/
noncomputable def costToArray (cost : Cost) (n : Nat) : Except MpcErr (List ℝ) :=
  match cost with
  | .array l =>
    if l.length ≠ n then .error .value
    else if ∃ x ∈ l, x < 0 then .error .value
    else .ok l
  | .number c => if c < 0 then .error .value else .ok (List.replicate n c)
  | .absent => .error .type

/-- `np.tile(l, n)` for a one-dimensional array. -/
def tile {α : Type} (l : List α) (n : Nat) : List α := (List.replicate n l).flatten

open Classical in
/-- The terminal cost that is used (mpc.py 316-322): the running cost if `cost_terminal` is zero or `None`. -/
noncomputable def terminalCost (running terminal : Cost) : Cost :=
  match terminal with
  | .absent => running
  | .number c => if c = 0 then running else terminal
  | .array l => if ∀ x ∈ l, x = 0 then running else terminal

/-- Diagonal of the state cost matrix `Qb` (mpc.py 312-325). -/
noncomputable def stateDiag (horizon nq : Nat) (running terminal : Cost) : Except MpcErr (List ℝ) :=
  match costToArray running nq with
  | .error e => .error e
  | .ok r =>
    match costToArray (terminalCost running terminal) nq with
    | .error e => .error e
    | .ok t => .ok (tile r (horizon - 1) ++ t)

/-- Diagonal of the input cost matrix `Rb` (mpc.py 330-334). -/
noncomputable def inputDiag (horizon nu : Nat) (cost : Cost) : Except MpcErr (List ℝ) :=
  match costToArray cost nu with
  | .error e => .error e
  | .ok r => .ok (tile r horizon)

/-- Read a flat list of `horizon * n` numbers as a stacked vector. -/
def unstack (horizon n : Nat) (l : List ℝ) : Fin horizon × Fin n → ℝ := fun p => l.getD (p.1 * n + p.2) 0

section evolution

variable {ν : Type} [Fintype ν] {nq nu : Nat}

/-- Assign the block at position `(j, k)`. -/
def writeBlock (M : Nat → Nat → Matrix (Fin nq) (Fin nu) ℝ) (j k : Nat) (X : Matrix (Fin nq) (Fin nu) ℝ) : Nat → Nat → Matrix (Fin nq) (Fin nu) ℝ :=
  fun j' k' => if j' = j ∧ k' = k then X else M j' k'

/-- The blocks of `Ab` (mpc.py 263-274): `A_last` starts with `A` and is multiplied by `A` in each pass of the loop.  `C` is the transposed projection matrix, or the
identity if all features are controlled. -/
def evolutionA (C : Matrix (Fin nq) ν ℝ) (A : Matrix ν ν ℝ) : Nat → Matrix (Fin nq) ν ℝ := fun i => C * ((A * ·)^[i] A)

/-- The blocks of `Bb` (mpc.py 276-298): in pass `i` the block `C A^i B` is written along the `i`-th block diagonal; `for k, j in enumerate(range(i, horizon))`. -/
def evolutionB (C : Matrix (Fin nq) ν ℝ) (A : Matrix ν ν ℝ) (B : Matrix ν (Fin nu) ℝ) (horizon : Nat) : Nat → Nat → Matrix (Fin nq) (Fin nu) ℝ :=
  ((List.range horizon).foldl (fun (s : (Nat → Nat → Matrix (Fin nq) (Fin nu) ℝ) × Matrix ν (Fin nu) ℝ) i =>
    ((List.range (horizon - i)).foldl (fun M k => writeBlock M (i + k) k (C * s.2)) s.1, A * s.2)) (fun _ _ => 0, B)).1

/-- `Ab` as a matrix. -/
def matAb (C : Matrix (Fin nq) ν ℝ) (A : Matrix ν ν ℝ) (horizon : Nat) : Matrix (Fin horizon × Fin nq) ν ℝ := Matrix.of (fun p c => evolutionA C A p.1 p.2 c)

/-- `Bb` as a matrix. -/
def matBb (C : Matrix (Fin nq) ν ℝ) (A : Matrix ν ν ℝ) (B : Matrix ν (Fin nu) ℝ) (horizon : Nat) : Matrix (Fin horizon × Fin nq) (Fin horizon × Fin nu) ℝ :=
  Matrix.of (fun p c => evolutionB C A B horizon p.1 c.1 p.2 c.2)

end evolution

/-- Parameters of `KMPC.__init__` (mpc.py 145-223) with the matrices of the fitted model.  Bounds are lists of pairs (first column, second column). -/
structure Kmpc (ν : Type) (nq nu : Nat) where
  horizon : Nat
  A : Matrix ν ν ℝ
  B : Matrix ν (Fin nu) ℝ
  C : Matrix (Fin nq) ν ℝ
  stateBounds : Option (List (ℝ × ℝ))
  inputBounds : Option (List (ℝ × ℝ))
  running : Cost
  terminal : Cost
  input : Cost

/-- The quadratic program handed to `qpsolvers.solve_qp`: minimise `1/2 UᵀPU + qᵀU` subject to `G U ≤ h`, `lb ≤ U ≤ ub` (`None`: no constraint). -/
structure Qp (γ κ : Type) where
  P : Matrix κ κ ℝ
  q : κ → ℝ
  G : Option (Matrix γ κ ℝ × (γ → ℝ))
  box : Option ((κ → ℝ) × (κ → ℝ))

section qp

variable {γ κ : Type} [Fintype κ]

/-- The objective of the quadratic program. -/
noncomputable def Qp.objective (p : Qp γ κ) (U : κ → ℝ) : ℝ := 1 / 2 * (U ⬝ᵥ p.P *ᵥ U) + p.q ⬝ᵥ U

/-- The constraints of the quadratic program. -/
def Qp.Feasible (p : Qp γ κ) (U : κ → ℝ) : Prop :=
  (∀ g ∈ p.G, g.1 *ᵥ U ≤ g.2) ∧ ∀ b ∈ p.box, b.1 ≤ U ∧ U ≤ b.2

/-- `U` is a possible result of `qpsolvers.solve_qp`. -/
def Qp.IsSolution (p : Qp γ κ) (U : κ → ℝ) : Prop := p.Feasible U ∧ ∀ U', p.Feasible U' → p.objective U ≤ p.objective U'

end qp

section setup

variable {ν : Type} [Fintype ν] {nq nu : Nat}

/-- The matrices stored by `KMPC.__init__` after `_setup_optimizer` (mpc.py 219-252, 336-361): `H`, `M`, `Y`, `Ab`, state constraint `(G, h)`, input bounds. -/
structure Setup (ν : Type) (horizon nq nu : Nat) where
  H : Matrix (Fin horizon × Fin nu) (Fin horizon × Fin nu) ℝ
  M : Matrix (Fin horizon × Fin nu) ν ℝ
  Y : Matrix (Fin horizon × Fin nu) (Fin horizon × Fin nq) ℝ
  Ab : Matrix (Fin horizon × Fin nq) ν ℝ
  G : Option (Matrix ((Fin horizon × Fin nq) ⊕ (Fin horizon × Fin nq)) (Fin horizon × Fin nu) ℝ × ((Fin horizon × Fin nq) ⊕ (Fin horizon × Fin nq) → ℝ))
  box : Option ((Fin horizon × Fin nu → ℝ) × (Fin horizon × Fin nu → ℝ))

/-- `_create_constraint_matrices`, state part (mpc.py 343-354): `G = [Bb; -Bb]`, `h = [Xub, -Xlb]` with `Xlb` from the first and `Xub` from the second column. -/
def stateConstraint (horizon : Nat) (Bb : Matrix (Fin horizon × Fin nq) (Fin horizon × Fin nu) ℝ) (bounds : List (ℝ × ℝ)) :
    Matrix ((Fin horizon × Fin nq) ⊕ (Fin horizon × Fin nq)) (Fin horizon × Fin nu) ℝ × ((Fin horizon × Fin nq) ⊕ (Fin horizon × Fin nq) → ℝ) :=
  (Matrix.of (Sum.elim (fun p => Bb p) (fun p => -Bb p)),
    Sum.elim (unstack horizon nq (tile (bounds.map (·.2)) horizon)) (fun p => -unstack horizon nq (tile (bounds.map (·.1)) horizon) p))

/-- `_create_constraint_matrices`, input part (mpc.py 355-359). -/
def inputBox (horizon nu : Nat) (bounds : List (ℝ × ℝ)) : (Fin horizon × Fin nu → ℝ) × (Fin horizon × Fin nu → ℝ) :=
  (unstack horizon nu (tile (bounds.map (·.1)) horizon), unstack horizon nu (tile (bounds.map (·.2)) horizon))

/-- `KMPC.__init__` (mpc.py 145-252). -/
noncomputable def kmpcSetup (k : Kmpc ν nq nu) : Except MpcErr (Setup ν k.horizon nq nu) :=
  if k.horizon < 2 then .error .value
  else if ∃ b ∈ k.inputBounds, b.length ≠ nu then .error .shape
  else if ∃ b ∈ k.stateBounds, b.length ≠ nq then .error .shape
  else
    match stateDiag k.horizon nq k.running k.terminal with
    | .error e => .error e
    | .ok dq =>
      match inputDiag k.horizon nu k.input with
      | .error e => .error e
      | .ok dr =>
        let Ab := matAb k.C k.A k.horizon
        let Bb := matBb k.C k.A k.B k.horizon
        let BbTQ := (2 : ℝ) • (Bbᵀ * Matrix.diagonal (unstack k.horizon nq dq))
        .ok ⟨BbTQ * Bb + (2 : ℝ) • Matrix.diagonal (unstack k.horizon nu dr), BbTQ * Ab, BbTQ, Ab, k.stateBounds.map (stateConstraint k.horizon Bb),
          k.inputBounds.map (inputBox k.horizon nu)⟩

/-- The quadratic program of `control_sequence_horizon` (mpc.py 426-452): `q = M z₀ - Y ref`, `h` is adapted to the initial state. -/
def Setup.qp {horizon : Nat} (s : Setup ν horizon nq nu) (z₀ : ν → ℝ) (ref : Fin horizon × Fin nq → ℝ) :
    Qp ((Fin horizon × Fin nq) ⊕ (Fin horizon × Fin nq)) (Fin horizon × Fin nu) where
  P := s.H
  q := s.M *ᵥ z₀ - s.Y *ᵥ ref
  G := s.G.map (fun g => (g.1, g.2 + Sum.elim (fun p => -(s.Ab *ᵥ z₀) p) (s.Ab *ᵥ z₀)))
  box := s.box

/-- A possible result of `control_sequence_horizon` (mpc.py 363-474) for a lifted state `z₀` at time `t₀` and a reference series (time values and rows): one row per step
with its time.  The reference has to start at `t₀ + dt` (an exact comparison here) and to have `horizon` rows with `nq` columns; an infeasible problem raises. -/
def IsControlSequence (k : Kmpc ν nq nu) (dt t₀ : Int) (z₀ : ν → ℝ) (ref : List (Int × (Fin nq → ℝ))) (out : Except MpcErr (List (Int × (Fin nu → ℝ)))) : Prop :=
  match kmpcSetup k with
  | .error e => out = .error e
  | .ok s =>
    if (ref.map (·.1)).head? ≠ some (t₀ + dt) then out = .error .value
    else if ref.length ≠ k.horizon then out = .error .shape
    else
      let p := s.qp z₀ (fun i => (ref.getD i.1 (0, fun _ => 0)).2 i.2)
      (∃ U, p.IsSolution U ∧
        out = .ok (List.zip (t₀ :: (ref.map (·.1)).dropLast) ((List.finRange k.horizon).map (fun i c => U (i, c))))) ∨
      ((¬ ∃ U, p.IsSolution U) ∧ out = .error .infeasible)

end setup

end Verif.Mpc
