import Verif.Dmd.Standard
/-!
# Model of `OnlineDMD`

`datafold/dynfold/dmd.py` 2377-2640, real data in exact arithmetic.
-/

namespace Verif.Dmd

open Verif.Tsc Verif.Lin Matrix

variable {ι : Type} [Fintype ι] [DecidableEq ι]

/-- The state of an `OnlineDMD` object: system matrix `A`, `_P` and `timestep_`. -/
structure Online (ι : Type) where
  A : Matrix ι ι ℝ
  P : Matrix ι ι ℝ
  steps : Nat

/-- `_basic_initialize` (dmd.py 2471-2486); `A₀` is the random start matrix, `α = 1e15`. -/
noncomputable def onlineInit (α : ℝ) (A₀ : Matrix ι ι ℝ) : Online ι := ⟨A₀, α • 1, 0⟩

/-- Body of the loop of `partial_fit` (dmd.py 2599-2623) for one snapshot pair. -/
noncomputable def onlineStep (ρ : ℝ) (s : Online ι) (p : (ι → ℝ) × (ι → ℝ)) : Online ι :=
  let Px := s.P *ᵥ p.1
  let γ := 1 / (1 + p.1 ⬝ᵥ Px)
  let A := s.A + vecMulVec (γ • (p.2 - s.A *ᵥ p.1)) Px
  let P := (1 / ρ) • (s.P - γ • vecMulVec Px Px)
  ⟨A, (1 / 2 : ℝ) • (P + Pᵀ), s.steps + 1⟩

/-- `partial_fit` of a fitted model on a collection (dmd.py 2583-2640, the state after the loop; `shift_matrices(validate=False)`). -/
noncomputable def onlinePartialFit (ρ : ℝ) (s : Online ι) (c : List (Row Int (ι → ℝ))) : Except TscErr (Online ι) :=
  match shiftMatrices c with
  | .error e => .error e
  | .ok (L, R) => .ok ((L.zip R).foldl (onlineStep ρ) s)

/-- What `pinv(G) @ Y` and `np.linalg.lstsq(G, Y)` return: the least squares solution of smallest norm. -/
def IsMinNormLstsq {α β γ : Type} [Fintype α] [Fintype β] [Fintype γ] (G : Matrix α β ℝ) (Y : Matrix α γ ℝ) (Z : Matrix β γ ℝ) : Prop :=
  IsLstsqM G Y Z ∧ ∀ Z', IsLstsqM G Y Z' → sqSum Z ≤ sqSum Z'

/-- The weights of the batch (dmd.py 2511-2516), already squared: the `i`-th of `n` pairs has `ρ^(n-1-i)`. -/
noncomputable def expWeights (ρ : ℝ) (n : Nat) : List ℝ := (List.range n).map (fun i => ρ ^ (n - 1 - i))

/-- `weights * Xm` with `weights = sqrt(ρ)^(n-1-i)` (dmd.py 2511-2516). -/
noncomputable def weighted {κ : Type} {n : Nat} (ρ : ℝ) (X : Matrix (Fin n) κ ℝ) : Matrix (Fin n) κ ℝ := Matrix.of (fun i j => √ρ ^ (n - 1 - (i : Nat)) * X i j)

/-- `fit` on a batch of snapshot pairs (dmd.py 2498-2540): `s` is the state afterwards. -/
def OnlineBatch (ρ : ℝ) (ps : List ((ι → ℝ) × (ι → ℝ))) (s : Online ι) : Prop :=
  let X := weighted ρ (startM ps)
  let Y := weighted ρ (endM ps)
  IsMinNormLstsq X Y s.Aᵀ ∧ IsMinNormLstsq (Xᵀ * X) 1 (ρ • s.P) ∧ s.steps = ps.length

/-- `ready_` (dmd.py 2488-2496). -/
def onlineReady [Fintype ι] (warmUp : Bool) (s : Online ι) : Bool := if warmUp then decide (2 * Fintype.card ι ≤ s.steps) else true

end Verif.Dmd
