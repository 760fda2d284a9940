import Verif.Kernel.Normalize
import Mathlib.Data.Matrix.Block
import Mathlib.Data.Matrix.ColumnRowPartitioned
/-!
# Model of the jointly smooth functions

`datafold/dynfold/jsf.py`.  Exact real arithmetic; samples are indexed by `n`, the eigenvectors of the two splits by `Fin p₁` and `Fin p₂`.  The singular value decomposition is a relation.
-/

namespace Verif.Kernel

open Matrix

variable {m n : Type} [Fintype m] [Fintype n]

/-- The reduced singular value decomposition `A = Q diag(σ) Rᵀ` of `scipy.linalg.svd(A, full_matrices=False)` (jsf.py 204): singular values in descending order. -/
structure JsfSvd {p₁ p₂ r : Nat} (A : Matrix (Fin p₁) (Fin p₂) ℝ) (Q : Matrix (Fin p₁) (Fin r) ℝ) (s : Fin r → ℝ) (R : Matrix (Fin p₂) (Fin r) ℝ) : Prop where
  left : Qᵀ * Q = 1
  right : Rᵀ * R = 1
  eq : A = Q * Matrix.diagonal s * Rᵀ
  nonneg : ∀ k, 0 ≤ s k
  desc : ∀ k l, k ≤ l → s l ≤ s k

/-- `np.column_stack([W1, W2])` (jsf.py 190). -/
def stacked {p₁ p₂ : Nat} (W₁ : Matrix n (Fin p₁) ℝ) (W₂ : Matrix n (Fin p₂) ℝ) : Matrix n (Fin p₁ ⊕ Fin p₂) ℝ := Matrix.fromCols W₁ W₂

/-- The block matrix `[[Q, Q], [R, -R]]` (jsf.py 206-208). -/
def centerBlock {p₁ p₂ r : Nat} (Q : Matrix (Fin p₁) (Fin r) ℝ) (R : Matrix (Fin p₂) (Fin r) ℝ) : Matrix (Fin p₁ ⊕ Fin p₂) (Fin r ⊕ Fin r) ℝ := Matrix.fromBlocks Q Q R (-R)

/-- The diagonal `[1 + σ, 1 - σ]` (jsf.py 214). -/
def gammaDiag {r : Nat} (s : Fin r → ℝ) : Fin r ⊕ Fin r → ℝ := Sum.elim (fun k => 1 + s k) (fun k => 1 - s k)

/-- Column `k` of two concatenated blocks with `r` columns each. -/
def blockColumn {r : Nat} (k : Fin (r + r)) : Fin r ⊕ Fin r := finSumFinEquiv.symm k

/-- The number of jointly smooth functions (jsf.py 199-201); natural subtraction, at least one eigenvector per split is assumed in the theorems. -/
def jsfCount (requested p₁ p₂ : Nat) : Nat := min requested (min (p₁ - 1) (p₂ - 1))

/-- `_compute_jointly_smooth_vectors` for two splits after the singular value decomposition (jsf.py 206-224), column `k` (python slices keep columns `k < count`). -/
noncomputable def jsfColumn {p₁ p₂ r : Nat} (W₁ : Matrix n (Fin p₁) ℝ) (W₂ : Matrix n (Fin p₂) ℝ) (Q : Matrix (Fin p₁) (Fin r) ℝ) (s : Fin r → ℝ) (R : Matrix (Fin p₂) (Fin r) ℝ)
    (k : Fin (r + r)) : n → ℝ :=
  (1 / Real.sqrt 2) • (stacked W₁ W₂ *ᵥ fun j => (Real.sqrt (gammaDiag s (blockColumn k)))⁻¹ * centerBlock Q R j (blockColumn k))

/-- The fitted functions: the first `jsfCount` columns. -/
noncomputable def jsfFit {p₁ p₂ r : Nat} (requested : Nat) (W₁ : Matrix n (Fin p₁) ℝ) (W₂ : Matrix n (Fin p₂) ℝ) (Q : Matrix (Fin p₁) (Fin r) ℝ) (s : Fin r → ℝ) (R : Matrix (Fin p₂) (Fin r) ℝ) :
    List (n → ℝ) :=
  ((List.finRange (r + r)).take (jsfCount requested p₁ p₂)).map (jsfColumn W₁ W₂ Q s R)

/-- The contribution of one split to the Nyström extension of a function `f` (jsf.py 263-279): `K diag(1/λ) W (Wᵀ f)`. -/
noncomputable def nystromSplit {p : Nat} (K : Matrix m n ℝ) (W : Matrix n (Fin p) ℝ) (lam : Fin p → ℝ) (f : n → ℝ) : m → ℝ :=
  (K * (W * Matrix.diagonal (fun k => (lam k)⁻¹))) *ᵥ (Wᵀ *ᵥ f)

/-- `_nystrom` for two splits (jsf.py 246-297): the result has `requested` columns, `np.dot(..., out=)` rejects other shapes. -/
noncomputable def jsfNystrom {p₁ p₂ : Nat} (requested : Nat) (K₁ K₂ : Matrix m n ℝ) (W₁ : Matrix n (Fin p₁) ℝ) (W₂ : Matrix n (Fin p₂) ℝ) (lam₁ : Fin p₁ → ℝ) (lam₂ : Fin p₂ → ℝ)
    (fs : List (n → ℝ)) : Except KErr (List (m → ℝ)) :=
  if fs.length = requested then .ok (fs.map (fun f => (1 / 2 : ℝ) • (nystromSplit K₁ W₁ lam₁ f + nystromSplit K₂ W₂ lam₂ f))) else .error .shape

/-- `_compute_truncated_energies` for one split and one function (jsf.py 469-475). -/
def energy {p : Nat} (W : Matrix n (Fin p) ℝ) (f : n → ℝ) : ℝ := ∑ k, (Wᵀ *ᵥ f) k ^ 2

end Verif.Kernel
