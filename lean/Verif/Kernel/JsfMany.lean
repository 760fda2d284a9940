import Verif.Kernel.Jsf
/-!
# Model of the jointly smooth functions for three and more splits

`datafold/dynfold/jsf.py`. Exact real arithmetic; the splits are indexed by `ι`, the eigenvectors of split `i` by `Fin (p i)`.
-/

namespace Verif.Kernel

open Matrix

variable {ι m n : Type} [Fintype ι] [Fintype m] [Fintype n]

/-- `np.column_stack(list(kernel_eigenvectors.values()))` (jsf.py 190). -/
def stackAll {p : ι → Nat} (W : (i : ι) → Matrix n (Fin (p i)) ℝ) : Matrix n ((i : ι) × Fin (p i)) ℝ := Matrix.of (fun a q => W q.1 a q.2)

/-- The number of functions (jsf.py 227-229). -/
def jsfCountAll (requested : Nat) (p : ι → Nat) : Nat := min requested (∑ i, p i)

/-- The `r` leading singular triplets of `A` (`compute_kernel_svd`, jsf.py 231-235): a function orthogonal to the first `k` left vectors is not stretched by more than singular value `k`. -/
structure TopSvd {q : Type} [Fintype q] {r : Nat} (A : Matrix n q ℝ) (u : Fin r → n → ℝ) (s : Fin r → ℝ) (v : Fin r → q → ℝ) : Prop where
  orth : ∀ k l, u k ⬝ᵥ u l = if k = l then 1 else 0
  nonneg : ∀ k, 0 ≤ s k
  left : ∀ k, Aᵀ *ᵥ u k = s k • v k
  right : ∀ k, A *ᵥ v k = s k • u k
  top : ∀ k (f : n → ℝ), (∀ l, l < k → f ⬝ᵥ u l = 0) → (Aᵀ *ᵥ f) ⬝ᵥ (Aᵀ *ᵥ f) ≤ s k ^ 2 * (f ⬝ᵥ f)

/-- `_nystrom` (jsf.py 246-297) for any number of splits: the result has `requested` columns, `np.dot(..., out=)` rejects other shapes. -/
noncomputable def jsfNystromAll {p : ι → Nat} (requested : Nat) (K : ι → Matrix m n ℝ) (W : (i : ι) → Matrix n (Fin (p i)) ℝ) (lam : (i : ι) → Fin (p i) → ℝ) (fs : List (n → ℝ)) :
    Except KErr (List (m → ℝ)) :=
  if fs.length = requested then .ok (fs.map (fun f => (1 / (Fintype.card ι : ℝ)) • ∑ i, nystromSplit (K i) (W i) (lam i) f)) else .error .shape

end Verif.Kernel
