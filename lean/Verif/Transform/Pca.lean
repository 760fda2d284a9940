import Verif.Transform.Scalers
import Mathlib.Data.Matrix.Mul
import Mathlib.Data.Real.Sqrt
/-!
# Model of the principal components

`datafold/dynfold/transform.py`: `TSCPrincipalComponent`. From scikit-learn's `PCA` the fitted attributes are described by a relation (the leading right singular vectors of the centred data), `transform` and
`inverse_transform` are modelled as documented. Exact real arithmetic. `m` indexes the samples, `n` the features.
-/

namespace Verif.Transform

open Matrix

variable {m n : Type} [Fintype m] [Fintype n]

/-- `mean_`. -/
noncomputable def pcaMean (X : Matrix m n ℝ) : n → ℝ := fun j => (∑ i, X i j) / (Fintype.card m : ℝ)

/-- The centred data. -/
noncomputable def centred (X : Matrix m n ℝ) : Matrix m n ℝ := Matrix.of (fun i j => X i j - pcaMean X j)

/-- `PCA.fit`, called in `fit` and `fit_transform` (transform.py 420-445, 471-493): `w` are the rows of `components_` and `s` the `singular_values_`. A direction orthogonal to the first `k` components is not
stretched by more than singular value `k`. -/
structure PcaFit {r : Nat} (X : Matrix m n ℝ) (w : Fin r → n → ℝ) (s : Fin r → ℝ) : Prop where
  orth : ∀ k l, w k ⬝ᵥ w l = if k = l then 1 else 0
  nonneg : ∀ k, 0 ≤ s k
  eig : ∀ k, (centred X)ᵀ *ᵥ (centred X *ᵥ w k) = (s k ^ 2) • w k
  top : ∀ k (f : n → ℝ), (∀ l, l < k → f ⬝ᵥ w l = 0) → (centred X *ᵥ f) ⬝ᵥ (centred X *ᵥ f) ≤ s k ^ 2 * (f ⬝ᵥ f)

/-- What the components are divided by with `whiten=True`: the square root of `explained_variance_`. -/
noncomputable def whitenScale (whiten : Bool) (samples : Nat) (s : ℝ) : ℝ := if whiten then Real.sqrt (s ^ 2 / ((samples : ℝ) - 1)) else 1

/-- `transform` (transform.py 447-469) of one sample; the division by zero gives 0 here, the code returns nan or inf. -/
noncomputable def pcaTransform {r : Nat} (μ : n → ℝ) (w : Fin r → n → ℝ) (c : Fin r → ℝ) (x : n → ℝ) : Fin r → ℝ := fun k => (x - μ) ⬝ᵥ w k / c k

/-- `inverse_transform` (transform.py 495-515) of one sample. -/
noncomputable def pcaInverse {r : Nat} (μ : n → ℝ) (w : Fin r → n → ℝ) (c : Fin r → ℝ) (z : Fin r → ℝ) : n → ℝ := (∑ k, (z k * c k) • w k) + μ

/-! ### Attributes -/

/-- The attributes that are read in the checks: `n_features_in_`, `feature_names_in_` and `n_components_` are set by scikit-learn in every fit, `n_features_out_` only once (base.py 258-274). -/
structure PcaAttrs where
  nIn : Nat
  names : Option (List String)
  comps : Nat
  nOut : Nat
deriving DecidableEq, Repr

/-- `get_feature_names_out` (transform.py 417-418). -/
def pcaNames (r : Nat) : List String := (List.range r).map (fun k => s!"pca{k}")

/-- The attributes after `fit` (transform.py 420-445) to a table with `r` components. -/
def pcaSetup {α : Type} (st : Option PcaAttrs) (X : Table α) (r : Nat) : PcaAttrs := ⟨X.n, X.cols, r, match st with | none => r | some a => a.nOut⟩

/-- The attributes after several fits. -/
def pcaHistory {α : Type} (st : Option PcaAttrs) : List (Table α × Nat) → Option PcaAttrs
  | [] => st
  | (X, r) :: l => pcaHistory (some (pcaSetup st X r)) l

/-- Shape and labels of the result of `transform` (transform.py 447-469). -/
def pcaForward (a : PcaAttrs) (cols : Option (List String)) (k : Nat) : Except TabErr (Option (List String) × Nat) :=
  match checkInput a.names a.nIn (⟨cols, k, []⟩ : Table Unit) with
  | .error e => .error e
  | .ok () => .ok (cols.map (fun _ => pcaNames a.comps), a.comps)

/-- Shape and labels of the result of `inverse_transform` (transform.py 495-515, base.py 287-303). -/
def pcaBackward (a : PcaAttrs) (cols : Option (List String)) (k : Nat) : Except TabErr (Option (List String) × Nat) :=
  if k ≠ a.nOut then .error .features
  else if (cols.any (fun b => decide (b ≠ pcaNames a.comps))) then .error .names
  else if k ≠ a.comps then .error .broadcast
  else match a.names with
    | none => .error .attribute
    | some b => .ok (cols.map (fun _ => b), a.nIn)

end Verif.Transform
