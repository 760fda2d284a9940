import Verif.Kernel.JsfMany
/-!
# Model of the threshold and of the score of the jointly smooth functions

`datafold/dynfold/jsf.py` 450-519.
-/

namespace Verif.Kernel

open Matrix

variable {ι n : Type} [Fintype ι] [Fintype n]

/-- `rng.shuffle(noisy)` (jsf.py 491-494): the rows of an array are permuted. -/
def shuffleRows {p : Nat} (π : Equiv.Perm n) (W : Matrix n (Fin p) ℝ) : Matrix n (Fin p) ℝ := W.submatrix π id

/-- The matrix whose singular values are computed for two splits (jsf.py 496-510). -/
def e0Two {p₁ p₂ : Nat} (π : Equiv.Perm n) (W₁ : Matrix n (Fin p₁) ℝ) (W₂ : Matrix n (Fin p₂) ℝ) : Matrix (Fin p₁) (Fin p₂) ℝ := W₁ᵀ * shuffleRows π W₂

/-- The matrix for three and more splits (jsf.py 499, 511-517): `kernel_evecs` is stacked, not the list with the shuffled last split. -/
def e0Many {p : ι → Nat} (_π : Equiv.Perm n) (W : (i : ι) → Matrix n (Fin (p i)) ℝ) : Matrix n ((i : ι) × Fin (p i)) ℝ := stackAll W

/-- `scipy.sparse.linalg.svds` accepts `0 < k < min(shape)`. -/
def svdsCheck (k rows cols : Nat) : Except KErr Unit := if 0 < k ∧ k < min rows cols then .ok () else .error .value

/-- `compute_E0` (jsf.py 479-519): `s` are the `r` singular values in descending order, `r` is the requested number of functions. -/
noncomputable def e0Value (rows cols : Nat) {r : Nat} (s : Fin r → ℝ) : Except KErr ℝ :=
  match svdsCheck r rows cols with
  | .error e => .error e
  | .ok _ => if h : 2 < r then .ok ((1 + s ⟨2, h⟩) / 2) else .error .shape

/-- What `np.array` makes of an object: a list of rows is an array of numbers, any other object (as the values of a dictionary) an array without dimensions that holds the object. -/
inductive NpObj
  | numbers (l : List (List ℝ))
  | object (values : List (List ℝ))

/-- `np.array(d.values())` (jsf.py 477). -/
def arrayOfDictValues (values : List (List ℝ)) : NpObj := .object values

/-- `.sum()`: of numbers a number, of an array without dimensions the held object. -/
def NpObj.sum : NpObj → ℝ ⊕ List (List ℝ)
  | .numbers l => .inl (l.map List.sum).sum
  | .object v => .inr v

/-- `score_` (jsf.py 450-477): the truncated energies of the splits `W` and the functions `fs`. -/
def jsfScore {p : Nat} (W : List (Matrix n (Fin p) ℝ)) (fs : List (n → ℝ)) : ℝ ⊕ List (List ℝ) :=
  (arrayOfDictValues (W.map (fun w => fs.map (energy w)))).sum

end Verif.Kernel
