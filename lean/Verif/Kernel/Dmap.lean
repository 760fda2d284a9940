import Verif.Kernel.Normalize
import Verif.Lin.Lstsq
/-!
# Model of `DiffusionMaps`

`datafold/dynfold/dmap.py` 39-158 (`_DmapKernelAlgorithms`), 355-460 (Nyström extension, embedding, target coordinates), 467-690 (`fit`, `transform`, `fit_transform`,
`inverse_transform`).  The eigensolver is a relation.  A matrix of eigenvectors or embedding coordinates is the list of its columns, because the number of columns is
only known at run time.  Data is passed as numpy arrays.
-/

namespace Verif.Kernel

open Matrix

variable {m n d : Type} [Fintype m] [Fintype n] [Fintype d]

/-- An eigenvalue with its eigenvector. -/
abbrev Pair (n : Type) := ℝ × (n → ℝ)

/-- `eigvect /= np.linalg.norm(eigvect, axis=0)` for one column (dmap.py 94). -/
noncomputable def normalizeVec (v : n → ℝ) : n → ℝ := fun i => v i / Real.sqrt (∑ j, v j * v j)

/-- `basis_change_matrix_ @ eigvect` for one column, if there is a basis change (dmap.py 91-92). -/
def changeBasis (b : Option (n → ℝ)) (v : n → ℝ) : n → ℝ :=
  match b with
  | none => v
  | some b => fun i => b i * v i

/-- `_DmapKernelAlgorithms.solve_eigenproblem` (dmap.py 51-107) for a solver that returns `k` real eigenpairs of `A` (eigsolver.py 181-272): the eigenvectors are changed to
the basis of the stochastic kernel and normalised. -/
def Solves (A : Matrix n n ℝ) (b : Option (n → ℝ)) (k : Nat) (pairs : List (Pair n)) : Prop :=
  ∃ raw : List (Pair n), raw.length = k ∧ (∀ p ∈ raw, p.2 ≠ 0 ∧ A *ᵥ p.2 = p.1 • p.2) ∧ pairs = raw.map (fun p => (p.1, normalizeVec (changeBasis b p.2)))

/-- `set_target_coords` (dmap.py 425-457): sorted indices, all in `[0, n_eigenpairs)`; an empty list has no first index. -/
def setTargetCoords (nEigenpairs : Nat) (indices : List Int) : Except KErr (List Nat) :=
  let s := indices.mergeSort (· ≤ ·)
  match s.head?, s.getLast? with
  | some a, some b => if a < 0 ∨ b ≥ nEigenpairs then .error .value else .ok (s.map Int.toNat)
  | _, _ => .error .value

/-- `_select_eigenpairs_target_coords` (dmap.py 407-423). -/
def selectPairs (coords : Option (List Nat)) (pairs : List (Pair n)) : List (Pair n) :=
  match coords with
  | none => pairs
  | some c => c.filterMap (fun i => pairs[i]?)

open Classical in
/-- `_nystrom` (dmap.py 355-381): `K(X, Y) Ψ Λ⁻¹`, column by column; an eigenvalue zero yields `inf`. -/
noncomputable def nystrom (P : Matrix m n ℝ) (sel : List (Pair n)) : Except KErr (List (m → ℝ)) :=
  if ∃ p ∈ sel, p.1 = 0 then .error .notFinite
  else .ok (sel.map (fun p => P *ᵥ (fun j => p.1⁻¹ * p.2 j)))

/-- `mat_dot_diagmat` (utils/general.py 337-373) for dense arrays, `np.multiply(diag_elements, matrix)`, on the columns of the matrix with numpy's broadcasting. -/
def matDotDiag (cols : List (m → ℝ)) (diag : List ℝ) : Except KErr (List (m → ℝ)) :=
  if cols.length = diag.length then .ok (List.zipWith (fun c x => fun i => x * c i) cols diag)
  else
    match cols, diag with
    | [c], diag => .ok (diag.map (fun x => fun i => x * c i))
    | cols, [x] => .ok (cols.map (fun c => fun i => x * c i))
    | _, _ => .error .shape

open Classical in
/-- `np.power(x, t)` for one real number: `nan` for a negative base and a non-integer exponent, `inf` for zero to a negative power. -/
noncomputable def npPower (x t : ℝ) : Except KErr ℝ :=
  if x < 0 ∧ ¬ ∃ z : ℤ, (z : ℝ) = t then .error .notFinite
  else if x = 0 ∧ t < 0 then .error .notFinite
  else .ok (x ^ t)

open Classical in
/-- `_perform_dmap_embedding` (dmap.py 383-405).  The powers are taken of all eigenvalues, also if target coordinates are set. -/
noncomputable def embed (t : ℝ) (allEigvals : List ℝ) (cols : List (m → ℝ)) : Except KErr (List (m → ℝ)) :=
  if t = 0 then .ok cols
  else
    match allEigvals.mapM (fun x => npPower x t) with
    | .error e => .error e
    | .ok p => matDotDiag cols p

/-- `fit_transform` after the eigenproblem is solved (dmap.py 645-649). -/
noncomputable def fitTransform (t : ℝ) (coords : Option (List Nat)) (pairs : List (Pair n)) : Except KErr (List (n → ℝ)) :=
  embed t (pairs.map Prod.fst) ((selectPairs coords pairs).map Prod.snd)

/-- `transform` on the matrix `Kc` of the internal kernel between query and training points (dmap.py 590-624). -/
noncomputable def transform (k : DmapKernel) (f : Fitted n) (t : ℝ) (coords : Option (List Nat)) (pairs : List (Pair n)) (Kc : Matrix m n ℝ) : Except KErr (List (m → ℝ)) :=
  match evalCdist k (some f) Kc with
  | .error e => .error e
  | .ok P =>
    match nystrom P (selectPairs coords pairs) with
    | .error e => .error e
    | .ok cols => embed t (pairs.map Prod.fst) cols

/-! ## Inverse transform -/

/-- The matrix with the given columns. -/
def colMatrix (cols : List (m → ℝ)) : Matrix m (Fin cols.length) ℝ := Matrix.of (fun i j => cols[j] i)

/-- The attributes of a fitted model that `inverse_transform` uses; `inv` is `inv_coeff_matrix_` (its rows), if it has been computed. -/
structure DmapObj (n d : Type) where
  X : Matrix n d ℝ
  pairs : List (Pair n)
  coords : Option (List Nat)
  inv : Option (List (d → ℝ))

/-- `fit` replaces the training data and the eigenpairs, and leaves `target_coords_` and `inv_coeff_matrix_` as they are (dmap.py 467-563). -/
def DmapObj.refit (o : DmapObj n d) (X : Matrix n d ℝ) (pairs : List (Pair n)) : DmapObj n d := { o with X := X, pairs := pairs }

/-- The coefficients computed by the first `inverse_transform` (dmap.py 671-684): least squares of the training data on the selected eigenvectors. -/
def IsInvCoeff (o : DmapObj n d) (c : List (d → ℝ)) : Prop :=
  let cols := (selectPairs o.coords o.pairs).map Prod.snd
  c.length = cols.length ∧ Lin.IsLstsqM (colMatrix cols) o.X (Matrix.of (fun (j : Fin cols.length) => c.getD j 0))

/-- `np.asarray(X) @ self.inv_coeff_matrix_` (dmap.py 686). -/
def applyInv (c : List (d → ℝ)) (Y : List (m → ℝ)) : Except KErr (Matrix m d ℝ) :=
  if Y.length ≠ c.length then .error .shape
  else .ok (Matrix.of (fun i f => (List.zipWith (fun (y : m → ℝ) (r : d → ℝ) => y i * r f) Y c).sum))

/-- `inverse_transform` (dmap.py 651-693) as a relation between the object, the embedded points, the result and the object afterwards. -/
def InverseTransform (o : DmapObj n d) (Y : List (m → ℝ)) (res : Except KErr (Matrix m d ℝ)) (o' : DmapObj n d) : Prop :=
  match o.inv with
  | some c => res = applyInv c Y ∧ o' = o
  | none => ∃ c, IsInvCoeff o c ∧ res = applyInv c Y ∧ o' = { o with inv := some c }

end Verif.Kernel
