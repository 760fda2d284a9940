import Verif.Dmd.Standard
import Mathlib.Analysis.Real.Sqrt
/-!
# Model of `StreamingDMD`

`datafold/dynfold/dmd.py` 2056-2376, real data in exact arithmetic.  A basis is the list of its vectors.  The matrices of growing size are functions of natural numbers;
only the entries inside the current size have a meaning.
-/

namespace Verif.Dmd

open Verif.Tsc Verif.Lin Matrix

variable {ι : Type} [Fintype ι]

/-- State of a `StreamingDMD` object: `_Qx`, `_Qy` (columns), `_Gx`, `_Gy`, `A`. -/
structure Streaming (ι : Type) where
  Qx : List (ι → ℝ)
  Qy : List (ι → ℝ)
  Gx : Nat → Nat → ℝ
  Gy : Nat → Nat → ℝ
  A : Nat → Nat → ℝ

/-- `np.linalg.norm` of a vector -/
noncomputable def norm2 (v : ι → ℝ) : ℝ := √(v ⬝ᵥ v)

/-- `fit` (dmd.py 2199-2230) on the first snapshot pair. -/
noncomputable def streamInit (p : (ι → ℝ) × (ι → ℝ)) : Streaming ι :=
  { Qx := [(norm2 p.1)⁻¹ • p.1], Qy := [(norm2 p.2)⁻¹ • p.2]
    Gx := fun i j => if i = 0 ∧ j = 0 then norm2 p.1 ^ 2 else 0
    Gy := fun i j => if i = 0 ∧ j = 0 then norm2 p.2 ^ 2 else 0
    A := fun i j => if i = 0 ∧ j = 0 then norm2 p.1 * norm2 p.2 else 0 }

/-- `Q @ (Q.T @ e)` -/
def project (Q : List (ι → ℝ)) (e : ι → ℝ) : ι → ℝ := (Q.map (fun q => (q ⬝ᵥ e) • q)).sum

/-- `_gram_schmidt` (dmd.py 2099-2120) for one of the two vectors. -/
def gramSchmidt (Q : List (ι → ℝ)) : Nat → (ι → ℝ) → (ι → ℝ)
  | 0, e => e
  | n + 1, e => gramSchmidt Q n (e - project Q e)

/-- Zero padding of a matrix to the size `m × n` (`np.block` with zeros). -/
def pad (m n : Nat) (G : Nat → Nat → ℝ) : Nat → Nat → ℝ := fun i j => if i < m ∧ j < n then G i j else 0

open Classical in
/-- The x part of `_increase_basis` (dmd.py 2132-2145).  (For `x = 0` the quotient is nan in numpy and zero here, in both cases the comparison is false.) -/
noncomputable def increaseX (tol : ℝ) (s : Streaming ι) (e : ι → ℝ) (norm : ℝ) : Streaming ι :=
  if norm2 e / norm > tol then
    { s with Qx := s.Qx ++ [(norm2 e)⁻¹ • e], Gx := pad s.Qx.length s.Qx.length s.Gx, A := pad s.Qy.length s.Qx.length s.A }
  else s

open Classical in
/-- The y part of `_increase_basis` (dmd.py 2147-2154). -/
noncomputable def increaseY (tol : ℝ) (s : Streaming ι) (e : ι → ℝ) (norm : ℝ) : Streaming ι :=
  if norm2 e / norm > tol then
    { s with Qy := s.Qy ++ [(norm2 e)⁻¹ • e], Gy := pad s.Qy.length s.Qy.length s.Gy, A := pad s.Qy.length s.Qx.length s.A }
  else s

/-- What `np.linalg.eig(G)` and `np.argsort(evals)` return for the leading `n × n` block: a basis of eigenvectors, and an ordering of all
indices by increasing eigenvalue. -/
structure IsEigSorted (n : Nat) (G : Nat → Nat → ℝ) (evals : Fin n → ℝ) (evecs : Matrix (Fin n) (Fin n) ℝ) (idx : List (Fin n)) : Prop where
  eig : ∀ i k : Fin n, ∑ j : Fin n, G i j * evecs j k = evals k * evecs i k
  basis : evecs.det ≠ 0
  perm : idx.Perm (List.finRange n)
  sorted : idx.Pairwise (fun a b => evals a ≤ evals b)

/-- `Q @ evecs[:, idx]` -/
def combine (Q : List (ι → ℝ)) {n : Nat} (evecs : Matrix (Fin n) (Fin n) ℝ) (sel : List (Fin n)) : List (ι → ℝ) :=
  sel.map (fun k => ∑ i : Fin n, evecs i k • Q.getD i 0)

/-- `np.diag(evals[idx])` -/
def diagOf {n : Nat} (evals : Fin n → ℝ) (sel : List (Fin n)) : Nat → Nat → ℝ := fun i j => if i = j then (sel.map evals).getD i 0 else 0

/-- The x part of `_pod_compression` (dmd.py 2156-2170): `idx[: max_rank]`. -/
def PodX (r : Nat) (s s' : Streaming ι) : Prop :=
  if s.Qx.length > r then
    ∃ evals evecs idx, IsEigSorted s.Qx.length s.Gx evals evecs idx ∧
      s' = { s with Qx := combine s.Qx evecs (idx.take r), Gx := diagOf evals (idx.take r)
                    A := fun i j => ((idx.take r)[j]?.map (fun k => ∑ l : Fin s.Qx.length, s.A i l * evecs l k)).getD 0 }
  else s' = s

/-- The y part of `_pod_compression` (dmd.py 2171-2181). -/
def PodY (r : Nat) (s s' : Streaming ι) : Prop :=
  if s.Qy.length > r then
    ∃ evals evecs idx, IsEigSorted s.Qy.length s.Gy evals evecs idx ∧
      s' = { s with Qy := combine s.Qy evecs (idx.take r), Gy := diagOf evals (idx.take r)
                    A := fun i j => ((idx.take r)[i]?.map (fun k => ∑ l : Fin s.Qy.length, evecs l k * s.A l j)).getD 0 }
  else s' = s

/-- `_pod_compression`; without `max_rank` nothing happens. -/
def Pod : Option Nat → Streaming ι → Streaming ι → Prop
  | none, s, s' => s' = s
  | some r, s, s' => ∃ s₁, PodX r s s₁ ∧ PodY r s₁ s'

/-- `_update_sys_matrix` (dmd.py 2183-2191). -/
def updateSys (s : Streaming ι) (p : (ι → ℝ) × (ι → ℝ)) : Streaming ι :=
  let xt := fun i => s.Qx.getD i 0 ⬝ᵥ p.1
  let yt := fun i => s.Qy.getD i 0 ⬝ᵥ p.2
  { s with A := fun i j => s.A i j + yt i * xt j, Gx := fun i j => s.Gx i j + xt i * xt j, Gy := fun i j => s.Gy i j + yt i * yt j }

/-- `_increase_basis` with the residuals of the Gram-Schmidt iterations. -/
noncomputable def increase (ngram : Nat) (tol : ℝ) (s : Streaming ι) (p : (ι → ℝ) × (ι → ℝ)) : Streaming ι :=
  increaseY tol (increaseX tol s (gramSchmidt s.Qx ngram p.1) (norm2 p.1)) (gramSchmidt s.Qy ngram p.2) (norm2 p.2)

/-- `_update` (dmd.py 2193-2197). -/
def StreamUpdate (r : Option Nat) (ngram : Nat) (tol : ℝ) (s : Streaming ι) (p : (ι → ℝ) × (ι → ℝ)) (s' : Streaming ι) : Prop :=
  ∃ s₂, Pod r (increase ngram tol s p) s₂ ∧ s' = updateSys s₂ p

/-- The loop of `partial_fit` (dmd.py 2301-2302). -/
inductive StreamRun (r : Option Nat) (ngram : Nat) (tol : ℝ) : Streaming ι → List ((ι → ℝ) × (ι → ℝ)) → Streaming ι → Prop
  | nil (s) : StreamRun r ngram tol s [] s
  | cons {s s₁ s₂ p ps} : StreamUpdate r ngram tol s p s₁ → StreamRun r ngram tol s₁ ps s₂ → StreamRun r ngram tol s (p :: ps) s₂

/-- The pairs which the first `partial_fit` uses (`_separate_init_pairs`, dmd.py 2232-2244, and the loop): the first two rows give the first pair, the rest of the
collection its own consecutive pairs. -/
def firstCallPairs {V : Type} (c : List (Row Int V)) : Except TscErr (List (V × V)) :=
  match c with
  | r₀ :: r₁ :: rest =>
    if r₀.id ≠ r₁.id then .error .notConstDelta
    else if !checkMinTimesteps c 2 then .error .minTimesteps
    else if rest.isEmpty then .ok [(r₀.val, r₁.val)]
    else match shiftMatrices rest with
      | .error e => .error e
      | .ok (L, R) => .ok ((r₀.val, r₁.val) :: L.zip R)
  | _ => .error .minTimesteps

/-- `_compute_koopman_matrix` (dmd.py 2246-2252): `K` is a possible reduced matrix, the transposed least squares solution of `Gxᵀ Z = (Qxᵀ Qy A)ᵀ`. -/
def IsStreamMatrix (s : Streaming ι) (K : Matrix (Fin s.Qx.length) (Fin s.Qx.length) ℝ) : Prop :=
  IsLstsqM (Matrix.of (fun i j : Fin s.Qx.length => s.Gx i j))ᵀ
    (Matrix.of (fun i j : Fin s.Qx.length => ∑ l : Fin s.Qy.length, (s.Qx[i] ⬝ᵥ s.Qy[l]) * s.A l j))ᵀ Kᵀ

end Verif.Dmd
