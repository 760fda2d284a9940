import Verif.Kernel.Radial
import Verif.Kernel.Neighbor
/-!
# Model of the life of a diffusion kernel object

`datafold/pcfold/kernels.py` 1495-1528 and 1588-1725 (`DmapKernelFixed`: `_eval_kernel_matrix`, `__call__`, `evaluate`) with `_required_attrs` (518-533), as an object with a state: the internal kernel may change
by an evaluation, and the first accepted pair-wise evaluation stores the attributes of the normalisation.  A point cloud is a list of points.
-/

namespace Verif.Kernel

variable {P σ : Type}

/-- An internal kernel with a state of type `σ`: pair-wise and component-wise evaluation, with the state afterwards. -/
structure Internal (P σ : Type) where
  pdist : σ → (X : List P) → Except KErr (Matrix (Fin X.length) (Fin X.length) ℝ) × σ
  cdist : σ → (X Y : List P) → Except KErr (Matrix (Fin Y.length) (Fin X.length) ℝ) × σ

/-- A `DmapKernelFixed` object: the state of the internal kernel and the attributes `row_sums_alpha_`, `basis_change_matrix_`. -/
structure DmapState (σ : Type) where
  inner : σ
  fitted : Option ((n : Nat) × Fitted (Fin n))

/-- A new object (kernels.py 1495-1516). -/
def DmapState.new (s : σ) : DmapState σ := ⟨s, none⟩

/-- The attributes after a pair-wise evaluation of `X`. -/
def storeFit {n : Nat} (r : Except KErr (Matrix (Fin n) (Fin n) ℝ × Fitted (Fin n))) (old : Option ((n : Nat) × Fitted (Fin n))) : Option ((n : Nat) × Fitted (Fin n)) :=
  match r with
  | .ok x => some ⟨n, x.2⟩
  | .error _ => old

/-- `kernel(X)` (kernels.py 1658-1696 with 1634-1656): the internal kernel is evaluated first; afterwards the attributes must not yet exist. -/
noncomputable def dmapPair (k : DmapKernel) (I : Internal P σ) (st : DmapState σ) (X : List P) : Except KErr (Matrix (Fin X.length) (Fin X.length) ℝ) × DmapState σ :=
  match I.pdist st.inner X with
  | (.error e, s) => (.error e, ⟨s, st.fitted⟩)
  | (.ok K, s) =>
    match st.fitted with
    | some _ => (.error .attribute, ⟨s, st.fitted⟩)
    | none => ((evalPdist k none K).map Prod.fst, ⟨s, storeFit (evalPdist k none K) none⟩)

/-- The stored attributes as those of the columns of a matrix: the number of row sums must be the number of columns (kernels.py 1549-1553, only looked at for `alpha > 0`). -/
noncomputable def castFit {n : Nat} (N : Nat) (f : Fitted (Fin n)) : Except KErr (Fitted (Fin N)) :=
  match f.rowSumsAlpha with
  | none => .ok ⟨none, none⟩
  | some v => if h : N = n then .ok ⟨some (fun i => v (i.cast h)), none⟩ else .error .value

/-- `kernel(X, Y)` (kernels.py 1658-1696 with 1634-1656): the internal kernel is evaluated first; afterwards the attributes must exist. -/
noncomputable def dmapComp (k : DmapKernel) (I : Internal P σ) (st : DmapState σ) (X Y : List P) : Except KErr (Matrix (Fin Y.length) (Fin X.length) ℝ) × DmapState σ :=
  match I.cdist st.inner X Y with
  | (.error e, s) => (.error e, ⟨s, st.fitted⟩)
  | (.ok K, s) =>
    match st.fitted with
    | none => (.error .attribute, ⟨s, none⟩)
    | some f =>
      match castFit X.length f.2 with
      | .error e => (.error e, ⟨s, some f⟩)
      | .ok g => (evalCdist k (some g) K, ⟨s, some f⟩)

/-- The evaluations of a kernel object. -/
inductive KCall (P : Type)
  | pair (X : List P)
  | comp (X Y : List P)

/-- The object after a call, whether it is accepted or refused. -/
noncomputable def afterCall (k : DmapKernel) (I : Internal P σ) (st : DmapState σ) : KCall P → DmapState σ
  | .pair X => (dmapPair k I st X).2
  | .comp X Y => (dmapComp k I st X Y).2

/-- The object after a history of calls. -/
noncomputable def afterCalls (k : DmapKernel) (I : Internal P σ) (st : DmapState σ) (h : List (KCall P)) : DmapState σ := h.foldl (afterCall k I) st

/-- An internal kernel without state, given by its matrices. -/
def Internal.pure (K : (X : List P) → Except KErr (Matrix (Fin X.length) (Fin X.length) ℝ)) (C : (X Y : List P) → Except KErr (Matrix (Fin Y.length) (Fin X.length) ℝ)) : Internal P Unit :=
  ⟨fun s X => (K X, s), fun s X Y => (C X Y, s)⟩

/-! ## Gaussian kernel with a bandwidth -/

/-- The attribute `epsilon` of a `GaussianKernel`: a number, or a function of a distance matrix of any shape (kernels.py 783-785). -/
inductive Epsilon
  | number (e : ℝ)
  | callable (f : (m n : Nat) → Matrix (Fin m) (Fin n) ℝ → ℝ)

/-- The bandwidth used for a distance matrix; it replaces the attribute (kernels.py 804-819). -/
def Epsilon.resolve (b : Epsilon) {m n : Nat} (D : Matrix (Fin m) (Fin n) ℝ) : ℝ :=
  match b with
  | .number e => e
  | .callable f => f m n D

/-- The matrix of squared distances, one row per query point (kernels.py 725-757, metric `"sqeuclidean"`), of points in `d` dimensions. -/
def sqDistMatrix {d : Nat} (X Y : List (Fin d → ℝ)) : Matrix (Fin Y.length) (Fin X.length) ℝ := Matrix.of (fun i j => sqDist Y[i] X[j])

/-- A `GaussianKernel` as internal kernel, its state is the attribute `epsilon` (kernels.py 725-828). -/
noncomputable def gaussInternal (d : Nat) : Internal (Fin d → ℝ) Epsilon where
  pdist b X := ((Radial.gaussian (b.resolve (sqDistMatrix X X))).evaluate (sqDistMatrix X X), .number (b.resolve (sqDistMatrix X X)))
  cdist b X Y := ((Radial.gaussian (b.resolve (sqDistMatrix X Y))).evaluate (sqDistMatrix X Y), .number (b.resolve (sqDistMatrix X Y)))

/-! ## Evaluation for given distances -/

open Classical in
/-- The adjacency matrix of a graph. -/
noncomputable def adjacency {m n : Nat} (G : Fin m → Fin n → Prop) : Matrix (Fin m) (Fin n) ℝ := Matrix.of (fun i j => if G i j then 1 else 0)

/-- `DmapKernelFixed(ContinuousNNKernel(...)).evaluate(distance_matrix, is_pdist=True)` of a new object (kernels.py 1698-1725): `is_pdist` is not handed to the internal kernel, whose default is `False`. -/
noncomputable def dmapEvaluateCknn (k : DmapKernel) (c : CkNN) {n : Nat} (D : Matrix (Fin n) (Fin n) ℝ) : Except KErr (Matrix (Fin n) (Fin n) ℝ) :=
  match c.cdist none D with
  | .error e => .error e
  | .ok G => (evalPdist k none (adjacency G)).map Prod.fst

/-- `DmapKernelFixed(ContinuousNNKernel(...))(X)` of a new object for the distance matrix `D` of the points (kernels.py 1658-1696, `ContinuousNNKernel.__call__` 1169-1208). -/
noncomputable def dmapCallCknn (k : DmapKernel) (c : CkNN) {n : Nat} (D : Matrix (Fin n) (Fin n) ℝ) : Except KErr (Matrix (Fin n) (Fin n) ℝ) :=
  match c.pdist none D with
  | .error e => .error e
  | .ok G => (evalPdist k none (adjacency G.1)).map Prod.fst

end Verif.Kernel
