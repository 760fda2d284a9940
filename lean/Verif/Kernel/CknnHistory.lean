import Verif.Kernel.History
/-!
# Model of the life of a continuous nearest neighbour kernel object

`datafold/pcfold/kernels.py` 1135-1250 (`ContinuousNNKernel._validate`, `__call__`, `evaluate`) with `_required_attrs` (518-533): the first accepted pair-wise evaluation stores the attribute
`reference_dist_knn_`.  `Dp` and `Dc` are the pair-wise and component-wise evaluation of the distance algorithm.
-/

namespace Verif.Kernel

variable {P : Type}

/-- The attribute `reference_dist_knn_`, an array of any length, if it exists. -/
abbrev KnnAttr := Option ((n : Nat) × (Fin n → ℝ))

/-- The attribute as an array for the `N` columns of a distance matrix; another length is refused (kernels.py 1163-1167). -/
def castKnn (N : Nat) : KnnAttr → Except KErr (Option (Fin N → ℝ))
  | none => .ok none
  | some s => if h : N = s.1 then .ok (some (fun i => s.2 (i.cast h))) else .error .value

/-- `kernel(X)` (kernels.py 1169-1250): the adjacency graph and the attribute afterwards.  Before the call only the existence of the attribute matters. -/
noncomputable def cknnPair (c : CkNN) (Dp : (X : List P) → Except KErr (Matrix (Fin X.length) (Fin X.length) ℝ)) (st : KnnAttr) (X : List P) :
    Except KErr (Fin X.length → Fin X.length → Prop) × KnnAttr :=
  match Dp X with
  | .error e => (.error e, st)
  | .ok D => match c.pdist (st.map (fun _ _ => 0)) D with
    | .error e => (.error e, st)
    | .ok r => (.ok r.1, some ⟨X.length, r.2⟩)

/-- `kernel(X, Y)` (kernels.py 1169-1250); `_validate` (1156-1167) looks at the number of neighbours, at the existence of the attribute and at its length, in this order. -/
noncomputable def cknnComp (c : CkNN) (Dc : (X Y : List P) → Except KErr (Matrix (Fin Y.length) (Fin X.length) ℝ)) (st : KnnAttr) (X Y : List P) :
    Except KErr (Fin Y.length → Fin X.length → Prop) × KnnAttr :=
  match Dc X Y with
  | .error e => (.error e, st)
  | .ok D => match castKnn X.length st with
    | .error e => (.error e, st)
    | .ok w => (c.cdist w D, st)

/-- The kernel as internal kernel of a diffusion kernel, with its adjacency matrix (kernels.py 1658-1696). -/
noncomputable def cknnInternal (c : CkNN) (Dp : (X : List P) → Except KErr (Matrix (Fin X.length) (Fin X.length) ℝ)) (Dc : (X Y : List P) → Except KErr (Matrix (Fin Y.length) (Fin X.length) ℝ)) :
    Internal P KnnAttr where
  pdist st X := ((cknnPair c Dp st X).1.map adjacency, (cknnPair c Dp st X).2)
  cdist st X Y := ((cknnComp c Dc st X Y).1.map adjacency, (cknnComp c Dc st X Y).2)

/-- The attribute after a call. -/
noncomputable def cknnAfter (c : CkNN) (Dp : (X : List P) → Except KErr (Matrix (Fin X.length) (Fin X.length) ℝ)) (Dc : (X Y : List P) → Except KErr (Matrix (Fin Y.length) (Fin X.length) ℝ)) (st : KnnAttr) :
    KCall P → KnnAttr
  | .pair X => (cknnPair c Dp st X).2
  | .comp X Y => (cknnComp c Dc st X Y).2

/-- The attribute after a history of calls. -/
noncomputable def cknnAfterCalls (c : CkNN) (Dp : (X : List P) → Except KErr (Matrix (Fin X.length) (Fin X.length) ℝ)) (Dc : (X Y : List P) → Except KErr (Matrix (Fin Y.length) (Fin X.length) ℝ))
    (st : KnnAttr) (h : List (KCall P)) : KnnAttr := h.foldl (cknnAfter c Dp Dc) st

end Verif.Kernel
