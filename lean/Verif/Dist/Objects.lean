import Verif.Dist.Basic
/-!
# Model of the constructors and the argument checks of distance algorithms

`datafold/pcfold/distance.py` 62-202 (attributes), 389-404 (format of the result) and the constructors of the classes.  `RDist` is not modelled.
-/

namespace Verif.Dist

/-- The classes of distance algorithms. -/
inductive Algorithm
  | brute | tree (t : Tree) | knn
deriving DecidableEq, Repr

/-- The attributes of an object that depend on the arguments.  `cutOff = none`: no attribute `cut_off`; `some none`: infinite.  `kOut = none`: no attribute `k`. -/
structure Attrs where
  algorithm : Algorithm
  isSymmetric : Bool
  cutOff : Option (Option ℝ)
  kmin : Option Int
  kOut : Option Int

open Classical in
/-- `_set_attrs_range` (distance.py 82-104): the cut-off (`none` is `inf`) has to be positive; with squared distances it is squared.  `kmin` is an integer or `None` here. -/
noncomputable def setRange (mt : Metric) (cut : Option ℝ) : Except DErr (Option ℝ) :=
  match cut with
  | none => .ok none
  | some c => if c ≤ 0 then .error .value else .ok (some (mt.apply c))

/-- `_set_attrs_knn` (distance.py 115-118). -/
def setKnn (k : Int) : Except DErr Int := if k ≤ 0 then .error .value else .ok k

/-- `DistanceAlgorithm.__init__` (distance.py 62-80): a number of neighbours sets `kmin` (if there is a cut-off) and always `k`. -/
noncomputable def initAttrs (a : Algorithm) (sym : Bool) (mt : Metric) (cut : Option (Option ℝ)) (k : Option Int) : Except DErr Attrs :=
  match cut with
  | some c =>
    match setRange mt c with
    | .error e => .error e
    | .ok c' =>
      match k with
      | none => .ok ⟨a, sym, some c', none, none⟩
      | some k =>
        match setKnn k with
        | .error e => .error e
        | .ok k => .ok ⟨a, sym, some c', some k, some k⟩
  | none =>
    match k with
    | none => .ok ⟨a, sym, none, none, none⟩
    | some k =>
      match setKnn k with
      | .error e => .error e
      | .ok k => .ok ⟨a, sym, none, none, some k⟩

open Classical in
/-- `cut_off or np.inf`: `None`, `0` and `inf` are no cut-off. -/
noncomputable def orInf (cut : Option ℝ) : Option ℝ :=
  match cut with
  | some c => if c = 0 then none else some c
  | none => none

/-- The constructors `BruteForceDist(metric, cut_off)` (distance.py 477-487), `ScipyKdTreeDist(cut_off, metric, kmin)` (distance.py 673-678), `SklearnBalltreeDist(cut_off, metric, kmin)`
(distance.py 773-784) and `SklearnKNN(metric, k)` (distance.py 851-853) for the two metrics of the tree algorithms.  `kn` is `kmin` or `k`; brute force has no such parameter, a
nearest neighbour object has to have one and has no cut-off. -/
noncomputable def newAlgorithm (a : Algorithm) (mt : Metric) (cut : Option ℝ) (kn : Option Int) : Except DErr Attrs :=
  match a with
  | .brute => initAttrs .brute true mt (some (orInf cut)) none
  | .tree t => initAttrs (.tree t) true mt (some (orInf cut)) kn
  | .knn =>
    match kn with
    | none => .error .type
    | some k => initAttrs .knn false mt none (some k)

/-- The values of `dist_type` (distance.py 106-113). -/
inductive DistType
  | range | knn | full
deriving DecidableEq, Repr

/-- `dist_type` (distance.py 106-113): whether there is an attribute `cut_off` is looked at first. -/
def Attrs.distType (o : Attrs) : DistType :=
  if o.cutOff.isSome then .range else if o.kOut.isSome then .knn else .full

/-- `is_sparse` (distance.py 138-145).  The attribute `cut_off` of a range object is a number or `inf`, never `None`; the number of neighbours is an integer. -/
def Attrs.isSparse (o : Attrs) : Bool :=
  match o.distType with
  | .range => true
  | .knn => true
  | .full => false

/-- The format of the result of `__call__`: brute force makes a sparse matrix if the cut-off is not infinite (distance.py 524-529), the trees make an array of a sparse matrix
if it is (`_validate_final_sparse_matrix`, distance.py 389-404, called by `_handle_kmin` 363-386), nearest neighbours are always sparse (distance.py 848-882). -/
def Attrs.returnsSparse (o : Attrs) : Bool :=
  match o.algorithm with
  | .knn => true
  | _ => match o.cutOff with
    | some (some _) => true
    | _ => false

/-- The shape of an array: its lengths along the axes. -/
abbrev Shape := List Nat

/-- `if1dim_colvec` (utils/general.py 201-205). -/
def colvec : Shape → Shape
  | [n] => [n, 1]
  | s => s

/-- `if1dim_rowvec` (utils/general.py 208-212). -/
def rowvec : Shape → Shape
  | [n] => [1, n]
  | s => s

/-- `_validate_X_Y` (distance.py 170-188): the shapes that are handed to the backend.  An array without axes has no `shape[0]` (`IndexError`, here `type`). -/
def validateShapes (X : Shape) (Y : Option Shape) : Except DErr (Shape × Option Shape) :=
  match colvec X with
  | [] => .error .type
  | n :: rest =>
    if n ≤ 1 then .error .value
    else
      match Y with
      | none => .ok (n :: rest, none)
      | some Y =>
        match rest[0]?, (rowvec Y)[1]? with
        | some d, some d' => if d ≠ d' then .error .value else .ok (n :: rest, some (rowvec Y))
        | _, _ => .error .type

end Verif.Dist
