import Verif.Dist.Backend
/-!
# Model of the distance argument of the continuous nearest neighbour kernel

`datafold/pcfold/kernels.py` 1085-1129 (`ContinuousNNKernel.__init__`), with `datafold/pcfold/distance.py` 62-113 (attributes of distance algorithms) and 908-928 (`GuessOptimalDist.__new__`).
-/

namespace Verif.Dist

/-- A distance algorithm, as far as the constructor of the kernel looks at it: one that stores the pairs within a radius (`none` is `inf`: all pairs), or one that stores the nearest neighbours
(`dist_type`, distance.py 107-113). -/
inductive DistObj
  | range (cutOff : Option ℝ) (kmin : Option Int)
  | knn (k : Int)

/-- A dictionary of keyword arguments for `init_distance_algorithm`; the key `backend` apart from the others. -/
structure DistDict where
  backend : Option Backend
  entries : List (Key × SVal)

/-- `dict.get(key)`. -/
def dictGet (q : Key) (l : List (Key × SVal)) : Option SVal := (l.find? (fun x => decide (x.1 = q))).map Prod.snd

/-- `dict.setdefault(key, value)`. -/
def setDefault (q : Key) (v : SVal) (l : List (Key × SVal)) : List (Key × SVal) := if (dictGet q l).isSome then l else l ++ [(q, v)]

/-- The two defaults that are written into the dictionary (kernels.py 1110-1111). -/
def cknnDefaults (kNeighbor : Int) (d : DistDict) : DistDict := { d with entries := setDefault .metric (.metricName .euclidean) (setDefault .kmin (.int kNeighbor) d.entries) }

/-- `init_distance_algorithm(backend="guess_optimal", **distance)` (kernels.py 1112): a second value for `backend` is a `TypeError`; `metric`, `cut_off` and `k` are parameters of the function, all other
entries become options. -/
def cknnInit (d : DistDict) : Except DErr (Constructed SVal) :=
  if d.backend.isSome then .error .type
  else initDistance .guessOptimal ((dictGet .metric d.entries).getD (.metricName .euclidean)) ((dictGet .cutOff d.entries).getD .none) ((dictGet .k d.entries).getD .none)
    (d.entries.filter (fun x => decide (x.1 ≠ .metric ∧ x.1 ≠ .cutOff ∧ x.1 ≠ .k)))

/-- The minimal number of neighbours of a constructed radius algorithm (`_set_attrs_range`, distance.py 84-104, `_set_attrs_knn` 115-118): only positive integers and `None`. -/
def kminOf : Option SVal → Except DErr (Option Int)
  | some (.int k) => if k ≤ 0 then .error .value else .ok (some k)
  | some .none => .ok none
  | none => .ok none
  | _ => .error .type

/-- The parameter `kmin` a constructed object got. -/
def givenKmin (o : Constructed SVal) : Option SVal := dictGet .kmin o.given

open Classical in
/-- `GuessOptimalDist.__new__` (distance.py 908-928) for the two metrics that have a tree algorithm: without cut-off (`None`, `0` or `inf`) all pairs are stored; negative cut-offs are rejected; the squared
metric squares the cut-off (distance.py 96-101). -/
noncomputable def guessObject (o : Constructed SVal) : Except DErr DistObj :=
  match dictGet .cutOff o.given, dictGet .metric o.given with
  | some (.num (some c)), some (.metricName m) =>
    if c = 0 then .ok (.range none none)
    else match kminOf (givenKmin o) with
      | .error e => .error e
      | .ok kmin => if c ≤ 0 then .error .value else .ok (.range (some (if m = .sqeuclidean then c ^ 2 else c)) kmin)
  | some (.num none), _ => .ok (.range none none)
  | some .none, _ => .ok (.range none none)
  | _, _ => .error .type

/-- The argument `distance` of the kernel. -/
inductive CknnArg
  | none
  | dict (d : DistDict)
  | obj (o : DistObj)
  | other

/-- The algorithm for a dictionary (kernels.py 1108-1112). -/
noncomputable def cknnFromDict (d : DistDict) : Except DErr DistObj :=
  match cknnInit d with
  | .error e => .error e
  | .ok o => guessObject o

/-- `ContinuousNNKernel.__init__` (kernels.py 1108-1127), for a positive `k_neighbor`: the distance algorithm of the kernel.  All messages about refused objects read `self.distance`, which is not yet set:
an `AttributeError` instead of the intended exception.  A comparison of `None` with an integer is a `TypeError`. -/
noncomputable def cknnDistance (kNeighbor : Int) : CknnArg → Except DErr DistObj
  | .none => cknnFromDict (cknnDefaults kNeighbor ⟨none, []⟩)
  | .dict d => cknnFromDict (cknnDefaults kNeighbor d)
  | .obj (.knn k) => if k < kNeighbor then .error .attribute else .ok (.knn k)
  | .obj (.range c (some kmin)) => if kmin < kNeighbor then .error .attribute else .ok (.range c (some kmin))
  | .obj (.range _ none) => .error .type
  | .other => .error .attribute

/-- The dictionary of the caller after the call: `distance or {}` replaces an empty one, any other is changed (kernels.py 1109-1111). -/
def cknnDictAfter (kNeighbor : Int) (d : DistDict) : DistDict := if d.backend = none ∧ d.entries.isEmpty then d else cknnDefaults kNeighbor d

end Verif.Dist
