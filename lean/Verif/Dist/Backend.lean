import Verif.Dist.Basic
/-!
# Model of the selection of a distance algorithm and of `PCManifold`

`datafold/pcfold/distance.py` 898-1110 (`GuessOptimalDist`, `init_distance_algorithm`, `compute_distance_matrix`) and `datafold/pcfold/pointcloud.py` 14-214 (`PCManifold`).
-/

namespace Verif.Dist

/-- The algorithms that are found by name. -/
inductive Backend
  | brute | kdtree | balltree | knn | guessOptimal
deriving DecidableEq, Repr

/-- Names of keyword arguments. -/
inductive Key
  | metric | cutOff | kmin | k | exactNumeric | isSymmetric | other (name : Nat)
deriving DecidableEq, Repr

/-- Named parameters of the constructors (distance.py 466-472, 629, 734-740, 851, 908). -/
def Backend.params : Backend → List Key
  | .brute => [.metric, .exactNumeric, .cutOff]
  | .kdtree => [.cutOff, .metric, .kmin]
  | .balltree => [.cutOff, .metric, .kmin]
  | .knn => [.metric, .k]
  | .guessOptimal => [.metric, .isSymmetric, .cutOff, .kmin]

/-- Parameters without default value. -/
def Backend.required : Backend → List Key
  | .brute => [.metric]
  | .kdtree => [.cutOff]
  | .balltree => [.cutOff]
  | .knn => [.metric, .k]
  | .guessOptimal => []

/-- The constructor has `**backend_options`. -/
def Backend.hasOptions : Backend → Bool
  | .guessOptimal => false
  | _ => true

variable {V : Type}

/-- A constructed object: the values of the named parameters that were given, and the options. -/
structure Constructed (V : Type) where
  backend : Backend
  given : List (Key × V)
  options : List (Key × V)

/-- A Python call with keyword arguments: repeated names, unknown names and missing arguments raise a `TypeError`. -/
def construct (b : Backend) (kw : List (Key × V)) : Except DErr (Constructed V) :=
  if (kw.map Prod.fst).Nodup then
    if (b.hasOptions = false ∧ ∃ x ∈ kw, x.1 ∉ b.params) ∨ (∃ q ∈ b.required, q ∉ kw.map Prod.fst) then .error .type
    else .ok ⟨b, kw.filter (fun x => decide (x.1 ∈ b.params)), kw.filter (fun x => decide (x.1 ∉ b.params))⟩
  else .error .type

/-- `init_distance_algorithm` (distance.py 1008-1063): arguments that are no parameters of the constructor are removed, the options only passed on if it accepts them. -/
def initDistance (b : Backend) (metric cutOff k : V) (options : List (Key × V)) : Except DErr (Constructed V) :=
  construct b ((([(Key.metric, metric), (Key.cutOff, cutOff), (Key.kmin, k)] : List (Key × V)).filter (fun x => decide (x.1 ∈ b.params))) ++ (if b.hasOptions then options else []))

/-! ## `PCManifold` -/

/-- Values of settings: numbers (`none` is `inf` or `None`), and names of algorithms. -/
inductive SVal
  | num (x : Option ℝ)
  | int (k : Int)
  | backend (b : Backend)
  | metricName (m : Metric)
  | none

/-- A dictionary of settings for the distance algorithm. -/
structure Settings where
  cutOff : SVal
  kmin : SVal
  backend : Backend
  more : List (Key × SVal)

/-- The defaults set in `__array_finalize__` (pointcloud.py 111-114). -/
def defaultSettings : Settings := ⟨.num Option.none, .int 0, .guessOptimal, []⟩

/-- A point cloud object: its points, and a reference to a dictionary.  `distance` is the attribute set by the constructor. -/
structure PCM (P : Type) where
  points : List P
  ref : Nat
  distance : Option Settings

/-- `PCManifold(data, dist_kwargs=kw)` (pointcloud.py 42-84): the dictionary in use is a new one with default values; the argument is stored in another attribute. -/
def pcmNew {P : Type} (heap : List Settings) (points : List P) (kw : Option Settings) : Except DErr (PCM P × List Settings) :=
  if points = [] then .error .value else .ok (⟨points, heap.length, kw⟩, heap ++ [defaultSettings])

/-- A view, slice or copy of a point cloud refers to the same dictionary (`__array_finalize__`, pointcloud.py 86-114). -/
def pcmView {P : Type} (o : PCM P) (points : List P) : PCM P := ⟨points, o.ref, Option.none⟩

/-- The property `cut_off` (pointcloud.py 153-164). -/
def pcmCutOff {P : Type} (heap : List Settings) (o : PCM P) : Option SVal := (heap[o.ref]?).map Settings.cutOff

open Classical in
/-- The setter of `cut_off` (pointcloud.py 166-178). -/
noncomputable def pcmSetCutOff {P : Type} (heap : List Settings) (o : PCM P) (c : ℝ) : Except DErr (List Settings) :=
  if c ≤ 0 then .error .value else .ok (heap.modify o.ref (fun s => { s with cutOff := .num (some c) }))

/-- The construction of the algorithm in `PCManifold.compute_distance_matrix` (pointcloud.py 180-211 with distance.py 1066-1119): `kmin` is not a parameter of `compute_distance_matrix` and becomes an option,
`k` is `None`. -/
def pcmInit (s : Settings) (metric : Metric) : Except DErr (Constructed SVal) :=
  initDistance s.backend (.metricName metric) s.cutOff SVal.none ((Key.kmin, s.kmin) :: s.more)

end Verif.Dist
