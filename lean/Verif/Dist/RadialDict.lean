import Verif.Dist.CknnDistance
/-!
# Model of the argument `distance` of radial basis kernels

`datafold/pcfold/kernels.py` 393-419 (`BaseManifoldKernel.__init__`) and 689-714 (`RadialBasisKernel.__init__`); several kernels that are constructed with one dictionary, also `ContinuousNNKernel` (1108-1112).
-/

namespace Verif.Dist

/-- `distance.pop("metric", None)` (kernels.py 706): the value (`None` if there is no entry), and the dictionary without it. -/
def popMetric (d : DistDict) : Option SVal × DistDict := (dictGet .metric d.entries, { d with entries := d.entries.filter (fun x => decide (x.1 ≠ .metric)) })

/-- The entry does not contradict the metric that the kernel needs (kernels.py 708). -/
def metricFits (req : Metric) : Option SVal → Bool
  | none => true
  | some .none => true
  | some (.metricName m) => decide (m = req)
  | some _ => false

/-- `init_distance_algorithm(**distance)` (kernels.py 414-417). -/
def dictInit (d : DistDict) : Except DErr (Constructed SVal) :=
  initDistance (d.backend.getD .guessOptimal) ((dictGet .metric d.entries).getD (.metricName .euclidean)) ((dictGet .cutOff d.entries).getD .none) ((dictGet .k d.entries).getD .none)
    (d.entries.filter (fun x => decide (x.1 ≠ .metric ∧ x.1 ≠ .cutOff ∧ x.1 ≠ .k)))

/-- `RadialBasisKernel.__init__` with a dictionary (kernels.py 705-714): the algorithm, and the dictionary of the caller afterwards. -/
def radialFromDict (req : Metric) (d : DistDict) : Except DErr (Constructed SVal) × DistDict :=
  if metricFits req (popMetric d).1 then
    (dictInit { (popMetric d).2 with entries := (popMetric d).2.entries ++ [(.metric, .metricName req)] }, { (popMetric d).2 with entries := (popMetric d).2.entries ++ [(.metric, .metricName req)] })
  else (.error .value, (popMetric d).2)

/-- `RadialBasisKernel.__init__` without a dictionary (kernels.py 699-700). -/
def radialDefault (req : Metric) : Except DErr (Constructed SVal) := dictInit ⟨none, [(.metric, .metricName req)]⟩

/-- `RadialBasisKernel.__init__` with an algorithm object of metric `m` (kernels.py 701-703). -/
def radialFromObject (req m : Metric) : Except DErr Unit := if m ≠ req then .error .value else .ok ()

/-- Kernels of a class with the required metrics of the list are constructed one after the other with the same dictionary. -/
def radialHistory : DistDict → List Metric → List (Except DErr (Constructed SVal)) × DistDict
  | d, [] => ([], d)
  | d, r :: rs => ((radialFromDict r d).1 :: (radialHistory (radialFromDict r d).2 rs).1, (radialHistory (radialFromDict r d).2 rs).2)

end Verif.Dist
