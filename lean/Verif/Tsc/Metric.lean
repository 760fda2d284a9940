import Verif.Tsc.Model
import Mathlib.Data.Real.Sqrt
/-!
# Metrics and scores of time series collections

Models `TSCMetric` and `TSCScoring` (datafold/pcfold/timeseries/metric.py 17-575) with the metrics of scikit-learn it calls. Real numbers in exact
arithmetic (so all values are finite); `d` features; a weight that is not given is 1.
-/

namespace Verif.Tsc

open Verif.Np

/-- The metrics (metric.py 49-59). -/
inductive Metric | rmse | rrmse | mse | mape | mae | medae | max | l2 | linf
deriving DecidableEq, Repr

/-- The modes (metric.py 48). -/
inductive MetricMode | timeseries | timestep | feature
deriving DecidableEq, Repr

/-- The scalings (metric.py 60). -/
inductive MetricScaling | id | minMax | standard | l2Normalize
deriving DecidableEq, Repr

/-- The parameter `multioutput`. -/
inductive MultiOutput (d : Nat)
  | raw
  | uniform
  | weights (w : Fin d → ℝ)

/-- Errors of the metrics: different indices, a norm that is too small (metric.py 196-199), several outputs for `max` (metric.py 213-214), weights for
`medae` (metric.py 147-148), a result with one value per feature assigned to a single column, wrong number of weights. -/
inductive MetricErr | indices | smallNorm | multiOutput | noWeights | shape | nWeights | sameLength
deriving DecidableEq, Repr

/-- One sample: weight, true and predicted values. -/
structure Sample (d : Nat) where
  w : ℝ
  y : Fin d → ℝ
  p : Fin d → ℝ

/-- `np.average(x, weights=w)` -/
noncomputable def wAverage (l : List (ℝ × ℝ)) : ℝ := (l.map (fun x => x.1 * x.2)).sum / (l.map (·.1)).sum

/-- Arithmetic mean. -/
noncomputable def meanList (l : List ℝ) : ℝ := l.sum / l.length

/-- The maximum of non-negative values. -/
noncomputable def maxList (l : List ℝ) : ℝ := l.foldr max 0

open Classical in
/-- `np.median` -/
noncomputable def median (l : List ℝ) : ℝ :=
  let s := l.mergeSort (fun a b => decide (a ≤ b))
  if s.length % 2 = 1 then s.getD (s.length / 2) 0 else (s.getD (s.length / 2 - 1) 0 + s.getD (s.length / 2) 0) / 2

/-- `np.finfo(np.float64).eps`, used by `sklearn.metrics.mean_absolute_percentage_error`. -/
noncomputable def mapeEps : ℝ := 2 ^ (-52 : ℤ)

/-- Mean squared error of feature `j`. -/
noncomputable def mseCol {d : Nat} (b : List (Sample d)) (j : Fin d) : ℝ := wAverage (b.map (fun s => (s.w, (s.y j - s.p j) ^ 2)))

/-- The metric of one feature column: `sklearn.metrics` and `_norm_metric` (metric.py 114-134). `rrmse` is treated separately. -/
noncomputable def colMetric {d : Nat} (m : Metric) (b : List (Sample d)) (j : Fin d) : ℝ :=
  match m with
  | .mse | .rrmse => mseCol b j
  | .rmse => Real.sqrt (mseCol b j)
  | .mae => wAverage (b.map (fun s => (s.w, |s.y j - s.p j|)))
  | .mape => wAverage (b.map (fun s => (s.w, |s.y j - s.p j| / Max.max |s.y j| mapeEps)))
  | .medae => median (b.map (fun s => |s.y j - s.p j|))
  | .max => maxList (b.map (fun s => |s.y j - s.p j|))
  | .l2 => Real.sqrt ((b.map (fun s => (s.w * (s.y j - s.p j)) ^ 2)).sum)
  | .linf => maxList (b.map (fun s => |s.w * (s.y j - s.p j)|))

/-- Norm factor of `rrmse` for feature `j` (metric.py 193-194). -/
noncomputable def rrmseNorm {d : Nat} (b : List (Sample d)) (j : Fin d) : ℝ := (b.map (fun s => s.y j ^ 2)).sum

open Classical in
/-- `_rrmse_metric` (metric.py 185-206). -/
noncomputable def rrmseMetric {d : Nat} (mo : MultiOutput d) (b : List (Sample d)) : Except MetricErr (List ℝ) :=
  match mo with
  | .uniform =>
    let norm := (List.ofFn (rrmseNorm b)).sum
    if norm ≤ 1e-14 then .error .smallNorm else .ok [Real.sqrt (meanList (List.ofFn (mseCol b)) / norm)]
  | .raw =>
    if ∃ j, rrmseNorm b j ≤ 1e-14 then .error .smallNorm else .ok (List.ofFn (fun j => Real.sqrt (mseCol b j / rrmseNorm b j)))
  | .weights w =>
    if ∃ j, rrmseNorm b j ≤ 1e-14 then .error .smallNorm
    else if d ≠ 1 then .error .shape
    else .ok (List.ofFn (fun j => Real.sqrt (wAverage (List.ofFn (fun i => (w i, mseCol b i))) / rrmseNorm b j)))

/-- `self.metric(y_true, y_pred, sample_weight=…, multioutput=…)` (metric.py 216-243), one value per column of the result. -/
noncomputable def blockMetric {d : Nat} (m : Metric) (weighted : Bool) (mo : MultiOutput d) (b : List (Sample d)) : Except MetricErr (List ℝ) :=
  match m with
  | .rrmse => rrmseMetric mo b
  | .max => if d ≠ 1 then .error .multiOutput else .ok (List.ofFn (colMetric .max b))
  | .medae =>
    if weighted then .error .noWeights
    else match mo with
      | .raw => .ok (List.ofFn (colMetric .medae b))
      | .uniform => .ok [meanList (List.ofFn (colMetric .medae b))]
      | .weights w => .ok [wAverage (List.ofFn (fun j => (w j, colMetric .medae b j)))]
  | m =>
    match mo with
    | .raw => .ok (List.ofFn (colMetric m b))
    | .uniform => .ok [meanList (List.ofFn (colMetric m b))]
    | .weights w =>
      if (m = .l2 ∨ m = .linf) then
        if d ≠ 1 then .error .shape else .ok (List.ofFn (colMetric m b))
      else .ok [wAverage (List.ofFn (fun j => (w j, colMetric m b j)))]

/-! ### Scaling (metric.py 84-112) -/

/-- Largest element of a list (0 for the empty list). -/
noncomputable def listMax : List ℝ → ℝ
  | [] => 0
  | a :: l => l.foldr max a

/-- Smallest element of a list (0 for the empty list). -/
noncomputable def listMin : List ℝ → ℝ
  | [] => 0
  | a :: l => l.foldr min a

open Classical in
/-- `_handle_zeros_in_scale` of scikit-learn. -/
noncomputable def noZero (x : ℝ) : ℝ := if x = 0 then 1 else x

/-- Scaling function made from the true values `ys` (the rows of `y_true`), then applied to a row. `Normalizer` divides each row by its own
Euclidean norm and learns nothing from `y_true`. -/
noncomputable def scaleRow {d : Nat} (s : MetricScaling) (ys : List (Fin d → ℝ)) (x : Fin d → ℝ) : Fin d → ℝ :=
  match s with
  | .id => x
  | .minMax => fun j => (x j - listMin (ys.map (· j))) / noZero (listMax (ys.map (· j)) - listMin (ys.map (· j)))
  | .standard => fun j =>
    let mean := meanList (ys.map (· j))
    (x j - mean) / noZero (Real.sqrt (meanList (ys.map (fun y => (y j - mean) ^ 2))))
  | .l2Normalize => fun j => x j / noZero (Real.sqrt ((List.ofFn (fun i => x i ^ 2)).sum))

/-! ### Modes -/

variable {τ : Type} [LinearOrder τ] {d : Nat}

/-- The rows of both collections side by side, after the check that the indices agree (metric.py 453-458). -/
def pairRows (yt yp : List (Row τ (Fin d → ℝ))) : Except MetricErr (List (Row τ ((Fin d → ℝ) × (Fin d → ℝ)))) :=
  if yt.map (·.key) = yp.map (·.key) then .ok (List.zipWith (fun a b => ⟨a.id, a.time, (a.val, b.val)⟩) yt yp) else .error .indices

/-- Attach sample weights; `none` is no weights. The number of weights has to be the number of samples (metric.py 276-287, 319-327, 351-365). -/
def withWeights (w : Option (List ℝ)) (rows : List ((Fin d → ℝ) × (Fin d → ℝ))) : Except MetricErr (List (Sample d)) :=
  match w with
  | none => .ok (rows.map (fun r => ⟨1, r.1, r.2⟩))
  | some w => if w.length = rows.length then .ok (List.zipWith (fun a r => ⟨a, r.1, r.2⟩) w rows) else .error .nWeights

/-- The blocks on which the metric is evaluated: time series by ascending ID, time steps by ascending time value, or everything (metric.py 302-313,
389-400, 329-334). -/
def metricBlocks {W : Type} (mode : MetricMode) (c : List (Row τ W)) : List (List (Row τ W)) :=
  match mode with
  | .timeseries => (ids c).map (fun i => c.filter (fun r => r.id == i))
  | .timestep => (timeValues c).map (fun t => c.filter (fun r => decide (r.time = t)))
  | .feature => [c]

/-- `TSCMetric.__call__` (metric.py 402-495): one list of values per block. With `mode = feature` the argument `multioutput` is ignored. -/
noncomputable def metricCall (m : Metric) (mode : MetricMode) (s : MetricScaling) (w : Option (List ℝ)) (mo : MultiOutput d)
    (yt yp : List (Row τ (Fin d → ℝ))) : Except MetricErr (List (List ℝ)) :=
  match pairRows yt yp with
  | .error e => .error e
  | .ok rows =>
    let sc := scaleRow s (yt.map (·.val))
    let rows := rows.map (fun r => (⟨r.id, r.time, (sc r.val.1, sc r.val.2)⟩ : Row τ ((Fin d → ℝ) × (Fin d → ℝ))))
    if mode ≠ .feature ∧ w.isSome = true ∧ isEqualLength yt = false then .error .sameLength
    else
      let mo := if mode = .feature then MultiOutput.raw else mo
      (metricBlocks mode rows).mapM (fun b =>
        match withWeights w (b.map (·.val)) with
        | .error e => .error e
        | .ok samples => blockMetric m w.isSome mo samples)

/-- `TSCScoring.__call__` (metric.py 533-575) without weights for the score; results with several columns are rejected. -/
noncomputable def scoreCall (m : Metric) (mode : MetricMode) (s : MetricScaling) (w : Option (List ℝ)) (mo : MultiOutput d) (greaterIsBetter : Bool)
    (yt yp : List (Row τ (Fin d → ℝ))) : Except MetricErr ℝ :=
  match metricCall m mode s w mo yt yp with
  | .error e => .error e
  | .ok vals =>
    let flat := if mode = .feature then vals.headD [] else vals.flatten
    if mode ≠ .feature ∧ vals.any (fun v => v.length != 1) then .error .shape
    else .ok ((if greaterIsBetter then 1 else -1) * meanList flat)

end Verif.Tsc
