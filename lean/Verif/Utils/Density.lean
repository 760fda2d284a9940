import Verif.Utils.Mesh
import Mathlib.Analysis.SpecialFunctions.Trigonometric.Basic
/-!
# Model of the density picture of a collection

`datafold/pcfold/timeseries/accessor.py` 1295-1410, `plot_density2d` up to the array that is handed to `imshow`; exact real arithmetic.
-/

namespace Verif.Utils

open Verif.Tsc

/-- `df.iloc[:, k].min()` (accessor.py 1338, 1340). -/
noncomputable def minOf : List ℝ → ℝ
  | [] => 0
  | x :: xs => xs.foldl min x

/-- `df.iloc[:, k].max()` (accessor.py 1339, 1341). -/
noncomputable def maxOf : List ℝ → ℝ
  | [] => 0
  | x :: xs => xs.foldl max x

/-- `multivariate_normal(coordinate, cov=np.eye(2)).pdf(point)` (accessor.py 1397-1404). -/
noncomputable def normalPdf (c p : ℝ × ℝ) : ℝ := Real.exp (-((p.1 - c.1) ^ 2 + (p.2 - c.2) ^ 2) / 2) / (2 * Real.pi)

/-- `_sum_up_density_values_on_grid` (accessor.py 1395-1410). -/
noncomputable def sumDensity (pdf : ℝ × ℝ → ℝ × ℝ → ℝ) (coords grid : List (ℝ × ℝ)) : List ℝ := grid.map (fun p => (coords.map (fun c => pdf c p)).sum)

/-- `vector.reshape(rows, cols)` (accessor.py 1353-1355). -/
def reshape2 {α : Type} (rows cols : Nat) (v : List α) : List (List α) := (List.range rows).map (fun i => (v.drop (i * cols)).take cols)

/-- `select_time_values(time)` (accessor.py 1336) for one time value: the samples of all series at that time. -/
def samplesAt (c : List (Row Int (ℝ × ℝ))) (t : Int) : List (ℝ × ℝ) := (c.filter (fun r => decide (r.time = t))).map (·.val)

/-- The array that `plot_density2d` shows (accessor.py 1330-1361); a time value that does not occur raises. -/
noncomputable def densityPicture (pdf : ℝ × ℝ → ℝ × ℝ → ℝ) (c : List (Row Int (ℝ × ℝ))) (t : Int) (xres yres : Nat) : Except PyErr (List (List ℝ)) :=
  if samplesAt c t = [] then .error .value
  else match linspace (minOf ((samplesAt c t).map (·.1))) (maxOf ((samplesAt c t).map (·.1))) xres with
    | .error e => .error e
    | .ok xs => match linspace (minOf ((samplesAt c t).map (·.2))) (maxOf ((samplesAt c t).map (·.2))) yres with
      | .error e => .error e
      | .ok ys => .ok (reshape2 xres yres (sumDensity pdf (samplesAt c t) (meshgrid xs ys)))

end Verif.Utils
