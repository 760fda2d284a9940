import Verif.Utils.Benchmarks
import Verif.Tsc.Model
/-!
# Model of the prediction with the limit cycle for given time values

`datafold/utils/_systems.py` 315-372, `LimitCycle.predict` with the keyword `t_eval`; exact real arithmetic.  `rnd` is `np.round` at 10 decimals (as an integer number of steps of `1e-10`).
-/

namespace Verif.Utils

/-- `np.diff` (_systems.py 319). -/
def diffs : List ℝ → List ℝ
  | a :: b :: l => (b - a) :: diffs (b :: l)
  | _ => []

/-- `len(np.unique(np.round(t_diff, decimals=10))) == 1` (_systems.py 320-322): there are rounded differences, and all are equal. -/
def oneDifference (rnd : ℝ → ℤ) : List ℝ → Bool
  | [] => false
  | d :: ds => ds.all (fun e => decide (rnd e = rnd d))

/-- What can go wrong. -/
inductive CycleErr | assertion
deriving DecidableEq, Repr

/-- The rows `(time label, (angle, radius))` that the evaluation with `dt` and `nr_steps` returns (_systems.py 331-372). -/
noncomputable def cycleRows (analytical : Bool) (eps x1 x2 dt : ℝ) (n : Nat) : List (ℝ × ℝ × ℝ) :=
  (List.range n).map (fun i => (linspaceTime dt n i, if analytical then cycleAnalytical eps x1 x2 dt n i else cycleEuler eps x1 x2 dt i))

/-- `LimitCycle.predict(x1=…, x2=…, t_eval=…)` (_systems.py 315-329). -/
noncomputable def cyclePredict (rnd : ℝ → ℤ) (analytical : Bool) (eps x1 x2 : ℝ) (tEval : List ℝ) : Except CycleErr (List (ℝ × ℝ × ℝ)) :=
  if oneDifference rnd (diffs tEval) then .ok (cycleRows analytical eps x1 x2 ((diffs tEval).headD 0) tEval.length)
  else .error .assertion

end Verif.Utils
