import Verif.Dyn.Linear
import Verif.Tsc.InitCond
import Verif.Tsc.Metric
/-!
# Model of `score` of the DMD models

`datafold/dynfold/dmd.py` 469-524 (`fit_predict`, `score`) and the constructors, `datafold/dynfold/base.py` 71-81 and 431-433.
-/

namespace Verif.Dmd

open Verif.Tsc Verif.Dyn

/-- The concrete subclasses of `DMDBase`. -/
inductive DmdClass | pretrained | standard | generator | control | affine | pyDmd | streaming | online
deriving DecidableEq, Repr

/-- Does the constructor call `_setup_default_tsc_metric_and_score` (base.py 431-433)?  `PretrainedDMD` (dmd.py 528-533), `DMDStandard` (734), `gDMDFull` (1410), `DMDControl` (1602-1615),
`gDMDAffine` (1778-1793), `PyDMDWrapper` (1934), `StreamingDMD`, `OnlineDMD`. -/
def DmdClass.setsScoring : DmdClass → Bool
  | .standard | .generator | .pyDmd => true
  | .pretrained | .control | .affine | .streaming | .online => false

/-- Exceptions of `score`: `_check_attributes_set_up` (base.py 71-81), those of `reconstruct` and those of the metric. -/
inductive ScoreErr | attributes | reconstruct (e : PredErr) | metric (e : MetricErr)
deriving DecidableEq, Repr

/-- `DMDBase.score` (dmd.py 488-524) without sample weights: the root mean squared error of each min-max scaled feature, averaged and negated. `predict` is the fitted model. -/
noncomputable def dmdScore {n : Nat} (cls : DmdClass) (predict : List (Row Int (Fin n → ℝ)) → List Int → Except PredErr (List (Row Int (Fin n → ℝ)))) (k : TimeKind)
    (c : List (Row Int (Fin n → ℝ))) : Except ScoreErr ℝ :=
  if cls.setsScoring then
    match reconstructWith PredErr.tsc predict k c with
    | .error e => .error (.reconstruct e)
    | .ok d => match scoreCall .rmse .feature .minMax none .raw false c d with
      | .error e => .error (.metric e)
      | .ok x => .ok x
  else .error .attributes

end Verif.Dmd
