import Verif.Edmd.Predict
import Verif.Edmd.Dictionary
import Verif.Dmd.Online
/-!
# Model of `EDMD.partial_fit`

`datafold/appfold/edmd.py` 690-710 (`_partial_fit`) and 1295-1419 (`partial_fit`) with an `OnlineDMD` model (`Dmd/Online.lean`).  What `partial_fit` accepts concerning the original states is the subject of
`partialFitPlan` in `Edmd/Predict.lean`.
-/

namespace Verif.Edmd

open Verif.Tsc Verif.Lin Verif.Dmd Verif.Dict Matrix

variable {α σ : Type}

/-- A transformer with `partial_fit`: what it remembers (`none` before the first call) and how it transforms with it. -/
structure PStep (α σ : Type) where
  update : Option σ → Takens.Frame α → Except DictErr σ
  run : σ → Transformer α

/-- A transformer whose `partial_fit` fits once and ignores all further data: `TSCIdentity` (transform.py 311-315), `TSCTakensEmbedding` (699-726, which also checks the sampling interval that `transform` checks again),
`TSCFourierRBF` (970-974), `TSCPolynomialFeatures` (1391-1396) and `TSCFiniteDifference` (1678-1682). -/
def fitOnce (s : Step α) : PStep α (Transformer α) where
  update := fun st X => match st with
    | some T => .ok T
    | none => s X
  run := fun T => T

/-- `_partial_fit` (edmd.py 690-710): each transformer is updated with the data that reach it, then it transforms them. -/
def partialSteps : List (PStep α σ × Option σ) → Takens.Frame α → Except DictErr (List (PStep α σ × Option σ) × Takens.Frame α)
  | [], X => .ok ([], X)
  | p :: ps, X => match p.1.update p.2 X with
    | .error e => .error e
    | .ok st => match p.1.run st X with
      | .error e => .error e
      | .ok Y => match partialSteps ps Y with
        | .error e => .error e
        | .ok r => .ok ((p.1, some st) :: r.1, r.2)

/-- A series of calls of `partial_fit`: the transformers afterwards and the dictionary values of each batch that are handed to the DMD model (edmd.py 1373-1376, 1392-1393). -/
def partialFits : List (PStep α σ × Option σ) → List (Takens.Frame α) → Except DictErr (List (PStep α σ × Option σ) × List (Takens.Frame α))
  | ps, [] => .ok (ps, [])
  | ps, X :: Xs => match partialSteps ps X with
    | .error e => .error e
    | .ok r => match partialFits r.1 Xs with
      | .error e => .error e
      | .ok q => .ok (q.1, r.2 :: q.2)

/-- The dictionary at the end: the transformers with what they remember. -/
def finalTransformers (ps : List (PStep α σ × Option σ)) : List (Transformer α) := ps.filterMap (fun p => p.2.map p.1.run)

/-- `TSCIncrementalPCA` (transform.py 375-402) for one feature and one component, whose direction is 1: the labels of the first batch, the number of samples and the mean of all samples seen so far
(scikit-learn's `IncrementalPCA.partial_fit`); `transform` subtracts the mean. -/
def pcaStep : PStep ℚ (List String × Nat × ℚ) where
  update := fun st X => match st with
    | none => .ok (X.cols, X.rows.length, (X.rows.map (fun r => r.val.getD 0 0)).sum / X.rows.length)
    | some s => .ok (s.1, s.2.1 + X.rows.length, (s.2.1 * s.2.2 + (X.rows.map (fun r => r.val.getD 0 0)).sum) / (s.2.1 + X.rows.length))
  run := fun s => rowTransform (fun v => [v.getD 0 0 - s.2.2]) s.1 ["pca0"]

variable {ι δ : Type} [Fintype ι] [Fintype δ] [DecidableEq δ]

/-- The first call with `dmd__batch_fit=True` (dmd.py 2571-2577): the dictionary values `g` of the batch are fitted together. -/
def OnlineEdmdFirst (ρ : ℝ) (g : (ι → ℝ) → (δ → ℝ)) (c : List (Row Int (ι → ℝ))) (s : Online δ) : Prop :=
  ∃ L R, shiftMatrices (mapVal g c) = .ok (L, R) ∧ OnlineBatch ρ (L.zip R) s

/-- A further call (edmd.py 1373-1393, dmd.py 2583-2640) for a dictionary `g` that maps each sample by itself. -/
noncomputable def onlineEdmd (ρ : ℝ) (g : (ι → ℝ) → (δ → ℝ)) (s : Online δ) (c : List (Row Int (ι → ℝ))) : Except TscErr (Online δ) := onlinePartialFit ρ s (mapVal g c)

end Verif.Edmd
