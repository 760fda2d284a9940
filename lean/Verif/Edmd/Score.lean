import Verif.Edmd.Reconstruct
import Verif.Tsc.Metric
import Verif.Tsc.Select
/-!
# Model of `EDMD.score` and of slices of an `EDMD`

`datafold/appfold/edmd.py` 1272-1293 (`__getitem__`), 1493-1551 (`reconstruct`), 1588-1633 (`score`).
-/

namespace Verif.Edmd

open Verif.Tsc

/-- Exceptions of `EDMD.score`. -/
inductive EScoreErr (E : Type) | reconstruct (e : E) | select (e : SelErr) | metric (e : MetricErr)
deriving DecidableEq, Repr

/-- `EDMD.reconstruct` (edmd.py 1493-1551) without control: every series needs one sample more than an initial condition. -/
def reconstructPublic {E : Type} {V W : Type} (liftE : TscErr → E) (predict : List (Row Int V) → List Int → Except E (List (Row Int W))) (n : Nat)
    (c : List (Row Int V)) : Except E (List (Row Int W)) × List (Row Int V) :=
  if !checkMinTimesteps c (n + 1 : Nat) then (.error (liftE .minTimesteps), c) else reconstructEdmd liftE predict n c

/-- The rows of `X` that the reconstruction `r` is compared with (edmd.py 1627-1631). -/
def scoreReference {V W : Type} (n : Nat) (c : List (Row Int V)) (r : List (Row Int W)) : Except SelErr (List (Row Int V)) :=
  if n > 1 then match locIndex c (r.map (·.key)) with
    | .error e => .error e
    | .ok (.tsc d) => .ok d
    | .ok (.frame d) => .ok d
  else .ok c

/-- `EDMD.score` (edmd.py 1588-1633) without control and sample weights: the root mean squared error of each min-max scaled feature between `X` and its reconstruction, averaged and negated. -/
noncomputable def edmdScore {E : Type} {m : Nat} (liftE : TscErr → E) (predict : List (Row Int (Fin m → ℝ)) → List Int → Except E (List (Row Int (Fin m → ℝ)))) (n : Nat)
    (c : List (Row Int (Fin m → ℝ))) : Except (EScoreErr E) ℝ :=
  match (reconstructPublic liftE predict n c).1 with
  | .error e => .error (.reconstruct e)
  | .ok r => match scoreReference n c r with
    | .error e => .error (.select e)
    | .ok d => match scoreCall .rmse .feature .minMax none .raw false d r with
      | .error e => .error (.metric e)
      | .ok x => .ok x

/-- A step of the pipeline: name and whether it is a model that predicts (`TSCPredictMixin`). -/
structure Step where
  /-- the name -/
  name : String
  /-- is it a `TSCPredictMixin`? -/
  predicts : Bool
deriving DecidableEq, Repr

/-- Result of `edmd[a:b]`: the model itself or a plain `Pipeline`. -/
inductive Sliced | self | pipeline (steps : List Step)
deriving DecidableEq, Repr

/-- Exceptions of `edmd[a:b]`. -/
inductive SliceErr | valueError | indexError
deriving DecidableEq, Repr

/-- `steps[start:stop:1]` of a Python list, for non-negative bounds. -/
def sliceSteps (steps : List Step) (start stop : Option Nat) : List Step := (steps.take (stop.getD steps.length)).drop (start.getD 0)

/-- `EDMD.__getitem__` (edmd.py 1272-1293) for a slice with non-negative bounds. -/
def edmdSlice (steps : List Step) (start stop : Option Nat) (step : Option Int) : Except SliceErr Sliced :=
  if step ≠ none ∧ step ≠ some 1 then .error .valueError
  else
    let s := sliceSteps steps start stop
    if s.length = steps.length then .ok .self
    else match s.getLast? with
      | none => .error .indexError
      | some l => if l.predicts then .error .valueError else .ok (.pipeline s)

end Verif.Edmd
