import Verif.Edmd.Stepwise
import Verif.Edmd.ControlDelay
/-!
# Model of stepwise predictions with control input

`datafold/appfold/edmd.py` 868-917 with control input `U` (893-896), integer time values, without a state transition map.
-/

namespace Verif.Edmd

open Verif.Tsc Verif.Np Verif.Dyn Matrix

variable {V W : Type}

/-- One iteration with control (edmd.py 885-909). The control states at the time values of the current samples are handed to the step (893-894). Time values that `U` does not have are left
out of the selection; an empty selection raises. -/
def stepBodyControl (step : List (Row Int V) → List (Row Int W) → List Int → Except StepErr (List (Row Int V))) (n : Nat) (times all : List Int) (U : List (Row Int W)) (c : List (Row Int V))
    (i : Nat) : Except StepErr (List (Row Int V)) :=
  let win := (all.drop (i - n)).take n
  if win.getLast? ≠ times[i - n]? then .error .assertion
  else match build (selectTimes c win) with
    | .error e => .error (.tsc e)
    | .ok cur => match build (selectTimes U win) with
      | .error e => .error (.tsc e)
      | .ok u => match step cur u ((all.drop (i - 1)).take 2) with
        | .error e => .error e
        | .ok p =>
          if nTimesteps p ≠ .one 2 then .error .assertion
          else match finalStates p 1 with
            | .error e => .error (.tsc e)
            | .ok f => setRows c f

/-- The loop (edmd.py 884-909) from loop variable `i`, with `k` iterations left. -/
def stepLoopControl (step : List (Row Int V) → List (Row Int W) → List Int → Except StepErr (List (Row Int V))) (n : Nat) (times all : List Int) (U : List (Row Int W)) : Nat → Nat →
    List (Row Int V) → Except StepErr (List (Row Int V))
  | 0, _, c => .ok c
  | k + 1, i, c => match stepBodyControl step n times all U c i with
    | .error e => .error e
    | .ok c' => stepLoopControl step n times all U k (i + 1) c'

/-- `EDMD.predict` with `stepwise_transform=True` and control input (edmd.py 1196, 1208-1213, 868-917): validation of the control input, then the steps; `n` is `n_samples_ic_`, `fill` the
row of zeros. -/
def stepwiseControl (step : List (Row Int V) → List (Row Int W) → List Int → Except StepErr (List (Row Int V))) (n : Nat) (fill : V) (X : List (Row Int V)) (U : List (Row Int W))
    (times : List Int) : Except StepErr (List (Row Int V)) :=
  match validateControlWindow X U with
  | .error _ => .error .pred
  | .ok _ => match expandTimeValues X times.tail fill with
    | .error e => .error (.tsc e)
    | .ok c => match stepLoopControl step n times (timeValues c) U (times.length - 1) n c with
      | .error e => .error e
      | .ok d =>
        if 1 < n then match build (selectTimes d times) with
          | .error e => .error (.tsc e)
          | .ok d' => .ok d'
        else .ok d

/-- `EDMD.predict` with control input in matrix mode (edmd.py 1196-1216, 832-857) for a point-wise dictionary `g`, all features: `E` is the control matrix, `B` the map back. -/
def edmdPredictControl {ι δ κ : Type} [Fintype δ] [DecidableEq δ] [Fintype κ] (g : (ι → ℝ) → (δ → ℝ)) (K : Matrix δ δ ℝ) (E : Matrix δ κ ℝ) (B : Matrix δ ι ℝ)
    (X : List (Row Int (ι → ℝ))) (U : List (Row Int (κ → ℝ))) (times : List Int) : Except PredErr (List (Row Int (ι → ℝ))) :=
  match predictControlled K E (mapVal g X) U times with
  | .error e => .error e
  | .ok d => .ok (mapVal (fun z => z ᵥ* B) d)

/-- Transform, prediction with control and decoding of one step for a general dictionary `trans` (edmd.py 898-904, 832-857). -/
def dictStepControl {δ κ : Type} [Fintype δ] [DecidableEq δ] [Fintype κ] (trans : List (Row Int V) → Except StepErr (List (Row Int (δ → ℝ)))) (K : Matrix δ δ ℝ) (E : Matrix δ κ ℝ)
    (back : (δ → ℝ) → V) (X : List (Row Int V)) (U : List (Row Int (κ → ℝ))) (times : List Int) : Except StepErr (List (Row Int V)) :=
  match trans X with
  | .error e => .error e
  | .ok D => match predictControlled K E D U times with
    | .error _ => .error .pred
    | .ok d => .ok (mapVal back d)

/-- The dictionary `g` of single samples as a transform of collections (edmd.py 898). -/
def pointwise {ι δ : Type} (g : (ι → ℝ) → (δ → ℝ)) (X : List (Row Int (ι → ℝ))) : Except StepErr (List (Row Int (δ → ℝ))) := .ok (mapVal g X)

end Verif.Edmd
