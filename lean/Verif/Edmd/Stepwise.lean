import Verif.Tsc.TimeOps
import Verif.Tsc.Model
import Verif.Edmd.Predict
/-!
# Model of stepwise predictions (`stepwise_transform=True`)

`datafold/appfold/edmd.py` 868-917, integer time values, without control input and without a state transition map (`y`), for which the method raises.
-/

namespace Verif.Edmd

open Verif.Tsc Verif.Np

variable {V : Type}

/-- Exceptions of the stepwise prediction. -/
inductive StepErr | tsc (e : TscErr) | assertion | key | pred
deriving DecidableEq, Repr

/-- `X.loc[pd.IndexSlice[:, times], :]` for increasing `times`. -/
def selectTimes (c : List (Row Int V)) (times : List Int) : List (Row Int V) := c.filter (fun r => decide (r.time ∈ times))

/-- The row of `new` with the same index, if there is one. -/
def replaceRow (new : List (Row Int V)) (r : Row Int V) : Row Int V :=
  match new.find? (fun s => decide (s.key = r.key)) with
  | some s => ⟨r.id, r.time, s.val⟩
  | none => r

/-- `X.loc[new.index] = new` (edmd.py 909); a key that is not in the index raises. -/
def setRows (c new : List (Row Int V)) : Except StepErr (List (Row Int V)) :=
  if new.all (fun s => c.any (fun r => decide (r.key = s.key))) then .ok (c.map (replaceRow new)) else .error .key

/-- One iteration (edmd.py 885-909) for the loop variable `i`. `step` transforms the current samples to the dictionary, predicts the two given time values and maps back
(`self.transform`, `_predict_dict_ic`). -/
def stepBody (step : List (Row Int V) → List Int → Except StepErr (List (Row Int V))) (n : Nat) (times all : List Int) (c : List (Row Int V)) (i : Nat) :
    Except StepErr (List (Row Int V)) :=
  let win := (all.drop (i - n)).take n
  if win.getLast? ≠ times[i - n]? then .error .assertion
  else match build (selectTimes c win) with
    | .error e => .error (.tsc e)
    | .ok cur => match step cur ((all.drop (i - 1)).take 2) with
      | .error e => .error e
      | .ok p =>
        if nTimesteps p ≠ .one 2 then .error .assertion
        else match finalStates p 1 with
          | .error e => .error (.tsc e)
          | .ok f => setRows c f

/-- The loop `for i in range(n, len(time_values) + n - 1)` (edmd.py 884-909) from loop variable `i`, with `k` iterations left. -/
def stepLoop (step : List (Row Int V) → List Int → Except StepErr (List (Row Int V))) (n : Nat) (times all : List Int) : Nat → Nat → List (Row Int V) →
    Except StepErr (List (Row Int V))
  | 0, _, c => .ok c
  | k + 1, i, c => match stepBody step n times all c i with
    | .error e => .error e
    | .ok c' => stepLoop step n times all k (i + 1) c'

/-- `_predict_stepwise_transform` (edmd.py 868-917); `n` is `n_samples_ic_`, `fill` the row of zeros. -/
def stepwise (step : List (Row Int V) → List Int → Except StepErr (List (Row Int V))) (n : Nat) (fill : V) (X : List (Row Int V)) (times : List Int) :
    Except StepErr (List (Row Int V)) :=
  match expandTimeValues X times.tail fill with
  | .error e => .error (.tsc e)
  | .ok c => match stepLoop step n times (timeValues c) (times.length - 1) n c with
    | .error e => .error e
    | .ok d =>
      if 1 < n then match build (selectTimes d times) with
        | .error e => .error (.tsc e)
        | .ok d' => .ok d'
      else .ok d

open Verif.Dyn Matrix in
/-- Transform, prediction and decoding of one step for a point-wise dictionary (edmd.py 898-904). -/
def edmdStep {ι δ : Type} [Fintype ι] [Fintype δ] [DecidableEq δ] (g : (ι → ℝ) → (δ → ℝ)) (K : Matrix δ δ ℝ) (B : Matrix δ ι ℝ) (dt : Int) (X : List (Row Int (ι → ℝ)))
    (times : List Int) : Except StepErr (List (Row Int (ι → ℝ))) :=
  match edmdPredict g K B dt X times with
  | .error _ => .error .pred
  | .ok d => .ok d

open Verif.Dyn Matrix in
/-- `koopman_eigenfunction` (edmd.py 344-399) for a point-wise dictionary `g`: `state` is `dmd_model.compute_spectral_system_states`. -/
def koopmanEigenfunction {ι δ ρ : Type} (g : (ι → ℝ) → (δ → ℝ)) (state : (δ → ℝ) → (ρ → ℂ)) (X : List (Row Int (ι → ℝ))) : List (Row Int (ρ → ℂ)) :=
  mapVal (fun x => state (g x)) X

end Verif.Edmd
