import Verif.Edmd.Delay
/-!
# Model of `EDMD` with `use_transform_inverse=True`

`datafold/appfold/edmd.py`: `fit` sets no inverse map (1086-1090), `_predict_dict_ic` (858-864) predicts the dictionary time series and maps them back with `inverse_transform` of the transformers of the
dictionary in reverse order (1576-1584).  `n` features of the dictionary, `nu` control features; integer time values, exact real arithmetic.
-/

namespace Verif.Edmd

open Verif.Tsc Verif.Np Verif.Dyn Verif.Lin Verif.Dict Verif.Takens Matrix

/-- The transformers of a fitted dictionary, each with its `transform` and its `inverse_transform`. -/
abbrev Pipe := List (Transformer ℝ × Transformer ℝ)

/-- The loop over the reversed list of transformers in `inverse_transform` (edmd.py 1576-1584). -/
def inverseSteps (Ts : Pipe) (D : Takens.Frame ℝ) : Except DictErr (Takens.Frame ℝ) := runSteps (Ts.reverse.map (·.2)) D

/-- The fitted DMD model at the end of the pipeline: a flowmap in matrix mode without or with control. -/
inductive Final (N nu : Nat) | auto (K : Matrix (Fin N) (Fin N) ℝ) | controlled (A : Matrix (Fin N) (Fin N) ℝ) (B : Matrix (Fin N) (Fin nu) ℝ)

/-- Exceptions. -/
inductive InverseErr | dict (e : DictErr) | pred (e : PredErr) | attribute | key

/-- `dmd_model.predict` (dmd.py 304-411): a controlled model without control input fails in `_check_control_input`, which reads `ndim` of `None` (dynsystem.py 486-493, 618-623).  A model without control
is never given one here. -/
def finalPredict {N nu : Nat} (m : Final N nu) (dt : Int) (X : List (Row Int (Fin N → ℝ))) (U : Option (List (Row Int (Fin nu → ℝ)))) (times : List Int) :
    Except InverseErr (List (Row Int (Fin N → ℝ))) :=
  match m, U with
  | .auto K, _ => match predictMatrix K dt X times with
    | .error e => .error (.pred e)
    | .ok P => .ok P
  | .controlled _ _, none => .error .attribute
  | .controlled A B, some U => match predictControlled A B X U times with
    | .error e => .error (.pred e)
    | .ok P => .ok P

/-- `X_ts.loc[:, feature_columns]` (edmd.py 864). -/
def takeColumns (names : List String) (Y : Takens.Frame ℝ) : Except InverseErr (Takens.Frame ℝ) :=
  if names.all (fun c => decide (c ∈ Y.cols)) then .ok ⟨names, mapVal (selectCols Y.cols names) Y.rows⟩ else .error .key

/-- `EDMD.predict` with `use_transform_inverse=True` (edmd.py 1208-1216, 858-864): the initial conditions are mapped to the dictionary, with the original states attached if `include_id_state` is set and the
dictionary does not contain them (1453-1454); the DMD model is called without the control input (859); then the transformers are undone and the features selected.  Simplification: the validation of
the initial conditions and of `U` is left out. -/
def predictInverse {N nu : Nat} (Ts : Pipe) (includeId pres : Bool) (m : Final N nu) (dt : Int) (X : Takens.Frame ℝ) (_U : Option (List (Row Int (Fin nu → ℝ)))) (times : List Int) (names : List String) :
    Except InverseErr (Takens.Frame ℝ) :=
  match transform ⟨Ts.map (·.1), X.cols, 1, pres⟩ includeId X with
  | .error e => .error (.dict e)
  | .ok D => match finalPredict m dt (mapVal (toVec N) D.rows) none times with
    | .error e => .error e
    | .ok P => match inverseSteps Ts ⟨D.cols, mapVal List.ofFn P⟩ with
      | .error e => .error (.dict e)
      | .ok Y => takeColumns names Y

end Verif.Edmd
