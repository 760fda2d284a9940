import Verif.Edmd.Delay
/-!
# Model of `EDMD` with control input and a dictionary that has memory

`datafold/appfold/edmd.py`: `fit` (919-1098) and `predict` (1100-1230, 832-857) with control input for collections of lists, with the dictionary of `Edmd/Dictionary.lean` (for example a Takens
embedding) and `DMDControl` in matrix mode.
-/

namespace Verif.Edmd

open Verif.Tsc Verif.Np Verif.Dyn Verif.Lin Verif.Dict Verif.Takens Matrix

/-- The control input that `EDMD.fit` hands to the DMD model (edmd.py 1040-1045): if the dictionary has memory, the rows of `U` whose index is in the intersection of the indices of the dictionary data
and of `U`, in the order of the dictionary data. -/
def alignControl {V W : Type} (nIc : Nat) (D : List (Row Int V)) (U : List (Row Int W)) : List (Row Int W) :=
  if nIc > 1 then D.filterMap (fun r => U.find? (fun u => decide (u.key = r.key))) else U

/-- `EDMD.fit` with control (edmd.py 1040-1075, 487-506, 558-567): `A`, `E` are possible system and control matrices of the DMD model for the dictionary data `D` and the aligned control input, and `B`
is a least squares map from the dictionary data to the states, both at the index of the aligned control input (the last sample of each series has no control and is left out). -/
def FitsDictControl (k : TimeKind) {N n nu : Nat} (nIc : Nat) (X D : Takens.Frame ℝ) (U : List (Row Int (Fin nu → ℝ))) (A : Matrix (Fin N) (Fin N) ℝ) (E : Matrix (Fin N) (Fin nu) ℝ)
    (B : Matrix (Fin N) (Fin n) ℝ) : Prop :=
  Verif.Dmd.FitsControl k (mapVal (toVec N) D.rows) (alignControl nIc D.rows U) A E ∧
    IsLstsqM (Matrix.of (fun (r : Fin (alignControl nIc D.rows U).length) => stateAt N D (alignControl nIc D.rows U)[r].key))
      (Matrix.of (fun (r : Fin (alignControl nIc D.rows U).length) => stateAt n X (alignControl nIc D.rows U)[r].key)) B

/-- `InitialCondition.validate_control` (collection.py 1961-1973) for initial conditions with several samples: the IDs in row order have to be the sorted IDs of `U`, all control series have the same time
values, and the first of them is the last time value of the initial conditions (which all have the same time values, `InitialCondition.validate`). -/
def validateControlWindow {V W : Type} (X : List (Row Int V)) (U : List (Row Int W)) : Except PredErr Unit :=
  if newIds (X.map (·.id)) ≠ ids U then .error .idMismatch
  else if !isSameTimeValues U then .error .notSameTimes
  else if (newIds (X.map (·.id))).any (fun i => ((X.filter (fun r => r.id == i)).map (·.time)).getLast? != (timeValues U).head?) then .error .timeMismatch
  else .ok ()

/-- `EDMD.predict` with control input (edmd.py 1196-1216, 832-857) and the fitted dictionary `T`, all features: the initial conditions are validated and mapped to the dictionary, evolved with the control
input and mapped back. -/
def predictDictControl {N n nu : Nat} (T : Transformer ℝ) (A : Matrix (Fin N) (Fin N) ℝ) (E : Matrix (Fin N) (Fin nu) ℝ) (B : Matrix (Fin N) (Fin n) ℝ) (V : Takens.Frame ℝ)
    (U : List (Row Int (Fin nu → ℝ))) (times : List Int) : Except DelayErr (List (Row Int (Fin n → ℝ))) :=
  match validateControlWindow V.rows U with
  | .error e => .error (.pred e)
  | .ok _ => match T V with
    | .error e => .error (.dict e)
    | .ok D => match predictControlled A E (mapVal (toVec N) D.rows) U times with
      | .error e => .error (.pred e)
      | .ok P => .ok (mapVal (fun z => z ᵥ* B) P)

end Verif.Edmd
