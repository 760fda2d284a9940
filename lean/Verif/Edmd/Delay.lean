import Verif.Edmd.Dictionary
import Verif.Edmd.Predict
/-!
# Model of `EDMD` with a dictionary that has memory

`datafold/appfold/edmd.py`: `fit` (919-1098) and `predict` (1100-1230, 832-857) for collections of lists, with the dictionary of `Edmd/Dictionary.lean` (for example a Takens embedding) and a DMD
model with a full rank least squares system matrix.
-/

namespace Verif.Edmd

open Verif.Tsc Verif.Np Verif.Dyn Verif.Lin Verif.Dict Verif.Takens Matrix

/-- The first `n` entries of a row of a data frame, as a vector. -/
def toVec (n : Nat) (v : List ℝ) : Fin n → ℝ := fun j => v.getD j 0

/-- The row of `X.loc[X_dict.index, :]` with this index (edmd.py 561-562). -/
def stateAt (n : Nat) (X : Takens.Frame ℝ) (k : Key Int) : Fin n → ℝ := toVec n (((X.rows.find? (fun x => decide (x.key = k))).map (·.val)).getD [])

/-- `EDMD.fit` (edmd.py 1043-1075, 487-506, 558-567): `D` are the dictionary data of `X`, `K` is a possible system matrix of the DMD model for them, and `B` a least squares map from the dictionary
data to the states with the same index. -/
def FitsDict (k : TimeKind) {N n : Nat} (X D : Takens.Frame ℝ) (K : Matrix (Fin N) (Fin N) ℝ) (B : Matrix (Fin N) (Fin n) ℝ) : Prop :=
  Verif.Dmd.Fits k (mapVal (toVec N) D.rows) none K ∧
    IsLstsqM (Matrix.of (fun (r : Fin D.rows.length) => toVec N D.rows[r].val)) (Matrix.of (fun (r : Fin D.rows.length) => stateAt n X D.rows[r].key)) B

/-- Exceptions of `predict`. -/
inductive DelayErr | dict (e : DictErr) | pred (e : PredErr)

/-- `EDMD.predict` (edmd.py 1208-1216, 832-857) with the fitted dictionary `T`, all features: the initial conditions are mapped to the dictionary, evolved and mapped back. -/
def predictDict {N n : Nat} (T : Transformer ℝ) (K : Matrix (Fin N) (Fin N) ℝ) (B : Matrix (Fin N) (Fin n) ℝ) (dt : Int) (V : Takens.Frame ℝ) (times : List Int) :
    Except DelayErr (List (Row Int (Fin n → ℝ))) :=
  match T V with
  | .error e => .error (.dict e)
  | .ok D => match predictMatrix K dt (mapVal (toVec N) D.rows) times with
    | .error e => .error (.pred e)
    | .ok P => .ok (mapVal (fun z => z ᵥ* B) P)

end Verif.Edmd
