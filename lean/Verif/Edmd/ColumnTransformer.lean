import Verif.Edmd.Dictionary
import Mathlib.Data.Prod.Lex
/-!
# Model of `TSCColumnTransformer`

`datafold/dynfold/compose.py` 25-92 with scikit-learn's `ColumnTransformer`, whose transformers are given by names of columns; `remainder="drop"`, no weights.
-/

namespace Verif.Dict

open Verif.Tsc Verif.Np Verif.Takens Verif.Utils

variable {α : Type}

/-- The selected columns by name; a missing name raises. -/
def selectCols [Zero α] (names : List String) (X : Frame α) : Except DictErr (Frame α) :=
  if names.all (fun n => decide (n ∈ X.cols)) then
    .ok ⟨names, X.rows.map (fun r => { r with val := names.map (fun n => r.val.getD (X.cols.idxOf n) 0) })⟩
  else .error .features

/-- The index of a row, in the order in which pandas sorts. -/
def indexOf (r : Row Int (List α)) : Nat ×ₗ Int := toLex (r.id, r.time)

/-- The rows of `pd.concat(Xs, axis=1, sort=True)` (compose.py 78): equal indices are kept as they are, otherwise the union is sorted. -/
def unionIndex : List (Frame α) → List (Nat ×ₗ Int)
  | [] => []
  | D :: Ds =>
    if Ds.all (fun E => decide (E.rows.map indexOf = D.rows.map indexOf)) then D.rows.map indexOf
    else unique ((D :: Ds).flatMap (fun E => E.rows.map indexOf))

/-- The values of one frame at an index; `none` stands for the nan that the outer join fills in. -/
def valueAt (D : Frame α) (k : Nat ×ₗ Int) : Option (List α) := (D.rows.find? (fun r => decide (indexOf r = k))).map (·.val)

/-- One row of the joined frame; `dropna` removes it if one part is missing. -/
def joinRow (Ds : List (Frame α)) (k : Nat ×ₗ Int) : Option (Row Int (List α)) :=
  (Ds.mapM (fun D => valueAt D k)).map (fun vs => ⟨(ofLex k).1, (ofLex k).2, vs.flatten⟩)

/-- `_hstack` (compose.py 70-80). Simplification: the labels are those of the parts, which `get_feature_names_out` prefixes with the name of the transformer (see `renamed`). -/
def hstack (Ds : List (Frame α)) : Except DictErr (Frame α) :=
  match build ((unionIndex Ds).filterMap (joinRow Ds)) with
  | .error e => .error (.tsc e)
  | .ok rows => .ok ⟨Ds.flatMap (·.cols), rows⟩

/-- One entry of the parameter `transformers`. -/
structure Part (α : Type) where
  name : String
  cols : List String
  step : Step α

/-- The same after `fit`. -/
structure FittedPart (α : Type) where
  name : String
  cols : List String
  run : Transformer α

/-- `verbose_feature_names_out=True`: the labels are prefixed with the name of the transformer. -/
def renamed (name : String) (X : Frame α) : Frame α := ⟨X.cols.map (fun c => name ++ "__" ++ c), X.rows⟩

/-- `fit` of every transformer on its columns. -/
def fitParts [Zero α] : List (Part α) → Frame α → Except DictErr (List (FittedPart α))
  | [], _ => .ok []
  | p :: ps, X => match selectCols p.cols X with
    | .error e => .error e
    | .ok S => match p.step S with
      | .error e => .error e
      | .ok T => match fitParts ps X with
        | .error e => .error e
        | .ok fs => .ok (⟨p.name, p.cols, T⟩ :: fs)

/-- `transform` of every transformer on its columns. -/
def runParts [Zero α] : List (FittedPart α) → Frame α → Except DictErr (List (Frame α))
  | [], _ => .ok []
  | f :: fs, X => match selectCols f.cols X with
    | .error e => .error e
    | .ok S => match f.run S with
      | .error e => .error e
      | .ok D => match runParts fs X with
        | .error e => .error e
        | .ok Ds => .ok (renamed f.name D :: Ds)

/-- `transform` of the fitted column transformer. -/
def runColumns [Zero α] (fs : List (FittedPart α)) : Transformer α := fun Y =>
  match runParts fs Y with
  | .error e => .error e
  | .ok Ds => hstack Ds

/-- `TSCColumnTransformer` (compose.py 25-92) as a step. -/
def columnStep [Zero α] (ps : List (Part α)) : Step α := fun X =>
  match fitParts ps X with
  | .error e => .error e
  | .ok fs => .ok (runColumns fs)

/-- `n_features_out_` (compose.py 65-68) for parts with these columns and numbers of features; columns without transformer make the last entry of `transformers_` the string "drop", for which
reading the attribute raises (`none`). -/
def nFeaturesOut (all : List String) (ps : List (List String × Nat)) : Option Nat :=
  if all.all (fun c => ps.any (fun p => decide (c ∈ p.1))) then some (ps.map (·.2)).sum else none

end Verif.Dict
