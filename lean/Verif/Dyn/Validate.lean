import Verif.Tsc.Check
/-!
# Model of the validation of input data

`datafold/dynfold/base.py`: `_validate_datafold_data` (83-205), `_read_fit_params` (44-60) and `_same_type_X` (316-355). From scikit-learn `check_array` is modelled for numeric data.
-/

namespace Verif.Dyn

open Verif.Tsc

/-- The types of input data. An array is given by its shape and entries, a frame by the number of levels of its column index, its row labels, columns and rows. -/
inductive Data (V : Type)
  | tsc (cols : List String) (rows : List (Row Int (List V)))
  | frame (levels : Nat) (index : List Int) (cols : List String) (vals : List (List V))
  | arr (shape : List Nat) (flat : List V)
  | sparse (shape : List Nat) (flat : List V)
deriving DecidableEq, Repr

/-- Exceptions. -/
inductive VErr | both | columns | needTsc | needNp | sparse | ndim | finite | samples | features | keys | check (e : CheckErr) | shape
deriving DecidableEq, Repr

/-- The arguments of `_validate_datafold_data` (base.py 83-94). `ensure2d`, `allowNd` and `acceptSparse` are read from `array_kwargs`, `tsc` from `tsc_kwargs`; the last two say whether there are keys with
other names. -/
structure ValidateOpts where
  ensureNp : Bool := false
  ensureTsc : Bool := false
  allFinite : Bool := true
  minSamples : Int := 1
  minFeatures : Int := 1
  ensure2d : Bool := true
  allowNd : Bool := false
  acceptSparse : Bool := false
  tsc : TscReq := {}
  otherArray : Bool := false
  otherTsc : Bool := false

variable {V : Type}

/-- `check_array` of scikit-learn. -/
def checkArray (fin : V → Bool) (o : ValidateOpts) (isSparse : Bool) (shape : List Nat) (flat : List V) : Except VErr Unit :=
  if isSparse && !o.acceptSparse then .error .sparse
  else if o.ensure2d && decide (shape.length < 2) then .error .ndim
  else if !o.allowNd && decide (3 ≤ shape.length) then .error .ndim
  else if o.allFinite && !flat.all fin then .error .finite
  else match shape with
    | [] => if 0 < o.minSamples then .error .samples else .ok ()
    | n :: rest =>
      if (n : Int) < o.minSamples then .error .samples
      else match rest with
        | [m] => if (m : Int) < o.minFeatures then .error .features else .ok ()
        | _ => .ok ()

/-- `_validate_datafold_data` (base.py 83-205). The `TypeError` for a frame with `ensure_np` is created but not raised (line 145); `ensure_min_features` is not passed on for collections. -/
def validate (fin : V → Bool) (o : ValidateOpts) (X : Data V) : Except VErr (Data V) :=
  if o.ensureNp && o.ensureTsc then .error .both
  else match X with
    | .tsc cols rows =>
      if o.ensureNp then .error .needNp
      else match checkTsc .int (fun v : List V => v.all fin) cols.length { o.tsc with allFinite := o.allFinite, minSamples := o.minSamples, minFeatures := 1 } rows with
        | .error e => .error (.check e)
        | .ok rows' => if o.otherTsc then .error .keys else .ok (.tsc cols rows')
    | .frame levels index cols vals =>
      if levels ≠ 1 then .error .columns
      else if o.ensureTsc then .error .needTsc
      else match checkArray fin o false [index.length, cols.length] vals.flatten with
        | .error e => .error e
        | .ok () => if o.otherArray then .error .keys else .ok (.frame levels index cols vals)
    | .arr shape flat =>
      if o.ensureTsc then .error .needTsc
      else match checkArray fin o false shape flat with
        | .error e => .error e
        | .ok () => if o.otherArray then .error .keys else .ok (.arr shape flat)
    | .sparse shape flat =>
      if o.ensureTsc then .error .needTsc
      else match checkArray fin o true shape flat with
        | .error e => .error e
        | .ok () => if o.otherArray then .error .keys else .ok (.sparse shape flat)

/-- `_read_fit_params` (base.py 44-60): `fit_params.pop` for the known names; what is left raises. The dictionary is a list of pairs with different names. -/
def readFitParams {β : Type} : List (String × β) → List (String × β) → Option (List β)
  | [], params => if params.isEmpty then some [] else none
  | a :: as, params =>
    match readFitParams as (params.filter (fun p => p.1 != a.1)) with
    | none => none
    | some vs => some ((params.lookup a.1).getD a.2 :: vs)

/-- `_same_type_X` (base.py 316-355) with `df_type_and_indices_from` (utils/general.py 436-471): the values (rows) in an object of the type of `X`. For arrays the values are returned as they are. -/
def sameType (X : Data V) (vals : List (List V)) (names : List String) : Except VErr (Data V) :=
  match X with
  | .tsc _ rows =>
    if vals.length ≠ rows.length ∨ ¬ (∀ v ∈ vals, v.length = names.length) then .error .shape
    else .ok (.tsc names (List.zipWith (fun (r : Row Int (List V)) v => { r with val := v }) rows vals))
  | .frame l index _ _ =>
    if vals.length ≠ index.length ∨ ¬ (∀ v ∈ vals, v.length = names.length) then .error .shape
    else .ok (.frame l index names vals)
  | .arr _ _ => .ok (.arr [vals.length, (vals.headD []).length] vals.flatten)
  | .sparse _ _ => .ok (.arr [vals.length, (vals.headD []).length] vals.flatten)

end Verif.Dyn
