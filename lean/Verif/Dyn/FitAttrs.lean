import Verif.Tsc.DeltaTime
import Mathlib.Algebra.Order.Round
import Mathlib.Data.Rat.Floor
import Mathlib.Algebra.Order.Field.Rat
/-!
# Model of the attributes that models of time series keep from `fit`

`datafold/dynfold/base.py`, `TSCPredictMixin` 435-491, 679-736, and their use in the `fit` and `partial_fit` methods of `datafold/dynfold/dmd.py`.
Integer and datetime time values.
-/

namespace Verif.Dyn

open Verif.Tsc

variable {N V W : Type} [DecidableEq N]

/-- Arguments of `fit`: the feature names and rows of `X`, and of `U` if it is passed. -/
structure TrainData (N V W : Type) where
  cols : List N
  X : List (Row Int V)
  control : Option (List N × List (Row Int W))
deriving DecidableEq

/-- The attributes `feature_names_in_` (with `n_features_in_`), `control_names_in_` (with `n_control_in_`) and `dt_`; `none`: not set. -/
structure FitAttrs (N : Type) where
  names : Option (List N)
  control : Option (List N)
  dt : Option (PerId (Option Int))
deriving DecidableEq

/-- Exceptions. -/
inductive FitErr | notConstDelta | controlIndex | notOnGrid | later
deriving DecidableEq, Repr

/-- The assertion at the end (base.py 483-491): `np.around((max - min) / dt, decimals=5) % 1 == 0`, i.e. the quotient is within `5e-6` of an integer (ties are rounded
to the even multiple of `1e-5`, which is the integer). -/
def onGrid (c : List (Row Int V)) (d : Int) : Bool :=
  let q : Rat := (((timeValues c).getLastD 0 - minTime c : Int) : Rat) / (d : Rat)
  decide (|q - (round q : Int)| ≤ 1 / 200000)

/-- The index of the control has to be the one of the states (if `_requires_last_control_state`) or of the states without the last of each series (base.py 464-477). -/
def controlFits (reqLast : Bool) (t : TrainData N V W) : Bool :=
  match t.control with
  | none => true
  | some u =>
    if reqLast then decide (t.X.map (·.key) = u.2.map (·.key))
    else match dropLastN t.X 1 with
      | .ok d => decide (d.map (·.key) = u.2.map (·.key))
      | .error _ => false

/-- `_validate_and_setup_fit_attrs` (base.py 435-491): attributes are set before the checks.  `time_values()` of a collection always passes the check of its format
and is left out.  `U` without the type of a collection is not represented: the type check (line 447) looks at `X` again.  If the interval is not constant, the exception is an `AttributeError`, because
the message refers to an attribute `time_delta` that does not exist. -/
def setupAttrs (k : TimeKind) (reqLast : Bool) (a : FitAttrs N) (t : TrainData N V W) : Except FitErr Unit × FitAttrs N :=
  let a1 : FitAttrs N := { a with names := some t.cols, control := (t.control.map (·.1)).or a.control }
  if controlFits reqLast t = false then (.error .controlIndex, a1)
  else
    let a2 := { a1 with dt := some (deltaTime k t.X) }
    match deltaTime k t.X with
    | .one (some d) => if onGrid t.X d then (.ok (), a2) else (.error .notOnGrid, a2)
    | _ => (.error .notConstDelta, a2)

/-- A model: its attributes and the data its system matrices were computed from. -/
structure FitModel (N V W : Type) where
  attrs : FitAttrs N
  trained : Option (TrainData N V W)

/-- A new model. -/
def FitModel.new : FitModel N V W := ⟨⟨none, none, none⟩, none⟩

/-- `fit` of `DMDStandard` (dmd.py 1230-1260), `gDMDFull` (1502-1512) and `DMDControl` (1679-1716): check of the sampling, then the attributes, then further checks (parameters, rank, fit parameters),
which fail if `later = false`, then the system matrices. -/
def fitModel (k : TimeKind) (reqLast later : Bool) (m : FitModel N V W) (t : TrainData N V W) : Except FitErr Unit × FitModel N V W :=
  if isConstDeltaTime k t.X = false then (.error .notConstDelta, m)
  else match setupAttrs k reqLast m.attrs t with
    | (.error e, a) => (.error e, { m with attrs := a })
    | (.ok _, a) => if later then (.ok (), ⟨a, some t⟩) else (.error .later, { m with attrs := a })

/-- A history of calls of `fit`, each with the outcome of the later checks: the outcomes and the final state. -/
def fitHistory (k : TimeKind) (reqLast : Bool) (m : FitModel N V W) : List (Bool × TrainData N V W) → List (Except FitErr Unit) × FitModel N V W
  | [] => ([], m)
  | (later, t) :: l =>
    let r := fitModel k reqLast later m t
    let s := fitHistory k reqLast r.2 l
    (r.1 :: s.1, s.2)

/-- `_validate_feature_names` (base.py 693-736) in `predict`; without the attribute for the control an exception is raised. -/
def namesAccepted (a : FitAttrs N) (cols : List N) (control : Option (List N)) : Bool :=
  decide (a.names = some cols) && (match control with
    | none => true
    | some u => decide (a.control = some u))

/-- `_validate_delta_time` (base.py 679-691) in `partial_fit`: a Series is rejected, and a number that differs by more than `1e-14` from `dt_`; for integers that is any other number.
The comparison is false for nan. -/
def deltaAccepted (d0 : Int) (d : PerId (Option Int)) : Bool :=
  match d with
  | .per _ => false
  | .one none => true
  | .one (some d) => decide (d = d0)

end Verif.Dyn
