import Verif.Edmd.OnlineFit
import Verif.Tsc.DeltaTime
/-!
# Model of the life of an `EDMD` model: calls of `fit` and `partial_fit` that may be refused

`datafold/appfold/edmd.py`, `fit` 972-1092, `partial_fit` 1334-1419, `transform` 1421-1457, `inverse_transform` 1553-1586 and the control input in `predict` 1160-1217; scikit-learn's `Pipeline._fit` without
`memory`, which fits the transformer objects of the model one after the other.  Integer time values, no target `y`.
-/

namespace Verif.Edmd

open Verif.Tsc Verif.Dict

variable {α κ δ ι : Type}

/-- Exceptions. -/
inductive LifeErr | data | mode | params | dict (e : DictErr) | dmd | notFitted | control
deriving DecidableEq, Repr

/-- A transformer of the pipeline: how it is fitted, and what it is fitted to at present (`none`: not fitted). -/
abbrev Part (α : Type) := Step α × Option (Transformer α)

/-- The parameters of an `EDMD` model and its DMD model: `fitDmd` computes the system from the dictionary data and the control input of type `κ`, `inverseMap` the matrix and the Koopman modes that map back
(edmd.py 512-598), `carries` tells whether a fitted system has a control part, `run` evolves dictionary data. -/
structure LifeSetup (α κ δ ι : Type) where
  includeId : Bool
  opt : Option Bool
  useInverse : Bool
  fitDmd : Takens.Frame α → Option κ → Except LifeErr δ
  inverseMap : Bool → Takens.Frame α → Takens.Frame α → Except LifeErr ι
  carries : δ → Bool
  run : δ → Option ι → Option κ → Takens.Frame α → Takens.Frame α

/-- The attributes of an `EDMD` model: the transformers, `is_partial_fit_`, `is_controlled_`, `dt_`, `_feature_names_pred`, `n_samples_ic_`, `dict_preserves_id_state_`, the system of the DMD model, and
`_inverse_map` with `_koopman_modes` (`some none`: both are `None`); `none` is an attribute that does not exist. -/
structure Held (α δ ι : Type) where
  parts : List (Part α)
  partialMode : Option Bool
  controlled : Option Bool
  dt : Option (PerId (Option Int))
  names : Option (List String)
  nIc : Option Int
  pres : Option Bool
  dmd : Option δ
  inv : Option (Option ι)

/-- A new model (edmd.py 276-315). -/
def Held.new (steps : List (Step α)) : Held α δ ι := ⟨steps.map (fun s => (s, none)), none, none, none, none, none, none, none, none⟩

/-- `self._fit(X)` (edmd.py 1022) on the transformer objects: the data for the DMD model, and the transformers afterwards.  Simplification: a transformer whose `fit` raises is left as it was. -/
def refitParts : List (Part α) → Takens.Frame α → Except DictErr (Takens.Frame α) × List (Part α)
  | [], X => (.ok X, [])
  | p :: ps, X => match p.1 X with
    | .error e => (.error e, p :: ps)
    | .ok T => match T X with
      | .error e => (.error e, (p.1, some T) :: ps)
      | .ok Y => ((refitParts ps Y).1, (p.1, some T) :: (refitParts ps Y).2)

/-- The arguments of one call of `fit`: data, control input, whether the names of the further parameters belong to steps of the pipeline (1002) and whether the DMD model knows its own (dmd.py 1239, 1696). -/
structure FitCall (α κ : Type) where
  X : Takens.Frame α
  U : Option κ
  paramsOk : Bool
  dmdOk : Bool

/-- The part of `fit` that follows the dictionary (edmd.py 1025-1092). -/
def fitTail (S : LifeSetup α κ δ ι) (m : Held α δ ι) (a : FitCall α κ) (D : Takens.Frame α) : Except LifeErr Unit × Held α δ ι :=
  match nSamplesIc (nTimesteps a.X.rows) (nTimesteps D.rows) with
  | .error e => (.error (.dict e), m)
  | .ok n =>
    let p := preserves S.opt a.X.cols D.cols
    let m2 := { m with nIc := some n, pres := some p }
    match withState S.includeId p a.X D with
    | .error e => (.error (.dict e), m2)
    | .ok D' =>
      if a.dmdOk = false then (.error .dmd, m2)
      else match S.fitDmd D' a.U with
        | .error e => (.error e, m2)
        | .ok A =>
          if S.useInverse then (.ok (), { m2 with dmd := some A, inv := some none })
          else match S.inverseMap p a.X D' with
            | .error e => (.error e, { m2 with dmd := some A })
            | .ok B => (.ok (), { m2 with dmd := some A, inv := some (some B) })

/-- The attributes that `fit` sets before it looks at the parameters (edmd.py 990-998). -/
def fitFlags (m : Held α δ ι) (a : FitCall α κ) : Held α δ ι := { m with partialMode := some false, controlled := some a.U.isSome }

/-- The attributes that `fit` sets before it fits the dictionary (edmd.py 1013-1018). -/
def fitTimes (m : Held α δ ι) (a : FitCall α κ) : Held α δ ι := { fitFlags m a with dt := some (deltaTime .int a.X.rows), names := some a.X.cols }

/-- The part of `fit` that follows the checks of the parameters (edmd.py 1013-1092). -/
def fitDictionary (S : LifeSetup α κ δ ι) (m : Held α δ ι) (a : FitCall α κ) : Except LifeErr Unit × Held α δ ι :=
  match (refitParts m.parts a.X).1 with
  | .error e => (.error (.dict e), { fitTimes m a with parts := (refitParts m.parts a.X).2 })
  | .ok D => fitTail S { fitTimes m a with parts := (refitParts m.parts a.X).2 } a D

/-- `fit` (edmd.py 972-1092). -/
def lifeFit (S : LifeSetup α κ δ ι) (m : Held α δ ι) (a : FitCall α κ) : Except LifeErr Unit × Held α δ ι :=
  if isConstDeltaTime .int a.X.rows = false then (.error .data, m)
  else if m.partialMode = some true then (.error .mode, m)
  else if a.paramsOk = false then (.error .params, fitFlags m a)
  else fitDictionary S m a

/-- `partial_fit` (edmd.py 1334-1419) up to the updates of transformers and DMD model, which are the parameter `update` (`Edmd/OnlineFit.lean`): `is_controlled_` is set before the assertion that the model is used with
`partial_fit` only; `is_partial_fit_` stays as set here. -/
def lifePartial (update : Held α δ ι → Except LifeErr Unit × Held α δ ι) (m : Held α δ ι) (X : Takens.Frame α) : Except LifeErr Unit × Held α δ ι :=
  if isConstDeltaTime .int X.rows = false then (.error .data, m)
  else if m.partialMode = some false then (.error .mode, { m with controlled := some false })
  else ((update { m with controlled := some false, partialMode := some true }).1,
    { (update { m with controlled := some false, partialMode := some true }).2 with controlled := some false, partialMode := some true })

/-- One call. -/
inductive LifeOp (α κ δ ι : Type)
  | fit (a : FitCall α κ)
  | partialFit (update : Held α δ ι → Except LifeErr Unit × Held α δ ι) (X : Takens.Frame α)

/-- The outcome of one call and the model afterwards. -/
def LifeOp.exec (S : LifeSetup α κ δ ι) (m : Held α δ ι) : LifeOp α κ δ ι → Except LifeErr Unit × Held α δ ι
  | .fit a => lifeFit S m a
  | .partialFit u X => lifePartial u m X

/-- The model after a history of calls; an exception ends the call, the model is used on. -/
def lifeRun (S : LifeSetup α κ δ ι) (m : Held α δ ι) : List (LifeOp α κ δ ι) → Held α δ ι
  | [] => m
  | o :: os => lifeRun S (o.exec S m).2 os

/-- `transform` (edmd.py 1421-1457). -/
def lifeTransform (S : LifeSetup α κ δ ι) (m : Held α δ ι) (X : Takens.Frame α) : Except LifeErr (Takens.Frame α) :=
  if m.parts.all (fun p => p.2.isSome) then
    match m.pres with
    | none => .error .notFitted
    | some p => match Dict.transform ⟨m.parts.filterMap (·.2), X.cols, m.nIc.getD 1, p⟩ S.includeId X with
      | .error e => .error (.dict e)
      | .ok D => .ok D
  else .error .notFitted

/-- `predict` (edmd.py 1160-1217) as far as the control input `U` and the parts that it uses are concerned.  `is_controlled_` requires a `U` (1180-1200), whose names are compared with those of the DMD model (717-736 of base.py), which has none if
its system has no control part (421-426); without `is_controlled_` the names are `None` and a `U` raises in the message of the comparison.  The DMD model raises without `U` if its system has a control part. -/
def lifePredict (S : LifeSetup α κ δ ι) (m : Held α δ ι) (X : Takens.Frame α) (U : Option κ) : Except LifeErr (Takens.Frame α) :=
  match m.dmd, m.inv, m.controlled with
  | some A, some B, some c =>
    if c ≠ U.isSome then .error .control
    else if c ≠ S.carries A then .error .control
    else match lifeTransform S m X with
      | .error e => .error e
      | .ok D => .ok (S.run A B U D)
  | _, _, _ => .error .notFitted

end Verif.Edmd
