import Verif.Edmd.RefusedFit
/-!
# Model of `EDMD` with a learnt dictionary

`datafold/appfold/edmd.py` `fit` 972-1092 with `DMDDictLearning` (`datafold/dynfold/dictlearning.py` 661-732) as DMD model, and `PretrainedDMD.fit` (`datafold/dynfold/dmd.py` 563-570).  The learning model is an
arbitrary function of its training data that yields the trained network, as a fitted transformer, and the system matrix; scikit-learn's `Pipeline._fit` without `memory` fits the transformer objects in place.
No target `y`, no control input, integer time values.
-/

namespace Verif.Edmd

open Verif.Tsc Verif.Dict

variable {α δ : Type}

/-- `fit` of a learning model (dictlearning.py 466-647): the network as transformer (`transform`, 649-655) and the system matrix of type `δ`. -/
abbrev Learning (α δ : Type) := Takens.Frame α → Except DictErr (Transformer α × δ)

/-- The learning model as a step of a dictionary: `fit` replaces network and system matrix, the pipeline uses the network only. -/
def learningStep (L : Learning α δ) : Step α := fun X =>
  match L X with
  | .error e => .error e
  | .ok r => .ok r.1

/-- The last step of the pipeline: a `DMDDictLearning`, or the `PretrainedDMD` with a system matrix. -/
inductive FinalModel (δ : Type) | learning | pretrained (A : δ)

/-- The attributes of the model: transformers with what they are fitted to, last step, `n_samples_ic_`, `dict_preserves_id_state_`. -/
structure LearnEdmd (α δ : Type) where
  parts : List (Part α)
  final : FinalModel δ
  nIc : Option Int
  pres : Option Bool

/-- A new model with a learning model as `dmd_model`. -/
def LearnEdmd.new (steps : List (Step α)) : LearnEdmd α δ := ⟨steps.map (fun s => (s, none)), .learning, none, none⟩

/-- `_compute_inverse_map` (edmd.py 545-558): the projection onto the features exists if their names are found in the dictionary; the least squares map always exists. -/
def inverseMapOk (includeId pres : Bool) (feat dict : List String) : Bool :=
  if includeId || pres then feat.all (fun n => decide (n ∈ dict)) else true

/-- The end of `fit` (edmd.py 1047-1069): fit of the last step on the dictionary data `D`; a learning model is moved to the dictionary, with its system matrix in a `PretrainedDMD` behind it. The second component are the final
dictionary data. -/
def fitFinal (L : Learning α δ) (m : LearnEdmd α δ) (D : Takens.Frame α) : Except DictErr (LearnEdmd α δ × Takens.Frame α) :=
  match m.final with
  | .pretrained _ => .ok (m, D)
  | .learning => match L D with
    | .error e => .error e
    | .ok (T, A) => match T D with
      | .error e => .error e
      | .ok E => .ok ({ m with parts := m.parts ++ [(learningStep L, some T)], final := .pretrained A }, E)

/-- `fit` (edmd.py 972-1092). -/
def learnEdmdFit (L : Learning α δ) (includeId : Bool) (opt : Option Bool) (m : LearnEdmd α δ) (X : Takens.Frame α) : Except LifeErr Unit × LearnEdmd α δ :=
  if isConstDeltaTime .int X.rows = false then (.error .data, m)
  else match (refitParts m.parts X).1 with
  | .error e => (.error (.dict e), { m with parts := (refitParts m.parts X).2 })
  | .ok D => match nSamplesIc (nTimesteps X.rows) (nTimesteps D.rows) with
    | .error e => (.error (.dict e), { m with parts := (refitParts m.parts X).2 })
    | .ok n => match withState includeId (preserves opt X.cols D.cols) X D with
      | .error e => (.error (.dict e), { m with parts := (refitParts m.parts X).2, nIc := some n, pres := some (preserves opt X.cols D.cols) })
      | .ok D' => match fitFinal L { m with parts := (refitParts m.parts X).2, nIc := some n, pres := some (preserves opt X.cols D.cols) } D' with
        | .error e => (.error (.dict e), { m with parts := (refitParts m.parts X).2, nIc := some n, pres := some (preserves opt X.cols D.cols) })
        | .ok (m', E) =>
          if inverseMapOk includeId (preserves opt X.cols D.cols) X.cols E.cols then (.ok (), m') else (.error (.dict .projection), m')

/-- The model after several calls of `fit`. -/
def learnEdmdRun (L : Learning α δ) (includeId : Bool) (opt : Option Bool) (m : LearnEdmd α δ) : List (Takens.Frame α) → LearnEdmd α δ
  | [] => m
  | X :: Xs => learnEdmdRun L includeId opt (learnEdmdFit L includeId opt m X).2 Xs

/-- `transform` (edmd.py 1421-1457). -/
def learnEdmdTransform (includeId : Bool) (m : LearnEdmd α δ) (X : Takens.Frame α) : Except LifeErr (Takens.Frame α) :=
  if m.parts.all (fun p => p.2.isSome) then
    match m.pres with
    | none => .error .notFitted
    | some p => match Dict.transform ⟨m.parts.filterMap (·.2), X.cols, m.nIc.getD 1, p⟩ includeId X with
      | .error e => .error (.dict e)
      | .ok D => .ok D
  else .error .notFitted

end Verif.Edmd
