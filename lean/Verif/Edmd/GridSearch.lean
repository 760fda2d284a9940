import Verif.Tsc.Folds
import Mathlib.Algebra.Order.Field.Basic
/-!
# Model of the grid search with cross validation for `EDMD`

`datafold/appfold/edmd.py`: `_split_X_edmd`, `_fit_and_score_edmd`, `EDMDCV.fit`. From scikit-learn (version 1.2, see `requirements.txt`) the functions `clone`, `_score` and `_format_results` are
modelled. The model (dictionary and DMD) and its score are parameters. Parallel execution returns the results in the order of the tasks. Not modelled: times, messages, `fit_params`.
-/

namespace Verif.Edmd

open Verif.Tsc

/-- Exceptions. -/
inductive CvErr (E : Type) | split (e : FoldErr) | fit (e : E) | score (e : E) | noFits | inconsistent
deriving DecidableEq, Repr

/-- An estimator: its parameters and the score function that `adapt_model` (edmd.py 2341-2371) attached to the object, if any. -/
structure Estimator (P S : Type) where
  params : P
  attached : Option S
deriving DecidableEq

/-- `sklearn.base.clone`: a new object of the class with the same parameters. -/
def Estimator.clone {P S : Type} (e : Estimator P S) : Estimator P S := ⟨e.params, none⟩

/-- `set_params`; `upd` overwrites the parameters of one candidate. -/
def Estimator.setParams {P Q S : Type} (upd : P → Q → P) (e : Estimator P S) (q : Q) : Estimator P S := { e with params := upd e.params q }

/-- The parts of the model that the search calls: `fit` and `score`; a score is a number or nan (`none`). -/
structure Learner (P S M E K V : Type) where
  fit : P → List (Row Int V) → Except E M
  score : Option S → M → List (Row Int V) → Except E (Option K)

/-- `error_score`: `'raise'` or a number (or nan). -/
inductive ErrorScore (K : Type) | raise | value (v : Option K)

variable {P Q S M E K V : Type}

/-- `_score` of scikit-learn. -/
def scoreOr (es : ErrorScore K) (r : Except E (Option K)) : Except (CvErr E) (Option K) :=
  match r with
  | .ok v => .ok v
  | .error e => match es with
    | .raise => .error (.score e)
    | .value v => .ok v

/-- The scores of one task. -/
structure TaskScore (K : Type) where
  test : Option K
  train : Option K
  failed : Bool
deriving DecidableEq

/-- `_fit_and_score_edmd` (edmd.py 1651-1775) with `return_train_score=True`. -/
def fitAndScore (L : Learner P S M E K V) (upd : P → Q → P) (es : ErrorScore K) (est : Estimator P S) (X : List (Row Int V)) (q : Q) (f : List Nat × List Nat) :
    Except (CvErr E) (TaskScore K) :=
  match assignIdsTrainTest X f.1 f.2 with
  | .error e => .error (.split e)
  | .ok (A, B) => match L.fit (est.setParams upd q).params A with
    | .error e => match es with
      | .raise => .error (.fit e)
      | .value v => .ok ⟨v, v, true⟩
    | .ok m => match scoreOr es (L.score (est.setParams upd q).attached m B) with
      | .error e => .error e
      | .ok a => match scoreOr es (L.score (est.setParams upd q).attached m A) with
        | .error e => .error e
        | .ok b => .ok ⟨a, b, false⟩

/-- All tasks, `product(enumerate(candidate_params), enumerate(cv.split(X, y)))` (edmd.py 1991-2005). -/
def tasks (cands : List Q) (folds : List (List Nat × List Nat)) : List (Q × (List Nat × List Nat)) := cands.flatMap (fun q => folds.map (fun f => (q, f)))

/-- `np.array(...).reshape(n_candidates, n_splits)` in `_format_results`. -/
def scoreMatrix {α : Type} (nCands nSplits : Nat) (out : List α) : List (List α) := (List.range nCands).map (fun c => (out.drop (c * nSplits)).take nSplits)

/-- `np.average` of one row; nan if one entry is nan. -/
def meanScore [Field K] (l : List (Option K)) : Option K := (l.mapM id).map (fun v => v.sum / (v.length : K))

/-- `np.nanmin`. -/
def nanMin [LinearOrder K] (l : List (Option K)) : Option K := (l.filterMap id).min?

/-- `rank_test_score` of `_format_results`: nan is replaced by a value below all others; `rankdata(-means, method="min")`. -/
def rankScores [Field K] [LinearOrder K] (means : List (Option K)) : List Nat :=
  match nanMin means with
  | none => means.map (fun _ => 1)
  | some lo => let v := means.map (fun m => m.getD (lo - 1))
    v.map (fun x => (v.filter (fun y => decide (x < y))).length + 1)

/-- `argmin`: the first position of the smallest entry. -/
def argMin (l : List Nat) : Nat := l.findIdx (fun x => l.all (fun y => decide (x ≤ y)))

/-- The attributes after `EDMDCV.fit`. -/
structure SearchResult (P S M K : Type) where
  test : List (List (Option K))
  train : List (List (Option K))
  means : List (Option K)
  best : Nat
  bestScore : Option K
  estimator : Estimator P S
  model : M

/-- Run all tasks; the first exception is raised. -/
def runTasks (L : Learner P S M E K V) (upd : P → Q → P) (es : ErrorScore K) (est : Estimator P S) (X : List (Row Int V)) (cands : List Q) (folds : List (List Nat × List Nat)) :
    Except (CvErr E) (List (TaskScore K)) := (tasks cands folds).mapM (fun t => fitAndScore L upd es est.clone X t.1 t.2)

/-- `EDMDCV.fit` (edmd.py 1918-2081) with `refit=True`: `folds` is the result of `cv.split`, `nSplits` of `cv.get_n_splits`. -/
def gridSearch [Field K] [LinearOrder K] (L : Learner P S M E K V) (upd : P → Q → P) (es : ErrorScore K) (est : Estimator P S) (X : List (Row Int V)) (cands : List Q) (nSplits : Nat)
    (folds : List (List Nat × List Nat)) : Except (CvErr E) (SearchResult P S M K) :=
  match runTasks L upd es est X cands folds with
  | .error e => .error e
  | .ok out =>
    if out.length < 1 then .error .noFits
    else if out.length ≠ cands.length * nSplits then .error .inconsistent
    else
      let test := scoreMatrix cands.length nSplits (out.map (·.test))
      let means := test.map meanScore
      let best := argMin (rankScores means)
      match cands[best]? with
      | none => .error .noFits
      | some q => match L.fit (est.setParams upd q).params X with
        | .error e => .error (.fit e)
        | .ok m => .ok ⟨test, scoreMatrix cands.length nSplits (out.map (·.train)), means, best, (means[best]?).getD none, est.setParams upd q, m⟩

end Verif.Edmd
