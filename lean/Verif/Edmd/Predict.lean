import Verif.Tsc.MapVal
import Verif.Utils.General
import Verif.Dyn.Spectral
import Verif.Dmd.Standard
/-!
# Model of `EDMD`: inverse map, Koopman modes, prediction, sorting and `partial_fit`

`datafold/appfold/edmd.py`, real data in exact arithmetic.  The dictionary is a point-wise map of states (transformers that need one sample per
state, `n_samples_ic_ = 1`).  Features are numbered in the order of the columns.
-/

namespace Verif.Edmd

open Verif.Tsc Verif.Np Verif.Dyn Verif.Lin Verif.Utils Matrix

/-- Exceptions of `predict` and `partial_fit`. -/
inductive EdmdErr
  | qois | projection | pred (e : PredErr) | notImplemented | typeError | duplicates
deriving DecidableEq, Repr

/-- `X_ts.loc[:, names]` of a row with the columns `cols`. -/
def selectCols (cols names : List String) (v : List ℝ) : List ℝ := names.map (fun n => v.getD (cols.idxOf n) 0)

/-- A frame: column names and rows. -/
abbrev Frame := List String × List (Row Int (List ℝ))

/-- `_validate_qois` (base.py 738-760): every name has to be a valid feature name. -/
def qoisValid (pred : List String) (qois : Option (List String)) : Bool :=
  match qois with
  | none => true
  | some q => q.all (fun n => decide (n ∈ pred))

section predict

variable {δ ρ : Type} [Fintype δ] [Fintype ρ]

/-- `_predict_dict_ic` with Koopman modes (edmd.py 774-831): one row of `modes` per feature; the modes of the selected features are
`projection_matrix.T @ modes`, the columns are labelled with `qois`.  `state` yields the spectral state of a dictionary state. -/
noncomputable def predictSpectral (pred : List String) (modes : Nat → ρ → ℂ) (ev : ρ → ℂ) (state : (δ → ℝ) → ρ → ℂ) (dt : Int)
    (Xdict : List (Row Int (δ → ℝ))) (times : List Int) (qois : Option (List String)) : Except EdmdErr Frame :=
  let run (cols : List String) (m : Nat → ρ → ℂ) : Except EdmdErr Frame :=
    match evolveFrame Xdict times (fun ics norm => ics.map (fun x => norm.map (fun t =>
      (List.range cols.length).map (fun k => (∑ p, m k p * (ev p ^ stepCount dt t * state x p)).re)))) with
    | .error e => .error (.pred e)
    | .ok d => .ok (cols, d)
  if qoisValid pred qois then
    match qois with
    | none => run pred modes
    | some q =>
      match projectionMatrix (α := ℂ) pred q with
      | none => .error .projection
      | some P => run q (fun k p => rowMul pred.length (fun i => modes i p) P k)
  else .error .qois

/-- `_predict_dict_ic` without Koopman modes (edmd.py 832-857): evolve the dictionary states, multiply with the inverse map `B` (one column per
feature), then select the columns by name. -/
noncomputable def predictViaMatrix [DecidableEq δ] (pred : List String) (B : δ → Nat → ℝ) (K : Matrix δ δ ℝ) (dt : Int)
    (Xdict : List (Row Int (δ → ℝ))) (times : List Int) (qois : Option (List String)) : Except EdmdErr Frame :=
  if qoisValid pred qois then
    match predictMatrix K dt Xdict times with
    | .error e => .error (.pred e)
    | .ok d =>
      let d := mapVal (fun z => (List.range pred.length).map (fun k => ∑ i, z i * B i k)) d
      match qois with
      | none => .ok (pred, d)
      | some q => .ok (q, mapVal (selectCols pred q) d)
  else .error .qois

end predict

/-- The columns of the dictionary after `fit` has attached the original states (edmd.py 985-992, 668-686): `infer` and `include_id_state=True`; a repeated column
name raises. -/
def attachedColumns (includeId : Bool) (feat dict : List String) : Except EdmdErr (List String) :=
  let preserves := feat.all (fun n => decide (n ∈ dict))
  if includeId && !preserves then
    if feat.any (fun n => decide (n ∈ dict)) then .error .duplicates else .ok (feat ++ dict)
  else .ok dict

/-- The values that belong to `attachedColumns` (`pd.concat([X, X_dict], axis=1)`). -/
def attachedValues {α : Type} (includeId : Bool) (feat dict : List String) (x g : List α) : List α :=
  if includeId && !(feat.all (fun n => decide (n ∈ dict))) then x ++ g else g

/-- A possible `_inverse_map` (edmd.py 487-568) as entries `B i k` (dictionary column `i`, feature `k`): the projection matrix if the dictionary holds the original states
or they have been attached, otherwise a least squares solution of `X_dict B = X`. -/
def IsInverseMap (includeId : Bool) (feat dict : List String) (Xd : List (List ℝ)) (X : List (List ℝ)) (B : Nat → Nat → ℝ) : Prop :=
  if includeId || feat.all (fun n => decide (n ∈ dict)) then
    ∃ cols, attachedColumns includeId feat dict = .ok cols ∧ projectionMatrix cols feat = some B
  else
    IsLstsqM (Matrix.of (fun (k : Fin Xd.length) (i : Fin dict.length) => Xd[k].getD i 0)) (Matrix.of (fun (k : Fin Xd.length) (j : Fin feat.length) => (X.getD k []).getD j 0))
      (Matrix.of (fun (i : Fin dict.length) (j : Fin feat.length) => B i j))

/-- What `partial_fit` hands to the DMD model and uses as inverse map (edmd.py 1368-1413), on the first call: `_validate_dictionary` (434-454) returns `True` for every
dictionary of datafold transformers.  `true` in the result: the inverse map is a projection onto the original states; `false`: `inverse_transform` of the dictionary is
used. -/
def partialFitPlan (includeId useInverse allTsc : Bool) (feat dict : List String) : Except EdmdErr (List String × Bool) :=
  if !allTsc then .error .typeError
  else
    let preserves := true
    match (if includeId && !preserves then attachedColumns true feat dict
      else if !includeId && !(!preserves) then .error .notImplemented
      else .ok dict) with
    | .error e => .error e
    | .ok cols =>
      if useInverse then .ok (cols, false)
      else match projectionMatrix (α := ℝ) cols feat with
        | none => .error .projection
        | some _ => .ok (cols, true)

section triplets

variable {ι δ : Type} [Fintype ι] [Fintype δ] {n : Nat}

/-- The spectral components an EDMD model uses to predict: eigenvalues, right and left eigenvectors of the DMD model, Koopman modes. -/
structure Triplets (ι δ : Type) (n : Nat) where
  ev : Fin n → ℂ
  right : Matrix δ (Fin n) ℂ
  left : Option (Matrix (Fin n) δ ℂ)
  modes : Matrix ι (Fin n) ℂ

/-- `triplet_importance` (edmd.py 636-645): mean over the initial conditions of `|‖mode_p‖ ξ_p(x)|`. -/
noncomputable def importance (s : Triplets ι δ n) (bs : List (Fin n → ℂ)) (p : Fin n) : ℝ :=
  (bs.map (fun b => ‖((Real.sqrt (∑ k, ‖s.modes k p‖ ^ 2) : ℝ) : ℂ) * b p‖)).sum / bs.length

/-- `_sort_koopman_triplets` (edmd.py 600-666): `σ` is the index array `np.argsort(importance)[::-1]`. -/
def sortTriplets (s : Triplets ι δ n) (σ : Equiv.Perm (Fin n)) : Triplets ι δ n where
  ev p := s.ev (σ p)
  right i p := s.right i (σ p)
  left := s.left.map (fun L => Matrix.of (fun p i => L (σ p) i))
  modes k p := s.modes k (σ p)

/-- `σ` is a possible value of `np.argsort(v)[::-1]`. -/
def IsArgsortDesc (v : Fin n → ℝ) (σ : Equiv.Perm (Fin n)) : Prop := ∀ p q, p ≤ q → v (σ q) ≤ v (σ p)

/-- `y` is a possible prediction from the dictionary state `x` with the Koopman modes; `w` is `λ ↦ λ^s` or `λ ↦ exp(λ t)` (dynsystem.py 122-235, edmd.py 806-831). -/
def IsPrediction (s : Triplets ι δ n) (w : ℂ → ℂ) (x : δ → ℝ) (y : ι → ℝ) : Prop :=
  ∃ b, IsSpectralState s.left s.right (toC x) b ∧ y = reV (s.modes *ᵥ (fun p => w (s.ev p) * b p))

/-- `y` is a possible prediction of the dictionary state itself (`dmd_model.predict`). -/
def IsDictPrediction (s : Triplets ι δ n) (w : ℂ → ℂ) (x y : δ → ℝ) : Prop :=
  ∃ b, IsSpectralState s.left s.right (toC x) b ∧ y = reV (s.right *ᵥ (fun p => w (s.ev p) * b p))

end triplets

section closed

variable {ι δ : Type} [Fintype ι] [DecidableEq δ] [Fintype δ]

/-- `EDMD.fit` (edmd.py 919-1098) with a full rank DMD model and a point-wise dictionary `g`: `K` is a possible system matrix for the dictionary data, `B` a least squares
inverse map (every projection inverse map is one too, see `projection_isLstsq`). -/
def FitsEdmd (k : TimeKind) (g : (ι → ℝ) → (δ → ℝ)) (c : List (Row Int (ι → ℝ))) (K : Matrix δ δ ℝ) (B : Matrix δ ι ℝ) : Prop :=
  Verif.Dmd.Fits k (mapVal g c) none K ∧
    IsLstsqM (Matrix.of (fun (r : Fin c.length) => g c[r].val)) (Matrix.of (fun (r : Fin c.length) => c[r].val)) B

/-- `EDMD.predict` in matrix mode (edmd.py 1100-1230 and 832-857), all features. -/
def edmdPredict (g : (ι → ℝ) → (δ → ℝ)) (K : Matrix δ δ ℝ) (B : Matrix δ ι ℝ) (dt : Int) (X : List (Row Int (ι → ℝ))) (times : List Int) :
    Except PredErr (List (Row Int (ι → ℝ))) :=
  match predictMatrix K dt (mapVal g X) times with
  | .error e => .error e
  | .ok d => .ok (mapVal (fun z => z ᵥ* B) d)

/-- `EDMD.predict` in spectral mode (edmd.py 1100-1230 and 806-831), all features: modes `Bᵀ Ψ`. -/
noncomputable def edmdPredictSpectral (g : (ι → ℝ) → (δ → ℝ)) (Ψ : Matrix δ δ ℂ) (ev : δ → ℂ) (state : (δ → ℝ) → (δ → ℂ)) (B : Matrix δ ι ℝ) (dt : Int)
    (X : List (Row Int (ι → ℝ))) (times : List Int) : Except PredErr (List (Row Int (ι → ℝ))) :=
  evolveFrame (mapVal g X) times (fun ics norm => flowmapSpectral ((toCM B)ᵀ * Ψ) ev (ics.map state) norm dt)

end closed

end Verif.Edmd
