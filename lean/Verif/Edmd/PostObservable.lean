import Verif.Tsc.Select
import Verif.Dyn.System
import Mathlib.Data.Real.Basic
import Mathlib.Data.Matrix.ColumnRowPartitioned
import Verif.Lin.Lstsq
/-!
# Model of `EDMDPostObservable` and `HAVOK`

`datafold/appfold/edmd.py` 2371-2714.
-/

namespace Verif.Edmd

open Verif.Tsc Verif.Np Verif.Dyn Matrix

/-- Exceptions of `EDMDPostObservable.fit_transform`. -/
inductive PostErr | estimatorType | alreadyFitted | observable | noFits | fit | collection (e : Err) | key | missingArgument
deriving DecidableEq, Repr

/-- The argument `observable`. -/
inductive ObservableArg | std | abserr | other
deriving DecidableEq, Repr

/-- `EDMDPostObservable._validate` (edmd.py 2500-2515). -/
def postValidate (isEdmd fitted : Bool) (o : ObservableArg) : Except PostErr Unit :=
  if !isEdmd then .error .estimatorType
  else if fitted then .error .alreadyFitted
  else if o = .other then .error .observable
  else .ok ()

/-- `X.loc[keys, :]` of the subtraction. -/
def postRow {V : Type} (X : List (Row Int V)) (k : Key Int) : Except PostErr (Row Int V) :=
  match rowAt X k with
  | .error _ => .error .key
  | .ok r => .ok r

/-- `EDMDPostObservable._compute_err_timeseries` (edmd.py 2455-2473): `X` are the data and `R` its reconstruction. `R.head(1)` is the first row of the frame. -/
def errSeries {n : Nat} (X R : List (Row Int (Fin n → ℝ))) : Except PostErr (List (Row Int (Fin n → ℝ))) :=
  match construct (R.drop 1) with
  | .error e => .error (.collection e)
  | .ok R' => match R'.mapM (fun r => postRow X r.key) with
    | .error e => .error e
    | .ok xs => .ok (List.zipWith (fun x r => ⟨r.id, r.time, fun j => |x.val j - r.val j|⟩) xs R')

/-- The result of one split: the score, the fitted model, the data and the error time series. -/
structure PostSplit (M : Type) (n : Nat) where
  score : ℝ
  model : M
  test : List (Row Int (Fin n → ℝ))
  err : List (Row Int (Fin n → ℝ))

/-- `np.argmax` (edmd.py 2553): the first position of the largest element. -/
noncomputable def argmaxFirst : List ℝ → Option Nat
  | [] => none
  | x :: l => match argmaxFirst l with
    | none => some 0
    | some k => if x < l.getD k 0 then some (k + 1) else some 0

/-- `EDMDPostObservable._run_cv` (edmd.py 2517-2572): the model with the best score on its own test data. The data of the splits are joined by `from_frame_list`, here concatenation. -/
noncomputable def postCv {M : Type} {n : Nat} (splits : List (Except PostErr (PostSplit M n))) :
    Except PostErr (List (Row Int (Fin n → ℝ)) × List (Row Int (Fin n → ℝ)) × M) :=
  match splits.mapM id with
  | .error e => .error e
  | .ok ret => match argmaxFirst (ret.map (·.score)) with
    | none => .error .noFits
    | some k => match ret[k]? with
      | none => .error .noFits
      | some best => .ok ((ret.map (·.test)).flatten, (ret.map (·.err)).flatten, best.model)

/-- `EDMDPostObservable._adapt_edmd_model` (edmd.py 2424-2453): `edmd.transform` may raise; then `_least_squares_inverse_map(X, X_dict, U)` (edmd.py 487-507) is called without `U`, which has no
default, a `TypeError`. -/
def adaptModel {M L : Type} {n : Nat} (transform : M → List (Row Int (Fin n → ℝ)) → Except PostErr L) (m : M) (X _err : List (Row Int (Fin n → ℝ))) : Except PostErr M :=
  match transform m X with
  | .error e => .error e
  | .ok _ => .error .missingArgument

/-- `EDMDPostObservable.fit_transform` (edmd.py 2574-2614) after the validation of the input: without cross validation `plain` is the model with data and error time series, else the splits are
given. -/
noncomputable def postFit {M L : Type} {n : Nat} (isEdmd fitted : Bool) (o : ObservableArg)
    (run : (Except PostErr (List (Row Int (Fin n → ℝ)) × List (Row Int (Fin n → ℝ)) × M)) ⊕ List (Except PostErr (PostSplit M n)))
    (transform : M → List (Row Int (Fin n → ℝ)) → Except PostErr L) : Except PostErr M :=
  match postValidate isEdmd fitted o with
  | .error e => .error e
  | .ok _ => match (match run with | .inl plain => plain | .inr splits => postCv splits) with
    | .error e => .error e
    | .ok (X, err, m) => adaptModel transform m X err

/-! ### HAVOK -/

variable {m k ρ T : Type} [Fintype m] [Fintype k] [Fintype ρ] [Fintype T] [DecidableEq k] [DecidableEq ρ]

/-- `Ur[:, :-1] @ diag(Sr[:-1])` of `HAVOK.fit` (edmd.py 2683-2685): the scaled left singular vectors of the selected components. -/
def havokUr (U : Matrix m k ℝ) (S : k → ℝ) (sel : ρ → k) : Matrix m ρ ℝ := U.submatrix id sel * diagonal (fun j => S (sel j))

/-- `np.linalg.pinv`: the Moore-Penrose inverse. -/
structure IsPinv (A : Matrix m ρ ℝ) (P : Matrix ρ m ℝ) : Prop where
  apa : A * P * A = A
  pap : P * A * P = P
  symA : (A * P)ᵀ = A * P
  symP : (P * A)ᵀ = P * A

/-- `HAVOK.transform` (edmd.py 2623-2637) of delay embedded rows `X`: `(pinv(ur) @ X.T).T`. -/
def havokTransform (P : Matrix ρ m ℝ) (X : Matrix T m ℝ) : Matrix T ρ ℝ := (P * Xᵀ)ᵀ

/-- The matrices of `HAVOK.fit` (edmd.py 2669-2677): `M.T` is a least squares solution of `V M.T = dV`; the last column of `V` is the forcing, the last column of `M` the control matrix. -/
def IsHavokFit (V : Matrix T (ρ ⊕ Unit) ℝ) (dV : Matrix T ρ ℝ) (A : Matrix ρ ρ ℝ) (B : Matrix ρ Unit ℝ) : Prop :=
  Lin.IsLstsqM V dV (fromCols A B)ᵀ

/-- The call of `evolve_system` in `HAVOK.fit_predict` (edmd.py 2694-2714), shapes only: one initial condition with `r` components, a forcing signal with `N` samples that is handed over as an array of
shape `(N, 1, 1)`, and all time values but the last. -/
def havokPredict {α : Type} (A B : Shape α) (r N : Nat) : Except SysErr (Evolve α) :=
  match setupMatrix ⟨.differential, .matrix, true, false, none, none, none, none, none⟩ (.array A) (some (.array B)) with
  | (_, .error e) => .error e
  | (s, .ok _) => evolveCheck s false (.array [r, 1]) none (some [N, 1, 1]) (.array [N - 1] true) .none none

end Verif.Edmd
