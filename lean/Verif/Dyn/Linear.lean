import Verif.Tsc.Model
import Verif.Tsc.Index
import Mathlib.LinearAlgebra.Matrix.Notation
/-!
# Model of the evolution of linear systems and of `DMDBase.predict`

`datafold/dynfold/dynsystem.py` and `datafold/dynfold/dmd.py`.  Time values are integers (also datetimes, as integer nanoseconds); states
are vectors `ι → R` over a commutative ring in exact arithmetic, so `np.real` of a real matrix product is the identity.
-/

namespace Verif.Dyn

open Verif.Tsc Verif.Np Matrix

variable {R ι κ : Type} [CommRing R] [Fintype ι] [DecidableEq ι] [Fintype κ]

/-- The exponent `time / time_delta` for a time value that is a multiple of `time_delta`.  (Other time values need
`scipy.linalg.fractional_matrix_power`, which is not modelled; at integers it is `np.linalg.matrix_power`.) -/
def stepCount (dt t : Int) : Nat := (t / dt).toNat

/-- `SystemSolveStrategy.flowmap_matrix` (dynsystem.py 154-188).  Entry `[i][idx]` of the tensor is the state of the `i`-th initial condition
at the `idx`-th time value. -/
def flowmapMatrix (A : Matrix ι ι R) (ics : List (ι → R)) (times : List Int) (dt : Int) : List (List (ι → R)) :=
  ics.map (fun x => times.map (fun t => (A ^ stepCount dt t) *ᵥ x))

/-- `np.diff` -/
def diffs (times : List Int) : List Int := (consecutive times).map (fun p => p.2 - p.1)

/-- The loop of `SystemSolveStrategy.flowmap_matrix_controlled` (dynsystem.py 271-293) for one initial condition: one application of
`A x + B u` per entry of `np.diff(time_values)`.  The branch that looks at the size of the entry is switched off by `if False`. A missing
control entry (numpy: `IndexError`) ends the loop; `_check_control_input` excludes it. -/
def controlledLoop (A : Matrix ι ι R) (B : Matrix ι κ R) : (ι → R) → List Int → List (κ → R) → List (ι → R)
  | x, _ :: ds, u :: us => x :: controlledLoop A B (A *ᵥ x + B *ᵥ u) ds us
  | x, _, _ => [x]

/-- `SystemSolveStrategy.flowmap_matrix_controlled` (dynsystem.py 237-295), all initial conditions. -/
def flowmapMatrixControlled (A : Matrix ι ι R) (B : Matrix ι κ R) (ics : List (ι → R)) (us : List (List (κ → R))) (times : List Int) :
    List (List (ι → R)) :=
  List.zipWith (fun x u => controlledLoop A B x (diffs times) u) ics us

/-- Exceptions of `predict`. -/
inductive PredErr
  | idsNotUnique | emptyTimes | tsc (e : TscErr) | assertion | idMismatch | timeMismatch | nControl | notSameTimes | reference
deriving DecidableEq, Repr

/-- `index.set_levels(time_values, level=1)` (dmd.py 292-295): the `k`-th smallest time value is replaced by the `k`-th entry of
`time_values`. -/
def setTimeLevels {V : Type} (c : List (Row Int V)) (times : List Int) : List (Row Int V) :=
  c.map (fun r => { r with time := times.getD ((timeValues c).idxOf r.time) r.time })

/-- The frame around the solver in `_evolve_dmd_system` (dmd.py 226-297): `solve` gets the time values shifted to start at zero;
`from_tensor` labels the result with IDs and shifted times; the assertion compares the times after shifting back; then the requested time
values are written into the index. -/
def evolveFrame {V W : Type} (X : List (Row Int V)) (times : List Int) (solve : List V → List Int → List (List W)) :
    Except PredErr (List (Row Int W)) :=
  let tsIds := X.map (·.id)
  if (unique tsIds).length ≠ tsIds.length then .error .idsNotUnique
  else match times.min? with
    | none => .error .emptyTimes
    | some shift =>
      let norm := times.map (· - shift)
      match fromTensor times.length (solve (X.map (·.val)) norm) (some tsIds) norm with
      | .error e => .error (.tsc e)
      | .ok c =>
        if (timeValues c).map (· + shift) ≠ times then .error .assertion
        else match build (setTimeLevels c times) with
          | .error e => .error (.tsc e)
          | .ok d => .ok d

/-- `DMDBase.predict` for a flowmap system in matrix mode without control, after the validation of the arguments
(dmd.py 304-411 and 203-297).  `X` holds one row per initial condition. -/
def predictMatrix (A : Matrix ι ι R) (dt : Int) (X : List (Row Int (ι → R))) (times : List Int) : Except PredErr (List (Row Int (ι → R))) :=
  evolveFrame X times (fun ics norm => flowmapMatrix A ics norm dt)

/-- Cut a list into blocks of length `k` (`reshape(n, k, ...)`). -/
def blocks {α : Type} (k : Nat) : Nat → List α → List (List α)
  | 0, _ => []
  | n + 1, l => l.take k :: blocks k n (l.drop k)

/-- `InitialCondition.validate_control` (collection.py 1961-1973) with `check_contain_required_ids(check_order=True)`
(accessor.py 197-210): the IDs of `X` in row order have to be `U.ids`, which pandas sorts. -/
def validateControl {V W : Type} (X : List (Row Int V)) (U : List (Row Int W)) : Except PredErr Unit :=
  if X.map (·.id) ≠ ids U then .error .idMismatch
  else if !isSameTimeValues U then .error .notSameTimes
  else if (X.map (·.time)).any (fun t => (timeValues U).head? != some t) then .error .timeMismatch
  else .ok ()

/-- `DMDBase.predict` for a flowmap system in matrix mode with control input `U` (dmd.py 351-411, 203-297): validation of the control, the
control tensor is the data of `U` in row order (dmd.py 219-223), `_check_control_input` (dynsystem.py 486-521) compares the number of
control states with the number of time values, then the solver runs. -/
def predictControlled (A : Matrix ι ι R) (B : Matrix ι κ R) (X : List (Row Int (ι → R))) (U : List (Row Int (κ → R)))
    (times : List Int) : Except PredErr (List (Row Int (ι → R))) :=
  match validateControl X U with
  | .error e => .error e
  | .ok _ =>
    let nSteps := U.length / (ids U).length
    if nSteps + 1 ≠ times.length then .error .nControl
    else
      let us := blocks nSteps (ids U).length (U.map (·.val))
      evolveFrame X times (fun ics norm => flowmapMatrixControlled A B ics us norm)

end Verif.Dyn
