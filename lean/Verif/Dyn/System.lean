import Verif.Dyn.Strategy
import Verif.Dyn.Spectral
/-!
# Model of the set up of linear systems and of the checks of `evolve_system`

`datafold/dynfold/dynsystem.py`, class `LinearDynamicalSystem`; `datafold/dynfold/dmd.py`, the additional arguments of `predict`.
Only shapes and identities of arrays matter here, `α` is the type of the array contents.
-/

namespace Verif.Dyn

/-- A `numpy.ndarray`: shape and content. -/
structure Shape (α : Type) where
  shape : List Nat
  data : α

/-- A Python object given as matrix: an array or something else (list, sparse matrix, ...). -/
inductive Obj (α : Type) | array (a : Shape α) | other

/-- Exceptions of the set up and of the checks. -/
inductive SysErr
  | alreadySetup | matrixType | matrixDim | controlMissing | controlType | controlRows | controlDim | controlGiven | wrongMode | vector | eigenCount
  | noAttribute | icType | icDim | icLength | timeDim | controlCount | controlSteps | controlFeatures | deltaType | deltaSign | names
deriving DecidableEq, Repr

/-- The attributes of a `LinearDynamicalSystem` (dynsystem.py 432-455, 859-861, 826-830); `none`: the attribute does not exist, `some none`: it is `None`. -/
structure Sys (α : Type) where
  ty : SysType
  mode : SysMode
  controlled : Bool
  affine : Bool
  sysMatrix : Option (Shape α) := none
  control : Option (Option (Obj α)) := none
  right : Option (Shape α) := none
  ev : Option (Shape α) := none
  left : Option (Option (Obj α)) := none

/-- `is_linear_system_setup` (dynsystem.py 691-703). -/
def Sys.isSetup {α : Type} (s : Sys α) : Bool :=
  match s.mode with
  | .matrix => s.sysMatrix.isSome
  | .spectral => s.right.isSome && s.ev.isSome

/-- `is_matrix` (utils/general.py 139-172). -/
def isMatrix {α : Type} : Obj α → Except SysErr (Shape α)
  | .array a => if a.shape.length ≠ 2 then .error .matrixDim else .ok a
  | .other => .error .matrixType

/-- The check of the control matrix in `setup_matrix_system` (dynsystem.py 863-887). -/
def checkControlMatrix {α : Type} (affine : Bool) (a : Shape α) : Option (Obj α) → Except SysErr Unit
  | none => .error .controlMissing
  | some .other => .error .controlType
  | some (.array b) =>
    if affine then
      if b.shape.length ≠ 3 then .error .controlDim else if b.shape.take 2 ≠ a.shape then .error .controlRows else .ok ()
    else
      if b.shape.length ≠ 2 then .error .controlDim else if b.shape.head? ≠ a.shape.head? then .error .controlRows else .ok ()

/-- `setup_matrix_system` (dynsystem.py 836-894): the system afterwards and the outcome. The attributes are assigned before they are checked. -/
def setupMatrix {α : Type} (s : Sys α) (A : Obj α) (B : Option (Obj α)) : Sys α × Except SysErr Unit :=
  if s.isSetup then (s, .error .alreadySetup)
  else match isMatrix A with
    | .error e => (s, .error e)
    | .ok a =>
      if s.controlled then ({ s with sysMatrix := some a, control := some B }, checkControlMatrix s.affine a B)
      else ({ s with sysMatrix := some a }, if B.isSome then .error .controlGiven else .ok ())

/-- `is_vector` (utils/general.py 175-199). -/
def isVector {α : Type} : Obj α → Except SysErr (Shape α)
  | .array a => match a.shape with
    | [n] => if n < 1 then .error .vector else .ok a
    | _ => .error .vector
  | .other => .error .vector

/-- `setup_spectral_system` (dynsystem.py 780-834). The left eigenvectors are not checked: the right ones are checked twice. -/
def setupSpectral {α : Type} (s : Sys α) (Ψ ev : Obj α) (L B : Option (Obj α)) : Sys α × Except SysErr Unit :=
  if s.mode ≠ .spectral then (s, .error .wrongMode)
  else match isMatrix Ψ with
    | .error e => (s, .error e)
    | .ok a => match isVector ev with
      | .error e => (s, .error e)
      | .ok v => if v.shape[0]? ≠ a.shape[1]? then (s, .error .eigenCount)
        else ({ s with right := some a, ev := some v, left := some L, control := some B }, .ok ())

/-- A call of one of the two set up functions. -/
inductive SetupCall (α : Type) | matrix (A : Obj α) (B : Option (Obj α)) | spectral (Ψ ev : Obj α) (L B : Option (Obj α))

/-- Perform a call. -/
def setupCall {α : Type} (s : Sys α) : SetupCall α → Sys α × Except SysErr Unit
  | .matrix A B => setupMatrix s A B
  | .spectral Ψ ev L B => setupSpectral s Ψ ev L B

/-- `DMDStandard.fit`, `DMDControl.fit`, ... (dmd.py 1284-1330, 1529-1543, 1693-1716): after computing the system matrix, the system is set up in the mode of the model. -/
def refit {α : Type} (s : Sys α) (A Ψ ev : Shape α) (L B : Option (Obj α)) : Sys α × Except SysErr Unit :=
  match s.mode with
  | .spectral => setupSpectral s (.array Ψ) (.array ev) L B
  | .matrix => setupMatrix s (.array A) B

/-- `time_values` given to `evolve_system`: a number, or an array with its shape and whether its dtype is in "buif" (numbers). -/
inductive TimeArg | scalar | array (shape : List Nat) (numeric : Bool)

/-- `_check_time_values` (dynsystem.py 548-569): the number of time values (`len`). The two conditions are joined by `and`. -/
def checkTimes : TimeArg → Except SysErr Nat
  | .scalar => .ok 1
  | .array shape numeric => if shape.length ≠ 1 ∧ numeric then .error .timeDim else .ok (shape.headD 0)

/-- `time_delta` given to `evolve_system`: not given, a number (timedeltas are numpy integers) or another object. -/
inductive DeltaArg | none | number (d : ℚ) | other

/-- `_check_time_delta` (dynsystem.py 571-593). -/
def checkDelta (ty : SysType) (d : DeltaArg) : Except SysErr (Option ℚ) :=
  match ty with
  | .differential => .ok none
  | .flowmap => match d with
    | .none => .error .deltaType
    | .other => .error .deltaType
    | .number d => if d ≤ 0 then .error .deltaSign else .ok (some d)

/-- Initial conditions: a number, an array with its shape, or another object that cannot be converted. -/
inductive IcArg | scalar | array (shape : List Nat) | other

/-- `_check_initial_condition` (dynsystem.py 523-546): the shape of the matrix of initial conditions. -/
def checkIc (ic : IcArg) (stateLength : Nat) : Except SysErr (Nat × Nat) :=
  let shape? : Option (List Nat) := match ic with
    | .scalar => some [1, 1]
    | .array [n] => some [n, 1]
    | .array s => some s
    | .other => none
  match shape? with
  | none => .error .icType
  | some [n, k] => if n ≠ stateLength then .error .icLength else .ok (n, k)
  | some _ => .error .icDim

/-- The checks of `_check_control_input` (dynsystem.py 496-520) for a three-dimensional control input. -/
def checkControl3 (B : Option (List Nat)) (needLast : Bool) (nTimes nIc i n k : Nat) : Except SysErr Unit :=
  if i ≠ nIc then .error .controlCount
  else match B with
    | none => .error .controlMissing
    | some b => if (if needLast then n else n + 1) ≠ nTimes then .error .controlSteps
      else if b.getLast? ≠ some k then .error .controlFeatures else .ok ()

/-- `_check_control_input` (dynsystem.py 486-521) with the shape of the control input and the shape of the control matrix (`none`: `control_matrix_ is None`). The last control state is
required by models that set `_requires_last_control_state`. Arrays with no or more than three dimensions are not considered. -/
def checkControlInput (u : Option (List Nat)) (B : Option (List Nat)) (needLast : Bool) (nTimes nIc : Nat) : Except SysErr Unit :=
  match u with
  | some [n] => checkControl3 B needLast nTimes nIc 1 n 1
  | some [n, k] => checkControl3 B needLast nTimes nIc 1 n k
  | some [i, n, k] => checkControl3 B needLast nTimes nIc i n k
  | some _ => .error .controlCount
  | none => .error .controlType

/-- Shape of an attribute that is an array. -/
def shapeOf {α : Type} : Option (Option (Obj α)) → Option (List Nat)
  | some (some (.array b)) => some b.shape
  | _ => none

/-- `_set_sys_matrix` (dynsystem.py 471-484). -/
def chooseMatrix {α : Type} (s : Sys α) : Option (Obj α) → Except SysErr (Shape α)
  | some o => isMatrix o
  | none => match (match s.mode with | .spectral => s.right | .matrix => s.sysMatrix) with
    | some a => .ok a
    | none => .error .noAttribute

/-- What the checks of `evolve_system` yield: the matrix, the number of initial conditions, of time values and of features, and the time delta. -/
structure Evolve (α : Type) where
  matrix : Shape α
  nIc : Nat
  nTimes : Nat
  nFeatures : Nat
  delta : Option ℚ

/-- `_set_and_check_system_params` (dynsystem.py 595-649), in the order of the code. `names` is the number of given feature names; the default is `np.arange(state_length)`. -/
def evolveCheck {α : Type} (s : Sys α) (needLast : Bool) (ic : IcArg) (over : Option (Obj α)) (u : Option (List Nat)) (times : TimeArg) (delta : DeltaArg) (names : Option Nat) :
    Except SysErr (Evolve α) :=
  match chooseMatrix s over with
  | .error e => .error e
  | .ok a =>
    let nFeatures := a.shape.getD 0 0
    let stateLength := a.shape.getD 1 0
    match checkIc ic stateLength with
    | .error e => .error e
    | .ok (_, nIc) => match checkTimes times with
      | .error e => .error e
      | .ok nTimes =>
        match (if s.controlled then checkControlInput u (shapeOf s.control) needLast nTimes nIc else .ok ()) with
        | .error e => .error e
        | .ok _ => match checkDelta s.ty delta with
          | .error e => .error e
          | .ok d => if names.getD stateLength ≠ nFeatures then .error .names else .ok ⟨a, nIc, nTimes, nFeatures, d⟩

/-- Additional arguments of `DMDBase.predict`: whether `post_map`, `modes` and `feature_columns` are given and other keys. -/
structure PredictParams where
  postMap : Bool
  modes : Bool
  columns : Bool
  others : Bool

/-- Exceptions of `_read_predict_params`. -/
inductive ParamErr | key | both | columnsMissing | matrixMode
deriving DecidableEq, Repr

/-- `DMDBase._read_predict_params` (dmd.py 134-155). -/
def readPredictParams (mode : SysMode) (p : PredictParams) : Except ParamErr Unit :=
  if p.others then .error .key
  else if p.postMap && p.modes then .error .both
  else if (p.postMap || p.modes) && !p.columns then .error .columnsMissing
  else if mode = .matrix ∧ (p.postMap || p.modes) then .error .matrixMode
  else .ok ()

open Verif.Tsc Matrix in
/-- `DMDBase.predict` for a flowmap system in spectral mode without control (dmd.py 304-411, 203-297): `spec` computes the spectral state of an initial condition, `modes` are the right
eigenvectors, or what `post_map` or `modes` replace them by. -/
noncomputable def predictSpectral {ι κ ρ : Type} [Fintype ι] [Fintype κ] [Fintype ρ] (modes : Matrix κ ρ ℂ) (ev : ρ → ℂ) (spec : (ι → ℝ) → (ρ → ℂ)) (dt : Int) (X : List (Row Int (ι → ℝ)))
    (times : List Int) : Except PredErr (List (Row Int (κ → ℝ))) :=
  evolveFrame X times (fun ics norm => flowmapSpectral modes ev (ics.map spec) norm dt)

open Matrix in
/-- `DMDBase._read_user_sys_matrix` (dmd.py 190-201): the modes for a real `post_map`. -/
noncomputable def postMapModes {ι κ ρ : Type} [Fintype ι] (P : Matrix κ ι ℝ) (Ψ : Matrix ι ρ ℂ) : Matrix κ ρ ℂ := P.map (fun a => (a : ℂ)) * Ψ

end Verif.Dyn
