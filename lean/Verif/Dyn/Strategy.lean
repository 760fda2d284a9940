/-!
# Model of the solver selection of `LinearDynamicalSystem`

`datafold/dynfold/dynsystem.py`, `SystemSolveStrategy.select_strategy`.
-/

namespace Verif.Dyn

/-- `sys_type` -/
inductive SysType | flowmap | differential
deriving DecidableEq, Repr

/-- `sys_mode` -/
inductive SysMode | spectral | matrix
deriving DecidableEq, Repr

/-- The static methods of `SystemSolveStrategy` (dynsystem.py 20-326). -/
inductive Strategy
  | differentialMatrix | differentialMatrixControlled | differentialMatrixControlledAffine | differentialSpectral
  | flowmapMatrix | flowmapSpectral | flowmapMatrixControlled | flowmapSpectralControlled
deriving DecidableEq, Repr

/-- Exceptions of the selection. -/
inductive StratErr | notImplemented | noStrategy
deriving DecidableEq, Repr

/-- `SystemSolveStrategy.select_strategy` (dynsystem.py 328-388), the `elif` chain in the order of the code. -/
def selectStrategy (ty : SysType) (mode : SysMode) (timeInvariant controlled affine : Bool) : Except StratErr Strategy :=
  if !timeInvariant then .error .notImplemented
  else if ty = .differential ∧ mode = .spectral ∧ !controlled then .ok .differentialSpectral
  else if ty = .differential ∧ mode = .matrix ∧ !controlled then .ok .differentialMatrix
  else if ty = .differential ∧ mode = .matrix ∧ controlled then .ok .differentialMatrix
  else if ty = .flowmap ∧ mode = .spectral ∧ !controlled then .ok .flowmapSpectral
  else if ty = .flowmap ∧ mode = .matrix ∧ !controlled then .ok .flowmapMatrix
  else if ty = .flowmap ∧ mode = .matrix ∧ controlled ∧ !affine then .ok .flowmapMatrixControlled
  else if ty = .flowmap ∧ mode = .spectral ∧ controlled ∧ !affine then .ok .flowmapSpectralControlled
  else if ty = .differential ∧ mode = .matrix ∧ controlled ∧ affine then .ok .differentialMatrixControlledAffine
  else .error .noStrategy

end Verif.Dyn
