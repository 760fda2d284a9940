import Verif.Dyn.System
/-!
# Model of `LinearDynamicalSystem.evolve_system`

`datafold/dynfold/dynsystem.py` 896-997, after the checks (`Verif.Dyn.System`).  Integer time values.
-/

namespace Verif.Dyn

open Verif.Tsc Matrix

variable {R ι κ : Type} [CommRing R] [Fintype ι] [DecidableEq ι] [Fintype κ]

/-- `evolve_system` (dynsystem.py 946-997) with a solver: the tensor (`allocate_time_series_tensor`, collection.py 1976-2007, is overwritten completely) becomes a collection with the given IDs. -/
def evolveSystem {V W : Type} (solve : List V → List Int → List (List W)) (ics : List V) (times : List Int) (ids : Option (List Nat)) : Except TscErr (List (Row Int W)) :=
  fromTensor times.length (solve ics times) ids times

/-- `evolve_system` of a flowmap system in matrix mode without control; `over` is `overwrite_sys_matrix` (a square matrix: `fractional_matrix_power` rejects others). -/
def evolveFlowmap (A : Matrix ι ι R) (over : Option (Matrix ι ι R)) (dt : Int) (ics : List (ι → R)) (times : List Int) (ids : Option (List Nat)) : Except TscErr (List (Row Int (ι → R))) :=
  evolveSystem (fun ics ts => flowmapMatrix (over.getD A) ics ts dt) ics times ids

/-- `evolve_system` of a flowmap system in matrix mode with control; `us` holds the control input of each initial condition. -/
def evolveFlowmapControlled (A : Matrix ι ι R) (B : Matrix ι κ R) (us : List (List (κ → R))) (ics : List (ι → R)) (times : List Int) (ids : Option (List Nat)) :
    Except TscErr (List (Row Int (ι → R))) :=
  evolveSystem (fun ics ts => flowmapMatrixControlled A B ics us ts) ics times ids

end Verif.Dyn
