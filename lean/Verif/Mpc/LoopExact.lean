import Verif.Mpc.ClosedLoop
import Verif.Mpc.Exact
/-!
# Model of the control of a system along a reference with an EDMD model

`KMPC.control_system_reference` (datafold/appfold/mpc.py 487-573) where `edmd.transform` is the dictionary of the fitted EDMD model and `qpsolvers.solve_qp` solves the quadratic program of
`control_sequence_horizon` (mpc.py 426-452).
-/

namespace Verif.Mpc

open Verif.Tsc Verif.Edmd Verif.Dict

/-- The controller of the EDMD model with the dictionary `T` on the columns `colsIn` (mpc.py 487-573); samples of the model are vectors. -/
noncomputable def kmpcLoop {S : Type} {N n nq nu : Nat} (c : Kmpc (Fin N) nq nu) (T : Transformer ℝ) (colsIn : List String) (nIc : Nat) (dt : Int)
    (solve : (Fin N → ℝ) → List (Fin nq → ℝ) → Option (List (Fin nu → ℝ))) (eval : List (Row Int S) → List (Row Int (Fin nu → ℝ)) → List Int → Except SysErr (List (Row Int S)))
    (augmented : S × Option (Fin nu → ℝ) → Fin n → ℝ) (plain : S → Fin n → ℝ) : Loop S (Fin n → ℝ) (Fin N → ℝ) (Fin nq → ℝ) (Fin nu → ℝ) where
  horizon := c.horizon
  nIc := nIc
  dt := dt
  lift X := match T ⟨colsIn, mapVal List.ofFn X⟩ with
    | .ok D => mapVal (toVec N) D.rows
    | .error _ => []
  solve := solve
  eval := eval
  augmented := augmented
  plain := plain

/-- `solve` returns solutions of the quadratic program of the controller (mpc.py 426-452), for a lifted state at time zero. -/
def IsQpSolver {N nq nu : Nat} (c : Kmpc (Fin N) nq nu) (dt : Int) (solve : (Fin N → ℝ) → List (Fin nq → ℝ) → Option (List (Fin nu → ℝ))) : Prop :=
  ∀ (z : Fin N → ℝ) (r : List (Fin nq → ℝ)) (us : List (Fin nu → ℝ)), r.length = c.horizon → solve z r = some us →
    ∃ out, IsControlSequence c dt 0 z (r.mapIdx (fun j v => (((j : Int) + 1) * dt, v))) (.ok out) ∧ us = out.map (·.2)

end Verif.Mpc
