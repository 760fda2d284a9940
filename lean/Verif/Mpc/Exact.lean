import Verif.Mpc.Control
import Verif.Mpc.Kmpc
import Verif.Edmd.ControlDelay
/-!
# Model of one step of Koopman MPC from a window of samples

`KMPC.control_sequence_horizon` (datafold/appfold/mpc.py 404-474) with the dictionary of the fitted EDMD model.
-/

namespace Verif.Mpc

open Verif.Tsc Verif.Edmd Verif.Dict

/-- Exceptions: of the dictionary, more than one lifted state, of the controller. -/
inductive HorizonErr | dict (e : DictErr) | single | mpc (e : MpcErr)

/-- A possible result of `control_sequence_horizon` (mpc.py 404-474) for the samples `V`: they are mapped to the dictionary, and the result has to be a single lifted state. -/
def IsControlDict {N nq nu : Nat} (k : Kmpc (Fin N) nq nu) (T : Transformer ℝ) (dt : Int) (V : Takens.Frame ℝ) (ref : List (Int × (Fin nq → ℝ)))
    (out : Except HorizonErr (List (Int × (Fin nu → ℝ)))) : Prop :=
  match T V with
  | .error e => out = .error (.dict e)
  | .ok D => match D.rows with
    | [z] => ∃ o, IsControlSequence k dt z.time (toVec N z.val) ref o ∧ out = o.mapError HorizonErr.mpc
    | _ => out = .error .single

end Verif.Mpc
