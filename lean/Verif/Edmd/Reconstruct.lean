import Verif.Tsc.InitCond
import Verif.Tsc.TimeOps
/-!
# Model of `shift_time_per_time_series` and of `EDMD.reconstruct`

`datafold/pcfold/timeseries/accessor.py` 558-637 and `datafold/appfold/edmd.py` 712-772, integer time values.
-/

namespace Verif.Edmd

open Verif.Tsc Verif.Np

variable {V W : Type}

/-- Nearest multiple of `d` (`np.round(t / d) * d`, ties to the even quotient). -/
def roundTo (d t : Int) : Int :=
  let q := t / d
  let r := t % d
  if 2 * r < d then q * d
  else if d < 2 * r then (q + 1) * d
  else if q % 2 = 0 then q * d else (q + 1) * d

/-- `np.repeat(values, n_timesteps)` where `n_timesteps` is a number or the array of a Series in the order of the *sorted* IDs. -/
def repeatSteps {α : Type} (vals : List α) : PerId Nat → List α
  | .one n => vals.flatMap (fun v => List.replicate n v)
  | .per l => (vals.zip (l.map (·.2))).flatMap (fun p => List.replicate p.2 p.1)

/-- Write new time values into the index. -/
def setTimes (c : List (Row Int V)) (times : List Int) : List (Row Int V) := List.zipWith (fun r t => { r with time := t }) c times

/-- `tsc.shift_time_per_time_series(ensure_identical_values=True)` (accessor.py 558-637): result and the argument afterwards (the index is assigned to the argument itself).
The shift of a series is minus its first time value, in the order of the index.  A delta time that is not one number does not occur in the theorems and is rejected here. -/
def shiftPerSeries (k : TimeKind) (c : List (Row Int V)) : Except TscErr (List (Row Int V)) × List (Row Int V) :=
  let shifts := (groupHead 1 [] c).map (fun r => -r.time)
  if shifts.all (· == 0) then (.ok c, c)
  else match deltaTime k c with
    | .one (some d) =>
      let times := List.zipWith (fun (r : Row Int V) s => roundTo d (r.time + s)) c (repeatSteps shifts (nTimesteps c))
      match buildInt k (setTimes c times) with
      | .error e => (.error e, c)
      | .ok s => (.ok s, s)
    | _ => (.error .notConstDelta, c)

/-- The index that is written back (edmd.py 750-766): the original index, or for `n > 1` the index without the first `n - 1` entries of each series, grouped by sorted ID. -/
def recoveredIndex (c : List (Row Int V)) (n : Nat) : List (Key Int) :=
  if n > 1 then (ids c).flatMap (fun i => ((c.filter (fun r => r.id == i)).map (·.key)).drop (n - 1))
  else c.map (·.key)

/-- `EDMD._reconstruct` (edmd.py 712-772) without control for a time invariant system and integer (not datetime) time values: shift every series to start at zero, predict group
by group, concatenate, write the recovered index.  The second component is the argument `X` afterwards; its index is only restored if nothing raised. -/
def reconstructEdmd {E : Type} (liftE : TscErr → E) (predict : List (Row Int V) → List Int → Except E (List (Row Int W))) (n : Nat)
    (c : List (Row Int V)) : Except E (List (Row Int W)) × List (Row Int V) :=
  match shiftPerSeries .int c with
  | (.error e, c') => (.error (liftE e), c')
  | (.ok s, c') =>
    match iterReconstruct .int s n with
    | .error e => (.error (liftE e), c')
    | .ok groups =>
      match groups.mapM (fun g => predict g.1 g.2) with
      | .error e => (.error e, c')
      | .ok parts =>
        if parts.flatten.length ≠ (recoveredIndex c n).length then (.error (liftE .shapeMismatch), c)
        else
          match build (List.zipWith (fun (r : Row Int W) (key : Key Int) => (⟨key.id, key.time, r.val⟩ : Row Int W)) parts.flatten (recoveredIndex c n)) with
          | .error e => (.error (liftE e), c)
          | .ok d => (.ok d, c)

end Verif.Edmd
