import Mathlib.Data.Real.Basic
import Mathlib.Algebra.Module.Basic
import Mathlib.Data.Finset.Sort
import Mathlib.Data.Int.Order.Basic
/-!
# Simulated systems with control input

Models `ControllableODE.predict` (the control signal handed to the solver) and
`DCMotor.predict_vectorize` of `datafold/utils/_systems.py`.

Simplifications: exact arithmetic; the ODE solver (`scipy.integrate.solve_ivp`) is not modelled, only the control
value it receives at a time `t`.
-/

namespace Verif.Utils

section Control

variable {τ V : Type} [LinearOrder τ]

/-- `scipy.interpolate.interp1d(times, vals, kind="previous", fill_value="extrapolate")(t)`, used in
datafold/utils/_systems.py:241-246: the value at the last sampling time not after `t`, `none` (nan) before the first.
The sampling times are those of a time series, hence ascending. -/
def interpPrevious : List τ → List V → τ → Option V
  | a :: ts, v :: vs, t =>
    if a ≤ t then
      match interpPrevious ts vs t with
      | some w => some w
      | none => some v
    else none
  | _, _, _ => none

/-- Column `j` of a matrix given by its rows (`U_interp[:, j]`, datafold/utils/_systems.py:243). -/
def column (rows : List (List V)) (j : Nat) : List V := rows.filterMap (fun r => r[j]?)

/-- The closures made in the loop datafold/utils/_systems.py:240-247 together with the final content of the loop
variable. A Python closure does not store the value of `j`, it reads the variable when it is called; a closure is
therefore a function of the content of that variable. -/
def controlClosures (times : List τ) (rows : List (List V)) (n : Nat) : List (Nat → τ → Option V) × Nat :=
  (List.range n).foldl (fun s j => (s.1 ++ [fun cell t => interpPrevious times (column rows cell) t], j)) ([], 0)

/-- `Ufunc` of datafold/utils/_systems.py:249, called by the solver after the loop has ended. -/
def sampledControl (times : List τ) (rows : List (List V)) (n : Nat) (t : τ) : List (Option V) :=
  (controlClosures times rows n).1.map (fun f => f (controlClosures times rows n).2 t)

/-- Errors of `predict`. -/
inductive SimErr
  | controlShape
  | timesteps
  | timeValues
  | nTimeseries
  | deltaTime
  | index
  deriving DecidableEq, Repr

/-- The control value that is passed to the right-hand side of initial condition `i` at time `t`,
datafold/utils/_systems.py:141-145 (number of channels), 199-200 (number of time steps), 217-249 (the three kinds of
`Ufunc`). `U` lists the sampled control of each time series in the order of the IDs, row by row. -/
def odeControl (tv : List τ) (U : List (List (List V))) (n i : Nat) (t : τ) : Except SimErr (List (Option V)) :=
  if U.any (fun s => s.any (fun r => r.length != n)) then .error .controlShape
  else if U.any (fun s => s.length != tv.length - 1) then .error .timesteps
  else if tv.length = 2 then
    match U.flatten[i]? with
    | some r => .ok (r.map some)
    | none => .error .index
  else
    match U[i]? with
    | some rows => .ok (sampledControl tv.dropLast rows n t)
    | none => .error .index

end Control

section RungeKutta

variable {E : Type} [AddCommGroup E] [Module ℝ E]

/-- `DCMotor._runge_kutta`, datafold/utils/_systems.py:1118-1126, for a right-hand side `f` with the control value
already inserted. The last stage is evaluated at `X + k1 * dt`. -/
noncomputable def rungeKutta (f : E → E) (x : E) (dt : ℝ) : E :=
  let k1 := f x
  let k2 := f (x + (dt / 2) • k1)
  let k3 := f (x + (dt / 2) • k2)
  let k4 := f (x + dt • k1)
  x + (dt / 6) • (k1 + (2 : ℝ) • k2 + (2 : ℝ) • k3 + k4)

/-- `DCMotor._f`, datafold/utils/_systems.py:1196-1200. -/
noncomputable def dcMotor (u : ℝ) (y : ℝ × ℝ) : ℝ × ℝ :=
  (19.10828025 - 39.3153 * y.1 - 32.2293 * y.2 * u, -3.333333333 - 1.6599 * y.2 + 22.9478 * y.1 * u)

end RungeKutta

section Vectorize

/-- Python's slice `l[i::k]` for `i ≥ 0`, `k ≥ 1`, after dropping the first `i` elements. -/
def stepSlice {α : Type} (k : Nat) : List α → List α
  | [] => []
  | a :: l => a :: stepSlice k (l.drop (k - 1))
termination_by l => l.length
decreasing_by simp; omega

/-- `U.iloc[i :: n]`, datafold/utils/_systems.py:1176. -/
def everyNth {α : Type} (n i : Nat) (l : List α) : List α := stepSlice n (l.drop i)

/-- The loop of datafold/utils/_systems.py:1174-1181: the states of all time series after each step. -/
def vectorLoop {E C : Type} (step : E → C → E) (controls : List C) (n : Nat) (x0 : List E) : List (List E) :=
  (List.range n).foldl (fun acc i => acc ++ [List.zipWith step (acc.getLastD []) (everyNth n i controls)]) [x0]

/-- All consecutive differences of all time series agree (`check_const_time_delta`, exact integer time). -/
def constStep (ts : List (List Int)) : Option Int :=
  match (ts.flatMap (fun l => List.zipWith (fun a b => b - a) l l.tail)) with
  | [] => none
  | d :: l => if l.all (· == d) then some d else none

/-- `DCMotor.predict_vectorize`, datafold/utils/_systems.py:1147-1189. `U` lists for each time series the pairs (time,
control). Returns the time values and the states over time (outer list) and time series (inner list);
`from_tensor` rejects a number of time values that differs from the number of states. -/
def predictVectorize {E C : Type} (step : Int → E → C → E) (x0 : List E) (U : List (List (Int × C)))
    (timeValues : Option (List Int)) : Except SimErr (List Int × List (List E)) :=
  if x0.length ≠ U.length then .error .nTimeseries
  else
    match U with
    | [] => .error .timesteps
    | s :: _ =>
      if U.any (fun r => r.length != s.length) then .error .timesteps
      else
        let n := s.length
        let ctrl := U.flatten.map (·.2)
        if n ≤ 1 then
          match timeValues with
          | some [a, b] => .ok ([a, b], vectorLoop (step (b - a)) ctrl n x0)
          | _ => .error .timeValues
        else
          match constStep (U.map (fun r => r.map (·.1))) with
          | none => .error .deltaTime
          | some dt =>
            let all := (U.flatten.map (·.1)).toFinset.sort (· ≤ ·)
            if all.length + 1 ≠ n + 1 then .error .timeValues
            else .ok (all ++ [all.getLastD 0 + dt], vectorLoop (step dt) ctrl n x0)

end Vectorize

end Verif.Utils
