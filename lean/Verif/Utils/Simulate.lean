import Verif.Tsc.DeltaTime
/-!
# Model of simulations with an ODE solver

`ODE.predict` and `ControllableODE.predict` (datafold/utils/_systems.py 31-288) with `_validate_and_set_time_values_predict` (dynfold/base.py 493-646) for integer time values (tolerance zero).

The solver (`scipy.integrate.solve_ivp`) is a parameter that returns the states at the given time values or fails.  Numbers of features and control channels agree by type; control functions (callables) are in `Verif.Utils.SimulateFun`.
How the sampled control of a series is turned into a function of time is in `Verif.Utils.Systems`; here the solver gets the sampled rows.
-/

namespace Verif.Utils

open Verif.Np Verif.Tsc

variable {E W : Type}

/-- Exceptions. -/
inductive IvpErr | unbound | index | format | reference | noTimes | mismatch | tooSmall | timeValues | control | nTimesteps | notConstDelta | solver | tsc (e : TscErr)
deriving DecidableEq, Repr

/-- The argument `time_values`. -/
inductive TimeArg | none | scalar (t : Int) | array (l : List Int)
deriving DecidableEq, Repr

/-- An exception of a collection as exception of `predict`. -/
def ofTsc {α : Type} : Except TscErr α → Except IvpErr α
  | .ok a => .ok a
  | .error e => .error (.tsc e)

/-- `_validate_time_values_format` (base.py 648-677) for integer arrays. -/
def timesOk (l : List Int) : Bool := l.all (fun t => decide (0 ≤ t)) && decide (l.Pairwise (· < ·))

/-- The time values in `_prepare_ic_and_time_values` (_systems.py 40-53, 62).  Without time values the variable `dt` is read before it has a value (`UnboundLocalError`); an empty array has no element 1. -/
def ivpTimes : TimeArg → Except IvpErr (List Int)
  | .none => .error .unbound
  | .scalar t => .ok [0, t]
  | .array [] => .error .index
  | .array [t] => .ok [0, t]
  | .array l => .ok l

/-- The initial conditions (_systems.py 55-60): an array gets the first time value and the IDs 0, 1, .... -/
def ivpRows (X : List E ⊕ List (Row Int E)) (tv : List Int) : Except IvpErr (List (Row Int E)) :=
  match X with
  | .inl l => ofTsc (build (l.zipIdx.map (fun p => (⟨p.2, tv.headD 0, p.1⟩ : Row Int E))))
  | .inr c => .ok c

/-- The solution from one initial condition as frame (_systems.py 79-95). -/
def solveFrame (solve : E → List Int → Option (List E)) (tv : List Int) (x : E) : Except IvpErr (List (Int × E)) :=
  match solve x tv with
  | none => .error .solver
  | some ys => if ys.length = tv.length then .ok (tv.zip ys) else .error (.tsc .timeLength)

/-- `ODE.predict` (_systems.py 64-100): every initial condition in the order of the sorted IDs; `from_frame_list` is called without IDs. -/
def odePredict (solve : E → List Int → Option (List E)) (X : List E ⊕ List (Row Int E)) (t : TimeArg) : Except IvpErr (List (Row Int E)) :=
  (ivpTimes t).bind fun tv => (ivpRows X tv).bind fun rows =>
    if timesOk tv = false then .error .format
    else if (nTimesteps rows).values.any (fun n => n != 1) = true then .error .nTimesteps
    else (((itertimeseries rows).flatMap (fun p => p.2.map (·.2))).mapM (solveFrame solve tv)).bind fun frames => ofTsc (fromFrameList (frames.map Sum.inr) none)

/-- The argument `U`: not given, an array or a collection. -/
inductive SimControl (W : Type)
  | none
  | array (rows : List W)
  | tsc (c : List (Row Int W))

/-- `dt` (_systems.py 154-167); `dt0` is the default step size. -/
def simDelta (dt0 : Int) (U : SimControl W) (given : Option (List Int)) : Except IvpErr Int :=
  let fromTimes : Except IvpErr Int := match given with
    | some (a :: b :: _) => .ok (b - a)
    | some _ => .error .timeValues
    | none => .ok dt0
  match U with
  | .tsc c => if 1 < c.length then (match deltaTime .int c with
      | .one (some d) => .ok d
      | _ => .error .notConstDelta) else fromTimes
  | _ => fromTimes

/-- The control input as collection (`.inr`) or single array (_systems.py 169-196); `n` is the number of initial conditions, `zero` the vanishing control. -/
def simControl (n : Nat) (zero : W) (U : SimControl W) (given : Option (List Int)) : Except IvpErr (List W ⊕ List (Row Int W)) :=
  match U with
  | .none => match given with
    | none => .error .timeValues
    | some tv => (ofTsc (fromTensor (tv.length - 1) (List.replicate n (List.replicate (tv.length - 1) zero)) none tv.dropLast)).map Sum.inr
  | .array rows =>
    if rows.length = n then match given with
      | none => .error .timeValues
      | some tv => (ofTsc (build (rows.zipIdx.map (fun p => (⟨p.2, tv.headD 0, p.1⟩ : Row Int W))))).map Sum.inr
    else if 1 < n then .error .control
    else .ok (.inl rows)
  | .tsc c => .ok (.inr c)

/-- The time reference (base.py 514-532). -/
def simReference (X : List E ⊕ List (Row Int E)) (U : List W ⊕ List (Row Int W)) : Except IvpErr Int :=
  match X with
  | .inr c => match finalStates c 1 with
    | .error e => .error (.tsc e)
    | .ok f => match timeValues f with
      | [r] => .ok r
      | _ => .error .reference
  | .inl _ => match U with
    | .inr u => .ok ((timeValues u).headD 0)
    | .inl _ => .ok 0

/-- Given time values have to agree with the control (base.py 585-621). -/
def timesAgree (ref dt : Int) (U : List W ⊕ List (Row Int W)) (tv : List Int) : Bool :=
  match U with
  | .inl rows => decide (tv.length = rows.length + 1)
  | .inr u =>
    let req := (timeValues u).filter (fun t => decide (ref ≤ t))
    !req.isEmpty && decide (tv = req ++ [req.getLastD 0 + dt])

/-- The time values of the simulation (base.py 542-646) with `_requires_last_control_state = False`. -/
def simTimes (isTsc : Bool) (ref dt : Int) (U : List W ⊕ List (Row Int W)) (given : Option (List Int)) : Except IvpErr (List Int) :=
  match given with
  | none => match U with
    | .inr u =>
      let l := (timeValues u ++ [(timeValues u).getLastD 0 + dt]).filter (fun t => decide (ref ≤ t))
      if l.isEmpty then .error .noTimes else .ok l
    | .inl rows => .ok ((List.range (rows.length + 1)).map (fun k : Nat => ref + k * dt))
  | some tv =>
    if timesOk tv = false then .error .format
    else if timesAgree ref dt U tv = false then .error .mismatch
    else if isTsc = false then .ok tv
    else if tv.any (fun t => decide (t < ref)) = true then .error .tooSmall
    else if tv.headD 0 = ref then .ok tv else .ok (ref :: tv)

/-- The checks of the control, or its index (_systems.py 203-209). -/
def simIndex (U : List W ⊕ List (Row Int W)) (tv : List Int) : Except IvpErr (List (Row Int W)) :=
  match U with
  | .inr u =>
    if isSameTimeValues u = false then .error (.tsc .notSameTimeValues)
    else if (nTimesteps u).values.any (fun n => decide (n ≠ tv.length - 1)) = true then .error .nTimesteps
    else .ok u
  | .inl rows =>
    if rows.length ≠ tv.length - 1 then .error (.tsc .timeLength)
    else ofTsc (build (List.zipWith (fun t w => (⟨0, t, w⟩ : Row Int W)) tv.dropLast rows))

/-- The control rows that drive initial condition number `i` (_systems.py 217-232): the row number `i` for a single step, otherwise the series with the `i`-th ID in ascending order. -/
def simRows (U : List (Row Int W)) (tv : List Int) (i : Nat) : Except IvpErr (List W) :=
  if tv.length = 2 then match U[i]? with
    | some r => .ok [r.val]
    | none => .error .index
  else match (ids U)[i]? with
    | some j => .ok ((content U j).map (·.2))
    | none => .error .index

/-- The initial states (_systems.py 211-213). -/
def simStates : List E ⊕ List (Row Int E) → List E
  | .inl l => l
  | .inr c => c.map (·.val)

/-- `ControllableODE.predict` (_systems.py 124-288): the simulated states and the control input.  `from_frame_list` is called without IDs. -/
def simulate (solve : List W → E → List Int → Option (List E)) (dt0 : Int) (zero : W) (X : List E ⊕ List (Row Int E)) (U : SimControl W) (given : Option (List Int)) :
    Except IvpErr (List (Row Int E) × List (Row Int W)) :=
  (simDelta dt0 U given).bind fun dt =>
  (simControl (simStates X).length zero U given).bind fun u =>
  (simReference X u).bind fun ref =>
  (simTimes X.isRight ref dt u given).bind fun tv =>
  (simIndex u tv).bind fun u' =>
  ((simStates X).zipIdx.mapM (fun p => (simRows u' tv p.2).bind fun w => solveFrame (solve w) tv p.1)).bind fun frames =>
  (ofTsc (fromFrameList (frames.map Sum.inr) none)).bind fun S => .ok (S, u')

end Verif.Utils
