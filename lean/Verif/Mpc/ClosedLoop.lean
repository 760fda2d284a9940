import Verif.Tsc.TimeOps
/-!
# Model of the control of a system along a reference

`KMPC.control_system_reference` (datafold/appfold/mpc.py 487-573) with the time handling of `control_sequence_horizon` (363-474) for integer time values (tolerance zero).

The fitted model (`edmd.transform`), the quadratic solver and the system are parameters; what the quadratic program is and what its solutions are is in `Verif.Mpc.Kmpc`.
-/

namespace Verif.Mpc

open Verif.Np Verif.Tsc

/-- Exceptions. -/
inductive LoopErr | value | solver | system | tsc (e : TscErr)
deriving DecidableEq, Repr

/-- How an evaluation of the system can fail: with a `RuntimeError` (which ends the loop) or with another exception. -/
inductive SysErr | terminated | other
deriving DecidableEq, Repr

/-- An exception of a collection. -/
def loopTsc {α : Type} : Except TscErr α → Except LoopErr α
  | .ok a => .ok a
  | .error e => .error (.tsc e)

/-- The controller and the system: states `S` of the system, samples `E` of the model, lifted states `Z`, samples `R` of the reference, control inputs `W`. -/
structure Loop (S E Z R W : Type) where
  /-- `self.horizon` -/
  horizon : Nat
  /-- `self.edmd.n_samples_ic_` -/
  nIc : Nat
  /-- `self.edmd.dt_` -/
  dt : Int
  /-- `self.edmd.transform` -/
  lift : List (Row Int E) → List (Row Int Z)
  /-- `qpsolvers.solve_qp` for a lifted state and the reference over the horizon; `none`: no solution -/
  solve : Z → List R → Option (List W)
  /-- `eval_sys(state, U=control, time_values=...)`, the first component of the result -/
  eval : List (Row Int S) → List (Row Int W) → List Int → Except SysErr (List (Row Int S))
  /-- `.loc[:, self.edmd.feature_names_in_]` of a state with the attached control input (`none`: nan) -/
  augmented : S × Option W → E
  /-- `.loc[:, self.edmd.feature_names_in_]` of a state -/
  plain : S → E

/-- The sequences that the loop collects; `U = []` stands for `None`. -/
structure LoopState (S E W : Type) where
  sys : List (Row Int S)
  X : List (Row Int E)
  U : List (Row Int W)
deriving DecidableEq

variable {S E Z R W : Type}

/-- `control_sequence_horizon` (mpc.py 404-474) -/
def Loop.horizonControl (l : Loop S E Z R W) (X : List (Row Int E)) (ref : List (Row Int R)) : Except LoopErr (List (Row Int W)) :=
  match l.lift X with
  | [z] =>
    if (timeValues ref).head? ≠ some (z.time + l.dt) then .error .value
    else if ref.length ≠ l.horizon then .error .value
    else match l.solve z.val (ref.map (·.val)) with
      | none => .error .solver
      | some us =>
        if us.length ≠ (z.time :: (timeValues ref).dropLast).length then .error (.tsc .timeLength)
        else loopTsc (build (List.zipWith (fun t u => (⟨0, t, u⟩ : Row Int W)) (z.time :: (timeValues ref).dropLast) us))
  | _ => .error .value

/-- The reference over the horizon (mpc.py 526-534): `X_ref.iloc[i : i + horizon]`, filled with the last state if it is shorter. -/
def Loop.reference (l : Loop S E Z R W) (ref : List (Row Int R)) (i : Nat) : Except LoopErr (List (Row Int R)) :=
  let w := (ref.drop i).take l.horizon
  if w.length ≠ l.horizon then loopTsc (fillWithLast w l.horizon) else .ok w

/-- The samples that are attached to the history of the model (mpc.py 557-563): with `augment_control` the last sample, otherwise all samples of the evaluated system. -/
def Loop.modelRows (l : Loop S E Z R W) (augment : Bool) (state : List (Row Int S)) (u : List (Row Int W)) : Except LoopErr (List (Row Int E)) :=
  if augment then (loopTsc (augmentControl state u)).map (fun r => (r.drop (r.length - 1)).map (fun x => (⟨x.id, x.time, l.augmented x.val⟩ : Row Int E)))
  else .ok (state.map (fun x => (⟨x.id, x.time, l.plain x.val⟩ : Row Int E)))

/-- The result of one pass through the loop body after the evaluation of the system (mpc.py 557-572). -/
def Loop.collect (l : Loop S E Z R W) (augment : Bool) (s : LoopState S E W) (u : List (Row Int W)) (state : List (Row Int S)) : Except LoopErr (LoopState S E W) :=
  (l.modelRows augment state u).bind fun rows =>
  (loopTsc (build (s.sys ++ state.drop (state.length - 1)))).bind fun sys =>
  (loopTsc (build (s.U ++ u))).bind fun U =>
  (loopTsc (build (s.X ++ rows))).bind fun X => .ok ⟨sys, X, U⟩

/-- One pass through the loop body (mpc.py 524-572); `.inr` is the `break` after a `RuntimeError` of the system. -/
def Loop.pass (l : Loop S E Z R W) (augment : Bool) (ref : List (Row Int R)) (i : Nat) (s : LoopState S E W) : Except LoopErr (LoopState S E W ⊕ Unit) :=
  (l.reference ref i).bind fun r =>
  (l.horizonControl (s.X.drop (s.X.length - l.nIc)) r).bind fun us =>
    let u := us.take 1
    match l.eval (s.sys.drop (s.sys.length - 1)) u [(timeValues u).headD 0, (timeValues r).headD 0] with
    | .error .terminated => .ok (.inr ())
    | .error .other => .error .system
    | .ok state => (l.collect augment s u state).map Sum.inl

/-- The passes for the given indices. -/
def Loop.run (l : Loop S E Z R W) (augment : Bool) (ref : List (Row Int R)) : List Nat → LoopState S E W → Except LoopErr (LoopState S E W)
  | [], s => .ok s
  | i :: is, s => match l.pass augment ref i s with
    | .error e => .error e
    | .ok (.inr _) => .ok s
    | .ok (.inl s') => l.run augment ref is s'

/-- `control_system_reference` (mpc.py 487-573) returns the states of the system and the control inputs. -/
def Loop.control (l : Loop S E Z R W) (augment : Bool) (sysIc : List (Row Int S)) (ref : List (Row Int R)) (Xic : List (Row Int E)) :
    Except LoopErr (List (Row Int S) × List (Row Int W)) :=
  (l.run augment ref (List.range (ref.length - 1)) ⟨sysIc, Xic, []⟩).map (fun s => (s.sys, s.U))

end Verif.Mpc
