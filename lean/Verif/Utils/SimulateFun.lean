import Mathlib.Data.Rat.Cast.Defs
import Verif.Utils.Simulate
/-!
# Model of simulations with a control function

`ControllableODE.predict` (datafold/utils/_systems.py 124-288) for a callable control input.  The solver is a parameter and gets the function; floating point times are rational numbers, sampled times are integers.
-/

namespace Verif.Utils

open Verif.Np Verif.Tsc

variable {E W : Type}

/-- A callable control input: what it returns for one time and one state (_systems.py 243), and for the stacked times and states of all series (_systems.py 283); `none` stands for an exception. -/
structure ControlFun (E W : Type) where
  single : ℚ → E → W
  stacked : List Int → List E → Option (List W)

/-- The time values (_systems.py 157-167, base.py 543-548, 579-646): a control function needs at least two given values; those of a collection start with the reference. -/
def funTimes (isTsc : Bool) (ref : Int) (given : Option (List Int)) : Except IvpErr (List Int) :=
  match given with
  | none => .error .timeValues
  | some tv =>
    if timesOk tv = false then .error .format
    else if isTsc = false then .ok tv
    else if tv.any (fun t => decide (t < ref)) = true then .error .tooSmall
    else if tv.headD 0 = ref then .ok tv else .ok (ref :: tv)

/-- The control data that are returned with the states `S` (_systems.py 271-286): the function is called once, with all samples but the last of each series; `from_same_indices_as` needs one row for each sample. -/
def funControl (f : ControlFun E W) (S : List (Row Int E)) : Except IvpErr (List (Row Int W)) :=
  (ofTsc (dropLastN S 1)).bind fun B =>
  match f.stacked (B.map (·.time)) (B.map (·.val)) with
  | none => .error .control
  | some ws =>
    if ws.length ≠ B.length then .error .control
    else ofTsc (build (List.zipWith (fun (r : Row Int E) (w : W) => (⟨r.id, r.time, w⟩ : Row Int W)) B ws))

/-- The loop over the initial states and the results (_systems.py 211-288). -/
def runFun (solve : (ℚ → E → W) → E → List Int → Option (List E)) (f : ControlFun E W) (xs : List E) (tv : List Int) : Except IvpErr (List (Row Int E) × List (Row Int W)) :=
  (xs.mapM (solveFrame (solve f.single) tv)).bind fun frames =>
  (ofTsc (fromFrameList (frames.map Sum.inr) none)).bind fun S =>
  (funControl f S).bind fun u => .ok (S, u)

/-- `ControllableODE.predict` (_systems.py 124-288) with a callable control. -/
def simulateFun (solve : (ℚ → E → W) → E → List Int → Option (List E)) (f : ControlFun E W) (X : List E ⊕ List (Row Int E)) (given : Option (List Int)) :
    Except IvpErr (List (Row Int E) × List (Row Int W)) :=
  (simDelta (W := W) 1 .none given).bind fun _ =>
  (simReference (W := W) X (.inl [])).bind fun ref =>
  (funTimes X.isRight ref given).bind fun tv =>
  runFun solve f (simStates X) tv

end Verif.Utils
