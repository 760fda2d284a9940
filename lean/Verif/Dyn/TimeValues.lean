import Verif.Np
import Mathlib.Data.Rat.Floor
import Mathlib.Algebra.Order.Field.Rat
/-!
# Model of the time values of a prediction

`datafold/dynfold/base.py`, `TSCPredictMixin`.  Numbers are exact rationals.
-/

namespace Verif.Dyn

open Verif.Np

/-- An entry of a numpy array of numbers; `NaT` counts as `nan`. -/
inductive Num | fin (q : Rat) | nan | posInf | negInf
deriving DecidableEq, Repr

/-- `dtype.kind`: `i`, `u`, `f`, `M`, anything else. -/
inductive Kind | int | uint | float | datetime | other
deriving DecidableEq, Repr

/-- A numpy array as far as it is looked at. -/
structure Arr where
  ndim : Nat
  kind : Kind
  vals : List Num
deriving DecidableEq, Repr

/-- Exceptions. -/
inductive TvErr | dim | dtype | negative | notFinite | notIncreasing | reference | noTimes | lengthMismatch | uMismatch | tooSmall | shape
deriving DecidableEq, Repr

/-- `time_values < 0` for one entry. -/
def Num.isNeg : Num → Bool
  | .fin q => decide (q < 0)
  | .negInf => true
  | _ => false

/-- `np.isfinite` -/
def Num.isFinite : Num → Bool
  | .fin _ => true
  | _ => false

/-- The rational of a finite entry. -/
def Num.get : Num → Rat
  | .fin q => q
  | _ => 0

/-- Two's complement wrap around of 64 bit subtraction. -/
def wrapSigned (z : Int) : Int := (z + 2 ^ 63) % 2 ^ 64 - 2 ^ 63

/-- One entry of `np.diff`: integer and datetime arrays subtract as 64 bit signed integers, unsigned arrays modulo `2^64`. -/
def diffEntry (k : Kind) (a b : Rat) : Rat :=
  match k with
  | .uint => ((b - a).num % 2 ^ 64 : Int)
  | .int | .datetime => wrapSigned (b - a).num
  | _ => b - a

/-- `np.diff` -/
def npDiffQ (k : Kind) : List Rat → List Rat
  | a :: b :: l => diffEntry k a b :: npDiffQ k (b :: l)
  | _ => []

/-- `TSCPredictMixin._validate_time_values_format` (base.py 646-679). -/
def validateTimeValuesFormat (a : Arr) : Except TvErr (List Rat) :=
  if a.ndim ≠ 1 then .error .dim
  else if a.kind = .other then .error .dtype
  else if a.kind ≠ .datetime ∧ a.vals.any Num.isNeg then .error .negative
  else if !a.vals.all Num.isFinite then .error .notFinite
  else if !((npDiffQ a.kind (a.vals.map Num.get)).all (fun d => decide (0 < d))) then .error .notIncreasing
  else .ok (a.vals.map Num.get)

/-- The control input as far as time values are concerned: absent, a collection with its time values, an array with `n` rows. -/
inductive Control
  | none
  | tsc (times : List Rat)
  | array (n : Nat)
deriving DecidableEq, Repr

/-- `np.arange(start, stop, step)` for `step > 0`: `ceil((stop - start) / step)` values. -/
def npArange (start stop step : Rat) : List Rat := (List.range (⌈(stop - start) / step⌉).toNat).map (fun (k : Nat) => start + k * step)

/-- The time reference (base.py 516-534): the common final time of the initial conditions if they are a collection, else the first time of
a control collection, else 0 (for datetimes the current time, not modelled).  `finals` are the final time values of `X` if it is a collection. -/
def reference (finals : Option (List Rat)) (u : Control) : Except TvErr Rat :=
  match finals with
  | some l => match unique l with
    | [r] => .ok r
    | _ => .error .reference
  | Option.none => match u with
    | .tsc (t :: _) => .ok t
    | _ => .ok 0

/-- `_numerical_tol` (base.py 536-543): none for integer and datetime references. -/
def numTol (intLike : Bool) : Rat := if intLike then 0 else 1 / 10 ^ 14

/-- `[ref, ref + dt]`, the time values of the control or an `arange` (base.py 545-583): `time_values=None`. -/
def defaultTimes (ref dt tol : Rat) (reqLast : Bool) (u : Control) : Except TvErr (List Rat) :=
  match u with
  | .none => .ok [ref, ref + dt]
  | .tsc times =>
    let all := if reqLast then times else times ++ [times.getLastD 0 + dt]
    let l := all.filter (fun t => decide (ref - tol ≤ t))
    if l.isEmpty then .error .noTimes else .ok l
  | .array n => .ok (npArange ref (ref + tol + ((n : Rat) + (if reqLast then 0 else 1)) * dt) dt)

/-- The checks of given time values against the control input (base.py 587-621). -/
def checkControlTimes (ref dt tol : Rat) (reqLast : Bool) (u : Control) (times : List Rat) : Except TvErr Unit :=
  match u with
  | .none => .ok ()
  | .array n => if times.length ≠ n + (if reqLast then 0 else 1) then .error .lengthMismatch else .ok ()
  | .tsc ut =>
    let req := ut.filter (fun t => decide (ref - tol ≤ t))
    if !reqLast ∧ req = [] then .error .shape     -- IndexError
    else
      let req := if reqLast then req else req ++ [req.getLastD 0 + dt]
      if times.length ≠ req.length ∨ !((times.zip req).all (fun p => decide (|p.1 - p.2| ≤ tol))) then .error .uMismatch else .ok ()

/-- `TSCPredictMixin._validate_and_set_time_values_predict` (base.py 492-644).  `finals`: final time values of `X` if it is a collection;
`given`: the time values passed by the user, already accepted by `validateTimeValuesFormat`.  An empty array of given time values (which the format check
accepts) raises an `IndexError` later; it is `shape` here. -/
def predictTimes (finals : Option (List Rat)) (u : Control) (dt : Rat) (intLike reqLast : Bool) (given : Option (List Rat)) :
    Except TvErr (List Rat) :=
  match reference finals u with
  | .error e => .error e
  | .ok ref =>
    let tol := numTol intLike
    match given with
    | Option.none => defaultTimes ref dt tol reqLast u
    | some times =>
      match checkControlTimes ref dt tol reqLast u times with
      | .error e => .error e
      | .ok _ =>
        if finals.isNone then .ok times
        else if times.any (fun t => decide (t < ref - tol)) then .error .tooSmall
        else match times with
          | [] => .error .shape
          | t :: _ => if tol < |ref - t| then .ok (ref :: times) else .ok times

/-- `DMDBase.predict` turning an array of control inputs with `n` rows into a collection (dmd.py 369-388): the index gets all time values of the
prediction; pandas raises if their number is not the number of rows. -/
def dmdControlFromArray (n : Nat) (times : List Rat) : Except TvErr (List Rat) :=
  if times.length ≠ n then .error .shape else .ok times

/-- `EDMD.predict` doing the same (edmd.py 1187-1196) with `time_values[:-1]`. -/
def edmdControlFromArray (n : Nat) (times : List Rat) : Except TvErr (List Rat) :=
  if times.dropLast.length ≠ n then .error .shape else .ok times.dropLast

end Verif.Dyn
