import Verif.Tsc.DeltaTime
import Mathlib.Algebra.Order.Field.Rat
import Mathlib.Data.Rat.Floor
/-!
# Model of `TSCDataFrame.delta_time` and `tsc.normalize_time` for floating point time values

`collection.py` 984-1144, 1330-1347 and `accessor.py` 639-687.  The time values are the rational numbers that the floats are; the arithmetic is exact (no rounding of the differences and quotients).
-/

namespace Verif.Tsc

open Verif.Np

variable {V : Type}

/-- Exceptions: `np.min` of an empty array raises a ValueError. -/
inductive RealErr | emptyMin | notConst | tsc (e : TscErr)
deriving DecidableEq, Repr

/-- `atol = 1e-16` (collection.py 1048). -/
def tolA : ℚ := 1 / 10 ^ 16

/-- `rtol = 3e-12` (collection.py 1047). -/
def tolR : ℚ := 3 / 10 ^ 12

/-- `np.diff` (collection.py 1034). -/
def qDiff (l : List ℚ) : List ℚ := List.zipWith (fun a b => b - a) l l.tail

/-- `np.min` of a non-empty array (collection.py 1069, 1099, 1112). -/
def qMin : List ℚ → ℚ
  | [] => 0
  | d :: l => l.foldl min d

/-- The value for the differences of one series in the equal length branch (collection.py 1063-1078): the smallest difference, if `diff_times[:, 1:]` is close to it; the first difference is not compared. -/
def qRowDelta : List ℚ → Option ℚ
  | [] => none
  | [d] => some d
  | d :: l =>
    if l.all (fun x => decide (|x - qMin (d :: l)| < tolA)) || l.all (fun x => decide (|x - qMin (d :: l)| / qMin (d :: l) < tolR)) then some (qMin (d :: l))
    else none

/-- `dt_result_series` after the equal length branch (collection.py 1050-1088), in the order of the blocks. -/
def qEqualLength (c : List (Row ℚ V)) (n : Nat) : List (Option ℚ) :=
  if n = 1 then (ids c).map (fun _ => none)
  else
    let diffs := qDiff (c.map (·.time))
    let masked := (diffs.zipIdx.filter (fun p => !(p.2 % n == n - 1))).map (·.1)
    (reshapeRows (nTimeseries c) (n - 1) masked).map qRowDelta

/-- `np.allclose(m, x, atol=atol, rtol=rtol)` for one number (collection.py 1098-1101, 1111-1113). -/
def qClose (m x : ℚ) : Bool := decide (|m - x| ≤ tolA + tolR * |x|)

/-- The value for one series in the loop for unequal lengths (collection.py 1089-1105); `np.min` of no differences raises. -/
def qLoopDelta : List ℚ → Except RealErr (Option ℚ)
  | [] => .error .emptyMin
  | d :: l => if (d :: l).all (qClose (qMin (d :: l))) then .ok (some d) else .ok none

/-- The loop over the IDs: the first exception leaves the loop. -/
def qLoop (f : Nat → Except RealErr (Option ℚ)) : List Nat → Except RealErr (List (Option ℚ))
  | [] => .ok []
  | i :: l => match f i with
    | .error e => .error e
    | .ok x => match qLoop f l with
      | .error e => .error e
      | .ok xs => .ok (x :: xs)

/-- The differences of the series with ID `i` in the loop (collection.py 1092). -/
def qIdDiffs (c : List (Row ℚ V)) (i : Nat) : List ℚ := (((c.map (·.id)).zipIdx.filter (fun p => p.1 == i)).map (·.2)).dropLast.map (fun p => (qDiff (c.map (·.time))).getD p 0)

/-- `dt_result_series` (collection.py 1016-1105). -/
def qDeltaList (c : List (Row ℚ V)) : Except RealErr (List (Option ℚ)) :=
  match nTimesteps c with
  | .one n => .ok (qEqualLength c n)
  | .per _ => qLoop (fun i => qLoopDelta (qIdDiffs c i)) (ids c)

/-- `is_global_unique` (collection.py 1107-1124): `np.min` skips nan, and nan is never close. -/
def qGlobalUnique (dts : List (Option ℚ)) : Bool :=
  if dts.all (·.isNone) then true
  else dts.all (fun x => match x with
    | none => false
    | some x => qClose (qMin (dts.filterMap id)) x)

/-- `TSCDataFrame.delta_time` (collection.py 984-1144) without `fixed_delta`. -/
def realDelta (c : List (Row ℚ V)) : Except RealErr (PerId (Option ℚ)) :=
  match qDeltaList c with
  | .error e => .error e
  | .ok dts => if nTimeseries c = 1 ∨ qGlobalUnique dts = true then .ok (.one (dts.headD none)) else .ok (.per ((ids c).zip dts))

/-- `tsc.normalize_time` (accessor.py 639-687): the quotients are truncated; `min` is the smallest time value. -/
def realNormalize (c : List (Row ℚ V)) : Except RealErr (List (Row Int V)) :=
  match realDelta c with
  | .error e => .error e
  | .ok (.one (some d)) =>
    match build (c.map (fun r => (⟨r.id, ⌊(r.time - qMin (c.map (·.time))) / d⌋, r.val⟩ : Row Int V))) with
    | .error e => .error (.tsc e)
    | .ok c' => if isNormalizedTime .int c' then .ok c' else .error (.tsc .incompatible)
  | .ok _ => .error .notConst

end Verif.Tsc
