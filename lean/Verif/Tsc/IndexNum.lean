import Verif.Tsc.Index
import Mathlib.Data.Rat.Floor
import Mathlib.Algebra.Order.Field.Rat
/-!
# The check that time values are sorted, in machine arithmetic

`np.diff(_time_index_num) <= 0.0` (collection.py 899-907) subtracts with the number type of the time values.  `Verif.Tsc.Index` subtracts exactly; here differences of unsigned integers and of datetimes
(64 bit integers) wrap around as they do in numpy.
-/

namespace Verif.Tsc

/-- Subtraction of signed 64 bit integers wraps around into the range from -2^63 to 2^63 - 1. -/
def wrapSigned (x : Rat) : Rat := x - 2 ^ 64 * ⌊(x + 2 ^ 63) / 2 ^ 64⌋

/-- Subtraction of unsigned 64 bit integers wraps around into the range from 0 to 2^64 - 1.  (Narrower unsigned types wrap around at a smaller power of two.) -/
def wrapUnsigned (x : Rat) : Rat := x - 2 ^ 64 * ⌊x / 2 ^ 64⌋

/-- `np.diff(_time_index_num)` for one neighbouring pair (collection.py 899-906).  Signed integers are not negative here (collection.py 893-897), so their differences do not wrap around. -/
def numDiff (k : Kind) (a b : Rat) : Rat :=
  match k with
  | .u => wrapUnsigned (b - a)
  | .M => wrapSigned (b - a)
  | _ => b - a

/-- `np.diff(_time_index_num) <= 0.0` for one neighbouring pair, false for NaN. -/
def stepNonPos (k : Kind) (a b : Option Rat) : Bool :=
  match timeNum k a, timeNum k b with
  | some a, some b => decide (numDiff k a b ≤ 0)
  | _, _ => false

/-- `np.any(cond_not_sorted)` (collection.py 904-909). -/
def anyUnsorted (k : Kind) : List (Option Rat × Option Rat) → Bool
  | a :: b :: l => (a.1 == b.1 && stepNonPos k a.2 b.2) || anyUnsorted k (b :: l)
  | _ => false

/-- `TSCDataFrame._validate_index` (collection.py 832-923) with the machine arithmetic of the last check. -/
def validateIndexNum (r : RawIndex) : Except Err Unit :=
  if !r.multi then .error .notMultiIndex
  else if r.nlevels ≠ 2 then .error .notTwoLevels
  else if anyDuplicated r.rows then .error .duplicatedIndex
  else if !idsInteger (r.rows.map (·.1)) then .error .idNotInteger
  else if anyNeg (r.rows.map (·.1)) then .error .negativeId
  else if !kindAllowed r.fixedDelta r.kind then .error .timeDtype
  else if (r.kind == .u || r.kind == .i || r.kind == .f) && anyNeg (r.rows.map (·.2)) then .error .negativeTime
  else if r.rows.isEmpty then .error .indexError
  else if anyDuplicated (newIds (r.rows.map (·.1))) then .error .idNotUnique
  else if anyUnsorted r.kind r.rows then .error .notSorted
  else .ok ()

end Verif.Tsc
