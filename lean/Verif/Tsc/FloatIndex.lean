import Verif.Tsc.Index
import Verif.Utils.Settings
/-!
# Model of the index validation for floating point time values

`TSCDataFrame._validate_index` (collection.py 832-923) for an index with non-negative integer IDs and floating point time values, which may be nan or infinite.
-/

namespace Verif.Tsc

open Verif.Utils

/-- `b - a` of floating point numbers (`np.diff`, collection.py 906); finite numbers are subtracted exactly. -/
def flDiff : Fl → Fl → Fl
  | .nan, _ => .nan
  | _, .nan => .nan
  | .fin a, .fin b => .fin (b - a)
  | .posInf, .posInf => .nan
  | .negInf, .negInf => .nan
  | _, .posInf => .posInf
  | _, .negInf => .negInf
  | .posInf, .fin _ => .negInf
  | .negInf, .fin _ => .posInf

/-- `np.any(cond_not_sorted)` (collection.py 904-909). -/
def flNotSorted {V : Type} : List (Row Fl V) → Bool
  | a :: b :: l => (a.id == b.id && (flDiff a.time b.time).le (.fin 0)) || flNotSorted (b :: l)
  | _ => false

/-- `TSCDataFrame._validate_index` (collection.py 832-923) for non-negative integer IDs and floating point time values, in the order of the checks.  (`index.duplicated` of pandas takes nan for equal
to nan.) -/
def constructFloat {V : Type} (c : List (Row Fl V)) : Except Err (List (Row Fl V)) :=
  if anyDuplicated (c.map (·.key)) then .error .duplicatedIndex
  else if c.any (fun r => r.time.lt (.fin 0)) then .error .negativeTime
  else if c.isEmpty then .error .indexError
  else if anyDuplicated (newIds (c.map (·.id))) then .error .idNotUnique
  else if flNotSorted c then .error .notSorted
  else .ok c

end Verif.Tsc
