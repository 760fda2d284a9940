import Verif.Tsc.Model
/-!
# Model of the selection of rows of a `TSCDataFrame`

`datafold/pcfold/timeseries/collection.py`: `[...]`, `.loc[...]`, `.iloc[...]`, `.xs(...)` and assignments through the indexers.

pandas itself is not modelled: what it does before datafold's code runs is described by the rows it hands to `TSCDataFrame._constructor`
(a boolean mask selects in the order of the frame, lists of index entries and of positions select in the order of the list).  Only selections
of rows; the columns stay.
-/

namespace Verif.Tsc

open Verif.Np

variable {τ V : Type} [LinearOrder τ]

/-- What a selection returns: a `TSCDataFrame`, or the fallback `pd.DataFrame`. -/
inductive Selected (τ V : Type)
  | tsc (c : List (Row τ V))
  | frame (c : List (Row τ V))
deriving DecidableEq, Repr

/-- Exceptions: the `KeyError`, `IndexError` and `ValueError` of pandas, and what the validation raises (an `AttributeError`, except for
`Err.indexError`, which is an `IndexError`). -/
inductive SelErr
  | key | position | length | validate (e : Err)
deriving DecidableEq, Repr

/-- pandas calls `TSCDataFrame._constructor` (collection.py 824-826) with the selected rows; `__init__` (collection.py 309-356) validates. -/
def selBuild (rows : List (Row τ V)) : Except SelErr (Selected τ V) :=
  match construct rows with
  | .ok c => .ok (.tsc c)
  | .error e => .error (.validate e)

/-- `tsc[mask]` and `tsc.loc[mask]` with a boolean mask: `__getitem__` (collection.py 1279-1292), `_LocTSCIndexer.__getitem__`
(collection.py 149-167).  In both, the rows are selected and validated inside the call of the super class: for `loc` before the `try`, for
`[...]` also outside of it, so that the fallback below is not reached. -/
def getMask (c : List (Row τ V)) (mask : List Bool) : Except SelErr (Selected τ V) :=
  if mask.length ≠ c.length then .error .length
  else selBuild (((c.zip mask).filter (·.2)).map (·.1))

/-- The row stored under an index entry. -/
def rowAt (c : List (Row τ V)) (k : Key τ) : Except SelErr (Row τ V) :=
  match c.find? (fun r => decide (r.key = k)) with
  | some r => .ok r
  | none => .error .key

/-- `tsc.loc[keys, :]` with an index or a list of (ID, time) entries: `_LocTSCIndexer.__getitem__` (collection.py 149-167). -/
def locIndex (c : List (Row τ V)) (keys : List (Key τ)) : Except SelErr (Selected τ V) := do
  let rows ← keys.mapM (rowAt c)
  selBuild rows

/-- The row at a position, counted from the end if negative. -/
def rowPos (c : List (Row τ V)) (p : Int) : Except SelErr (Row τ V) :=
  if p < -(c.length : Int) ∨ (c.length : Int) ≤ p then .error .position
  else match c[(if p < 0 then p + c.length else p).toNat]? with
    | some r => .ok r
    | none => .error .position

/-- `tsc.iloc[positions, :]`: `_iLocTSCIndexer.__getitem__` (collection.py 176-195). -/
def ilocList (c : List (Row τ V)) (pos : List Int) : Except SelErr (Selected τ V) := do
  let rows ← pos.mapM (rowPos c)
  selBuild rows

/-- `tsc.xs(key, level, drop_level)` (collection.py 1248-1277) for a level of the index: pandas selects the rows on a plain `DataFrame`.  If
the level is dropped, then the index has one level left and the conversion to `TSCDataFrame` raises an `AttributeError`, which is caught. -/
def xsRows (c : List (Row τ V)) (p : Row τ V → Bool) (dropLevel : Bool) : Except SelErr (Selected τ V) :=
  if (c.filter p).isEmpty then .error .key
  else if dropLevel then .ok (.frame (c.filter p))
  else match construct (c.filter p) with
    | .ok d => .ok (.tsc d)
    | .error .indexError => .error (.validate .indexError)
    | .error _ => .ok (.frame (c.filter p))

/-- `tsc.xs(i)` -/
def xsId (c : List (Row τ V)) (i : Nat) (dropLevel : Bool) : Except SelErr (Selected τ V) := xsRows c (fun r => decide (r.id = i)) dropLevel

/-- `tsc.xs(t, level="time")` -/
def xsTime (c : List (Row τ V)) (t : τ) (dropLevel : Bool) : Except SelErr (Selected τ V) := xsRows c (fun r => decide (r.time = t)) dropLevel

/-- A value on the right side of an assignment. The flags say whether the entries (of an array, of a column, of a list) are numbers. -/
inductive Assigned
  | number
  | array (numeric : Bool)
  | series (numeric : Bool)
  | frame (numeric : List Bool)
  | list (numeric : Bool)
  | other
deriving DecidableEq, Repr

/-- `_is_numeric_dtype` (collection.py 133-143), the check of `_LocTSCIndexer.__setitem__` (collection.py 169-172) and
`_iLocTSCIndexer.__setitem__` (collection.py 197-200). -/
def isNumericValue : Assigned → Bool
  | .number => true
  | .array b => b
  | .series b => b
  | .frame l => l.all id
  | _ => false

end Verif.Tsc
