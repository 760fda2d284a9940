import Verif.Tsc.Select
import Verif.Tsc.Orient
import Verif.Tsc.Folds
import Verif.Tsc.Frames
import Verif.Edmd.Reconstruct
/-!
# Histories of operations on time series collections

`TSCDataFrame` objects are mutable: several methods of the `tsc` accessor assign the index of the collection they are called on and return the same object, and `insert_ts` assigns the index of its
argument.  A heap of collections models which objects a call creates and which it changes.  Integer time values (numbers of the unit for datetimes); values are not changed in place.
-/

namespace Verif.Tsc

open Verif.Np

variable {V : Type}

/-- A `TSCDataFrame` object: the type of its time values and its rows. -/
structure Obj (V : Type) where
  kind : TimeKind
  rows : List (Row Int V)

/-- All collections the user holds, by address. -/
abbrev Heap (V : Type) := List (Obj V)

/-- `tsc.shift_time_per_time_series(shift_values)` (accessor.py 558-637) with shift values for all time series, without `ensure_identical_values`: the result and the collection the
method was called on, as it is afterwards.  The IDs of the shift values are compared with the sorted IDs; the values are repeated in this order and added to the time values in the order of the index. -/
def shiftSeries (k : TimeKind) (c : List (Row Int V)) (shifts : List (Nat × Int)) : Except TscErr (List (Row Int V)) × List (Row Int V) :=
  if shifts.map (·.1) ≠ ids c then (.error .incompatible, c)
  else if shifts.all (fun p => p.2 == 0) then (.ok c, c)
  else match buildInt k (List.zipWith (fun (r : Row Int V) (s : Int) => { r with time := r.time + s }) c (Edmd.repeatSteps (shifts.map (·.2)) (nTimesteps c))) with
    | .ok c' => (.ok c', c')
    | .error e => (.error e, c)

/-- `tsc.normalize_time` (accessor.py 639-687) with its effect: the index is assigned to the collection itself, then the assertion is evaluated.  The time values are integers afterwards. -/
def normalizeObj (o : Obj V) : Bool × Obj V :=
  match deltaTime o.kind o.rows with
  | .one (some d) =>
    match build (o.rows.map (fun r => { r with time := (r.time - minTime o.rows) / d })) with
    | .error _ => (false, o)
    | .ok c' => (isNormalizedTime .int c', ⟨.int, c'⟩)
  | _ => (false, o)

/-- Calls that create new objects: `initial_states`, `final_states`, `drop_last_n_samples`, `assign_ids_const_delta`, `assign_ids_train_test`, `loc`, a boolean mask, `iloc`, `expand_time_values`,
`fill_timeseries_with_last_state` and `insert_ts` with a frame that is not a collection. -/
inductive Query (V : Type)
  | initial (n : Int) | final (n : Int) | dropLast (n : Int) | constDelta (drop : Bool) | trainTest (train test : List Nat)
  | loc (keys : List (Key Int)) | mask (m : List Bool) | iloc (pos : List Int)
  | expand (times : List Int) (v : V) | fill (n : Nat) | insertPlain (df : List (Int × V)) (tsId : Option Int)

/-- The collection of a result, `none` for an exception or a plain `pd.DataFrame`. -/
def Selected.tsc? {τ : Type} : Selected τ V → Option (List (Row τ V))
  | .tsc c => some c
  | .frame _ => none

/-- The collections a query returns (accessor.py 523-556, 689-702, 845-1158; collection.py 149-195, 1279-1292, 1416-1474, 1610-1668); `none`: an exception.  New time values are checked for negative numbers. -/
def query (o : Obj V) : Query V → Option (List (List (Row Int V)))
  | .initial n => (initialStates o.rows n).toOption.map ([·])
  | .final n => (finalStates o.rows n).toOption.map ([·])
  | .dropLast n => (dropLastInt o.rows n).toOption.map ([·])
  | .constDelta drop => (assignIdsConstDelta o.kind drop o.rows).toOption.map (·.toList)
  | .trainTest train test => (assignIdsTrainTest o.rows train test).toOption.map (fun p => [p.1, p.2])
  | .loc keys => (locIndex o.rows keys).toOption.map (·.tsc?.toList)
  | .mask m => (getMask o.rows m).toOption.map (·.tsc?.toList)
  | .iloc pos => (ilocList o.rows pos).toOption.map (·.tsc?.toList)
  | .expand times v => (expandTimeValues o.rows times v).toOption.bind (fun d => (buildInt o.kind d).toOption.map ([·]))
  | .fill n => if o.kind = .int then (fillWithLast o.rows n).toOption.bind (fun d => (buildInt o.kind d).toOption.map ([·])) else none
  | .insertPlain df tsId => (insertFrame o.rows (.plain df) tsId).1.toOption.bind (fun d => (buildInt o.kind d).toOption.map ([·]))

/-- One call on the collection at an address: a query, a method that works in place (`assign_ids_sequential`, `normalize_time`, `shift_time_by_delta`, `shift_time_per_time_series`), or `insert_ts` of
the collection at a second address. -/
inductive Call (V : Type)
  | query (q : Query V)
  | sequential | normalize | shift (s : Int) | shiftSeries (shifts : List (Nat × Int))
  | insert (b : Nat) (tsId : Option Int)

/-- A method that works in place: does it return, and the object afterwards (accessor.py 469-499, 558-687, 826-843). -/
def inPlace (o : Obj V) : Call V → Bool × Obj V
  | .sequential => match assignIdsSequential o.rows with
    | .ok c => (true, ⟨o.kind, c⟩)
    | .error _ => (false, o)
  | .normalize => normalizeObj o
  | .shift s => ((shiftTime o.kind o.rows s).1.isOk, ⟨o.kind, (shiftTime o.kind o.rows s).2⟩)
  | .shiftSeries l => ((Verif.Tsc.shiftSeries o.kind o.rows l).1.isOk, ⟨o.kind, (Verif.Tsc.shiftSeries o.kind o.rows l).2⟩)
  | _ => (false, o)

/-- `a.insert_ts(b, ts_id)` (collection.py 1416-1474): the index of `b` is assigned (1466-1470) before the two objects are concatenated (1473). -/
def insertObj (h : Heap V) (a b : Nat) (o p : Obj V) (tsId : Option Int) : Heap V × Option (List Nat) :=
  if o.kind ≠ p.kind then (h, none)
  else if (ids o.rows).any (fun j => (j : Int) == insertId o.rows tsId) then (h, none)
  else if insertId o.rows tsId < 0 then (h, none)
  else match build (p.rows.map (fun r => { r with id := (insertId o.rows tsId).toNat })) with
    | .error _ => (h, none)
    | .ok d => match build ((if a = b then d else o.rows) ++ d) with
      | .error _ => (h.set b ⟨p.kind, d⟩, none)
      | .ok c => (h.set b ⟨p.kind, d⟩ ++ [⟨o.kind, c⟩], some [h.length])

/-- One call: the heap afterwards and the addresses of the returned collections (`none`: an exception). -/
def step (h : Heap V) (a : Nat) (call : Call V) : Heap V × Option (List Nat) :=
  match h[a]? with
  | none => (h, none)
  | some o => match call with
    | .query q => match query o q with
      | none => (h, none)
      | some l => (h ++ l.map (fun c => ⟨o.kind, c⟩), some ((List.range l.length).map (· + h.length)))
    | .insert b tsId => match h[b]? with
      | none => (h, none)
      | some p => insertObj h a b o p tsId
    | call => (h.set a (inPlace o call).2, if (inPlace o call).1 then some [a] else none)

/-- A history of calls: the user goes on after exceptions. -/
def run (h : Heap V) : List (Nat × Call V) → Heap V
  | [] => h
  | s :: l => run (step h s.1 s.2).1 l

end Verif.Tsc
