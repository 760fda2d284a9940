import Verif.Tsc.Index
/-!
# Model of `TSCDataFrame` methods and of the `tsc` accessor

`datafold/pcfold/timeseries/collection.py` and `datafold/pcfold/timeseries/accessor.py`.
A collection is the list of its rows in index order; time values are elements of a linear order `τ`, values of any type
`V` (a row of feature values).
-/

namespace Verif.Tsc

open Verif.Np

variable {τ V : Type} [LinearOrder τ]

/-- `TSCDataFrame.ids` (collection.py 977-982): the used values of index level 0, which pandas keeps sorted. -/
def ids (c : List (Row τ V)) : List Nat := unique (c.map (·.id))

/-- `TSCDataFrame.n_timeseries` (collection.py 966-969). -/
def nTimeseries (c : List (Row τ V)) : Nat := (ids c).length

/-- `counts` of `np.unique(ids, return_counts=True)` (collection.py 1156-1158). -/
def counts (c : List (Row τ V)) : List Nat := (ids c).map (fun i => (c.map (·.id)).count i)

/-- Result type of properties that return one value for all series or a `pd.Series` indexed by (sorted) ID. -/
inductive PerId (α : Type)
  | one (a : α)
  | per (l : List (Nat × α))
deriving DecidableEq, Repr

/-- `TSCDataFrame.n_timesteps` (collection.py 1146-1165). An empty collection cannot be constructed; there `counts[0]` has no value
and we return 0. -/
def nTimesteps (c : List (Row τ V)) : PerId Nat :=
  if nTimeseries c = 1 ∨ (unique (counts c)).length = 1 then .one ((counts c).headD 0)
  else .per ((ids c).zip (counts c))

/-- The values inside a `PerId` (`np.asarray(n_timesteps)`). -/
def PerId.values {α : Type} : PerId α → List α
  | .one a => [a]
  | .per l => l.map (·.2)

/-- `TSCDataFrame.time_values` without fixed delta (collection.py 1492-1511). -/
def timeValues (c : List (Row τ V)) : List τ := unique (c.map (·.time))

/-- `TSCDataFrame.is_equal_length` (collection.py 1324-1328). -/
def isEqualLength (c : List (Row τ V)) : Bool := (unique (nTimesteps c).values).length == 1

/-- `TSCDataFrame.is_same_time_values` (collection.py 1349-1369). -/
def isSameTimeValues (c : List (Row τ V)) : Bool :=
  if nTimeseries c = 1 then true
  else match nTimesteps c with
    | .per _ => false
    | .one n => n == (timeValues c).length

/-- `TSCDataFrame.degenerate_ids` (collection.py 1387-1408). -/
def degenerateIds (c : List (Row τ V)) : Option (List Nat) :=
  match nTimesteps c with
  | .per l => let d := (l.filter (fun p => p.2 == 1)).map (·.1); if d.isEmpty then none else some d
  | .one n => if n = 1 then some (ids c) else none

/-- `TSCDataFrame.itertimeseries` (collection.py 1298-1322): `groupby` on the ID level iterates over sorted IDs. -/
def itertimeseries (c : List (Row τ V)) : List (Nat × List (τ × V)) :=
  (ids c).map (fun i => (i, (c.filter (fun r => r.id == i)).map (fun r => (r.time, r.val))))

/-- Exceptions of the methods below. -/
inductive TscErr
  | index (e : Err) | nSamples | minTimesteps | idExists | columnMismatch | incompatible | tensorDim | idsLength | idsNotUnique
  | timeLength | shapeMismatch | emptyList | notSameTimeValues | notConstDelta | orientation
deriving DecidableEq, Repr

/-- The constructor call `TSCDataFrame(data, index)` inside a method: an invalid index raises. -/
def build (c : List (Row τ V)) : Except TscErr (List (Row τ V)) :=
  match construct c with
  | .ok c => .ok c
  | .error e => .error (.index e)

/-- `check_required_min_timesteps` (accessor.py 279-293). -/
def checkMinTimesteps (c : List (Row τ V)) (n : Int) : Bool := !((nTimesteps c).values.any (fun k => decide ((k : Int) < n)))

/-- `groupby(ID).head(n)` of pandas for one frame: keeps a row iff fewer than `n` rows of the same ID precede it.
`seen` is the list of rows already passed. -/
def groupHead (n : Nat) : (seen : List Nat) → List (Row τ V) → List (Row τ V)
  | _, [] => []
  | seen, r :: c => if seen.count r.id < n then r :: groupHead n (r.id :: seen) c else groupHead n (r.id :: seen) c

/-- `groupby(ID).tail(n)` of pandas: keeps a row iff fewer than `n` rows of the same ID follow it. -/
def groupTail (n : Nat) : List (Row τ V) → List (Row τ V)
  | [] => []
  | r :: c => if (c.map (·.id)).count r.id < n then r :: groupTail n c else groupTail n c

/-- `TSCDataFrame.initial_states` (collection.py 1610-1638). -/
def initialStates (c : List (Row τ V)) (n : Int) : Except TscErr (List (Row τ V)) :=
  if n < 1 then .error .nSamples
  else if !checkMinTimesteps c n then .error .minTimesteps
  else build (groupHead n.toNat [] c)

/-- `TSCDataFrame.final_states` (collection.py 1640-1670). -/
def finalStates (c : List (Row τ V)) (n : Int) : Except TscErr (List (Row τ V)) :=
  if n < 1 then .error .nSamples
  else if !checkMinTimesteps c n then .error .minTimesteps
  else build (groupTail n.toNat c)

/-- `DataFrame.drop(index)`: remove the rows whose index entry is listed. -/
def dropKeys [DecidableEq (Key τ)] (c : List (Row τ V)) (ks : List (Key τ)) : List (Row τ V) :=
  c.filter (fun r => !(ks.contains r.key))

/-- `tsc.drop_last_n_samples` (accessor.py 689-702).  For a non-negative `n` (pandas' `tail` reads a negative `n` differently). -/
def dropLastN (c : List (Row τ V)) (n : Nat) : Except TscErr (List (Row τ V)) :=
  if !checkMinTimesteps c n then .error .minTimesteps
  else build (dropKeys c ((groupTail n c).map (·.key)))

/-- `tsc.assign_ids_sequential` (accessor.py 826-843): level 0 (the sorted IDs) is replaced by `arange(n)`, so every ID becomes its
position among the sorted IDs.  (Setting the index validates it again.) -/
def assignIdsSequential (c : List (Row τ V)) : Except TscErr (List (Row τ V)) :=
  build (c.map (fun r => { r with id := (ids c).idxOf r.id }))

/-- `np.delete(values, idx, axis=0)`: remove the listed positions. -/
def npDelete {α : Type} (l : List α) (idx : List Nat) : List α :=
  (l.zipIdx.filter (fun p => !(idx.contains p.2))).map (·.1)

/-- `values[start::step]` for `step ≥ 1`: the elements at positions `start, start + step, ...`. -/
def npStep {α : Type} (l : List α) (start step : Nat) : List α :=
  (l.zipIdx.filter (fun p => decide (start ≤ p.2) && (p.2 - start) % step == 0)).map (·.1)

/-- `np.append(0, counts).cumsum()` -/
def cumsumFrom (o : Nat) : List Nat → List Nat
  | [] => [o]
  | n :: l => o :: cumsumFrom (o + n) l

/-- The index arithmetic of `tsc.shift_matrices` (accessor.py 1224-1254), row orientation, without the validation. -/
def shiftRows (c : List (Row τ V)) : List V × List V :=
  let values := c.map (·.val)
  if nTimeseries c = 1 then (values.dropLast, values.tail)
  else match nTimesteps c with
    | .one k =>
      if k = 2 then (npStep values 0 2, npStep values 1 2)
      else
        let idx := List.range values.length
        (npDelete values (npStep idx (k - 1) k), npDelete values (npStep idx 0 k))
    | .per l =>
      let idx := cumsumFrom 0 (l.map (·.2))
      (npDelete values ((idx.map (· - 1)).drop 1), npDelete values idx.dropLast)

/-- `tsc.shift_matrices` (accessor.py 1181-1263) up to the constant time delta check, which is `delta_time` (modelled in
`Verif.Tsc.DeltaTime`); the orientation only transposes. -/
def shiftMatrices (c : List (Row τ V)) : Except TscErr (List V × List V) :=
  if !checkMinTimesteps c 2 then .error .minTimesteps else .ok (shiftRows c)

/-- `TSCDataFrame.from_shift_matrices` in row orientation (collection.py 468-534): interleave, IDs `0,0,1,1,...`, both time values
repeated.  -/
def fromShiftMatrices (left right : List V) (t0 t1 : τ) : Except TscErr (List (Row τ V)) :=
  if left.length ≠ right.length then .error .shapeMismatch
  else build ((left.zip right).zipIdx.flatMap (fun p => [⟨p.2, t0, p.1.1⟩, ⟨p.2, t1, p.1.2⟩]))

/-- Lexicographic order of index entries, as used by `sort_index` (ID first, then time). -/
def keyLe (a b : Row τ V) : Bool := decide (a.id < b.id) || (a.id == b.id && decide (a.time ≤ b.time))

/-- The ID argument of `from_tensor` (collection.py 426-439): default `arange(n)`, otherwise checked for length and uniqueness. -/
def tensorIds (n : Nat) (tsIds : Option (List Nat)) : Except TscErr (List Nat) :=
  match tsIds with
  | none => .ok (List.range n)
  | some l =>
    if l.length ≠ n then .error .idsLength
    else if (unique l).length ≠ l.length then .error .idsNotUnique
    else .ok l

/-- `TSCDataFrame.from_tensor` (collection.py 382-465).  `tensor[i][j]` is the feature row of series `i` at step `j`; all slices have the
same length `n_timesteps` by type in numpy (hypothesis of the theorems).  `time_values` has to be given here; the default is
`arange(n_timesteps)`. `sort_index(level=0)` sorts lexicographically. -/
def fromTensor (nTimestepsT : Nat) (tensor : List (List V)) (tsIds : Option (List Nat)) (times : List τ) :
    Except TscErr (List (Row τ V)) :=
  match tensorIds tensor.length tsIds with
  | .error e => .error e
  | .ok l =>
    if times.length ≠ nTimestepsT then .error .timeLength
    else
      let idCol := l.flatMap (fun i => List.replicate nTimestepsT i)
      let timeCol := (List.replicate tensor.length times).flatten
      let data := tensor.flatten
      let rows := List.zipWith (fun (p : Nat × τ) v => (⟨p.1, p.2, v⟩ : Row τ V)) (idCol.zip timeCol) data
      build (rows.mergeSort keyLe)

/-- `TSCDataFrame.insert_ts` (collection.py 1416-1474) for a frame given by its time index and rows.  Columns and time type are the same
by typing (`columnMismatch` and datetime mismatch are rejected in the code). The concatenation is validated. -/
def insertTs (c : List (Row τ V)) (df : List (τ × V)) (tsId : Option Int) : Except TscErr (List (Row τ V)) :=
  let i : Int := match tsId with
    | none => ((ids c).foldl max 0 : Nat) + 1
    | some i => i
  if (ids c).any (fun j => (j : Int) == i) then .error .idExists
  else if i < 0 then .error (.index .negativeId)
  else build (c ++ df.map (fun p => ⟨i.toNat, p.1, p.2⟩))

/-- `TSCDataFrame.from_frame_list` (collection.py 655-750) for entries that are collections (`Sum.inl`, flattened into their series in
sorted ID order) or single frames (`Sum.inr`). -/
def fromFrameList (l : List (List (Row τ V) ⊕ List (τ × V))) (tsIds : Option (List Nat)) : Except TscErr (List (Row τ V)) :=
  if l.isEmpty then .error .emptyList
  else
    let final : List (List (τ × V)) := l.flatMap (fun
      | .inl c => (itertimeseries c).map (·.2)
      | .inr df => [df])
    let is := tsIds.getD (List.range final.length)
    if is.length ≠ final.length ∨ (unique is).length ≠ final.length then .error .idsNotUnique
    else
      -- every single frame is validated, then the concatenation
      match (is.zip final).mapM (fun p => build (p.2.map (fun q => (⟨p.1, q.1, q.2⟩ : Row τ V)))) with
      | .error e => .error e
      | .ok parts => build parts.flatten

end Verif.Tsc
