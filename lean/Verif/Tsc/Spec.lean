import Mathlib.Order.Defs.LinearOrder
/-!
# Specification vocabulary for time series collections

A collection is the list of its rows in index order.  Nothing here depends on the model of the code.
-/

namespace Verif.Tsc

/-- One row of a time series collection: time series ID, time value, feature values. -/
structure Row (τ V : Type) where
  id : Nat
  time : τ
  val : V
deriving DecidableEq, Repr

/-- A row without its data: what the two-level index holds. -/
structure Key (τ : Type) where
  id : Nat
  time : τ
deriving DecidableEq, Repr

/-- Index entry of a row. -/
def Row.key {τ V : Type} (r : Row τ V) : Key τ := ⟨r.id, r.time⟩

/-- The ID column is made of contiguous blocks: between two rows of the same ID there are only rows of this ID. -/
def Contiguous (ids : List Nat) : Prop :=
  ∀ i j k (_ : i < j) (_ : j < k) (hk : k < ids.length), ids[i] = ids[k] → ids[j] = ids[i]

/-- A valid collection: contiguous ID blocks, strictly increasing time values inside each ID. -/
structure Valid {τ V : Type} [LinearOrder τ] (c : List (Row τ V)) : Prop where
  contiguous : Contiguous (c.map (·.id))
  increasing : ∀ i j (_ : i < j) (hj : j < c.length), c[i].id = c[j].id → c[i].time < c[j].time

/-- The rows of one time series, in order: what `tsc.loc[id]` selects. -/
def series {τ V : Type} (c : List (Row τ V)) (i : Nat) : List (Row τ V) := c.filter (fun r => r.id == i)

/-- The data part of one time series: (time, values) pairs in order. -/
def content {τ V : Type} (c : List (Row τ V)) (i : Nat) : List (τ × V) := (series c i).map (fun r => (r.time, r.val))

/-- `i` is an ID of the collection. -/
def HasId {τ V : Type} (c : List (Row τ V)) (i : Nat) : Prop := ∃ r ∈ c, r.id = i

/-- All pairs of consecutive elements of a list. -/
def consecutive {α : Type} : List α → List (α × α)
  | a :: b :: l => (a, b) :: consecutive (b :: l)
  | _ => []

/-- All snapshot pairs of a collection in index order: two neighbouring rows of the same time series. -/
def snapshotPairs {τ V : Type} (c : List (Row τ V)) : List (V × V) :=
  ((consecutive c).filter (fun p => p.1.id == p.2.id)).map (fun p => (p.1.val, p.2.val))

/-- IDs never decrease along the index. -/
def IdsAscending {τ V : Type} (c : List (Row τ V)) : Prop := (c.map (·.id)).Pairwise (· ≤ ·)

/-- All series have the same number of samples. -/
def EqualLengths {τ V : Type} (c : List (Row τ V)) : Prop :=
  ∀ i j, HasId c i → HasId c j → (series c i).length = (series c j).length

end Verif.Tsc
