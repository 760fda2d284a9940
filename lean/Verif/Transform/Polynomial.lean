import Mathlib.Algebra.BigOperators.Group.List.Defs
import Mathlib.Algebra.Ring.Nat
/-!
# Model of the polynomial features

`datafold/dynfold/transform.py` 1309-1436 (`TSCPolynomialFeatures`) on top of `sklearn.preprocessing.PolynomialFeatures`.
-/

namespace Verif.Transform

/-- `itertools.combinations_with_replacement(l, k)` (or `combinations(l, k)` if `io`) in its lexicographic order. -/
def combs (io : Bool) : List Nat → Nat → List (List Nat)
  | [], k => if k = 0 then [[]] else []
  | a :: l, k => ((List.range (k + 1)).reverse.filter (fun j => !io || decide (j ≤ 1))).flatMap
      (fun j => (combs io l (k - j)).map (fun c => List.replicate j a ++ c))

/-- `PolynomialFeatures._combinations` of scikit-learn with `min_degree = 0`. -/
def allCombs (io bias : Bool) (degree n : Nat) : List (List Nat) :=
  (if bias then combs io (List.range n) 0 else []) ++ (List.range degree).flatMap (fun i => combs io (List.range n) (i + 1))

/-- `np.bincount(c, minlength=n)` for `c` below `n`. -/
def bincount (n : Nat) (c : List Nat) : List Nat := (List.range n).map (fun i => c.count i)

/-- `super().powers_` -/
def superPowers (io bias : Bool) (degree n : Nat) : List (List Nat) := (allCombs io bias degree n).map (bincount n)

/-- The property `powers_` (transform.py 1337-1343): without first order the rows with sum 1 are removed. -/
def polyPowers (io bias first : Bool) (degree n : Nat) : List (List Nat) :=
  if first then superPowers io bias degree n else (superPowers io bias degree n).filter (fun e => decide (e.sum ≠ 1))

/-- `super().transform(X)` for one sample: the products of the entries of every combination. -/
def superTransform {α : Type} [CommSemiring α] (io bias : Bool) (degree : Nat) (x : List α) : List α :=
  (allCombs io bias degree x.length).map (fun c => (c.map (fun i => x.getD i 0)).prod)

/-- `_non_id_state_mask` (transform.py 1357-1359) -/
def nonIdMask (io bias : Bool) (degree n : Nat) : List Bool := (superPowers io bias degree n).map (fun e => decide (e.sum ≠ 1))

/-- `a[:, mask]` for one row. -/
def maskRow {α : Type} (a : List α) (mask : List Bool) : List α := ((a.zip mask).filter (fun p => p.2)).map (·.1)

/-- `transform` (transform.py 1398-1436) for one sample. -/
def polyTransform {α : Type} [CommSemiring α] (io bias first : Bool) (degree : Nat) (x : List α) : List α :=
  if first then superTransform io bias degree x else maskRow (superTransform io bias degree x) (nonIdMask io bias degree x.length)

/-- `get_feature_names_out` of scikit-learn, which goes through `self.powers_`: the exponents of every column with the names of the features. -/
def polyNames (io bias first : Bool) (degree : Nat) (names : List String) : List (List (String × Nat)) :=
  (polyPowers io bias first degree names.length).map (fun e => (names.zip e).filter (fun p => decide (p.2 ≠ 0)))

/-- `PolynomialFeatures(degree=2)` on two features: `x², xy, y²` -/
example : polyPowers false false false 2 2 = [[2, 0], [1, 1], [0, 2]] := by decide
example : polyPowers false true true 2 2 = [[0, 0], [1, 0], [0, 1], [2, 0], [1, 1], [0, 2]] := by decide
example : polyPowers true false false 3 3 = [[1, 1, 0], [1, 0, 1], [0, 1, 1], [1, 1, 1]] := by decide
example : polyTransform false false false 2 ([3, 5] : List Nat) = [9, 15, 25] := by decide

end Verif.Transform
