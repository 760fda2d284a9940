import Mathlib.Algebra.BigOperators.Group.Finset.Basic
import Mathlib.Algebra.BigOperators.Ring.Finset
import Mathlib.Algebra.Order.Field.Basic
import Mathlib.Data.Rat.Floor
import Mathlib.Data.Matrix.Diagonal
/-!
# Model of `datafold/utils/general.py`
-/

namespace Verif.Utils

/-- A Python object as `is_integer` distinguishes them: integer, finite float of Python (its exact value), finite float of numpy, infinite or nan float (of Python
or numpy), anything else. -/
inductive PyObj | int (n : Int) | float (q : Rat) | npfloat (q : Rat) | inf | nan | other
deriving DecidableEq, Repr

/-- Python exceptions. -/
inductive PyErr | zeroDivision | overflow | value
deriving DecidableEq, Repr

/-- `int(x)` for a finite float: truncation towards zero. -/
def truncate (q : Rat) : Int := if 0 ≤ q then ⌊q⌋ else ⌈q⌉

/-- `is_integer` (general.py 82-103).  `int(n)` of an infinite float raises OverflowError, of nan ValueError; the division by zero raises for floats of Python; for
those of numpy it gives an infinite number or nan (and a warning), which is not one.
Simplification: the quotient is exact (in floats it equals 1.0 only if the exact quotient is 1). -/
def isInteger : PyObj → Except PyErr Bool
  | .int _ => .ok true
  | .float q => if truncate q = 0 then .error .zeroDivision else .ok (decide (q / truncate q = 1))
  | .npfloat q => if truncate q = 0 then .ok false else .ok (decide (q / truncate q = 1))
  | .inf => .error .overflow
  | .nan => .error .value
  | .other => .ok false

/-- `is_float` (general.py 105-119). -/
def isFloat : PyObj → Bool
  | .float _ | .npfloat _ | .inf | .nan => true
  | _ => false

/-- `is_scalar` (general.py 122-136): `or` does not evaluate the second test if the first is true. -/
def isScalar (x : PyObj) : Except PyErr Bool := if isFloat x then .ok true else isInteger x

/-- `np.where(np.isin(features_all, features_select))[0]`: the positions, ascending. -/
def projectIndices (all sel : List String) : List Nat := (List.range all.length).filter (fun i => decide (all.getD i "" ∈ sel))

/-- `projection_matrix_from_feature_names` (general.py 209-246) as entries `P i k`; `none` is the ValueError. -/
def projectionMatrix {α : Type} [Zero α] [One α] (all sel : List String) : Option (Nat → Nat → α) :=
  let idx := projectIndices all sel
  if idx.length ≠ sel.length then none
  else some (fun i k => if idx[k]? = some i then 1 else 0)

/-- Entry `k` of the product of a row vector with a matrix of `n` rows. -/
def rowMul {α : Type} [AddCommMonoid α] [Mul α] (n : Nat) (x : Nat → α) (P : Nat → Nat → α) (k : Nat) : α := ∑ i ∈ Finset.range n, x i * P i k

/-- A complex number as numpy sorts it: real part first, then imaginary part. -/
structure Cpx (α : Type) where
  re : α
  im : α
deriving DecidableEq, Repr

/-- numpy's order of complex numbers. -/
def Cpx.le {α : Type} [LinearOrder α] (a b : Cpx α) : Prop := a.re < b.re ∨ (a.re = b.re ∧ a.im ≤ b.im)

/-- `np.argsort(l)` returns a permutation of the positions that sorts; which one among equal elements is not specified (numpy's default is not stable), so the
model takes any. -/
def IsArgsort {α : Type} [LinearOrder α] (l : List (Cpx α)) (idx : List Nat) : Prop :=
  idx.Perm (List.range l.length) ∧ (idx.filterMap (fun i => l[i]?)).Pairwise Cpx.le

/-- `sort_eigenpairs` (general.py 249-330) with left eigenvectors: index with `idx` or its reverse.  Vectors are any type `W` (columns of the right, rows of the left). -/
def sortEigenpairs {α W : Type} (ev : List (Cpx α)) (right left : List W) (idx : List Nat) (ascending : Bool) : List (Cpx α) × List W × List W :=
  let idx := if ascending then idx else idx.reverse
  (idx.filterMap (fun i => ev[i]?), idx.filterMap (fun i => right[i]?), idx.filterMap (fun i => left[i]?))

/-- `random_subsample` (general.py 565-605); `perm` is the random permutation of the row positions. -/
def randomSubsample {W : Type} (data : List W) (n : Int) (perm : List Nat) : Option (List W × List Nat) :=
  if n < 1 ∨ (data.length : Int) - 1 < n then none
  else
    let idx := perm.take n.toNat
    some (idx.filterMap (fun i => data[i]?), idx)

/-- `mat_dot_diagmat` for dense matrices (general.py 333-367): `np.multiply(diag_elements, matrix)` broadcasts along rows. -/
def matDotDiag {m n α : Type} [Mul α] (M : Matrix m n α) (d : n → α) : Matrix m n α := Matrix.of (fun i j => d j * M i j)

/-- `diagmat_dot_mat` for dense matrices (general.py 370-413): `np.multiply(matrix, diag_elements[:, None])`. -/
def diagDotMat {m n α : Type} [Mul α] (d : m → α) (M : Matrix m n α) : Matrix m n α := Matrix.of (fun i j => M i j * d i)

/-- `remove_numeric_noise_symmetric_matrix` for dense matrices (general.py 514-562). -/
def removeNoise {n α : Type} [Add α] [Div α] [OfNat α 2] (M : Matrix n n α) : Matrix n n α := Matrix.of (fun i j => (M i j + M j i) / 2)

/-- Value of a stored element of a sparse matrix during the computation: a number or nan. -/
inductive FVal (α : Type) | num (a : α) | nan
deriving DecidableEq, Repr

/-- Sum with nan. -/
def FVal.add {α : Type} [Add α] : FVal α → FVal α → FVal α
  | .num a, .num b => .num (a + b)
  | _, _ => .nan

/-- scipy's sparse addition of one position: missing elements count as 0, a zero result is not stored. -/
def sparseAdd {α : Type} [Add α] [Zero α] [DecidableEq α] (a b : Option (FVal α)) : Option (FVal α) :=
  match a, b with
  | none, none => none
  | some x, none => let r := x.add (.num 0); if r = .num 0 then none else some r
  | none, some y => let r := (FVal.num 0).add y; if r = .num 0 then none else some r
  | some x, some y => let r := x.add y; if r = .num 0 then none else some r

/-- The sparse branch of `remove_numeric_noise_symmetric_matrix` (general.py 551-557): stored zeros become nan, matrices are added and halved, nan becomes 0.  A sparse matrix
is the partial function of its stored elements. -/
def removeNoiseSparse {n α : Type} [Add α] [Zero α] [Div α] [OfNat α 2] [DecidableEq α] (M : n → n → Option α) : n → n → Option α :=
  let N : n → n → Option (FVal α) := fun i j => (M i j).map (fun a => if a = 0 then .nan else .num a)
  fun i j => (sparseAdd (N i j) (N j i)).map (fun x => match x with | .nan => 0 | .num a => a / 2)

end Verif.Utils
