import Verif.Tsc.DeltaTime
import Mathlib.Data.Complex.Basic
/-!
# Model of the orientation of shift matrices and of negative numbers of samples

`TSCDataFrame.from_shift_matrices` (collection.py 467-535), `tsc.shift_matrices` (accessor.py 1180-1263) with their argument `snapshot_orientation`, `tsc.drop_last_n_samples`
(accessor.py 689-702) for integers.
-/

namespace Verif.Tsc

/-- A two-dimensional array with its shape; the entries may be complex. -/
structure NpMat where
  rows : Nat
  cols : Nat
  val : Fin rows → Fin cols → ℂ

/-- `A.T` -/
def NpMat.T (A : NpMat) : NpMat := ⟨A.cols, A.rows, fun i j => A.val j i⟩

/-- The rows of an array, from top to bottom. -/
def NpMat.rowList (A : NpMat) : List (List ℂ) := (List.finRange A.rows).map (fun i => (List.finRange A.cols).map (A.val i))

/-- The array of a list of rows with `n` entries each (`to_numpy()` of a frame with `n` columns). -/
def NpMat.ofRows (n : Nat) (l : List (List ℂ)) : NpMat := ⟨l.length, n, fun i j => (l[i]).getD j 0⟩

/-- Assigning values to an array of floats (`zipped_values = np.zeros(...)`, collection.py 523-526): the imaginary parts are discarded (with a warning). -/
noncomputable def storeFloat (l : List ℂ) : List ℂ := l.map (fun z => (z.re : ℂ))

/-- The values of `snapshot_orientation`. -/
inductive Orientation
  | col | row
deriving DecidableEq, Repr

/-- How both methods read the argument: `"col"`, `"row"`, anything else raises a ValueError. -/
def readOrientation (s : String) : Except TscErr Orientation :=
  if s = "col" then .ok .col else if s = "row" then .ok .row else .error .orientation

/-- The array with one snapshot per row (collection.py 510-518; accessor.py 1255-1258). -/
def Orientation.toRows : Orientation → NpMat → NpMat
  | .col, A => A.T
  | .row, A => A

/-- `from_shift_matrices` (collection.py 508-535) with the number of columns of the new frame.  The shapes of the arrays have to be equal. -/
noncomputable def fromShiftOriented (s : String) (L R : NpMat) (t0 t1 : Int) : Except TscErr (Nat × List (Row Int (List ℂ))) :=
  match readOrientation s.toLower with
  | .error e => .error e
  | .ok o =>
    if (o.toRows L).rows = (o.toRows R).rows ∧ (o.toRows L).cols = (o.toRows R).cols then
      match fromShiftMatrices ((o.toRows L).rowList.map storeFloat) ((o.toRows R).rowList.map storeFloat) t0 t1 with
      | .error e => .error e
      | .ok c => .ok ((o.toRows L).cols, c)
    else .error .shapeMismatch

/-- `tsc.shift_matrices` (accessor.py 1180-1263) of a frame with `n` columns, with the default `validate=True`.  The argument is looked at last and its case is not changed. -/
def shiftOriented (k : TimeKind) (s : String) (n : Nat) (c : List (Row Int (List ℂ))) : Except TscErr (NpMat × NpMat) :=
  match shiftMatrices c with
  | .error e => .error e
  | .ok (l, r) =>
    if isConstDeltaTime k c then
      match readOrientation s with
      | .error e => .error e
      | .ok o => .ok (o.toRows (NpMat.ofRows n l), o.toRows (NpMat.ofRows n r))
    else .error .notConstDelta

variable {τ V : Type} [LinearOrder τ]

/-- `groupby(ID).tail(n)` of pandas for an integer: with a negative number the first `|n|` rows of each group are left out. -/
def groupTailInt (n : Int) (c : List (Row τ V)) : List (Row τ V) :=
  if 0 ≤ n then groupTail n.toNat c else dropKeys c ((groupHead (-n).toNat [] c).map (·.key))

/-- `tsc.drop_last_n_samples` (accessor.py 689-702) for an integer. -/
def dropLastInt (c : List (Row τ V)) (n : Int) : Except TscErr (List (Row τ V)) :=
  if !checkMinTimesteps c n then .error .minTimesteps
  else build (dropKeys c ((groupTailInt n c).map (·.key)))

/-- `TSCDataFrame.from_tensor` (collection.py 383-465) with the default of `time_values`, `np.arange(n_timesteps)`. -/
def fromTensorDefault (n : Nat) (tensor : List (List V)) (tsIds : Option (List Nat)) (times : Option (List Int)) : Except TscErr (List (Row Int V)) :=
  fromTensor n tensor tsIds (times.getD ((List.range n).map (fun j : Nat => (j : Int))))

end Verif.Tsc
