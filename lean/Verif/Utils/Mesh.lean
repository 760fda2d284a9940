import Mathlib.Analysis.Complex.Basic
import Mathlib.Analysis.Real.Sqrt
import Mathlib.LinearAlgebra.Matrix.ConjTranspose
import Mathlib.Data.Finset.Lattice.Fold
import Verif.Utils.General
import Verif.Tsc.Frames
/-!
# Model of further functions of `datafold/utils/general.py`

`generate_2d_regular_mesh`, `is_symmetric_matrix`, and `assert_equal_eigenvectors`, in exact arithmetic.
-/

namespace Verif.Utils

/-- `np.linspace(low, high, num)` as `generate_2d_regular_mesh` calls it (general.py 421-422): a negative number raises ValueError, one value is `low` alone. -/
noncomputable def linspace (low high : ℝ) (num : Int) : Except PyErr (List ℝ) :=
  if num < 0 then .error .value
  else .ok ((List.range num.toNat).map (fun i : Nat => if num = 1 then low else low + (i : ℝ) * ((high - low) / (num - 1))))

/-- `np.meshgrid`, `ravel` and `np.column_stack` (general.py 424-425): the first coordinate runs fastest. -/
def meshgrid (xs ys : List ℝ) : List (ℝ × ℝ) := ys.flatMap (fun y => xs.map (fun x => (x, y)))

/-- `generate_2d_regular_mesh` without feature names (general.py 416-433). -/
noncomputable def regularMesh (low high : ℝ × ℝ) (nx ny : Int) : Except PyErr (List (ℝ × ℝ)) :=
  match linspace low.1 high.1 nx with
  | .error e => .error e
  | .ok xs => match linspace low.2 high.2 ny with
    | .error e => .error e
    | .ok ys => .ok (meshgrid xs ys)

/-- Exceptions of `generate_2d_regular_mesh`. -/
inductive MeshErr | py (e : PyErr) | ic (e : Tsc.IcErr)

/-- `generate_2d_regular_mesh` with two feature names (general.py 427-431): an initial condition per point of the mesh, at the time value zero. -/
noncomputable def regularMeshIc (low high : ℝ × ℝ) (nx ny : Int) : Except MeshErr (List (Tsc.Row Int (ℝ × ℝ))) :=
  match regularMesh low high nx ny with
  | .error e => .error (.py e)
  | .ok X => match Tsc.icFromArray .int (fun _ => true) 2 X 0 none with
    | .error e => .error (.ic e)
    | .ok c => .ok c

/-- `is_symmetric_matrix` (general.py 473-493) of a matrix with `m` rows and `n` columns: a matrix that is not square raises, so does the maximum of no values. -/
noncomputable def isSymmetricMatrix {m n : Nat} (M : Matrix (Fin m) (Fin n) ℝ) (tol : ℝ) : Except PyErr Bool :=
  if h : m = n then
    if hne : (Finset.univ : Finset (Fin m × Fin m)).Nonempty then
      .ok (decide (Finset.univ.sup' hne (fun p : Fin m × Fin m => |M p.1 (Fin.cast h p.2) - M p.2 (Fin.cast h p.1)|) ≤ tol))
    else .error .value
  else .error .value

/-- `np.linalg.norm(_, axis=0)` (general.py 36-37): the norm of a column. -/
noncomputable def colNorm {m p : Nat} (A : Matrix (Fin m) (Fin p) ℂ) (j : Fin p) : ℝ := Real.sqrt (∑ i, ‖A i j‖ ^ 2)

/-- An entry of `np.abs(np.diag(eigvec_test))` (general.py 38-40): `none` is nan, which the reciprocal of a zero norm gives. -/
noncomputable def columnAngle {m p q : Nat} (A : Matrix (Fin m) (Fin p) ℂ) (B : Matrix (Fin m) (Fin q) ℂ) (j : Fin p) (k : Fin q) : Option ℝ :=
  if colNorm A j * colNorm B k = 0 then none else some ‖(A.conjTranspose * B) j k * ((colNorm A j * colNorm B k)⁻¹ : ℝ)‖

/-- A value compared with one (general.py 41-43); nan differs from every number. -/
def closeToOne (tol : ℝ) : Option ℝ → Prop
  | none => False
  | some a => |1 - a| ≤ tol

/-- `assert_equal_eigenvectors` (general.py 34-43) passes. The diagonal of a matrix that is not square stops at the shorter side. -/
noncomputable def equalEigenvectors {m p q : Nat} (A : Matrix (Fin m) (Fin p) ℂ) (B : Matrix (Fin m) (Fin q) ℂ) (tol : ℝ) : Prop :=
  ∀ (j : Nat) (h1 : j < p) (h2 : j < q), closeToOne tol (columnAngle A B ⟨j, h1⟩ ⟨j, h2⟩)

end Verif.Utils
