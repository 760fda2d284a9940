import Verif.Kernel.Normalize
import Mathlib.Analysis.InnerProductSpace.Basic
import Mathlib.Analysis.SpecialFunctions.Trigonometric.Basic
/-!
# Model of the cone kernel

`datafold/pcfold/kernels.py` 1954-2343 (`ConeKernel`).  The samples that remain after the finite differences (see `Verif.Tsc.timeDerivative`) are pairs of the point and its time
derivative; points live in an arbitrary real inner product space.  Exact real arithmetic.
-/

namespace Verif.Kernel

open Matrix

/-- A sample with the approximated time derivative (kernels.py 2195-2207, 2239-2246). -/
structure ConeSample (E : Type) where
  x : E
  xi : E

/-- The parameters (kernels.py 2044-2052). -/
structure ConeParam where
  zeta : ℝ
  eps : ℝ

variable {E : Type} [NormedAddCommGroup E] [InnerProductSpace ℝ E] {m n : Type} [Fintype m] [Fintype n]

open Classical in
/-- The cosine of the angle between the derivative of the query `q` and the displacement to `r` (kernels.py 2157-2186); zero for almost duplicates. -/
noncomputable def coneCos (q r : ConeSample E) : ℝ :=
  if ‖q.xi‖ * ‖r.x - q.x‖ ≤ 1e-14 then 0 else inner ℝ q.xi (r.x - q.x) / (‖q.xi‖ * ‖r.x - q.x‖)

/-- An entry of `cos_matrix` (kernels.py 2188-2193): the cosine function is applied to the cosine. -/
noncomputable def coneWeight (zeta : ℝ) (q r : ConeSample E) : ℝ := 1 - zeta * Real.cos (coneCos q r) ^ 2

open Classical in
/-- `np.sqrt` of the product of both directions, or one for `zeta = 0` (kernels.py 2252-2272, 2288-2317). -/
noncomputable def coneAngular (zeta : ℝ) (q r : ConeSample E) : ℝ := if zeta ≠ 0 then Real.sqrt (coneWeight zeta q r * coneWeight zeta r q) else 1

open Classical in
/-- The division by the norms of the derivatives (`_symmetric_matrix_division` with `value_zero_division=0`, kernels.py 58-186): zero where one of the norms vanishes. -/
noncomputable def coneDivide (v w x : ℝ) : ℝ := if v = 0 ∨ w = 0 then 0 else (v⁻¹ * x) * w⁻¹

/-- `factor_matrix` of two collections (kernels.py 2319-2326). -/
noncomputable def coneFactor (p : ConeParam) (dt : ℝ) (Y : m → ConeSample E) (X : n → ConeSample E) : Matrix m n ℝ := fun i j =>
  coneDivide ‖(Y i).xi‖ ‖(X j).xi‖ (coneAngular p.zeta (Y i) (X j)) * (1 / (dt ^ 2 * p.eps))

/-- `exp(-1.0 * D * factor_matrix)` with the squared distances (kernels.py 2330-2334). -/
noncomputable def coneExp (Y : m → ConeSample E) (X : n → ConeSample E) (F : Matrix m n ℝ) : Matrix m n ℝ := fun i j => Real.exp (-1 * ‖(X j).x - (Y i).x‖ ^ 2 * F i j)

open Classical in
/-- `_validate_parameter` for the scalars (kernels.py 2077-2101), and the division by `delta_time**2 * epsilon`, which fails for `epsilon = 0` (kernels.py 182-184, 2328). -/
noncomputable def ConeParam.check (p : ConeParam) : Except KErr Unit :=
  if ¬ (0 ≤ p.zeta ∧ p.zeta < 1) then .error .value else if p.eps < 0 then .error .value else if p.eps = 0 then .error .notFinite else .ok ()

/-- The pair-wise kernel matrix (kernels.py 2248-2280, 2328-2343); the factors are symmetrised before the scaling. -/
noncomputable def conePdist (p : ConeParam) (dt : ℝ) (X : n → ConeSample E) : Except KErr (Matrix n n ℝ) :=
  match p.check with
  | .error e => .error e
  | .ok _ => .ok (coneExp X X (removeNoise (coneFactor p dt X X)))

/-- The component-wise kernel matrix (kernels.py 2282-2343). -/
noncomputable def coneCdist (p : ConeParam) (dt : ℝ) (X : n → ConeSample E) (Y : m → ConeSample E) : Except KErr (Matrix m n ℝ) :=
  match p.check with
  | .error e => .error e
  | .ok _ => .ok (coneExp Y X (coneFactor p dt Y X))

/-- One evaluation of a kernel object with the attributes `timederiv_X_` (`none`: not yet set): pair-wise evaluations always compute the derivatives of the reference samples,
component-wise ones only if the attribute does not exist (kernels.py 2229-2246, 2344-2346).  `X` has the derivatives a new computation would give. -/
noncomputable def coneCall (p : ConeParam) (dt : ℝ) (st : Option (n → E)) (X : n → ConeSample E) (Y : Option (m → ConeSample E)) : Except KErr (Matrix n n ℝ ⊕ Matrix m n ℝ) × Option (n → E) :=
  match Y with
  | none =>
    match conePdist p dt X with
    | .error e => (.error e, st)
    | .ok K => (.ok (.inl K), some fun i => (X i).xi)
  | some Y =>
    match coneCdist p dt (fun i => ⟨(X i).x, (st.getD fun i => (X i).xi) i⟩) Y with
    | .error e => (.error e, st)
    | .ok K => (.ok (.inr K), some (st.getD fun i => (X i).xi))

end Verif.Kernel
