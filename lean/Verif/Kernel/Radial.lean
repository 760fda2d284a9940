import Verif.Kernel.Normalize
import Mathlib.Analysis.SpecialFunctions.Log.Basic
/-!
# Model of the radial basis kernels and the bandwidth estimation

`datafold/pcfold/kernels.py` 676-1053 (`RadialBasisKernel` and its subclasses) and `datafold/pcfold/estimators.py` 98-131 (`estimate_scale`).  Exact real arithmetic.
-/

namespace Verif.Kernel

open Matrix

variable {m n d : Type} [Fintype m] [Fintype n] [Fintype d]

/-- Squared Euclidean distance, metric `"sqeuclidean"`. -/
def sqDist (x y : d → ℝ) : ℝ := ∑ i, (x i - y i) ^ 2

/-- The metrics that radial kernels require. -/
inductive Metric
  | sqeuclidean | euclidean
deriving DecidableEq, Repr

/-- The distance of a metric. -/
noncomputable def Metric.dist (mt : Metric) (x y : d → ℝ) : ℝ :=
  match mt with
  | .sqeuclidean => sqDist x y
  | .euclidean => Real.sqrt (sqDist x y)

/-- The radial basis kernels with their parameter `epsilon`. -/
inductive Radial
  | gaussian (eps : ℝ)
  | multiquadric (eps : ℝ)
  | inverseMultiquadric (eps : ℝ)
  | inverseQuadratic (eps : ℝ)
  | thinplate
  | cubic
  | quintic

/-- The parameter `required_metric` of the constructors (kernels.py 783-785, 847-849, 894-896, 941-943, 975-976, 1000-1001, 1034-1035). -/
def Radial.metric : Radial → Metric
  | .gaussian _ | .multiquadric _ | .inverseMultiquadric _ | .inverseQuadratic _ => .sqeuclidean
  | .thinplate | .cubic | .quintic => .euclidean

/-- The bandwidth, if the kernel has one. -/
def Radial.epsilon : Radial → Option ℝ
  | .gaussian e | .multiquadric e | .inverseMultiquadric e | .inverseQuadratic e => some e
  | .thinplate | .cubic | .quintic => none

/-- The expressions evaluated on the distances (kernels.py 822-826, 869-873, 916-920, 964-968, 981-984, 1019, 1053).  `D**2 * log(D)` is `nan` at zero and replaced by zero, which is
the value of the same expression with `log 0 = 0`. -/
noncomputable def Radial.fn : Radial → ℝ → ℝ
  | .gaussian eps, D => Real.exp ((-1 / (2 * eps)) * D)
  | .multiquadric eps, D => Real.sqrt (1 / (2 * eps) * D + 1)
  | .inverseMultiquadric eps, D => 1 / Real.sqrt (1 / (2 * eps) * D + 1)
  | .inverseQuadratic eps, D => 1 / (1 / (2 * eps) * D + 1)
  | .thinplate, D => D ^ 2 * Real.log D
  | .cubic, D => D ^ 3
  | .quintic, D => D ^ 5

open Classical in
/-- `_check_bandwidth_parameter` (kernels.py 714-723): the bandwidth must be positive. -/
noncomputable def Radial.check (r : Radial) : Except KErr Unit :=
  match r.epsilon with
  | some e => if 0 < e then .ok () else .error .value
  | none => .ok ()

/-- `evaluate` on a dense distance matrix. -/
noncomputable def Radial.evaluate (r : Radial) (D : Matrix m n ℝ) : Except KErr (Matrix m n ℝ) :=
  match r.check with
  | .error e => .error e
  | .ok _ => .ok (Matrix.of (fun i j => r.fn (D i j)))

/-- `evaluate` on a sparse distance matrix: only stored entries are changed (kernels.py 43-55). -/
noncomputable def Radial.evaluateSparse (r : Radial) (D : m → n → Option ℝ) : Except KErr (m → n → Option ℝ) :=
  match r.check with
  | .error e => .error e
  | .ok _ => .ok (fun i j => (D i j).map r.fn)

/-- `RadialBasisKernel.__call__(X, Y)` with dense distances (kernels.py 725-760): one row per query point of `Y`, one column per reference point of `X`. -/
noncomputable def Radial.call (r : Radial) (X : n → d → ℝ) (Y : m → d → ℝ) : Except KErr (Matrix m n ℝ) :=
  r.evaluate (Matrix.of (fun i j => r.metric.dist (Y i) (X j)))

/-- `estimate_scale(pcm, tol, cut_off)` (estimators.py 98-131) with a given `cut_off`. -/
noncomputable def estimateScale (tol cutOff : ℝ) : ℝ := cutOff ^ 2 / (-Real.log tol)

/-! ## Callable bandwidths -/

/-- The attribute `epsilon` of a `GaussianKernel`: a number, or a function of the distance matrix. -/
inductive Bandwidth (m n : Type)
  | number (e : ℝ)
  | callable (f : Matrix m n ℝ → ℝ)

/-- The bandwidth used by `GaussianKernel.evaluate` (kernels.py 802-820); the attribute is overwritten by it. -/
def Bandwidth.resolve {m n : Type} (b : Bandwidth m n) (D : Matrix m n ℝ) : ℝ :=
  match b with
  | .number e => e
  | .callable f => f D

/-- `GaussianKernel.evaluate` with the attribute afterwards (kernels.py 787-828). -/
noncomputable def gaussianEvaluate (b : Bandwidth m n) (D : Matrix m n ℝ) : Except KErr (Matrix m n ℝ) × Bandwidth m n :=
  ((Radial.gaussian (b.resolve D)).evaluate D, .number (b.resolve D))

end Verif.Kernel
