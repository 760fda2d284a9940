import Verif.Kernel.Radial
import Verif.Kernel.Harmonics
/-!
# Model of whole fits of diffusion maps and geometric harmonics on data

The composition of the internal kernel, the normalisations, the eigensolver and the out-of-sample extension, with dense distances and numpy arrays of samples.
-/

namespace Verif.Kernel

open Matrix

variable {m n d e : Type} [Fintype m] [Fintype n] [Fintype d] [Fintype e]

/-- `DiffusionMaps.fit(X)` with `N` eigenpairs (dmap.py 467-563), also the first part of `GeometricHarmonicsInterpolator.fit` (outofsample.py 167-234): the attributes of the kernel and the eigenpairs. -/
def IsDmapFit (r : Radial) (k : DmapKernel) (N : Nat) (X : n → d → ℝ) (f : Fitted n) (pairs : List (Pair n)) : Prop :=
  ∃ K A, r.call X X = .ok K ∧ evalPdist k none K = .ok (A, f) ∧ Solves A f.basisChange N pairs

/-- `DiffusionMaps.transform(Y)` (dmap.py 565-624). -/
noncomputable def dmapTransform (r : Radial) (k : DmapKernel) (f : Fitted n) (t : ℝ) (coords : Option (List Nat)) (pairs : List (Pair n)) (X : n → d → ℝ) (Y : m → d → ℝ) : Except KErr (List (m → ℝ)) :=
  match r.call X Y with
  | .error er => .error er
  | .ok Kc => transform k f t coords pairs Kc

/-- `GeometricHarmonicsInterpolator.predict(Y)` of a model with the target values `y` (outofsample.py 94-108, 236-257), before `np.squeeze`. -/
noncomputable def ghModel (r : Radial) (k : DmapKernel) (f : Fitted n) (pairs : List (Pair n)) (X : n → d → ℝ) (y : Matrix n e ℝ) (Y : m → d → ℝ) : Except KErr (Matrix m e ℝ) :=
  match precomputeAux pairs y with
  | .error er => .error er
  | .ok aux =>
    match r.call X Y with
    | .error er => .error er
    | .ok Kc => ghPredict k f aux Kc

end Verif.Kernel
