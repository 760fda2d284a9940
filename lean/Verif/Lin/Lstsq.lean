import Mathlib.LinearAlgebra.Matrix.DotProduct
import Mathlib.LinearAlgebra.Matrix.Rank
import Mathlib.Data.Real.Basic
import Mathlib.Tactic.Linarith
import Mathlib.Tactic.Ring
import Mathlib.Tactic.NoncommRing
/-!
# Least squares problems

`numpy.linalg.lstsq(G, Y)` and `sklearn.linear_model.LinearRegression(fit_intercept=False).fit(G, Y)` return a minimiser of
`‖G Z - Y‖²`.  Numpy picks the one of smallest norm and cuts small singular values; the theorems hold for every minimiser, in exact arithmetic.
-/

namespace Verif.Lin

open Matrix

variable {α β γ : Type} [Fintype α] [Fintype β] [Fintype γ]

/-- Sum of the squares of all entries. -/
def sqSum (M : Matrix α γ ℝ) : ℝ := ∑ i, ∑ j, M i j ^ 2

/-- `Z` is a least squares solution of `G Z = Y`. -/
def IsLstsqM (G : Matrix α β ℝ) (Y : Matrix α γ ℝ) (Z : Matrix β γ ℝ) : Prop := ∀ Z', sqSum (G * Z - Y) ≤ sqSum (G * Z' - Y)

theorem sqSum_nonneg (M : Matrix α γ ℝ) : 0 ≤ sqSum M := Finset.sum_nonneg (fun _ _ => Finset.sum_nonneg (fun _ _ => sq_nonneg _))

theorem sqSum_eq_zero {M : Matrix α γ ℝ} : sqSum M = 0 ↔ M = 0 := by
  constructor
  · intro h
    have h1 := (Finset.sum_eq_zero_iff_of_nonneg (s := Finset.univ) (f := fun i => ∑ j, M i j ^ 2)
      (fun _ _ => Finset.sum_nonneg (fun _ _ => sq_nonneg _))).1 h
    ext i j
    have := (Finset.sum_eq_zero_iff_of_nonneg (s := Finset.univ) (f := fun j => M i j ^ 2)
      (fun _ _ => sq_nonneg _)).1 (h1 i (Finset.mem_univ i)) j (Finset.mem_univ j)
    simpa using this
  · rintro rfl; simp [sqSum]

theorem sqSum_trace (M : Matrix α γ ℝ) : sqSum M = (Mᵀ * M).trace := by
  unfold sqSum Matrix.trace
  rw [Finset.sum_comm]
  simp [Matrix.mul_apply, sq]

theorem sqSum_add (M N : Matrix α γ ℝ) : sqSum (M + N) = sqSum M + sqSum N + 2 * (Mᵀ * N).trace := by
  rw [sqSum_trace, sqSum_trace, sqSum_trace, Matrix.transpose_add, Matrix.add_mul, Matrix.mul_add, Matrix.mul_add]
  simp only [Matrix.trace_add]
  have : (Nᵀ * M).trace = (Mᵀ * N).trace := by
    rw [← Matrix.trace_transpose, Matrix.transpose_mul, Matrix.transpose_transpose]
  rw [this]; ring

/-- Normal equations always have a solution. -/
theorem exists_normal (X : Matrix α β ℝ) (Y : Matrix α γ ℝ) : ∃ Z : Matrix β γ ℝ, Xᵀ * X * Z = Xᵀ * Y := by
  classical
  have hle : LinearMap.range (Xᵀ * X).mulVecLin ≤ LinearMap.range Xᵀ.mulVecLin := by
    rw [Matrix.mulVecLin_mul]; exact LinearMap.range_comp_le_range _ _
  have hr : Module.finrank ℝ (LinearMap.range (Xᵀ * X).mulVecLin) = Module.finrank ℝ (LinearMap.range Xᵀ.mulVecLin) := by
    have h1 := Matrix.rank_transpose_mul_self X
    have h2 := Matrix.rank_transpose X
    unfold Matrix.rank at h1 h2
    rw [h1, h2]
  have heq := Submodule.eq_of_le_of_finrank_eq hle hr
  have hcol : ∀ j, ∃ z, (Xᵀ * X) *ᵥ z = Xᵀ *ᵥ (fun i => Y i j) := by
    intro j
    have : Xᵀ.mulVecLin (fun i => Y i j) ∈ LinearMap.range (Xᵀ * X).mulVecLin := by rw [heq]; exact ⟨_, rfl⟩
    obtain ⟨z, hz⟩ := this
    exact ⟨z, by simpa only [Matrix.mulVecLin_apply] using hz⟩
  choose z hz using hcol
  refine ⟨Matrix.of (fun b j => z j b), ?_⟩
  ext b j
  have := congrFun (hz j) b
  simpa [Matrix.mul_apply, Matrix.mulVec, dotProduct] using this

theorem normal_pythagoras {X : Matrix α β ℝ} {Y : Matrix α γ ℝ} {Z : Matrix β γ ℝ} (h : Xᵀ * X * Z = Xᵀ * Y) (Z' : Matrix β γ ℝ) :
    sqSum (X * Z' - Y) = sqSum (X * Z - Y) + sqSum (X * (Z' - Z)) := by
  have e : X * Z' - Y = (X * Z - Y) + X * (Z' - Z) := by rw [Matrix.mul_sub]; abel
  rw [e, sqSum_add]
  have : ((X * Z - Y)ᵀ * (X * (Z' - Z))).trace = 0 := by
    have h2 : (X * Z - Y)ᵀ * X = 0 := by
      rw [← Matrix.transpose_transpose ((X * Z - Y)ᵀ * X), Matrix.transpose_mul, Matrix.transpose_transpose, Matrix.mul_sub, ← Matrix.mul_assoc, h,
        sub_self, Matrix.transpose_zero]
    rw [← Matrix.mul_assoc, h2, Matrix.zero_mul, Matrix.trace_zero]
  rw [this]; ring

/-- The least squares solutions are the solutions of the normal equations. -/
theorem isLstsqM_iff (X : Matrix α β ℝ) (Y : Matrix α γ ℝ) (Z : Matrix β γ ℝ) : IsLstsqM X Y Z ↔ Xᵀ * X * Z = Xᵀ * Y := by
  constructor
  · intro h
    obtain ⟨Z0, h0⟩ := exists_normal X Y
    have h1 := h Z0
    rw [normal_pythagoras h0 Z] at h1
    have h2 : sqSum (X * (Z - Z0)) = 0 := le_antisymm (by linarith) (sqSum_nonneg _)
    have h3 : X * Z = X * Z0 := by
      have := sqSum_eq_zero.1 h2
      rw [Matrix.mul_sub, sub_eq_zero] at this
      exact this
    rw [Matrix.mul_assoc, h3, ← Matrix.mul_assoc, h0]
  · intro h Z'
    rw [normal_pythagoras h Z']
    linarith [sqSum_nonneg (X * (Z' - Z))]

/-- A consistent system is solved exactly. -/
theorem IsLstsqM.solves {G : Matrix α β ℝ} {Y : Matrix α γ ℝ} {Z : Matrix β γ ℝ} (h : IsLstsqM G Y Z) {Z₀ : Matrix β γ ℝ} (h0 : G * Z₀ = Y) :
    G * Z = Y := by
  have h1 := h Z₀
  rw [h0, sub_self, sqSum_eq_zero.2 rfl] at h1
  exact sub_eq_zero.1 (sqSum_eq_zero.1 (le_antisymm h1 (sqSum_nonneg _)))

/-- Solving the normal equations by least squares solves the original least squares problem; a common factor does not matter. -/
theorem lstsq_normal {X : Matrix α β ℝ} {Y : Matrix α γ ℝ} {Z : Matrix β γ ℝ} {a : ℝ} (ha : a ≠ 0) :
    IsLstsqM (a • (Xᵀ * X)) (a • (Xᵀ * Y)) Z ↔ IsLstsqM X Y Z := by
  rw [isLstsqM_iff X Y Z]
  have hsm : ∀ W : Matrix β γ ℝ, a • (Xᵀ * X) * W = a • (Xᵀ * Y) ↔ Xᵀ * X * W = Xᵀ * Y := by
    intro W
    rw [Matrix.smul_mul]
    constructor
    · intro h
      have := congrArg (fun M => a⁻¹ • M) h
      simpa [smul_smul, ha] using this
    · intro h; rw [h]
  constructor
  · intro h
    obtain ⟨Z0, h0⟩ := exists_normal X Y
    exact (hsm Z).1 (h.solves ((hsm Z0).2 h0))
  · intro h Z'
    rw [(hsm Z).2 h, sub_self, sqSum_eq_zero.2 rfl]
    exact sqSum_nonneg _

end Verif.Lin
