import Verif.Kernel.Normalize
import Mathlib.Tactic.FieldSimp
import Mathlib.Tactic.Positivity
import Mathlib.Tactic.Linarith
import Mathlib.Algebra.BigOperators.Field
import Mathlib.Algebra.Order.BigOperators.Group.Finset
/-! # Helper lemmas for the kernel normalisations -/

namespace Verif.Kernel

open Matrix

variable {m n : Type} [Fintype m] [Fintype n]

theorem divide_ok {M : Matrix m n ℝ} {v : m → ℝ} {w : n → ℝ} (hv : ∀ i, v i ≠ 0) (hw : ∀ j, w j ≠ 0) :
    divide M v w = .ok (Matrix.of (fun i j => ((v i)⁻¹ * M i j) * (w j)⁻¹)) := by
  unfold divide
  rw [if_neg (by simpa using hv), if_neg (by simpa using hw)]

theorem removeNoise_symm {M : Matrix n n ℝ} (h : ∀ i j, M i j = M j i) : removeNoise M = M := by
  ext i j
  simp only [removeNoise, of_apply]
  rw [h j i]
  ring

theorem removeNoise_apply_comm (M : Matrix n n ℝ) (i j : n) : removeNoise M i j = removeNoise M j i := by
  simp only [removeNoise, of_apply, add_comm]

theorem divideSquare_ok {M : Matrix n n ℝ} {v : n → ℝ} {b : Bool} (hv : ∀ i, v i ≠ 0) (hb : b = true → ∀ i j, M i j = M j i) :
    divideSquare M v b = .ok (Matrix.of (fun i j => ((v i)⁻¹ * M i j) * (v j)⁻¹)) := by
  unfold divideSquare
  rw [divide_ok hv hv]
  cases b with
  | false => rfl
  | true =>
    simp only [if_true]
    rw [removeNoise_symm]
    intro i j
    simp only [of_apply]
    rw [hb rfl i j]
    ring

theorem powSums_ok {k : DmapKernel} (hk : k.Admissible) {s : m → ℝ} (hs : ∀ i, 0 ≤ s i) : powSums k s = .ok (fun i => s i ^ k.alpha) := by
  unfold powSums
  split
  · rw [if_neg (by simpa using hs)]
  · rename_i h
    have : k.alpha = 1 := le_antisymm hk.2 (not_lt.mp h)
    rw [this]
    simp

/-- The matrix `K_ij / s_j^α`, with normalised rows. -/
noncomputable def diffusion (α : ℝ) (s : n → ℝ) (K : Matrix m n ℝ) : Matrix m n ℝ :=
  Matrix.of (fun i j => (K i j / s j ^ α) / ∑ l, K i l / s l ^ α)

theorem rowSums_pos_scaled {K : Matrix m n ℝ} (hK : ∀ i j, 0 ≤ K i j) {i : m} (hi : 0 < rowSums K i) {w : n → ℝ} (hw : ∀ j, 0 < w j) :
    0 < ∑ l, K i l / w l := by
  obtain ⟨j, -, hj⟩ := Finset.exists_lt_of_sum_lt (s := Finset.univ) (f := fun _ : n => (0 : ℝ)) (g := fun j => K i j) (by simpa [rowSums] using hi)
  exact Finset.sum_pos' (fun l _ => div_nonneg (hK i l) (hw l).le) ⟨j, Finset.mem_univ _, div_pos hj (hw j)⟩

theorem stochastic_of_pos {K : Matrix m n ℝ} (h : ∀ i, 0 < rowSums K i) (i : m) (j : n) : stochastic K i j = K i j / rowSums K i := by
  unfold stochastic
  rw [of_apply, if_neg]
  · rw [div_eq_inv_mul]
  · rintro (h0 | h0)
    · exact (h i).ne' h0
    · exact absurd (inv_pos.mpr (h i)) (not_lt.mpr h0.le)

/-- Dividing rows by positive numbers does not change the stochastic matrix. -/
theorem stochastic_scaled {K : Matrix m n ℝ} (hK : ∀ i j, 0 ≤ K i j) (hs : ∀ i, 0 < rowSums K i) {v : m → ℝ} (hv : ∀ i, 0 < v i) {w : n → ℝ} (hw : ∀ j, 0 < w j) :
    stochastic (Matrix.of (fun i j => ((v i)⁻¹ * K i j) * (w j)⁻¹)) = Matrix.of (fun i j => (K i j / w j) / ∑ l, K i l / w l) := by
  have hr : ∀ i, rowSums (Matrix.of (fun i j => ((v i)⁻¹ * K i j) * (w j)⁻¹)) i = (v i)⁻¹ * ∑ l, K i l / w l := by
    intro i
    simp only [rowSums, of_apply, Finset.mul_sum]
    exact Finset.sum_congr rfl (fun l _ => by rw [div_eq_mul_inv, mul_assoc])
  have hp : ∀ i, 0 < rowSums (Matrix.of (fun i j => ((v i)⁻¹ * K i j) * (w j)⁻¹)) i := by
    intro i
    rw [hr]
    exact mul_pos (inv_pos.mpr (hv i)) (rowSums_pos_scaled hK (hs i) hw)
  ext i j
  rw [stochastic_of_pos hp, hr]
  simp only [of_apply]
  have h1 := (rowSums_pos_scaled hK (hs i) hw).ne'
  have h2 := (hv i).ne'
  have h3 := (hw j).ne'
  field_simp

theorem diffusion_zero (s : n → ℝ) (K : Matrix m n ℝ) (i : m) (j : n) : diffusion 0 s K i j = K i j / rowSums K i := by
  simp [diffusion, rowSums]

theorem diffusion_sum {α : ℝ} {s : n → ℝ} {K : Matrix m n ℝ} (hK : ∀ i j, 0 ≤ K i j) (hs : ∀ j, 0 < s j) {i : m} (hi : 0 < rowSums K i) :
    ∑ j, diffusion α s K i j = 1 := by
  simp only [diffusion, of_apply]
  rw [← Finset.sum_div]
  exact div_self (rowSums_pos_scaled hK hi (fun j => Real.rpow_pos_of_pos (hs j) α)).ne'

theorem diffusion_nonneg {α : ℝ} {s : n → ℝ} {K : Matrix m n ℝ} (hK : ∀ i j, 0 ≤ K i j) (hs : ∀ j, 0 < s j) (i : m) (j : n) :
    0 ≤ diffusion α s K i j := by
  simp only [diffusion, of_apply]
  exact div_nonneg (div_nonneg (hK i j) (Real.rpow_pos_of_pos (hs j) α).le)
    (Finset.sum_nonneg (fun l _ => div_nonneg (hK i l) (Real.rpow_pos_of_pos (hs l) α).le))

/-- The stored attributes after a pair-wise evaluation that succeeded. -/
noncomputable def alphaAttr (k : DmapKernel) (K : Matrix n n ℝ) : Option (n → ℝ) := if 0 < k.alpha then some (fun i => rowSums K i ^ k.alpha) else none

/-- The density normalised kernel matrix before it is made stochastic. -/
noncomputable def densityMatrix (k : DmapKernel) (K : Matrix n n ℝ) : Matrix n n ℝ :=
  if 0 < k.alpha then Matrix.of (fun i j => ((rowSums K i ^ k.alpha)⁻¹ * K i j) * (rowSums K j ^ k.alpha)⁻¹) else K

theorem alphaPdist_ok {k : DmapKernel} (hk : k.Admissible) {K : Matrix n n ℝ} (hs : ∀ i, 0 < rowSums K i)
    (hsym : k.distSymmetric = true → ∀ i j, K i j = K j i) :
    alphaPdist k K = .ok (densityMatrix k K, alphaAttr k K) := by
  unfold alphaPdist alphaAttr densityMatrix
  split
  · unfold densityPdist
    rw [powSums_ok hk (fun i => (hs i).le)]
    simp only
    rw [divideSquare_ok (fun i => (Real.rpow_pos_of_pos (hs i) _).ne') hsym]
  · rfl

theorem evalPdist_stochastic {k : DmapKernel} (hk : k.Admissible) (hst : k.isStochastic = true) (hc : k.isConjugate = false)
    {K : Matrix n n ℝ} (hK : ∀ i j, 0 ≤ K i j) (hs : ∀ i, 0 < rowSums K i) (hsym : k.distSymmetric = true → ∀ i j, K i j = K j i) :
    evalPdist k none K = .ok (diffusion k.alpha (rowSums K) K, ⟨alphaAttr k K, none⟩) := by
  unfold evalPdist
  simp only [hst, hc, if_true, Bool.false_eq_true, if_false]
  rw [alphaPdist_ok hk hs hsym]
  simp only
  congr 2
  unfold densityMatrix
  split
  · rw [stochastic_scaled hK hs (fun i => Real.rpow_pos_of_pos (hs i) _) (fun j => Real.rpow_pos_of_pos (hs j) _)]
    rfl
  · rename_i h
    have h0 : k.alpha = 0 := le_antisymm (not_lt.mp h) hk.1
    ext i j
    rw [stochastic_of_pos hs, h0, diffusion_zero]

theorem evalCdist_stochastic {k : DmapKernel} (hk : k.Admissible) (hst : k.isStochastic = true)
    {K : Matrix n n ℝ} (hs : ∀ i, 0 < rowSums K i) {b : Option (n → ℝ)} {Kc : Matrix m n ℝ} (hKc : ∀ i j, 0 ≤ Kc i j) (hsc : ∀ i, 0 < rowSums Kc i) :
    evalCdist k (some ⟨alphaAttr k K, b⟩) Kc = .ok (diffusion k.alpha (rowSums K) Kc) := by
  unfold evalCdist
  simp only [hst, if_true, alphaCdist, alphaAttr]
  by_cases h : 0 < k.alpha
  · simp only [if_pos h, densityCdist]
    rw [powSums_ok hk (fun i => (hsc i).le)]
    simp only
    rw [divide_ok (fun i => (Real.rpow_pos_of_pos (hsc i) _).ne') (fun i => (Real.rpow_pos_of_pos (hs i) _).ne')]
    simp only
    rw [stochastic_scaled hKc hsc (fun i => Real.rpow_pos_of_pos (hsc i) _) (fun j => Real.rpow_pos_of_pos (hs j) _)]
    rfl
  · simp only [if_neg h]
    have h0 : k.alpha = 0 := le_antisymm (not_lt.mp h) hk.1
    congr 1
    ext i j
    rw [stochastic_of_pos hsc, h0, diffusion_zero]

theorem densityMatrix_nonneg {k : DmapKernel} {K : Matrix n n ℝ} (hK : ∀ i j, 0 ≤ K i j) (hs : ∀ i, 0 < rowSums K i) (i j : n) : 0 ≤ densityMatrix k K i j := by
  unfold densityMatrix
  split
  · simp only [of_apply]
    have h1 := (Real.rpow_pos_of_pos (hs i) k.alpha)
    have h2 := (Real.rpow_pos_of_pos (hs j) k.alpha)
    have := hK i j
    positivity
  · exact hK i j

theorem densityMatrix_symm {k : DmapKernel} {K : Matrix n n ℝ} (hsym : ∀ i j, K i j = K j i) (i j : n) : densityMatrix k K i j = densityMatrix k K j i := by
  unfold densityMatrix
  split
  · simp only [of_apply]
    rw [hsym i j]
    ring
  · exact hsym i j

theorem densityMatrix_rowSums {k : DmapKernel} {K : Matrix n n ℝ} (hK : ∀ i j, 0 ≤ K i j) (hs : ∀ i, 0 < rowSums K i) (i : n) : 0 < rowSums (densityMatrix k K) i := by
  unfold densityMatrix
  split
  · have hr : rowSums (Matrix.of (fun i j => ((rowSums K i ^ k.alpha)⁻¹ * K i j) * (rowSums K j ^ k.alpha)⁻¹)) i = (rowSums K i ^ k.alpha)⁻¹ * ∑ l, K i l / (rowSums K l ^ k.alpha) := by
      simp only [rowSums, of_apply, Finset.mul_sum]
      exact Finset.sum_congr rfl (fun l _ => by rw [div_eq_mul_inv, mul_assoc])
    rw [hr]
    exact mul_pos (inv_pos.mpr (Real.rpow_pos_of_pos (hs i) _)) (rowSums_pos_scaled hK (hs i) (fun j => Real.rpow_pos_of_pos (hs j) _))
  · exact hs i

theorem densityMatrix_diffusion {k : DmapKernel} (hk : k.Admissible) {K : Matrix n n ℝ} (hK : ∀ i j, 0 ≤ K i j) (hs : ∀ i, 0 < rowSums K i) :
    diffusion k.alpha (rowSums K) K = Matrix.of (fun i j => densityMatrix k K i j / rowSums (densityMatrix k K) i) := by
  have e : stochastic (densityMatrix k K) = Matrix.of (fun i j => densityMatrix k K i j / rowSums (densityMatrix k K) i) := by
    ext i j
    rw [stochastic_of_pos (densityMatrix_rowSums hK hs)]
    rfl
  rw [← e]
  unfold densityMatrix
  split
  · rw [stochastic_scaled hK hs (fun i => Real.rpow_pos_of_pos (hs i) _) (fun j => Real.rpow_pos_of_pos (hs j) _)]
    rfl
  · rename_i h
    have h0 : k.alpha = 0 := le_antisymm (not_lt.mp h) hk.1
    ext i j
    rw [stochastic_of_pos hs, h0, diffusion_zero]

theorem evalPdist_conjugate {k : DmapKernel} (hk : k.Admissible) (hc : k.isConjugate = true)
    {K : Matrix n n ℝ} (hK : ∀ i j, 0 ≤ K i j) (hs : ∀ i, 0 < rowSums K i) (hsym : ∀ i j, K i j = K j i) :
    evalPdist k none K = .ok (Matrix.of (fun i j => (Real.sqrt (rowSums (densityMatrix k K) i))⁻¹ * densityMatrix k K i j * (Real.sqrt (rowSums (densityMatrix k K) j))⁻¹),
      ⟨alphaAttr k K, some (fun i => (Real.sqrt (rowSums (densityMatrix k K) i))⁻¹)⟩) := by
  have hst : k.isStochastic = true := by
    unfold DmapKernel.isConjugate at hc
    simp only [Bool.and_eq_true] at hc
    exact hc.1.1
  unfold evalPdist
  simp only [hst, hc, if_true]
  rw [alphaPdist_ok hk hs (fun _ => hsym)]
  have hp := densityMatrix_rowSums (k := k) hK hs
  have hq : conjugateStochastic (densityMatrix k K) = .ok (Matrix.of (fun i j => (Real.sqrt (rowSums (densityMatrix k K) i))⁻¹ * densityMatrix k K i j * (Real.sqrt (rowSums (densityMatrix k K) j))⁻¹),
      fun i => (Real.sqrt (rowSums (densityMatrix k K) i))⁻¹) := by
    unfold conjugateStochastic
    rw [if_neg (by push Not; exact fun i => (hp i).le), divideSquare_ok (fun i => (Real.sqrt_pos.mpr (hp i)).ne') (fun _ => densityMatrix_symm hsym)]
  simp only [hq]

theorem isConjugate_eq (k : DmapKernel) : k.isConjugate = (k.isStochastic && k.symmetrize && k.distSymmetric) := by
  unfold DmapKernel.isConjugate
  cases k.isStochastic <;> cases k.symmetrize <;> cases k.distSymmetric <;> rfl

end Verif.Kernel
