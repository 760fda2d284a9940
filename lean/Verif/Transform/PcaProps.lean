import Verif.Transform.Pca
import Mathlib.Tactic.FieldSimp
import Mathlib.Tactic.Linarith
import Mathlib.Tactic.FinCases
import Mathlib.Algebra.BigOperators.Fin
import Mathlib.Algebra.BigOperators.Field
import Mathlib.LinearAlgebra.Matrix.NonsingularInverse
/-! # C163: principal components -/

namespace Verif.Transform

open Matrix

variable {m n : Type} [Fintype m] [Fintype n]

/-! ## Specification -/

/-- The squared distance. -/
def dist2 (x y : n → ℝ) : ℝ := (x - y) ⬝ᵥ (x - y)

/-- Orthonormal directions. -/
def Orthonormals {r : Nat} (w : Fin r → n → ℝ) : Prop := ∀ k l, w k ⬝ᵥ w l = if k = l then 1 else 0

/-- The point with coordinates `c` in the affine space through `b` with directions `w`. -/
def affinePoint {r : Nat} (b : n → ℝ) (w : Fin r → n → ℝ) (c : Fin r → ℝ) : n → ℝ := (∑ k, c k • w k) + b

/-! ## Lemmas -/

theorem dot_nonneg (x : n → ℝ) : 0 ≤ x ⬝ᵥ x := Finset.sum_nonneg (fun i _ => mul_self_nonneg _)

theorem sum_dot {r : Nat} {w : Fin r → n → ℝ} (hw : Orthonormals w) (c : Fin r → ℝ) (l : Fin r) : (∑ k, c k • w k) ⬝ᵥ w l = c l := by
  rw [sum_dotProduct]
  simp [smul_dotProduct, hw _ l]

theorem sum_dot_sum {r : Nat} {w : Fin r → n → ℝ} (hw : Orthonormals w) (c : Fin r → ℝ) : (∑ k, c k • w k) ⬝ᵥ (∑ k, c k • w k) = ∑ k, c k ^ 2 := by
  rw [dotProduct_sum]
  apply Finset.sum_congr rfl
  intro k _
  rw [dotProduct_smul, sum_dot hw, smul_eq_mul, sq]

/-- Distance of `y` to a point of the span. -/
theorem dist_span {r : Nat} {w : Fin r → n → ℝ} (hw : Orthonormals w) (y : n → ℝ) (c : Fin r → ℝ) :
    (y - ∑ k, c k • w k) ⬝ᵥ (y - ∑ k, c k • w k) = y ⬝ᵥ y - ∑ k, (y ⬝ᵥ w k) ^ 2 + ∑ k, (c k - y ⬝ᵥ w k) ^ 2 := by
  rw [sub_dotProduct, dotProduct_sub, dotProduct_sub, sum_dot_sum hw, dotProduct_comm (∑ k, c k • w k) y, dotProduct_sum]
  simp only [dotProduct_smul, smul_eq_mul]
  have h : ∑ k, (c k - y ⬝ᵥ w k) ^ 2 = ∑ k, c k ^ 2 - 2 * ∑ k, c k * (y ⬝ᵥ w k) + ∑ k, (y ⬝ᵥ w k) ^ 2 := by
    rw [Finset.mul_sum, ← Finset.sum_sub_distrib, ← Finset.sum_add_distrib]
    apply Finset.sum_congr rfl
    intro k _
    ring
  rw [h]
  ring

theorem bessel_le {r : Nat} {w : Fin r → n → ℝ} (hw : Orthonormals w) (y : n → ℝ) : ∑ k, (y ⬝ᵥ w k) ^ 2 ≤ y ⬝ᵥ y := by
  have h := dist_span hw y (fun k => y ⬝ᵥ w k)
  have h2 := dot_nonneg (y - ∑ k, (y ⬝ᵥ w k) • w k)
  rw [h] at h2
  simp at h2
  linarith

theorem pcaInverse_transform {r : Nat} (μ : n → ℝ) (w : Fin r → n → ℝ) {c : Fin r → ℝ} (hc : ∀ k, c k ≠ 0) (x : n → ℝ) :
    pcaInverse μ w c (pcaTransform μ w c x) = affinePoint μ w (fun k => (x - μ) ⬝ᵥ w k) := by
  unfold pcaInverse pcaTransform affinePoint
  congr 1
  apply Finset.sum_congr rfl
  intro k _
  rw [div_mul_cancel₀ _ (hc k)]

theorem dist2_affine {r : Nat} {w : Fin r → n → ℝ} (hw : Orthonormals w) (x b : n → ℝ) (c : Fin r → ℝ) :
    dist2 x (affinePoint b w c) = (x - b) ⬝ᵥ (x - b) - ∑ k, ((x - b) ⬝ᵥ w k) ^ 2 + ∑ k, (c k - (x - b) ⬝ᵥ w k) ^ 2 := by
  rw [← dist_span hw]
  unfold dist2 affinePoint
  have : x - (∑ k, c k • w k + b) = x - b - ∑ k, c k • w k := by abel
  rw [this]

/-! ## C163 -/

/-- **C163 (projection).** With all scales different from zero (always without whitening), `transform` and `inverse_transform` are inverse on the reduced space, and mapping a point there and back gives the
nearest point of the affine space through the mean spanned by the components. -/
theorem C163_projection {r : Nat} {X : Matrix m n ℝ} {w : Fin r → n → ℝ} {s : Fin r → ℝ} (h : PcaFit X w s) {c : Fin r → ℝ} (hc : ∀ k, c k ≠ 0) :
    (∀ z, pcaTransform (pcaMean X) w c (pcaInverse (pcaMean X) w c z) = z) ∧
      ∀ x, (∃ d, pcaInverse (pcaMean X) w c (pcaTransform (pcaMean X) w c x) = affinePoint (pcaMean X) w d) ∧
        ∀ d, dist2 x (pcaInverse (pcaMean X) w c (pcaTransform (pcaMean X) w c x)) ≤ dist2 x (affinePoint (pcaMean X) w d) := by
  have hw : Orthonormals w := h.orth
  constructor
  · intro z
    funext k
    unfold pcaTransform pcaInverse
    rw [add_sub_cancel_right, sum_dot hw (fun k => z k * c k), mul_div_cancel_right₀ _ (hc k)]
  · intro x
    rw [pcaInverse_transform _ _ hc]
    refine ⟨⟨_, rfl⟩, fun d => ?_⟩
    rw [dist2_affine hw, dist2_affine hw]
    have : 0 ≤ ∑ k, (d k - (x - pcaMean X) ⬝ᵥ w k) ^ 2 := Finset.sum_nonneg (fun k _ => sq_nonneg _)
    have h0 : ∑ k, ((x - pcaMean X) ⬝ᵥ w k - (x - pcaMean X) ⬝ᵥ w k) ^ 2 = 0 := Finset.sum_eq_zero (fun k _ => by rw [sub_self]; norm_num)
    rw [h0]
    linarith

theorem centred_mulVec (X : Matrix m n ℝ) (f : n → ℝ) (i : m) : (centred X *ᵥ f) i = (X i - pcaMean X) ⬝ᵥ f := rfl

theorem centred_sum [Nonempty m] (X : Matrix m n ℝ) (f : n → ℝ) : ∑ i, (centred X *ᵥ f) i = 0 := by
  have hm : (Fintype.card m : ℝ) ≠ 0 := by exact_mod_cast Fintype.card_ne_zero
  simp only [mulVec, dotProduct]
  rw [Finset.sum_comm]
  apply Finset.sum_eq_zero
  intro j _
  rw [← Finset.sum_mul]
  have : ∑ i, centred X i j = 0 := by
    simp only [centred, of_apply, Finset.sum_sub_distrib, Finset.sum_const, Finset.card_univ, nsmul_eq_mul, pcaMean]
    field_simp
    ring
  rw [this, zero_mul]

theorem gram_eig {r : Nat} {X : Matrix m n ℝ} {w : Fin r → n → ℝ} {s : Fin r → ℝ} (h : PcaFit X w s) (k : Fin r) (f : n → ℝ) :
    (centred X *ᵥ w k) ⬝ᵥ (centred X *ᵥ f) = s k ^ 2 * (w k ⬝ᵥ f) := by
  rw [dotProduct_mulVec, ← mulVec_transpose, h.eig, smul_dotProduct, smul_eq_mul]

/-- **C163 (training data).** The transformed training data have mean zero, uncorrelated features, and feature `k` has the sum of squares `sₖ²`; these do not increase with `k`. -/
theorem C163_decorrelated [Nonempty m] {r : Nat} {X : Matrix m n ℝ} {w : Fin r → n → ℝ} {s : Fin r → ℝ} (h : PcaFit X w s) :
    (∀ k, ∑ i, pcaTransform (pcaMean X) w (fun _ => 1) (X i) k = 0) ∧
      (∀ k l, ∑ i, pcaTransform (pcaMean X) w (fun _ => 1) (X i) k * pcaTransform (pcaMean X) w (fun _ => 1) (X i) l = if k = l then s k ^ 2 else 0) ∧ ∀ k l, k ≤ l → s l ≤ s k := by
  have e : ∀ i k, pcaTransform (pcaMean X) w (fun _ => 1) (X i) k = (centred X *ᵥ w k) i := by
    intro i k
    rw [centred_mulVec]
    simp [pcaTransform]
  simp only [e]
  refine ⟨fun k => centred_sum X _, ?_, ?_⟩
  · intro k l
    have := gram_eig h k (w l)
    rw [h.orth] at this
    rw [show ∑ i, (centred X *ᵥ w k) i * (centred X *ᵥ w l) i = (centred X *ᵥ w k) ⬝ᵥ (centred X *ᵥ w l) from rfl, this]
    split <;> simp
  · intro k l hkl
    have := h.top k (w l) (fun j hj => by rw [h.orth, if_neg]; intro e; omega)
    rw [gram_eig h, h.orth, if_pos rfl, mul_one, mul_one] at this
    exact (sq_le_sq₀ (h.nonneg l) (h.nonneg k)).1 this

/-- **C163 (whitening).** With `whiten=True` and positive singular values the transformed training data have the variance one (divided by the number of samples minus one). -/
theorem C163_whiten {r : Nat} {X : Matrix m n ℝ} {w : Fin r → n → ℝ} {s : Fin r → ℝ} (h : PcaFit X w s) (hs : ∀ k, 0 < s k) (hm : 2 ≤ Fintype.card m) (k l : Fin r) :
    (∑ i, pcaTransform (pcaMean X) w (fun k => whitenScale true (Fintype.card m) (s k)) (X i) k * pcaTransform (pcaMean X) w (fun k => whitenScale true (Fintype.card m) (s k)) (X i) l)
      / ((Fintype.card m : ℝ) - 1) = if k = l then 1 else 0 := by
  have hm1 : (0 : ℝ) < (Fintype.card m : ℝ) - 1 := by
    have : (2 : ℝ) ≤ (Fintype.card m : ℝ) := by exact_mod_cast hm
    linarith
  have e : ∀ i k, pcaTransform (pcaMean X) w (fun k => whitenScale true (Fintype.card m) (s k)) (X i) k = (centred X *ᵥ w k) i / whitenScale true (Fintype.card m) (s k) := by
    intro i k
    rw [centred_mulVec]
    rfl
  have hsum : ∑ i, (centred X *ᵥ w k) i / whitenScale true (Fintype.card m) (s k) * ((centred X *ᵥ w l) i / whitenScale true (Fintype.card m) (s l)) =
      ((centred X *ᵥ w k) ⬝ᵥ (centred X *ᵥ w l)) / (whitenScale true (Fintype.card m) (s k) * whitenScale true (Fintype.card m) (s l)) := by
    rw [dotProduct, Finset.sum_div]
    apply Finset.sum_congr rfl
    intro i _
    rw [div_mul_div_comm]
  simp only [e]
  rw [hsum, gram_eig h, h.orth]
  split
  · rename_i hkl
    subst hkl
    have hq : whitenScale true (Fintype.card m) (s k) * whitenScale true (Fintype.card m) (s k) = s k ^ 2 / ((Fintype.card m : ℝ) - 1) := by
      simp only [whitenScale, if_true]
      exact Real.mul_self_sqrt (by positivity)
    rw [hq]
    have := (hs k).ne'
    field_simp
  · simp

/-- The sum of squares that any orthonormal directions catch is at most that of the components (Ky Fan). -/
theorem kyFan {r : Nat} {X : Matrix m n ℝ} {w : Fin r → n → ℝ} {s : Fin r → ℝ} (h : PcaFit X w s) {v : Fin r → n → ℝ} (hv : Orthonormals v) :
    ∑ k, (centred X *ᵥ v k) ⬝ᵥ (centred X *ᵥ v k) ≤ ∑ k, s k ^ 2 := by
  have hw : Orthonormals w := h.orth
  cases r with
  | zero => simp
  | succ q =>
    -- the part of `v k` orthogonal to the components
    have hp : ∀ k, (centred X *ᵥ v k) ⬝ᵥ (centred X *ᵥ v k) ≤ ∑ l, s l ^ 2 * (v k ⬝ᵥ w l) ^ 2 + s (Fin.last q) ^ 2 * (1 - ∑ l, (v k ⬝ᵥ w l) ^ 2) := by
      intro k
      have hpw : ∀ l, (v k - ∑ l, (v k ⬝ᵥ w l) • w l) ⬝ᵥ w l = 0 := by
        intro l
        rw [sub_dotProduct, sum_dot hw (fun l => v k ⬝ᵥ w l), sub_self]
      have htop := h.top (Fin.last q) (v k - ∑ l, (v k ⬝ᵥ w l) • w l) (fun l _ => hpw l)
      have hn := dist_span hw (v k) (fun l => v k ⬝ᵥ w l)
      simp only [sub_self] at hn
      rw [hn, hv k k, if_pos rfl] at htop
      have hsplit : centred X *ᵥ v k = centred X *ᵥ (v k - ∑ l, (v k ⬝ᵥ w l) • w l) + ∑ l, (v k ⬝ᵥ w l) • (centred X *ᵥ w l) := by
        rw [mulVec_sub, mulVec_sum]
        simp only [mulVec_smul]
        abel
      have hcross : (∑ l, (v k ⬝ᵥ w l) • (centred X *ᵥ w l)) ⬝ᵥ (centred X *ᵥ (v k - ∑ l, (v k ⬝ᵥ w l) • w l)) = 0 := by
        rw [sum_dotProduct]
        apply Finset.sum_eq_zero
        intro l _
        rw [smul_dotProduct, gram_eig h, dotProduct_comm (w l), hpw]
        simp
      have hsq : (∑ l, (v k ⬝ᵥ w l) • (centred X *ᵥ w l)) ⬝ᵥ (∑ l, (v k ⬝ᵥ w l) • (centred X *ᵥ w l)) = ∑ l, s l ^ 2 * (v k ⬝ᵥ w l) ^ 2 := by
        rw [sum_dotProduct]
        apply Finset.sum_congr rfl
        intro l _
        rw [smul_dotProduct, dotProduct_sum, Finset.sum_eq_single l]
        · rw [dotProduct_smul, gram_eig h, h.orth, if_pos rfl]
          simp only [smul_eq_mul]
          ring
        · intro j _ hj
          rw [dotProduct_smul, gram_eig h, h.orth, if_neg (Ne.symm hj)]
          simp
        · simp
      rw [hsplit, add_dotProduct, dotProduct_add, dotProduct_add, dotProduct_comm (centred X *ᵥ (v k - ∑ l, (v k ⬝ᵥ w l) • w l)) (∑ l, (v k ⬝ᵥ w l) • (centred X *ᵥ w l)), hcross, hsq]
      simp at htop
      linarith
    have hb : ∀ l, ∑ k, (v k ⬝ᵥ w l) ^ 2 ≤ 1 := by
      intro l
      have := bessel_le hv (w l)
      rw [hw l l, if_pos rfl] at this
      simpa [dotProduct_comm] using this
    have hmono : ∀ l, 0 ≤ s l ^ 2 - s (Fin.last q) ^ 2 := by
      intro l
      have := h.top l (w (Fin.last q)) (fun j hj => by
        rw [h.orth, if_neg]
        intro e
        rw [← e] at hj
        exact absurd (Fin.le_last l) (not_le.2 hj))
      rw [gram_eig h, h.orth, if_pos rfl, mul_one, mul_one] at this
      linarith
    calc ∑ k, (centred X *ᵥ v k) ⬝ᵥ (centred X *ᵥ v k) ≤ ∑ k, (∑ l, s l ^ 2 * (v k ⬝ᵥ w l) ^ 2 + s (Fin.last q) ^ 2 * (1 - ∑ l, (v k ⬝ᵥ w l) ^ 2)) := Finset.sum_le_sum (fun k _ => hp k)
      _ = ∑ l, (s l ^ 2 - s (Fin.last q) ^ 2) * ∑ k, (v k ⬝ᵥ w l) ^ 2 + ∑ _k : Fin (q + 1), s (Fin.last q) ^ 2 := by
        have : ∀ k, (∑ l, s l ^ 2 * (v k ⬝ᵥ w l) ^ 2 + s (Fin.last q) ^ 2 * (1 - ∑ l, (v k ⬝ᵥ w l) ^ 2)) = ∑ l, (s l ^ 2 - s (Fin.last q) ^ 2) * (v k ⬝ᵥ w l) ^ 2 + s (Fin.last q) ^ 2 := by
          intro k
          rw [mul_sub, Finset.mul_sum]
          simp only [sub_mul, Finset.sum_sub_distrib]
          ring
        simp only [this]
        rw [Finset.sum_add_distrib, Finset.sum_comm]
        simp only [Finset.mul_sum]
      _ ≤ ∑ l, (s l ^ 2 - s (Fin.last q) ^ 2) * 1 + ∑ _k : Fin (q + 1), s (Fin.last q) ^ 2 := by
        gcongr with l
        · exact hmono l
        · exact hb l
      _ = ∑ l, s l ^ 2 := by
        rw [← Finset.sum_add_distrib]
        apply Finset.sum_congr rfl
        intro l _
        ring

theorem sum_rows_dot (X : Matrix m n ℝ) {r : Nat} (v : Fin r → n → ℝ) : ∑ i, ∑ k, ((X i - pcaMean X) ⬝ᵥ v k) ^ 2 = ∑ k, (centred X *ᵥ v k) ⬝ᵥ (centred X *ᵥ v k) := by
  rw [Finset.sum_comm]
  apply Finset.sum_congr rfl
  intro k _
  rw [dotProduct]
  apply Finset.sum_congr rfl
  intro i _
  rw [centred_mulVec, sq]

/-- The mean has the smallest sum of squared distances after any projection. -/
theorem mean_optimal [Nonempty m] (X : Matrix m n ℝ) {r : Nat} {v : Fin r → n → ℝ} (hv : Orthonormals v) (b : n → ℝ) :
    ∑ i, ((X i - pcaMean X) ⬝ᵥ (X i - pcaMean X) - ∑ k, ((X i - pcaMean X) ⬝ᵥ v k) ^ 2) ≤ ∑ i, ((X i - b) ⬝ᵥ (X i - b) - ∑ k, ((X i - b) ⬝ᵥ v k) ^ 2) := by
  have hz : ∀ f : n → ℝ, ∑ i, (X i - pcaMean X) ⬝ᵥ f = 0 := fun f => centred_sum X f
  set e := pcaMean X - b with he
  have hxb : ∀ i, X i - b = (X i - pcaMean X) + e := fun i => by rw [he]; abel
  have h1 : ∀ i, (X i - b) ⬝ᵥ (X i - b) - ∑ k, ((X i - b) ⬝ᵥ v k) ^ 2 =
      ((X i - pcaMean X) ⬝ᵥ (X i - pcaMean X) - ∑ k, ((X i - pcaMean X) ⬝ᵥ v k) ^ 2) + 2 * ((X i - pcaMean X) ⬝ᵥ (e - ∑ k, (e ⬝ᵥ v k) • v k)) + (e ⬝ᵥ e - ∑ k, (e ⬝ᵥ v k) ^ 2) := by
    intro i
    rw [hxb i]
    generalize X i - pcaMean X = y
    clear_value e
    rw [add_dotProduct, dotProduct_add, dotProduct_add, dotProduct_sub, dotProduct_sum, dotProduct_comm e y]
    simp only [add_dotProduct, dotProduct_smul, smul_eq_mul, add_sq, Finset.sum_add_distrib]
    have : ∑ k, 2 * (y ⬝ᵥ v k) * (e ⬝ᵥ v k) = 2 * ∑ k, (e ⬝ᵥ v k) * (y ⬝ᵥ v k) := by
      rw [Finset.mul_sum]
      apply Finset.sum_congr rfl
      intro k _
      ring
    rw [this]
    ring
  simp only [h1]
  rw [Finset.sum_add_distrib, Finset.sum_add_distrib, ← Finset.mul_sum, hz, mul_zero, add_zero]
  have := bessel_le hv e
  have h2 : (0 : ℝ) ≤ ∑ _i : m, (e ⬝ᵥ e - ∑ k, (e ⬝ᵥ v k) ^ 2) := Finset.sum_nonneg (fun _ _ => by linarith)
  linarith

/-- **C163 (optimality).** No affine space with the same dimension, through any point `b` and with any orthonormal directions `v`, is nearer to the training data: for all coordinates `d` the sum of squared
distances is at least that of the samples that are transformed and mapped back. -/
theorem C163_optimal [Nonempty m] {r : Nat} {X : Matrix m n ℝ} {w : Fin r → n → ℝ} {s : Fin r → ℝ} (h : PcaFit X w s) {c : Fin r → ℝ} (hc : ∀ k, c k ≠ 0) {v : Fin r → n → ℝ} (hv : Orthonormals v)
    (b : n → ℝ) (d : m → Fin r → ℝ) :
    ∑ i, dist2 (X i) (pcaInverse (pcaMean X) w c (pcaTransform (pcaMean X) w c (X i))) ≤ ∑ i, dist2 (X i) (affinePoint b v (d i)) := by
  have hw : Orthonormals w := h.orth
  calc ∑ i, dist2 (X i) (pcaInverse (pcaMean X) w c (pcaTransform (pcaMean X) w c (X i)))
      = ∑ i, ((X i - pcaMean X) ⬝ᵥ (X i - pcaMean X) - ∑ k, ((X i - pcaMean X) ⬝ᵥ w k) ^ 2) := by
        apply Finset.sum_congr rfl
        intro i _
        rw [pcaInverse_transform _ _ hc, dist2_affine hw]
        simp
    _ ≤ ∑ i, ((X i - pcaMean X) ⬝ᵥ (X i - pcaMean X) - ∑ k, ((X i - pcaMean X) ⬝ᵥ v k) ^ 2) := by
        rw [Finset.sum_sub_distrib, Finset.sum_sub_distrib, sum_rows_dot, sum_rows_dot]
        have h1 := kyFan h hv
        have h2 : ∑ k, (centred X *ᵥ w k) ⬝ᵥ (centred X *ᵥ w k) = ∑ k, s k ^ 2 := by
          apply Finset.sum_congr rfl
          intro k _
          rw [gram_eig h, h.orth, if_pos rfl, mul_one]
        rw [h2]
        linarith
    _ ≤ ∑ i, ((X i - b) ⬝ᵥ (X i - b) - ∑ k, ((X i - b) ⬝ᵥ v k) ^ 2) := mean_optimal X hv b
    _ ≤ ∑ i, dist2 (X i) (affinePoint b v (d i)) := by
        apply Finset.sum_le_sum
        intro i _
        rw [dist2_affine hv]
        have : 0 ≤ ∑ k, (d i k - (X i - b) ⬝ᵥ v k) ^ 2 := Finset.sum_nonneg (fun k _ => sq_nonneg _)
        linarith

/-- **C163 (full rank).** If the components span the space, transformed data are mapped back exactly. -/
theorem C163_full {r : Nat} {X : Matrix m n ℝ} {w : Fin r → n → ℝ} {s : Fin r → ℝ} (h : PcaFit X w s) {c : Fin r → ℝ} (hc : ∀ k, c k ≠ 0) (hr : r = Fintype.card n) (x : n → ℝ) :
    pcaInverse (pcaMean X) w c (pcaTransform (pcaMean X) w c x) = x := by
  have hw : Orthonormals w := h.orth
  have h1 : Matrix.of w * (Matrix.of w)ᵀ = 1 := by
    ext k l
    rw [Matrix.mul_apply, Matrix.one_apply]
    exact hw k l
  classical
  have h2 : (Matrix.of w)ᵀ * Matrix.of w = 1 := by
    exact (Matrix.mul_eq_one_comm_of_card_eq (Fin r) n ℝ (by simp [hr])).1 h1
  rw [pcaInverse_transform _ _ hc]
  unfold affinePoint
  have h3 : ∑ k, ((x - pcaMean X) ⬝ᵥ w k) • w k = x - pcaMean X := by
    have h4 : (Matrix.of w)ᵀ *ᵥ (Matrix.of w *ᵥ (x - pcaMean X)) = x - pcaMean X := by rw [mulVec_mulVec, h2, one_mulVec]
    rw [← h4]
    conv_lhs => rw [h4]
    funext j
    rw [Finset.sum_apply]
    simp only [Pi.smul_apply, smul_eq_mul]
    conv_rhs => rw [mulVec, dotProduct]
    apply Finset.sum_congr rfl
    intro k _
    rw [mul_comm, dotProduct_comm]
    rfl
  rw [h3]
  abel

/-! ## Attributes of repeated fits -/

theorem pcaHistory_nOut {α : Type} {a b : PcaAttrs} {l : List (Table α × Nat)} (h : pcaHistory (some a) l = some b) : b.nOut = a.nOut := by
  induction l generalizing a with
  | nil =>
    simp only [pcaHistory, Option.some.injEq] at h
    rw [h]
  | cons p l ih =>
    obtain ⟨X, r⟩ := p
    exact (ih (a := pcaSetup (some a) X r) h).trans rfl

theorem pcaHistory_append {α : Type} (st : Option PcaAttrs) (l : List (Table α × Nat)) (X : Table α) (r : Nat) : pcaHistory st (l ++ [(X, r)]) = some (pcaSetup (pcaHistory st l) X r) := by
  induction l generalizing st with
  | nil => rfl
  | cons p l ih =>
    obtain ⟨Y, q⟩ := p
    exact ih _

/-- **C163 (histories).** After any number of fits, the last one to `X` with `r` components, `transform` accepts the columns of `X` and returns `r` features, `pca0, pca1, …`; `inverse_transform` accepts
these if and only if the first fit of the estimator had `r` components too and `X` has column names; then it returns the columns of `X`. -/
theorem C163_history_partial {α : Type} (l : List (Table α × Nat)) (X : Table α) (r : Nat) :
    ∃ a, pcaHistory none (l ++ [(X, r)]) = some a ∧ pcaForward a X.cols X.n = .ok (X.cols.map (fun _ => pcaNames r), r) ∧
      ((∃ out, pcaBackward a (X.cols.map (fun _ => pcaNames r)) r = .ok out) ↔ X.cols.isSome ∧ ∀ p ∈ l.head?, p.2 = r) ∧
      ∀ out, pcaBackward a (X.cols.map (fun _ => pcaNames r)) r = .ok out → out = (X.cols, X.n) := by
  refine ⟨_, pcaHistory_append none l X r, ?_, ?_, ?_⟩
  · unfold pcaForward
    have : checkInput (pcaSetup (pcaHistory none l) X r).names (pcaSetup (pcaHistory none l) X r).nIn (⟨X.cols, X.n, []⟩ : Table Unit) = .ok () := by
      unfold checkInput pcaSetup
      cases h : X.cols <;> simp
    rw [this]
    rfl
  · have hn : (pcaSetup (pcaHistory none l) X r).nOut = r ↔ ∀ p ∈ l.head?, p.2 = r := by
      cases l with
      | nil => simp [pcaHistory, pcaSetup]
      | cons p l =>
        obtain ⟨Y, q⟩ := p
        simp only [pcaHistory]
        cases hh : pcaHistory (some (pcaSetup none Y q)) l with
        | none =>
          exfalso

          generalize pcaSetup none Y q = b at hh
          induction l generalizing b with
          | nil => simp [pcaHistory] at hh
          | cons p l ih =>
            obtain ⟨Z, q'⟩ := p
            exact ih _ hh
        | some b =>
          have := pcaHistory_nOut hh
          have h3 : (pcaSetup (some b) X r).nOut = q := this
          rw [h3]
          simp
    rw [← hn]
    cases hc : X.cols with
    | none => 
      unfold pcaBackward
      have : (pcaSetup (pcaHistory none l) X r).names = none := hc
      simp only [this, Option.map_none, Option.any_none]
      split
      · simp
      · split
        · simp
        · split <;> simp
    | some b =>
      unfold pcaBackward
      have h1 : (pcaSetup (pcaHistory none l) X r).names = some b := hc
      have h2 : (pcaSetup (pcaHistory none l) X r).comps = r := rfl
      by_cases h : (pcaSetup (pcaHistory none l) X r).nOut = r
      · simp [h, h1, h2]
      · simp [h, Ne.symm h]
  · intro out h
    unfold pcaBackward at h
    have h1 : (pcaSetup (pcaHistory none l) X r).names = X.cols := rfl
    have h2 : (pcaSetup (pcaHistory none l) X r).nIn = X.n := rfl
    rw [h1, h2] at h
    split at h
    · simp at h
    · split at h
      · simp at h
      · split at h
        · simp at h
        · split at h
          · simp at h
          · rename_i b hb
            simp only [Except.ok.injEq] at h
            rw [← h, hb]
            rfl

/-- **C163 fails for repeated fits:** a number of components chosen from the data (for example by explained variance) may change in the next fit; `inverse_transform` then rejects what `transform` returns. -/
theorem C163_refit_violated : ∃ (X Y : Table ℝ), ∃ a, pcaHistory none [(X, 1), (Y, 2)] = some a ∧ pcaForward a Y.cols Y.n = .ok (some ["pca0", "pca1"], 2) ∧
    pcaBackward a (some ["pca0", "pca1"]) 2 = .error .features :=
  ⟨⟨some ["a", "b"], 2, []⟩, ⟨some ["a", "b"], 2, []⟩, _, rfl, by decide +kernel, by decide +kernel⟩

/-- **C163 fails for arrays:** a model that was fitted to an array maps nothing back. -/
theorem C163_array_violated {α : Type} (l : List (Table α × Nat)) {X : Table α} (hX : X.cols = none) (r : Nat) {a : PcaAttrs} (h : pcaHistory none (l ++ [(X, r)]) = some a) (cols : Option (List String)) (k : Nat) :
    ∃ e, pcaBackward a cols k = .error e := by
  rw [pcaHistory_append, Option.some.injEq] at h
  have : a.names = none := by rw [← h]; exact hX
  unfold pcaBackward
  rw [this]
  split
  · exact ⟨_, rfl⟩
  · split
    · exact ⟨_, rfl⟩
    · split <;> exact ⟨_, rfl⟩

/-! ## Example: four points, the first axis dominates -/

/-- Four points. -/
def exPca : Matrix (Fin 4) (Fin 2) ℝ := Matrix.of (fun i j => if j = 0 then (if i = 0 then 3 else if i = 1 then -1 else 1) else (if i = 2 then 1 else if i = 3 then -1 else 0))

/-- The first axis. -/
def exPcaW : Fin 1 → Fin 2 → ℝ := ![![1, 0]]

theorem exPca_mean : pcaMean exPca = ![1, 0] := by
  funext j
  fin_cases j <;> (simp [pcaMean, exPca, Fin.sum_univ_four] <;> norm_num)

theorem exPca_centred : centred exPca = Matrix.of (fun i j => if j = 0 then (if i = 0 then 2 else if i = 1 then -2 else 0) else (if i = 2 then 1 else if i = 3 then -1 else 0)) := by
  unfold centred
  rw [exPca_mean]
  ext i j
  fin_cases i <;> fin_cases j <;> (simp [exPca] <;> norm_num)

theorem exPca_fit : PcaFit exPca exPcaW ![Real.sqrt 8] where
  orth := by intro k l; fin_cases k; fin_cases l; simp [exPcaW]
  nonneg := by intro k; fin_cases k; simp
  eig := by
    intro k
    rw [exPca_centred]
    funext j
    fin_cases k
    fin_cases j <;> (simp [exPcaW, mulVec, dotProduct, Fin.sum_univ_four] <;> norm_num)
  top := by
    intro k f _
    rw [exPca_centred]
    fin_cases k
    simp [mulVec, dotProduct, Fin.sum_univ_four]
    nlinarith [sq_nonneg (f 1)]

example : ∑ i, dist2 (exPca i) (pcaInverse (pcaMean exPca) exPcaW (fun _ => 1) (pcaTransform (pcaMean exPca) exPcaW (fun _ => 1) (exPca i))) = 2 := by
  rw [exPca_mean]
  simp [dist2, pcaInverse, pcaTransform, exPca, exPcaW, Fin.sum_univ_four, dotProduct]
  norm_num

end Verif.Transform
