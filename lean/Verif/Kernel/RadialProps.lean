import Verif.Kernel.Radial
import Verif.Kernel.DmapProps
import Mathlib.Analysis.SpecialFunctions.Exponential
import Mathlib.Topology.Algebra.InfiniteSum.Order
/-!
# C45, C46, C91, C95, C96: radial basis kernels and the bandwidth estimation
-/

namespace Verif.Kernel

open Matrix

variable {m n d : Type} [Fintype m] [Fintype n] [Fintype d]

/-! ## Helper lemmas -/

theorem sqDist_nonneg (x y : d → ℝ) : 0 ≤ sqDist x y := Finset.sum_nonneg (fun _ _ => sq_nonneg _)

theorem sqDist_comm (x y : d → ℝ) : sqDist x y = sqDist y x := Finset.sum_congr rfl (fun _ _ => by ring)

theorem sqDist_eq_zero {x y : d → ℝ} : sqDist x y = 0 ↔ x = y := by
  unfold sqDist
  rw [Finset.sum_eq_zero_iff_of_nonneg (fun _ _ => sq_nonneg _), funext_iff]
  refine forall_congr' (fun i => ?_)
  simp [sub_eq_zero]

/-- The quadratic form of the powers of a Gram matrix is non-negative. -/
theorem gram_pow_nonneg (x : n → d → ℝ) (k : ℕ) : ∀ b : n → ℝ, 0 ≤ ∑ i, ∑ j, b i * b j * (∑ a, x i a * x j a) ^ k := by
  induction k with
  | zero =>
    intro b
    have : ∑ i, ∑ j, b i * b j * (∑ a, x i a * x j a) ^ 0 = (∑ i, b i) * (∑ i, b i) := by
      rw [Finset.sum_mul_sum]
      simp
    rw [this]
    exact mul_self_nonneg _
  | succ k ih =>
    intro b
    have : ∑ i, ∑ j, b i * b j * (∑ a, x i a * x j a) ^ (k + 1) = ∑ a, ∑ i, ∑ j, (b i * x i a) * (b j * x j a) * (∑ c, x i c * x j c) ^ k := by
      rw [Finset.sum_comm]
      simp only [Finset.sum_comm (s := (Finset.univ : Finset d))]
      rw [Finset.sum_comm]
      refine Finset.sum_congr rfl (fun i _ => Finset.sum_congr rfl (fun j _ => ?_))
      rw [pow_succ, mul_comm ((∑ a, x i a * x j a) ^ k), ← mul_assoc, Finset.mul_sum, Finset.sum_mul]
      exact Finset.sum_congr rfl (fun a _ => by ring)
    rw [this]
    exact Finset.sum_nonneg (fun a _ => ih _)

theorem gram_exp_nonneg (x : n → d → ℝ) (b : n → ℝ) : 0 ≤ ∑ i, ∑ j, b i * b j * Real.exp (∑ a, x i a * x j a) := by
  have h : ∀ i j, HasSum (fun k : ℕ => b i * b j * ((∑ a, x i a * x j a) ^ k / k.factorial)) (b i * b j * Real.exp (∑ a, x i a * x j a)) := by
    intro i j
    rw [Real.exp_eq_exp_ℝ]
    exact (NormedSpace.expSeries_div_hasSum_exp (∑ a, x i a * x j a)).mul_left _
  have h2 := hasSum_sum (s := Finset.univ) (fun i _ => hasSum_sum (s := Finset.univ) (fun j _ => h i j))
  refine h2.nonneg (fun k => ?_)
  have : ∑ i, ∑ j, b i * b j * ((∑ a, x i a * x j a) ^ k / (k.factorial : ℝ)) = (∑ i, ∑ j, b i * b j * (∑ a, x i a * x j a) ^ k) / (k.factorial : ℝ) := by
    simp only [Finset.sum_div, mul_div_assoc]
  rw [this]
  exact div_nonneg (gram_pow_nonneg x k b) (by positivity)

theorem gaussian_psd (eps : ℝ) (he : 0 < eps) (x : n → d → ℝ) (c : n → ℝ) : 0 ≤ ∑ i, ∑ j, c i * c j * (Radial.gaussian eps).fn (sqDist (x i) (x j)) := by
  set s := Real.sqrt eps with hs
  have hs0 : 0 < s := Real.sqrt_pos.mpr he
  have hss : s * s = eps := Real.mul_self_sqrt he.le
  have key := gram_exp_nonneg (fun i a => x i a / s) (fun i => c i * Real.exp (-(∑ a, x i a ^ 2) / (2 * eps)))
  refine key.trans (le_of_eq (Finset.sum_congr rfl (fun i _ => Finset.sum_congr rfl (fun j _ => ?_))))
  have e1 : ∑ a, x i a / s * (x j a / s) = (∑ a, x i a * x j a) / eps := by
    rw [Finset.sum_div]
    refine Finset.sum_congr rfl (fun a _ => ?_)
    rw [div_mul_div_comm, hss]
  have e2 : sqDist (x i) (x j) = ∑ a, x i a ^ 2 - 2 * ∑ a, x i a * x j a + ∑ a, x j a ^ 2 := by
    unfold sqDist
    rw [Finset.mul_sum, ← Finset.sum_sub_distrib, ← Finset.sum_add_distrib]
    exact Finset.sum_congr rfl (fun a _ => by ring)
  rw [e1]
  simp only [Radial.fn]
  rw [e2]
  have e3 : -1 / (2 * eps) * (∑ a, x i a ^ 2 - 2 * ∑ a, x i a * x j a + ∑ a, x j a ^ 2)
      = -(∑ a, x i a ^ 2) / (2 * eps) + -(∑ a, x j a ^ 2) / (2 * eps) + (∑ a, x i a * x j a) / eps := by
    field_simp
    ring
  rw [e3, Real.exp_add, Real.exp_add]
  ring

/-! ## Specification -/

/-- A similarity on points: in `(0, 1]`, one exactly for equal points, strictly decreasing in the Euclidean distance, and symmetric. -/
def IsSimilarity (k : (d → ℝ) → (d → ℝ) → ℝ) : Prop :=
  (∀ x y, 0 < k x y ∧ k x y ≤ 1) ∧ (∀ x y, k x y = 1 ↔ x = y) ∧ (∀ x y x' y', sqDist x y < sqDist x' y' ↔ k x' y' < k x y) ∧ ∀ x y, k x y = k y x

/-- The values of a kernel call: entry `(i, j)` belongs to query point `i` and reference point `j`. -/
def Values (r : Radial) (k : (d → ℝ) → (d → ℝ) → ℝ) : Prop :=
  ∀ (m n : Type) [Fintype m] [Fintype n] (X : n → d → ℝ) (Y : m → d → ℝ), r.call X Y = .ok (Matrix.of (fun i j => k (Y i) (X j)))

theorem similarity_of {g : ℝ → ℝ} (h0 : ∀ D, 0 ≤ D → 0 < g D) (h1 : g 0 = 1) (hanti : ∀ a b, 0 ≤ a → 0 ≤ b → a < b → g b < g a) :
    IsSimilarity (fun x y : d → ℝ => g (sqDist x y)) := by
  have hlt : ∀ a b, 0 ≤ a → 0 ≤ b → (a < b ↔ g b < g a) := by
    intro a b ha hb
    refine ⟨hanti a b ha hb, fun h => ?_⟩
    by_contra hn
    rcases eq_or_lt_of_le (not_lt.mp hn) with h2 | h2
    · rw [h2] at h
      exact lt_irrefl _ h
    · exact lt_asymm h (hanti b a hb ha h2)
  refine ⟨fun x y => ⟨h0 _ (sqDist_nonneg x y), ?_⟩, fun x y => ?_, fun x y x' y' => hlt _ _ (sqDist_nonneg _ _) (sqDist_nonneg _ _), fun x y => ?_⟩
  · change g (sqDist x y) ≤ 1
    rcases eq_or_lt_of_le (sqDist_nonneg x y) with h | h
    · rw [← h, h1]
    · rw [← h1]
      exact (hanti 0 _ le_rfl h.le h).le
  · constructor
    · intro h
      by_contra hne
      have hp : 0 < sqDist x y := lt_of_le_of_ne (sqDist_nonneg x y) (fun h => hne (sqDist_eq_zero.mp h.symm))
      have := hanti 0 _ le_rfl hp.le hp
      rw [h1] at this
      simp only at h
      linarith
    · rintro rfl
      simp only
      rw [sqDist_eq_zero.mpr rfl, h1]
  · simp only
    rw [sqDist_comm]

/-! ## C45 -/

/-- C45: the Gaussian kernel is a similarity. -/
theorem C45_gaussian (eps : ℝ) (he : 0 < eps) : ∃ k : (d → ℝ) → (d → ℝ) → ℝ, Values (Radial.gaussian eps) k ∧ IsSimilarity k := by
  refine ⟨fun x y => (Radial.gaussian eps).fn (sqDist x y), ?_, ?_⟩
  · intro m n _ _ X Y
    unfold Radial.call Radial.evaluate Radial.check
    simp only [Radial.epsilon, if_pos he]
    rfl
  · refine similarity_of (g := (Radial.gaussian eps).fn) (fun D _ => Real.exp_pos _) (by simp [Radial.fn]) ?_
    intro a b _ _ hab
    simp only [Radial.fn]
    refine Real.exp_lt_exp.mpr ?_
    have h2 : (-1 / (2 * eps)) < 0 := div_neg_of_neg_of_pos (by norm_num) (by positivity)
    exact mul_lt_mul_of_neg_left hab h2

/-- C45: the pair-wise Gaussian kernel matrix is symmetric and positive semi-definite, with ones on the diagonal. -/
theorem C45_matrix (eps : ℝ) (he : 0 < eps) (X : n → d → ℝ) : ∃ K, (Radial.gaussian eps).call X X = .ok K ∧ Kᵀ = K ∧ (∀ i, K i i = 1) ∧ ∀ c : n → ℝ, 0 ≤ c ⬝ᵥ (K *ᵥ c) := by
  refine ⟨Matrix.of (fun i j => (Radial.gaussian eps).fn (sqDist (X i) (X j))), ?_, ?_, ?_, ?_⟩
  · unfold Radial.call Radial.evaluate Radial.check
    simp only [Radial.epsilon, if_pos he]
    rfl
  · ext i j
    simp only [transpose_apply, of_apply]
    rw [sqDist_comm]
  · intro i
    simp only [of_apply]
    rw [sqDist_eq_zero.mpr rfl]
    simp [Radial.fn]
  · intro c
    refine (gaussian_psd eps he X c).trans (le_of_eq ?_)
    simp only [mulVec, dotProduct, of_apply, Finset.mul_sum]
    exact Finset.sum_congr rfl (fun i _ => Finset.sum_congr rfl (fun j _ => by ring))

/-- C45: exactly the positive bandwidths are accepted. -/
theorem C45_rejects (eps : ℝ) (D : Matrix m n ℝ) : (∃ K, (Radial.gaussian eps).evaluate D = .ok K) ↔ 0 < eps := by
  unfold Radial.evaluate Radial.check
  simp only [Radial.epsilon]
  by_cases h : 0 < eps
  · simp [h]
  · simp [h]

/-- C45: the kernel of a sparse distance matrix is stored at the same places and has the values of the dense kernel there. -/
theorem C45_sparse (r : Radial) (D : m → n → Option ℝ) (D' : Matrix m n ℝ) (h : ∀ i j x, D i j = some x → D' i j = x) (S : m → n → Option ℝ) (hS : r.evaluateSparse D = .ok S) :
    ∃ K, r.evaluate D' = .ok K ∧ ∀ i j, (S i j).isSome = (D i j).isSome ∧ ∀ x, S i j = some x → x = K i j := by
  unfold Radial.evaluateSparse at hS
  unfold Radial.evaluate
  cases hc : r.check with
  | error e => rw [hc] at hS; cases hS
  | ok u =>
    rw [hc] at hS
    refine ⟨_, rfl, fun i j => ?_⟩
    rw [← Except.ok.inj hS]
    refine ⟨by simp, fun x hx => ?_⟩
    simp only [Option.map_eq_some_iff] at hx
    obtain ⟨a, ha, rfl⟩ := hx
    rw [of_apply, h i j a ha]

example : ∃ k : (Fin 1 → ℝ) → (Fin 1 → ℝ) → ℝ, Values (Radial.gaussian 1) k ∧ IsSimilarity k := C45_gaussian 1 one_pos

/-! ## C96 -/

/-- C96: the inverse quadratic and the inverse multiquadric kernel are similarities too. -/
theorem C96_inverse (eps : ℝ) (he : 0 < eps) (r : Radial) (hr : r = .inverseQuadratic eps ∨ r = .inverseMultiquadric eps) :
    ∃ k : (d → ℝ) → (d → ℝ) → ℝ, Values r k ∧ IsSimilarity k := by
  have hpos : ∀ D : ℝ, 0 ≤ D → 0 < 1 / (2 * eps) * D + 1 := fun D hD => by positivity
  have hlt : ∀ a b : ℝ, a < b → 1 / (2 * eps) * a + 1 < 1 / (2 * eps) * b + 1 := by
    intro a b hab
    have : 0 < 1 / (2 * eps) := by positivity
    have := mul_lt_mul_of_pos_left hab this
    linarith
  rcases hr with rfl | rfl
  · refine ⟨fun x y => (Radial.inverseQuadratic eps).fn (sqDist x y), ?_, ?_⟩
    · intro m n _ _ X Y
      unfold Radial.call Radial.evaluate Radial.check
      simp only [Radial.epsilon, if_pos he]
      rfl
    · refine similarity_of (g := (Radial.inverseQuadratic eps).fn) (fun D hD => one_div_pos.mpr (hpos D hD)) (by simp [Radial.fn]) ?_
      intro a b ha hb hab
      exact one_div_lt_one_div_of_lt (hpos a ha) (hlt a b hab)
  · refine ⟨fun x y => (Radial.inverseMultiquadric eps).fn (sqDist x y), ?_, ?_⟩
    · intro m n _ _ X Y
      unfold Radial.call Radial.evaluate Radial.check
      simp only [Radial.epsilon, if_pos he]
      rfl
    · refine similarity_of (g := (Radial.inverseMultiquadric eps).fn) (fun D hD => one_div_pos.mpr (Real.sqrt_pos.mpr (hpos D hD))) (by simp [Radial.fn]) ?_
      intro a b ha hb hab
      exact one_div_lt_one_div_of_lt (Real.sqrt_pos.mpr (hpos a ha)) (Real.sqrt_lt_sqrt (hpos a ha).le (hlt a b hab))

/-- C96: the multiquadric, cubic and quintic kernels grow strictly with the distance and are symmetric; the multiquadric kernel is the reciprocal of the inverse one. -/
theorem C96_growing (eps : ℝ) (he : 0 < eps) (r : Radial) (hr : r = .multiquadric eps ∨ r = .cubic ∨ r = .quintic) :
    ∃ k : (d → ℝ) → (d → ℝ) → ℝ, Values r k ∧ (∀ x y x' y', sqDist x y < sqDist x' y' → k x y < k x' y') ∧ (∀ x y, k x y = k y x) ∧
      ∀ x y, 0 ≤ k x y ∧ (r = .multiquadric eps → 1 ≤ k x y ∧ (Radial.inverseMultiquadric eps).fn (sqDist x y) = 1 / k x y) ∧ (r ≠ .multiquadric eps → k x x = 0) := by
  rcases hr with rfl | rfl | rfl
  · refine ⟨fun x y => (Radial.multiquadric eps).fn (sqDist x y), ?_, ?_, ?_, ?_⟩
    · intro m n _ _ X Y
      unfold Radial.call Radial.evaluate Radial.check
      simp only [Radial.epsilon, if_pos he]
      rfl
    · intro x y x' y' h
      have h0 := sqDist_nonneg x y
      simp only [Radial.fn]
      refine Real.sqrt_lt_sqrt (by positivity) ?_
      have : 0 < 1 / (2 * eps) := by positivity
      have := mul_lt_mul_of_pos_left h this
      linarith
    · intro x y
      simp only [sqDist_comm]
    · intro x y
      refine ⟨Real.sqrt_nonneg _, fun _ => ⟨?_, rfl⟩, fun h => absurd rfl h⟩
      have h0 := sqDist_nonneg x y
      simp only [Radial.fn]
      rw [Real.one_le_sqrt]
      have : 0 ≤ 1 / (2 * eps) * sqDist x y := by positivity
      linarith
  · refine ⟨fun x y => (Radial.cubic).fn (Real.sqrt (sqDist x y)), ?_, ?_, ?_, ?_⟩
    · intro m n _ _ X Y
      rfl
    · intro x y x' y' h
      simp only [Radial.fn]
      exact pow_lt_pow_left₀ (Real.sqrt_lt_sqrt (sqDist_nonneg x y) h) (Real.sqrt_nonneg _) (by norm_num)
    · intro x y
      simp only [sqDist_comm]
    · intro x y
      refine ⟨pow_nonneg (Real.sqrt_nonneg _) _, fun h => Radial.noConfusion h, fun _ => ?_⟩
      simp only [Radial.fn]
      rw [sqDist_eq_zero.mpr rfl]
      simp
  · refine ⟨fun x y => (Radial.quintic).fn (Real.sqrt (sqDist x y)), ?_, ?_, ?_, ?_⟩
    · intro m n _ _ X Y
      rfl
    · intro x y x' y' h
      simp only [Radial.fn]
      exact pow_lt_pow_left₀ (Real.sqrt_lt_sqrt (sqDist_nonneg x y) h) (Real.sqrt_nonneg _) (by norm_num)
    · intro x y
      simp only [sqDist_comm]
    · intro x y
      refine ⟨pow_nonneg (Real.sqrt_nonneg _) _, fun h => Radial.noConfusion h, fun _ => ?_⟩
      simp only [Radial.fn]
      rw [sqDist_eq_zero.mpr rfl]
      simp

/-- C96: the thin plate kernel is symmetric, zero for equal points, negative for distances below one and positive above. -/
theorem C96_thinplate : ∃ k : (d → ℝ) → (d → ℝ) → ℝ, Values .thinplate k ∧ (∀ x y, k x y = k y x) ∧ (∀ x, k x x = 0) ∧
    ∀ x y, x ≠ y → (k x y < 0 ↔ sqDist x y < 1) ∧ (0 < k x y ↔ 1 < sqDist x y) := by
  refine ⟨fun x y => Radial.thinplate.fn (Real.sqrt (sqDist x y)), fun m n _ _ X Y => rfl, fun x y => by simp only [sqDist_comm], fun x => ?_, fun x y hne => ?_⟩
  · simp only [Radial.fn]
    rw [sqDist_eq_zero.mpr rfl]
    simp
  · have hp : 0 < sqDist x y := lt_of_le_of_ne (sqDist_nonneg x y) (fun h => hne (sqDist_eq_zero.mp h.symm))
    have hs : 0 < Real.sqrt (sqDist x y) := Real.sqrt_pos.mpr hp
    have h2 : 0 < Real.sqrt (sqDist x y) ^ 2 := by positivity
    simp only [Radial.fn]
    constructor
    · rw [mul_neg_iff]
      have h4 : Real.log (Real.sqrt (sqDist x y)) < 0 ↔ sqDist x y < 1 := by
        rw [Real.log_neg_iff hs, Real.sqrt_lt' one_pos, one_pow]
      constructor
      · rintro (⟨-, h⟩ | ⟨h, -⟩)
        · exact h4.mp h
        · exact absurd h (not_lt.mpr h2.le)
      · exact fun h => Or.inl ⟨h2, h4.mpr h⟩
    · rw [mul_pos_iff]
      have h4 : 0 < Real.log (Real.sqrt (sqDist x y)) ↔ 1 < sqDist x y := by
        rw [Real.log_pos_iff hs.le, Real.lt_sqrt (by norm_num), one_pow]
      constructor
      · rintro (⟨-, h⟩ | ⟨h, -⟩)
        · exact h4.mp h
        · exact absurd h (not_lt.mpr h2.le)
      · exact fun h => Or.inl ⟨h2, h4.mpr h⟩

/-! ## C46 -/

/-- C46, what is true: with the estimated bandwidth the Gaussian kernel is `√tol` at the cut-off, so at most `√tol` beyond it. -/
theorem C46_scale_partial (tol cutOff : ℝ) (h0 : 0 < tol) (h1 : tol < 1) (hc : 0 < cutOff) :
    0 < estimateScale tol cutOff ∧ (Radial.gaussian (estimateScale tol cutOff)).fn (cutOff ^ 2) = Real.sqrt tol ∧
      ∀ x y : d → ℝ, cutOff ^ 2 ≤ sqDist x y → (Radial.gaussian (estimateScale tol cutOff)).fn (sqDist x y) ≤ Real.sqrt tol := by
  have hl : Real.log tol < 0 := Real.log_neg h0 h1
  have hl' : 0 < -Real.log tol := neg_pos.mpr hl
  have hpos : 0 < estimateScale tol cutOff := div_pos (by positivity) hl'
  have hv : (Radial.gaussian (estimateScale tol cutOff)).fn (cutOff ^ 2) = Real.sqrt tol := by
    have e : -1 / (2 * estimateScale tol cutOff) * cutOff ^ 2 = Real.log tol / 2 := by
      unfold estimateScale
      have : cutOff ≠ 0 := hc.ne'
      have : Real.log tol ≠ 0 := hl.ne
      field_simp
    simp only [Radial.fn]
    rw [e, Real.sqrt_eq_rpow, Real.rpow_def_of_pos h0]
    congr 1
    ring
  refine ⟨hpos, hv, fun x y h => ?_⟩
  rw [← hv]
  simp only [Radial.fn]
  refine Real.exp_le_exp.mpr ?_
  have h2 : (-1 / (2 * estimateScale tol cutOff)) ≤ 0 := div_nonpos_of_nonpos_of_nonneg (by norm_num) (by positivity)
  exact mul_le_mul_of_nonpos_left h h2

/-- C46, what is true: the kernel falls to `tol` at `√2` times the cut-off. -/
theorem C46_sqrt_two (tol cutOff : ℝ) (h0 : 0 < tol) (h1 : tol < 1) (hc : 0 < cutOff) : (Radial.gaussian (estimateScale tol cutOff)).fn (2 * cutOff ^ 2) = tol := by
  have hl : Real.log tol < 0 := Real.log_neg h0 h1
  have e : -1 / (2 * estimateScale tol cutOff) * (2 * cutOff ^ 2) = Real.log tol := by
    unfold estimateScale
    have : cutOff ≠ 0 := hc.ne'
    have : Real.log tol ≠ 0 := hl.ne
    field_simp
  simp only [Radial.fn]
  rw [e, Real.exp_log h0]

/-- C46 is violated for every tolerance and every cut-off: at the cut-off the kernel is larger than the tolerance. -/
theorem C46_violated (tol cutOff : ℝ) (h0 : 0 < tol) (h1 : tol < 1) (hc : 0 < cutOff) : tol < (Radial.gaussian (estimateScale tol cutOff)).fn (cutOff ^ 2) := by
  rw [(C46_scale_partial (d := Empty) tol cutOff h0 h1 hc).2.1]
  rw [Real.lt_sqrt h0.le]
  calc tol ^ 2 = tol * tol := sq tol
    _ < 1 * tol := mul_lt_mul_of_pos_right h1 h0
    _ = tol := one_mul tol

example : (0 : ℝ) < 1e-8 ∧ (1e-8 : ℝ) < 1 ∧ (0 : ℝ) < 2 := by norm_num

/-! ## C91: spectrum of the diffusion kernel of Gaussian kernels -/

/-- C91: for a positive semi-definite kernel matrix all eigenvalues of the diffusion kernel lie in `[0, 1]`. -/
theorem C91_psd [Nonempty n] (k : DmapKernel) (hk : k.Admissible) (hst : k.isStochastic = true) (hc : k.isConjugate = false) (K : Matrix n n ℝ)
    (hK : Connected K) (hsym : Kᵀ = K) (hpsd : ∀ c : n → ℝ, 0 ≤ c ⬝ᵥ (K *ᵥ c)) :
    ∃ P f, evalPdist k none K = .ok (P, f) ∧ ∀ lam v, IsEigenpair P lam v → 0 ≤ lam ∧ lam ≤ 1 := by
  have hs := hK.rowSums_pos
  have hsym' : ∀ i j, K i j = K j i := fun i j => by rw [← congrFun (congrFun hsym i) j]; rfl
  obtain ⟨P, f, h1, h2, -⟩ := C91_spectrum k hk hst hc K hK (fun _ => hsym)
  refine ⟨P, f, h1, fun lam v hv => ⟨?_, (abs_le.mp (h2 lam v hv)).2⟩⟩
  have e := evalPdist_stochastic hk hst hc hK.1 hs (fun _ => hsym')
  rw [h1] at e
  obtain ⟨rfl, -⟩ := Prod.mk.inj (Except.ok.inj e)
  obtain ⟨hne, he⟩ := hv
  set S := densityMatrix k K with hS
  have hp := densityMatrix_rowSums (k := k) hK.1 hs
  have hform : ∀ i j, diffusion k.alpha (rowSums K) K i j = S i j / rowSums S i := by
    intro i j
    rw [densityMatrix_diffusion hk hK.1 hs]
    rfl
  have hSv : ∀ i, ∑ j, S i j * v j = lam * rowSums S i * v i := by
    intro i
    have := congrFun he i
    simp only [mulVec, dotProduct, hform, Pi.smul_apply, smul_eq_mul] at this
    have hpi := (hp i).ne'
    calc ∑ j, S i j * v j = rowSums S i * ∑ j, S i j / rowSums S i * v j := by
          rw [Finset.mul_sum]
          refine Finset.sum_congr rfl (fun j _ => ?_)
          rw [← mul_assoc, mul_div_cancel₀ (S i j) hpi]
      _ = lam * rowSums S i * v i := by
          rw [this]
          ring
  have hq : 0 ≤ ∑ i, ∑ j, v i * S i j * v j := by
    have : ∃ u : n → ℝ, ∀ i j, S i j = u i * K i j * u j := by
      rw [hS]
      unfold densityMatrix
      split
      · exact ⟨fun i => (rowSums K i ^ k.alpha)⁻¹, fun i j => rfl⟩
      · exact ⟨fun _ => 1, fun i j => by ring⟩
    obtain ⟨u, hu⟩ := this
    have h := hpsd (fun i => v i * u i)
    refine h.trans (le_of_eq ?_)
    simp only [mulVec, dotProduct, Finset.mul_sum, hu]
    exact Finset.sum_congr rfl (fun i _ => Finset.sum_congr rfl (fun j _ => by ring))
  have hq2 : ∑ i, ∑ j, v i * S i j * v j = lam * ∑ i, rowSums S i * (v i * v i) := by
    rw [Finset.mul_sum]
    refine Finset.sum_congr rfl (fun i _ => ?_)
    have : ∑ j, v i * S i j * v j = v i * ∑ j, S i j * v j := by
      rw [Finset.mul_sum]
      exact Finset.sum_congr rfl (fun j _ => by ring)
    rw [this, hSv]
    ring
  have hpos : 0 < ∑ i, rowSums S i * (v i * v i) := by
    obtain ⟨i, hi⟩ : ∃ i, v i ≠ 0 := by
      by_contra h
      push Not at h
      exact hne (funext h)
    exact Finset.sum_pos' (fun j _ => mul_nonneg (hp j).le (mul_self_nonneg _)) ⟨i, Finset.mem_univ _, mul_pos (hp i) (mul_self_pos.mpr hi)⟩
  rw [hq2] at hq
  by_contra h
  exact absurd hq (not_le.mpr (mul_neg_of_neg_of_pos (not_le.mp h) hpos))

/-- C91: for a Gaussian kernel on any points all eigenvalues of the diffusion kernel lie in `[0, 1]`. -/
theorem C91_gaussian [Nonempty n] (k : DmapKernel) (hk : k.Admissible) (hst : k.isStochastic = true) (hc : k.isConjugate = false) (eps : ℝ) (he : 0 < eps) (X : n → d → ℝ) :
    ∃ K P f, (Radial.gaussian eps).call X X = .ok K ∧ evalPdist k none K = .ok (P, f) ∧ (∀ lam v, IsEigenpair P lam v → 0 ≤ lam ∧ lam ≤ 1) ∧ IsEigenpair P 1 (fun _ => 1) := by
  obtain ⟨K, h1, h2, h3, h4⟩ := C45_matrix eps he X
  obtain ⟨k', hk1, hk2⟩ := C45_gaussian (d := d) eps he
  have hK : Connected K := by
    have e := hk1 n n X X
    rw [h1] at e
    rw [Except.ok.inj e]
    exact ⟨fun i j => (hk2.1 (X i) (X j)).1.le, fun i => ⟨i, (hk2.1 (X i) (X i)).1⟩⟩
  obtain ⟨P, f, g1, g2⟩ := C91_psd k hk hst hc K hK h2 h4
  obtain ⟨P', f', g3, -, g4⟩ := C91_spectrum k hk hst hc K hK (fun _ => h2)
  rw [g1] at g3
  obtain ⟨rfl, -⟩ := Prod.mk.inj (Except.ok.inj g3)
  exact ⟨K, P, f, h1, g1, g2, g4⟩

/-- C44 for a Gaussian kernel on any training points: embedding the training points out-of-sample has the same outcome as `fit_transform`. -/
theorem C44_gaussian (k : DmapKernel) (hk : k.Admissible) (eps : ℝ) (he : 0 < eps) (X : n → d → ℝ) (K : Matrix n n ℝ) (hK : (Radial.gaussian eps).call X X = .ok K)
    (A : Matrix n n ℝ) (f : Fitted n) (h1 : evalPdist k none K = .ok (A, f)) (N : Nat) (pairs : List (Pair n)) (h2 : Solves A f.basisChange N pairs) (hne : ∀ p ∈ pairs, p.1 ≠ 0)
    (t : ℝ) (coords : Option (List Nat)) : transform k f t coords pairs K = fitTransform t coords pairs := by
  refine C44_agree k hk K (fun _ => ?_) A f h1 N pairs h2 hne t coords
  obtain ⟨K', g1, g2, -, -⟩ := C45_matrix eps he X
  obtain ⟨k', hk1, hk2⟩ := C45_gaussian (d := d) eps he
  rw [hK] at g1
  obtain rfl := Except.ok.inj g1
  refine ⟨?_, fun _ => g2⟩
  have e := hk1 n n X X
  rw [hK] at e
  rw [Except.ok.inj e]
  exact ⟨fun i j => (hk2.1 (X i) (X j)).1.le, fun i => ⟨i, (hk2.1 (X i) (X i)).1⟩⟩

/-! ## C95 -/

/-- C95, the true part: the first evaluation uses the bandwidth computed from its distance matrix. -/
theorem C95_first_partial (f : Matrix m n ℝ → ℝ) (D : Matrix m n ℝ) : (gaussianEvaluate (.callable f) D).1 = (Radial.gaussian (f D)).evaluate D := rfl

/-- C95 is violated: a later evaluation of the same kernel uses the bandwidth of the first distance matrix, for every function and all matrices. -/
theorem C95_violated (f : Matrix m n ℝ → ℝ) (D D' : Matrix m n ℝ) : (gaussianEvaluate (gaussianEvaluate (.callable f) D).2 D').1 = (Radial.gaussian (f D)).evaluate D' := rfl

/-- C95 is violated, with numbers: with the largest entry as bandwidth, the second evaluation differs from the one of a new kernel. -/
theorem C95_violated_example : ∃ (f : Matrix (Fin 1) (Fin 1) ℝ → ℝ) (D D' : Matrix (Fin 1) (Fin 1) ℝ),
    (gaussianEvaluate (gaussianEvaluate (.callable f) D).2 D').1 ≠ (gaussianEvaluate (.callable f) D').1 := by
  refine ⟨fun D => D 0 0, !![1], !![2], fun h => ?_⟩
  rw [C95_violated, C95_first_partial] at h
  unfold Radial.evaluate Radial.check at h
  simp only [Radial.epsilon] at h
  rw [if_pos (by simp), if_pos (by simp)] at h
  have := congrFun (congrFun (Except.ok.inj h) 0) 0
  simp [Radial.fn] at this
  norm_num at this

end Verif.Kernel
