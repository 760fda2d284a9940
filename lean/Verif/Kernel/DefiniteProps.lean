import Verif.Kernel.RadialProps
import Verif.Kernel.HarmonicsProps
import Verif.Dist.Basic
import Mathlib.Analysis.Matrix.Spectrum
import Mathlib.MeasureTheory.Integral.IntegralEqImproper
import Mathlib.MeasureTheory.Integral.Gamma
/-!
# C220: kernel matrices of distinct samples are positive definite
-/

namespace Verif.Kernel

open Matrix

variable {m n d : Type} [Fintype m] [Fintype n] [Fintype d]

/-! ## Helper lemmas -/

theorem gram_pow_succ (x : n → d → ℝ) (k : ℕ) (b : n → ℝ) :
    ∑ i, ∑ j, b i * b j * (∑ a, x i a * x j a) ^ (k + 1) = ∑ a, ∑ i, ∑ j, (b i * x i a) * (b j * x j a) * (∑ c, x i c * x j c) ^ k := by
  rw [Finset.sum_comm]
  simp only [Finset.sum_comm (s := (Finset.univ : Finset d))]
  rw [Finset.sum_comm]
  refine Finset.sum_congr rfl (fun i _ => Finset.sum_congr rfl (fun j _ => ?_))
  rw [pow_succ, mul_comm ((∑ a, x i a * x j a) ^ k), ← mul_assoc, Finset.mul_sum, Finset.sum_mul]
  exact Finset.sum_congr rfl (fun a _ => by ring)

/-- All moments of the weights vanish if all forms vanish. -/
theorem moments_zero (x : n → d → ℝ) (l : List d) : ∀ b : n → ℝ, (∀ k : ℕ, ∑ i, ∑ j, b i * b j * (∑ a, x i a * x j a) ^ k = 0) → ∑ i, b i * (l.map (x i)).prod = 0 := by
  induction l with
  | nil =>
    intro b h
    have h0 := h 0
    simp only [pow_zero, mul_one] at h0
    rw [← Finset.sum_mul_sum] at h0
    simpa using mul_self_eq_zero.1 h0
  | cons a l ih =>
    intro b h
    have := ih (fun i => b i * x i a) (fun k => by
      have hk := h (k + 1)
      rw [gram_pow_succ] at hk
      exact (Finset.sum_eq_zero_iff_of_nonneg (fun a _ => gram_pow_nonneg x k (fun i => b i * x i a))).1 hk a (Finset.mem_univ a))
    rw [← this]
    refine Finset.sum_congr rfl (fun i _ => ?_)
    simp only [List.map_cons, List.prod_cons]
    ring

/-- Weights of distinct points whose moments vanish are zero. -/
theorem weights_zero (x : n → d → ℝ) (hx : Function.Injective x) (b : n → ℝ) (h : ∀ l : List d, ∑ i, b i * (l.map (x i)).prod = 0) : b = 0 := by
  classical
  funext i0
  have key : ∀ s : Finset n, ∀ l : List d, ∑ i, b i * (∏ j ∈ s, ∑ a, (x i a - x j a) * (x i0 a - x j a)) * (l.map (x i)).prod = 0 := by
    intro s
    induction s using Finset.induction_on with
    | empty => intro l; simpa using h l
    | insert j s hj ih =>
      intro l
      have e : ∀ i, b i * (∏ j ∈ insert j s, ∑ a, (x i a - x j a) * (x i0 a - x j a)) * (l.map (x i)).prod =
          ∑ a, ((x i0 a - x j a) * (b i * (∏ j ∈ s, ∑ a, (x i a - x j a) * (x i0 a - x j a)) * ((a :: l).map (x i)).prod)
            - x j a * (x i0 a - x j a) * (b i * (∏ j ∈ s, ∑ a, (x i a - x j a) * (x i0 a - x j a)) * (l.map (x i)).prod)) := by
        intro i
        rw [Finset.prod_insert hj]
        generalize (∏ j ∈ s, ∑ a, (x i a - x j a) * (x i0 a - x j a)) = P
        simp only [List.map_cons, List.prod_cons]
        rw [Finset.sum_mul, Finset.mul_sum, Finset.sum_mul]
        exact Finset.sum_congr rfl (fun a _ => by ring)
      simp only [e]
      rw [Finset.sum_comm]
      refine Finset.sum_eq_zero (fun a _ => ?_)
      rw [Finset.sum_sub_distrib, ← Finset.mul_sum, ← Finset.mul_sum, ih, ih]
      ring
  have h1 := key (Finset.univ.erase i0) []
  simp only [List.map_nil, List.prod_nil, mul_one] at h1
  rw [Finset.sum_eq_single i0] at h1
  · rcases mul_eq_zero.1 h1 with h2 | h2
    · exact h2
    · exfalso
      obtain ⟨j, hj, h3⟩ := Finset.prod_eq_zero_iff.1 h2
      have h4 : sqDist (x i0) (x j) = 0 := by
        rw [← h3]; exact Finset.sum_congr rfl (fun a _ => by ring)
      exact (Finset.ne_of_mem_erase hj) (hx (sqDist_eq_zero.1 h4)).symm
  · intro i _ hi
    have : (∏ j ∈ Finset.univ.erase i0, ∑ a, (x i a - x j a) * (x i0 a - x j a)) = 0 :=
      Finset.prod_eq_zero (Finset.mem_erase.2 ⟨hi, Finset.mem_univ i⟩) (by simp)
    rw [this]; simp
  · intro hi; exact absurd (Finset.mem_univ i0) hi

theorem gram_exp_pos (x : n → d → ℝ) (hx : Function.Injective x) (b : n → ℝ) (hb : b ≠ 0) : 0 < ∑ i, ∑ j, b i * b j * Real.exp (∑ a, x i a * x j a) := by
  refine lt_of_le_of_ne (gram_exp_nonneg x b) (fun h0 => hb ?_)
  have h : ∀ i j, HasSum (fun k : ℕ => b i * b j * ((∑ a, x i a * x j a) ^ k / k.factorial)) (b i * b j * Real.exp (∑ a, x i a * x j a)) := by
    intro i j
    rw [Real.exp_eq_exp_ℝ]
    exact (NormedSpace.expSeries_div_hasSum_exp (∑ a, x i a * x j a)).mul_left _
  have h2 := hasSum_sum (s := Finset.univ) (fun i _ => hasSum_sum (s := Finset.univ) (fun j _ => h i j))
  rw [← h0] at h2
  have e : ∀ k : ℕ, ∑ i, ∑ j, b i * b j * ((∑ a, x i a * x j a) ^ k / (k.factorial : ℝ)) = (∑ i, ∑ j, b i * b j * (∑ a, x i a * x j a) ^ k) / (k.factorial : ℝ) := by
    intro k
    simp only [Finset.sum_div, mul_div_assoc]
  have h3 := (hasSum_zero_iff_of_nonneg (fun k => by simp only [e]; exact div_nonneg (gram_pow_nonneg x k b) (by positivity))).1 h2
  refine weights_zero x hx b (fun l => moments_zero x l b (fun k => ?_))
  have := congrFun h3 k
  simp only [e, Pi.zero_apply] at this
  exact (div_eq_zero_iff.1 this).resolve_right (by positivity)

theorem gaussian_pd (eps : ℝ) (he : 0 < eps) (x : n → d → ℝ) (hx : Function.Injective x) (c : n → ℝ) (hc : c ≠ 0) :
    0 < ∑ i, ∑ j, c i * c j * (Radial.gaussian eps).fn (sqDist (x i) (x j)) := by
  set s := Real.sqrt eps with hs
  have hs0 : 0 < s := Real.sqrt_pos.mpr he
  have hss : s * s = eps := Real.mul_self_sqrt he.le
  have key := gram_exp_pos (fun i a => x i a / s) (fun i j hij => hx (funext (fun a => by
      have := congrFun hij a
      simpa [div_left_inj' hs0.ne'] using this))) (fun i => c i * Real.exp (-(∑ a, x i a ^ 2) / (2 * eps))) (fun h => hc (funext (fun i => by
      have := congrFun h i
      simpa [Real.exp_ne_zero] using this)))
  refine key.trans_le (le_of_eq (Finset.sum_congr rfl (fun i _ => Finset.sum_congr rfl (fun j _ => ?_))))
  have e1 : ∑ a, x i a / s * (x j a / s) = (∑ a, x i a * x j a) / eps := by
    rw [Finset.sum_div]
    refine Finset.sum_congr rfl (fun a _ => ?_)
    rw [div_mul_div_comm, hss]
  have e2 : sqDist (x i) (x j) = ∑ a, x i a ^ 2 - 2 * ∑ a, x i a * x j a + ∑ a, x j a ^ 2 := by
    unfold sqDist
    rw [Finset.mul_sum, ← Finset.sum_sub_distrib, ← Finset.sum_add_distrib]
    exact Finset.sum_congr rfl (fun a _ => by ring)
  rw [e1]
  simp only [Radial.fn]
  rw [e2]
  have e3 : -1 / (2 * eps) * (∑ a, x i a ^ 2 - 2 * ∑ a, x i a * x j a + ∑ a, x j a ^ 2)
      = -(∑ a, x i a ^ 2) / (2 * eps) + -(∑ a, x j a ^ 2) / (2 * eps) + (∑ a, x i a * x j a) / eps := by
    field_simp
    ring
  rw [e3, Real.exp_add, Real.exp_add]
  ring

/-- A kernel that is a mixture of Gaussian kernels is positive definite. -/
theorem mixture_pd (eps : ℝ) (he : 0 < eps) (a : ℝ) (ha : 0 < a) (x : n → d → ℝ) (hx : Function.Injective x) (c : n → ℝ) (hc : c ≠ 0) :
    0 < ∑ i, ∑ j, c i * c j * (1 / (1 / (2 * eps) * sqDist (x i) (x j) + 1)) ^ a := by
  have hr : ∀ i j, 0 < 1 / (2 * eps) * sqDist (x i) (x j) + 1 := fun i j => by
    have := sqDist_nonneg (x i) (x j)
    positivity
  have hG := Real.Gamma_pos_of_pos ha
  have hI : ∀ i j, ∫ t in Set.Ioi (0:ℝ), t ^ (a - 1) * Real.exp (-((1 / (2 * eps) * sqDist (x i) (x j) + 1) * t)) = (1 / (1 / (2 * eps) * sqDist (x i) (x j) + 1)) ^ a * Real.Gamma a :=
    fun i j => Real.integral_rpow_mul_exp_neg_mul_Ioi ha (hr i j)
  have hint : ∀ i j, MeasureTheory.IntegrableOn (fun t : ℝ => t ^ (a - 1) * Real.exp (-((1 / (2 * eps) * sqDist (x i) (x j) + 1) * t))) (Set.Ioi 0) := by
    intro i j
    by_contra h
    have h0 := MeasureTheory.integral_undef h
    rw [hI i j] at h0
    have : 0 < (1 / (1 / (2 * eps) * sqDist (x i) (x j) + 1)) ^ a * Real.Gamma a := mul_pos (Real.rpow_pos_of_pos (one_div_pos.2 (hr i j)) _) hG
    exact this.ne' h0
  have hsum : ∫ t in Set.Ioi (0:ℝ), ∑ i, ∑ j, c i * c j * (t ^ (a - 1) * Real.exp (-((1 / (2 * eps) * sqDist (x i) (x j) + 1) * t))) =
      (∑ i, ∑ j, c i * c j * (1 / (1 / (2 * eps) * sqDist (x i) (x j) + 1)) ^ a) * Real.Gamma a := by
    rw [MeasureTheory.integral_finsetSum _ (fun i _ => MeasureTheory.integrable_finsetSum _ (fun j _ => (hint i j).const_mul _)), Finset.sum_mul]
    refine Finset.sum_congr rfl (fun i _ => ?_)
    rw [MeasureTheory.integral_finsetSum _ (fun j _ => (hint i j).const_mul _), Finset.sum_mul]
    refine Finset.sum_congr rfl (fun j _ => ?_)
    rw [MeasureTheory.integral_const_mul, hI]
    ring
  have hpos : ∀ t ∈ Set.Ioi (0:ℝ), 0 < ∑ i, ∑ j, c i * c j * (t ^ (a - 1) * Real.exp (-((1 / (2 * eps) * sqDist (x i) (x j) + 1) * t))) := by
    intro t ht
    have ht : 0 < t := ht
    have key := gaussian_pd (eps / t) (div_pos he ht) x hx c hc
    have e : ∑ i, ∑ j, c i * c j * (t ^ (a - 1) * Real.exp (-((1 / (2 * eps) * sqDist (x i) (x j) + 1) * t))) =
        (t ^ (a - 1) * Real.exp (-t)) * ∑ i, ∑ j, c i * c j * (Radial.gaussian (eps / t)).fn (sqDist (x i) (x j)) := by
      rw [Finset.mul_sum]
      refine Finset.sum_congr rfl (fun i _ => ?_)
      rw [Finset.mul_sum]
      refine Finset.sum_congr rfl (fun j _ => ?_)
      have : -((1 / (2 * eps) * sqDist (x i) (x j) + 1) * t) = -t + -1 / (2 * (eps / t)) * sqDist (x i) (x j) := by
        field_simp
        ring
      rw [this, Real.exp_add]
      simp only [Radial.fn]
      ring
    rw [e]
    exact mul_pos (mul_pos (Real.rpow_pos_of_pos ht _) (Real.exp_pos _)) key
  have h0 : 0 < ∫ t in Set.Ioi (0:ℝ), ∑ i, ∑ j, c i * c j * (t ^ (a - 1) * Real.exp (-((1 / (2 * eps) * sqDist (x i) (x j) + 1) * t))) := by
    rw [MeasureTheory.setIntegral_pos_iff_support_of_nonneg_ae]
    · refine lt_of_lt_of_le (b := MeasureTheory.volume (Set.Ioi (0:ℝ))) (by simp) (MeasureTheory.measure_mono (fun t ht => ⟨(hpos t ht).ne', ht⟩))
    · exact (MeasureTheory.ae_restrict_mem measurableSet_Ioi).mono (fun t ht => (hpos t ht).le)
    · exact MeasureTheory.integrable_finsetSum _ (fun i _ => MeasureTheory.integrable_finsetSum _ (fun j _ => (hint i j).const_mul _))
  rw [hsum] at h0
  exact (mul_pos_iff_of_pos_right hG).1 h0

theorem pd_eigen_pos {K : Matrix n n ℝ} (hK : ∀ c : n → ℝ, c ≠ 0 → 0 < c ⬝ᵥ (K *ᵥ c)) {lam : ℝ} {v : n → ℝ} (h : IsEigenpair K lam v) : 0 < lam := by
  have h1 := hK v h.1
  rw [h.2, dotProduct_smul, smul_eq_mul] at h1
  have h2 : 0 ≤ v ⬝ᵥ v := Finset.sum_nonneg (fun i _ => mul_self_nonneg _)
  by_contra hn
  exact absurd h1 (not_lt.mpr (mul_nonpos_of_nonpos_of_nonneg (not_lt.mp hn) h2))

/-- The stochastic kernel of a positive definite matrix has positive eigenvalues. -/
theorem stochastic_eigen_pos (k : DmapKernel) (hk : k.Admissible) (hst : k.isStochastic = true) (hc : k.isConjugate = false) (K : Matrix n n ℝ)
    (hK : Connected K) (hsym : Kᵀ = K) (hpd : ∀ c : n → ℝ, c ≠ 0 → 0 < c ⬝ᵥ (K *ᵥ c)) (P : Matrix n n ℝ) (f : Fitted n) (h1 : evalPdist k none K = .ok (P, f)) (lam : ℝ) (v : n → ℝ)
    (hv : IsEigenpair P lam v) : 0 < lam := by
  have hs := hK.rowSums_pos
  have hsym' : ∀ i j, K i j = K j i := fun i j => by rw [← congrFun (congrFun hsym i) j]; rfl
  have e := evalPdist_stochastic hk hst hc hK.1 hs (fun _ => hsym')
  rw [h1] at e
  obtain ⟨rfl, -⟩ := Prod.mk.inj (Except.ok.inj e)
  obtain ⟨hne, he⟩ := hv
  set S := densityMatrix k K with hS
  have hp := densityMatrix_rowSums (k := k) hK.1 hs
  have hform : ∀ i j, diffusion k.alpha (rowSums K) K i j = S i j / rowSums S i := by
    intro i j
    rw [densityMatrix_diffusion hk hK.1 hs]
    rfl
  have hSv : ∀ i, ∑ j, S i j * v j = lam * rowSums S i * v i := by
    intro i
    have := congrFun he i
    simp only [mulVec, dotProduct, hform, Pi.smul_apply, smul_eq_mul] at this
    have hpi := (hp i).ne'
    calc ∑ j, S i j * v j = rowSums S i * ∑ j, S i j / rowSums S i * v j := by
          rw [Finset.mul_sum]
          refine Finset.sum_congr rfl (fun j _ => ?_)
          rw [← mul_assoc, mul_div_cancel₀ (S i j) hpi]
      _ = lam * rowSums S i * v i := by
          rw [this]
          ring
  have hq : 0 < ∑ i, ∑ j, v i * S i j * v j := by
    have : ∃ u : n → ℝ, (∀ i, u i ≠ 0) ∧ ∀ i j, S i j = u i * K i j * u j := by
      rw [hS]
      unfold densityMatrix
      split
      · exact ⟨fun i => (rowSums K i ^ k.alpha)⁻¹, fun i => inv_ne_zero (Real.rpow_pos_of_pos (hs i) _).ne', fun i j => rfl⟩
      · exact ⟨fun _ => 1, fun _ => one_ne_zero, fun i j => by ring⟩
    obtain ⟨u, hu0, hu⟩ := this
    have h := hpd (fun i => v i * u i) (fun h => hne (funext (fun i => (mul_eq_zero.mp (congrFun h i)).resolve_right (hu0 i))))
    refine h.trans_eq ?_
    simp only [mulVec, dotProduct, Finset.mul_sum, hu]
    exact Finset.sum_congr rfl (fun i _ => Finset.sum_congr rfl (fun j _ => by ring))
  have hq2 : ∑ i, ∑ j, v i * S i j * v j = lam * ∑ i, rowSums S i * (v i * v i) := by
    rw [Finset.mul_sum]
    refine Finset.sum_congr rfl (fun i _ => ?_)
    have : ∑ j, v i * S i j * v j = v i * ∑ j, S i j * v j := by
      rw [Finset.mul_sum]
      exact Finset.sum_congr rfl (fun j _ => by ring)
    rw [this, hSv]
    ring
  have hpos : 0 ≤ ∑ i, rowSums S i * (v i * v i) := Finset.sum_nonneg (fun j _ => mul_nonneg (hp j).le (mul_self_nonneg _))
  rw [hq2] at hq
  by_contra h
  exact absurd hq (not_lt.mpr (mul_nonpos_of_nonpos_of_nonneg (not_lt.mp h) hpos))

/-! ## C220 -/

/-- The matrix of a positive definite quadratic form. -/
def PositiveDefinite (K : Matrix n n ℝ) : Prop := ∀ c : n → ℝ, c ≠ 0 → 0 < c ⬝ᵥ (K *ᵥ c)

/-- The kernels that fall with the distance, with an admissible bandwidth. -/
def Falling (r : Radial) : Prop := ∃ eps : ℝ, 0 < eps ∧ (r = .gaussian eps ∨ r = .inverseMultiquadric eps ∨ r = .inverseQuadratic eps)

omit [Fintype n] in
theorem falling_fn {r : Radial} (hr : Falling r) (X : n → d → ℝ) :
    ∃ K, r.call X X = .ok K ∧ (∀ i j, K i j = r.fn (sqDist (X i) (X j))) ∧ Kᵀ = K ∧ Connected K := by
  obtain ⟨eps, he, hr⟩ := hr
  have hfn : ∀ D : ℝ, 0 ≤ D → 0 < r.fn D := by
    intro D hD
    rcases hr with rfl | rfl | rfl <;> simp only [Radial.fn] <;> positivity
  have hcall : r.call X X = .ok (Matrix.of (fun i j => r.fn (sqDist (X i) (X j)))) := by
    rcases hr with rfl | rfl | rfl <;> simp [Radial.call, Radial.evaluate, Radial.check, Radial.epsilon, he, Radial.metric, Metric.dist]
  have hs : ∀ i j, sqDist (X i) (X j) = sqDist (X j) (X i) := fun i j => by
    unfold sqDist
    exact Finset.sum_congr rfl (fun a _ => by ring)
  refine ⟨_, hcall, fun i j => rfl, ?_, ?_⟩
  · ext i j
    simp only [transpose_apply, of_apply]
    rw [hs]
  · exact ⟨fun i j => (hfn _ (sqDist_nonneg _ _)).le, fun i => ⟨i, hfn _ (sqDist_nonneg _ _)⟩⟩

/-- C220: the kernel matrix of distinct samples is positive definite, for every bandwidth, dimension and number of samples. -/
theorem C220_positive_definite (r : Radial) (hr : Falling r) (X : n → d → ℝ) (hX : Function.Injective X) : ∃ K, r.call X X = .ok K ∧ PositiveDefinite K := by
  obtain ⟨K, h1, h2, -, -⟩ := falling_fn hr X
  refine ⟨K, h1, fun c hc => ?_⟩
  have e : c ⬝ᵥ (K *ᵥ c) = ∑ i, ∑ j, c i * c j * r.fn (sqDist (X i) (X j)) := by
    simp only [mulVec, dotProduct, Finset.mul_sum, h2]
    exact Finset.sum_congr rfl (fun i _ => Finset.sum_congr rfl (fun j _ => by ring))
  rw [e]
  obtain ⟨eps, he, rfl | rfl | rfl⟩ := hr
  · exact gaussian_pd eps he X hX c hc
  · refine (mixture_pd eps he (1 / 2) (by norm_num) X hX c hc).trans_eq (Finset.sum_congr rfl (fun i _ => Finset.sum_congr rfl (fun j _ => ?_)))
    simp only [Radial.fn]
    have h0 : 0 ≤ 1 / (2 * eps) * sqDist (X i) (X j) + 1 := by
      have := sqDist_nonneg (X i) (X j)
      positivity
    rw [← Real.sqrt_eq_rpow, Real.sqrt_div zero_le_one, Real.sqrt_one]
  · refine (mixture_pd eps he 1 one_pos X hX c hc).trans_eq (Finset.sum_congr rfl (fun i _ => Finset.sum_congr rfl (fun j _ => ?_)))
    simp only [Radial.fn]
    rw [Real.rpow_one]

/-- C220: distinctness is needed: a repeated sample makes the matrix of every radial kernel singular. -/
theorem C220_duplicates (r : Radial) (X : n → d → ℝ) (i j : n) (hij : i ≠ j) (h : X i = X j) (K : Matrix n n ℝ) (hK : r.call X X = .ok K) : ∃ c : n → ℝ, c ≠ 0 ∧ K *ᵥ c = 0 := by
  classical
  have hv : ∀ a b, K a b = r.fn (r.metric.dist (X a) (X b)) := by
    intro a b
    unfold Radial.call Radial.evaluate at hK
    split at hK
    · cases hK
    · rw [← Except.ok.inj hK]
      rfl
  refine ⟨Pi.single i 1 - Pi.single j 1, fun h0 => ?_, ?_⟩
  · have := congrFun h0 i
    simp [hij] at this
  · rw [mulVec_sub, sub_eq_zero]
    ext a
    simp only [mulVec_single_one, col_apply, hv, h]

/-- C220: the eigenvalues that a diffusion map of distinct samples computes are positive, and at most one for the stochastic kernels. -/
theorem C220_eigenvalues [Nonempty n] (r : Radial) (hr : Falling r) (X : n → d → ℝ) (hX : Function.Injective X) (k : DmapKernel) (hk : k.Admissible) (K : Matrix n n ℝ) (hK : r.call X X = .ok K)
    (A : Matrix n n ℝ) (f : Fitted n) (h1 : evalPdist k none K = .ok (A, f)) (N : Nat) (pairs : List (Pair n)) (h2 : Solves A f.basisChange N pairs) :
    ∀ p ∈ pairs, 0 < p.1 ∧ (k.isStochastic = true → p.1 ≤ 1) := by
  obtain ⟨K', g1, g2⟩ := C220_positive_definite r hr X hX
  obtain ⟨K'', g3, -, hsym, hcon⟩ := falling_fn hr X
  rw [hK] at g1 g3
  obtain rfl := Except.ok.inj g1
  obtain rfl := Except.ok.inj g3
  suffices h : ∀ lam v, IsEigenpair A lam v → 0 < lam ∧ (k.isStochastic = true → lam ≤ 1) by
    obtain ⟨raw, -, hraw, rfl⟩ := h2
    intro p hp
    obtain ⟨q, hq, rfl⟩ := List.mem_map.mp hp
    exact h q.1 q.2 (hraw q hq)
  intro lam v hv
  cases hst : k.isStochastic with
  | false =>
    have e : evalPdist k none K = .ok (K, ⟨none, none⟩) := by
      unfold evalPdist
      simp [hst]
    rw [e] at h1
    obtain ⟨rfl, rfl⟩ := Prod.mk.inj (Except.ok.inj h1)
    exact ⟨pd_eigen_pos g2 hv, fun h => absurd h (by simp)⟩
  | true =>
    cases hc : k.isConjugate with
    | false =>
      refine ⟨stochastic_eigen_pos k hk hst hc K hcon hsym g2 A f h1 lam v hv, fun _ => ?_⟩
      obtain ⟨P, f', e1, e2, -⟩ := C91_spectrum k hk hst hc K hcon (fun _ => hsym)
      rw [h1] at e1
      obtain ⟨rfl, -⟩ := Prod.mk.inj (Except.ok.inj e1)
      exact (abs_le.mp (e2 lam v hv)).2
    | true =>
      have hc' := hc
      rw [isConjugate_eq] at hc'
      simp only [Bool.and_eq_true] at hc'
      obtain ⟨A', f', b, P, g, e1, e2, e3, -, e5, -, -⟩ := C43_conjugate k hk hst hc'.1.2 hc'.2 K hcon hsym
      rw [h1] at e1
      obtain ⟨rfl, rfl⟩ := Prod.mk.inj (Except.ok.inj e1)
      have hv' := (e5 lam v).mp hv
      refine ⟨stochastic_eigen_pos { k with symmetrize := false } hk hst (by simp [isConjugate_eq]) K hcon hsym g2 P g e3 lam _ hv', fun _ => ?_⟩
      obtain ⟨P', f'', e6, e7, -⟩ := C91_spectrum { k with symmetrize := false } hk hst (by simp [isConjugate_eq]) K hcon (fun _ => hsym)
      rw [e3] at e6
      obtain ⟨rfl, -⟩ := Prod.mk.inj (Except.ok.inj e6)
      exact (abs_le.mp (e7 lam _ hv')).2

/-- C220: so the embedding exists for every time exponent, and `transform` at the training samples yields it. -/
theorem C220_embedding [Nonempty n] (r : Radial) (hr : Falling r) (X : n → d → ℝ) (hX : Function.Injective X) (k : DmapKernel) (hk : k.Admissible) (K : Matrix n n ℝ) (hK : r.call X X = .ok K)
    (A : Matrix n n ℝ) (f : Fitted n) (h1 : evalPdist k none K = .ok (A, f)) (N : Nat) (pairs : List (Pair n)) (h2 : Solves A f.basisChange N pairs) (t : ℝ) :
    fitTransform t none pairs = .ok (pairs.map (fun p => fun i => p.1 ^ t * p.2 i)) ∧ transform k f t none pairs K = .ok (pairs.map (fun p => fun i => p.1 ^ t * p.2 i)) := by
  have hp := C220_eigenvalues r hr X hX k hk K hK A f h1 N pairs h2
  obtain ⟨K', g3, -, hsym, hcon⟩ := falling_fn hr X
  rw [hK] at g3
  obtain rfl := Except.ok.inj g3
  have e := C44_embedding_partial t none pairs (fun p h => (hp p h).1) (Or.inr rfl)
  refine ⟨e, ?_⟩
  rw [C44_agree k hk K (fun _ => ⟨hcon, fun _ => hsym⟩) A f h1 N pairs h2 (fun p h => (hp p h).1.ne') t none, e]
  rfl

/-- A symmetric matrix has as many orthonormal eigenvectors as rows, which a solver can return. -/
theorem solves_full (K : Matrix n n ℝ) (hsym : Kᵀ = K) : ∃ pairs, Solves K none (Fintype.card n) pairs ∧ Orthonormal pairs := by
  classical
  have hH : K.IsHermitian := by
    unfold Matrix.IsHermitian
    rw [conjTranspose_eq_transpose_of_trivial, hsym]
  let e := (Fintype.equivFin n).symm
  let raw : List (Pair n) := List.ofFn (fun a : Fin (Fintype.card n) => (hH.eigenvalues (e a), (hH.eigenvectorBasis (e a)).ofLp))
  have hdot : ∀ a b : n, (hH.eigenvectorBasis a).ofLp ⬝ᵥ (hH.eigenvectorBasis b).ofLp = if a = b then 1 else 0 := by
    intro a b
    have := (orthonormal_iff_ite.1 hH.eigenvectorBasis.orthonormal) b a
    rw [EuclideanSpace.inner_eq_star_dotProduct] at this
    rw [show (hH.eigenvectorBasis a).ofLp ⬝ᵥ (hH.eigenvectorBasis b).ofLp = if b = a then 1 else 0 from by simpa using this]
    by_cases h : a = b
    · rw [if_pos h, if_pos h.symm]
    · rw [if_neg h, if_neg (Ne.symm h)]
  have hnorm : ∀ a : n, normalizeVec (hH.eigenvectorBasis a).ofLp = (hH.eigenvectorBasis a).ofLp := by
    intro a
    funext i
    have h1 : ∑ j, (hH.eigenvectorBasis a).ofLp j * (hH.eigenvectorBasis a).ofLp j = 1 := (hdot a a).trans (if_pos rfl)
    unfold normalizeVec
    rw [h1, Real.sqrt_one, div_one]
  refine ⟨raw.map (fun p => (p.1, normalizeVec (changeBasis none p.2))), ⟨raw, by simp [raw], ?_, rfl⟩, ?_⟩
  · intro p hp
    obtain ⟨a, rfl⟩ := (List.mem_ofFn' _ _).1 hp
    refine ⟨fun h => ?_, hH.mulVec_eigenvectorBasis (e a)⟩
    have h1 := hdot (e a) (e a)
    simp only [if_true] at h1
    simp only at h
    rw [h, zero_dotProduct] at h1
    exact zero_ne_one h1
  · intro a b
    have hl : (raw.map (fun p => (p.1, normalizeVec (changeBasis none p.2)))).length = Fintype.card n := by simp [raw]
    have hv : ∀ a : Fin (raw.map (fun p => (p.1, normalizeVec (changeBasis none p.2)))).length,
        (raw.map (fun p => (p.1, normalizeVec (changeBasis none p.2))))[a].2 = (hH.eigenvectorBasis (e (a.cast hl))).ofLp := by
      intro a
      rw [Fin.getElem_fin, List.getElem_map, ← hnorm]
      simp only [raw, List.getElem_ofFn]
      rfl
    rw [hv, hv, hdot]
    simp only [EmbeddingLike.apply_eq_iff_eq, Fin.cast_inj]

/-- With as many orthonormal eigenvectors as distinct training samples geometric harmonics would reproduce every target function exactly.  `fit` refuses this number of eigenpairs
(see `C220_interpolation_violated`), so this is no statement about a fitted model; it shows that nothing but the check stands in the way. -/
theorem all_pairs_interpolate {D : Type} [Fintype D] (r : Radial) (hr : Falling r) (X : n → d → ℝ) (hX : Function.Injective X) (k : DmapKernel) (hk : k.Admissible) (K : Matrix n n ℝ) (hK : r.call X X = .ok K)
    (A : Matrix n n ℝ) (f : Fitted n) (h1 : evalPdist k none K = .ok (A, f)) (pairs : List (Pair n)) (h2 : Solves A f.basisChange (Fintype.card n) pairs) (ho : Orthonormal pairs)
    (y : Matrix n D ℝ) : ∃ aux, precomputeAux pairs y = .ok aux ∧ ghPredict k f aux K = .ok y := by
  classical
  cases isEmpty_or_nonempty n with
  | inl hn =>
    have hl : pairs = [] := List.eq_nil_of_length_eq_zero (by rw [h2.length, Fintype.card_eq_zero])
    subst hl
    obtain ⟨K', g3, -, hsym, hcon⟩ := falling_fn hr X
    rw [hK] at g3
    obtain rfl := Except.ok.inj g3
    obtain ⟨aux, e1, e2⟩ := ghPredict_train hk (fun _ => ⟨hcon, fun _ => hsym⟩) h1 h2 (fun p h => (nomatch h)) y
    exact ⟨aux, e1, e2.trans (congrArg _ (Subsingleton.elim _ _))⟩
  | inr hn =>
    have hp := C220_eigenvalues r hr X hX k hk K hK A f h1 _ pairs h2
    obtain ⟨K', g3, -, hsym, hcon⟩ := falling_fn hr X
    rw [hK] at g3
    obtain rfl := Except.ok.inj g3
    obtain ⟨aux, e1, e2⟩ := ghPredict_train hk (fun _ => ⟨hcon, fun _ => hsym⟩) h1 h2 (fun p h => (hp p h).1.ne') y
    refine ⟨aux, e1, e2.trans (congrArg _ ?_)⟩
    let B : Matrix n (Fin pairs.length) ℝ := Matrix.of (fun i a => pairs[a].2 i)
    have hB : Bᵀ * B = 1 := by
      ext a b
      rw [mul_apply, one_apply, ← ho a b]
      rfl
    have hB2 : B * Bᵀ = 1 := (Matrix.mul_eq_one_comm_of_card_eq _ _ _ (by rw [Fintype.card_fin, h2.length])).1 hB
    have : Matrix.of (fun i c => ∑ a : Fin pairs.length, (∑ j, pairs[a].2 j * y j c) * pairs[a].2 i) = B * (Bᵀ * y) := by
      ext i c
      simp only [mul_apply, of_apply, B, transpose_apply]
      exact Finset.sum_congr rfl (fun a _ => mul_comm _ _)
    rw [this, ← Matrix.mul_assoc, hB2, Matrix.one_mul]

/-- C220 is violated for the interpolation of all targets: `fit` accepts at most one eigenpair less than there are training points, and for every accepted number some target that is not zero is predicted to
be zero at all training points. -/
theorem C220_interpolation_violated (r : Radial) (hr : Falling r) (X : n → d → ℝ) (hX : Function.Injective X) (k : DmapKernel) (hk : k.Admissible) (K : Matrix n n ℝ) (hK : r.call X X = .ok K)
    (A : Matrix n n ℝ) (f : Fitted n) (h1 : evalPdist k none K = .ok (A, f)) (N : Nat) (hN : checkEigenpairs (Fintype.card n) N = .ok ()) (pairs : List (Pair n)) (h2 : Solves A f.basisChange N pairs) :
    ∃ y : Matrix n (Fin 1) ℝ, y ≠ 0 ∧ ∃ aux, precomputeAux pairs y = .ok aux ∧ ghPredict k f aux K = .ok 0 := by
  classical
  have hlt : pairs.length < Fintype.card n := by
    unfold checkEigenpairs at hN
    split at hN
    · rename_i h
      rw [h2.length]
      omega
    · exact nomatch hN
  haveI : Nonempty n := Fintype.card_pos_iff.1 (by omega)
  have hp := C220_eigenvalues r hr X hX k hk K hK A f h1 _ pairs h2
  obtain ⟨K', g3, -, hsym, hcon⟩ := falling_fn hr X
  rw [hK] at g3
  obtain rfl := Except.ok.inj g3
  let B : Matrix (Fin pairs.length) n ℝ := Matrix.of (fun a i => pairs[a].2 i)
  have hker : LinearMap.ker B.mulVecLin ≠ ⊥ := LinearMap.ker_ne_bot_of_finrank_lt (by simpa using hlt)
  obtain ⟨y, hy, hne⟩ := (Submodule.ne_bot_iff _).1 hker
  refine ⟨Matrix.of (fun i _ => y i), fun h => hne (funext fun i => congrFun (congrFun h i) 0), ?_⟩
  obtain ⟨aux, e1, e2⟩ := ghPredict_train hk (fun _ => ⟨hcon, fun _ => hsym⟩) h1 h2 (fun p h => (hp p h).1.ne') (Matrix.of (fun i (_ : Fin 1) => y i))
  refine ⟨aux, e1, e2.trans (congrArg _ ?_)⟩
  ext i c
  rw [of_apply]
  refine Finset.sum_eq_zero (fun a _ => ?_)
  have : (B *ᵥ y) a = 0 := congrFun (LinearMap.mem_ker.1 hy) a
  rw [show ∑ j, pairs[a].2 j * (Matrix.of (fun i (_ : Fin 1) => y i) : Matrix n (Fin 1) ℝ) j c = (B *ᵥ y) a from rfl, this, zero_mul]

/-- The hypotheses can be met for all distinct samples, with the default settings of geometric harmonics (`is_stochastic=False`). -/
theorem C220_solvable (r : Radial) (hr : Falling r) (X : n → d → ℝ) (N : Nat) (hN : N ≤ Fintype.card n) : ∃ K A f pairs, r.call X X = .ok K ∧ evalPdist ⟨false, 1, true, true⟩ none K = .ok (A, f) ∧
    Solves A f.basisChange N pairs ∧ Orthonormal pairs := by
  obtain ⟨K, g1, -, hsym, -⟩ := falling_fn hr X
  obtain ⟨pairs, ⟨raw, l1, l2, l3⟩, h2⟩ := solves_full K hsym
  refine ⟨K, K, ⟨none, none⟩, pairs.take N, g1, by simp [evalPdist], ⟨raw.take N, by rw [List.length_take, l1, min_eq_left hN], fun p h => l2 p (List.mem_of_mem_take h), by rw [l3, List.map_take]⟩, ?_⟩
  intro a b
  have ha : a.val < pairs.length := lt_of_lt_of_le a.isLt (by rw [List.length_take]; exact min_le_right _ _)
  have hb : b.val < pairs.length := lt_of_lt_of_le b.isLt (by rw [List.length_take]; exact min_le_right _ _)
  have := h2 ⟨a, ha⟩ ⟨b, hb⟩
  simp only [Fin.getElem_fin, List.getElem_take, Fin.mk.injEq] at this ⊢
  rw [this]
  simp only [Fin.ext_iff]

example : checkEigenpairs (Fintype.card (Fin 3)) 2 = .ok () := rfl

example : Falling (Radial.gaussian 1) ∧ Falling (Radial.inverseMultiquadric 1) ∧ Falling (Radial.inverseQuadratic 1) :=
  ⟨⟨1, one_pos, .inl rfl⟩, ⟨1, one_pos, .inr (.inl rfl)⟩, ⟨1, one_pos, .inr (.inr rfl)⟩⟩

example : Function.Injective (fun (i : Fin 3) (_ : Fin 1) => (i : ℝ)) := fun i j h => by
  have h0 : (i : ℝ) = (j : ℝ) := congrFun h 0
  exact Fin.ext (by exact_mod_cast h0)

/-- C220 is violated for the kernels that grow with the distance: the matrix of two distinct samples is not even positive semi-definite. -/
theorem C220_growing_violated (r : Radial) (hr : (∃ eps, 0 < eps ∧ r = .multiquadric eps) ∨ r = .cubic ∨ r = .quintic) (X : n → d → ℝ) (i j : n) (hij : X i ≠ X j) :
    ∃ K, r.call X X = .ok K ∧ ∃ c : n → ℝ, c ⬝ᵥ (K *ᵥ c) < 0 := by
  classical
  have hD : 0 < sqDist (X i) (X j) := lt_of_le_of_ne (sqDist_nonneg _ _) (fun h => hij (sqDist_eq_zero.1 h.symm))
  have h0 : ∀ x : d → ℝ, sqDist x x = 0 := fun x => by simp [sqDist]
  have hs : sqDist (X j) (X i) = sqDist (X i) (X j) := sqDist_comm _ _
  have hne : i ≠ j := fun h => hij (by rw [h])
  have key : ∀ K : Matrix n n ℝ, K i i + K j j - K i j - K j i < 0 → ∃ c : n → ℝ, c ⬝ᵥ (K *ᵥ c) < 0 := by
    intro K h
    refine ⟨Pi.single i 1 - Pi.single j 1, ?_⟩
    rw [mulVec_sub, sub_dotProduct, dotProduct_sub, dotProduct_sub]
    simp only [mulVec_single_one, single_one_dotProduct, col_apply]
    linarith
  rcases hr with ⟨eps, he, rfl⟩ | rfl | rfl
  · refine ⟨_, by simp only [Radial.call, Radial.evaluate, Radial.check, Radial.epsilon, if_pos he]; rfl, key _ ?_⟩
    simp only [of_apply, Radial.metric, Metric.dist, Radial.fn, h0, hs]
    have : 1 < Real.sqrt (1 / (2 * eps) * sqDist (X i) (X j) + 1) := by
      rw [Real.lt_sqrt zero_le_one]
      have : 0 < 1 / (2 * eps) * sqDist (X i) (X j) := by positivity
      linarith
    rw [mul_zero, zero_add, Real.sqrt_one]
    linarith
  · refine ⟨_, by simp only [Radial.call, Radial.evaluate, Radial.check, Radial.epsilon]; rfl, key _ ?_⟩
    simp only [of_apply, Radial.metric, Metric.dist, Radial.fn, h0, hs, Real.sqrt_zero]
    have := pow_pos (Real.sqrt_pos.2 hD) 3
    linarith
  · refine ⟨_, by simp only [Radial.call, Radial.evaluate, Radial.check, Radial.epsilon]; rfl, key _ ?_⟩
    simp only [of_apply, Radial.metric, Metric.dist, Radial.fn, h0, hs, Real.sqrt_zero]
    have := pow_pos (Real.sqrt_pos.2 hD) 5
    linarith

/-- C220 is violated for diffusion maps with a kernel that grows with the distance: for any two distinct samples, all settings of the stochastic normalisation and all time exponents that are not
integers, the eigenvalues are one and a negative number, and the embedding is not finite. -/
theorem C220_multiquadric_violated (eps : ℝ) (he : 0 < eps) (X : Fin 2 → d → ℝ) (hX : X 0 ≠ X 1) (k : DmapKernel) (hk : k.Admissible) (hst : k.isStochastic = true) (t : ℝ)
    (ht : ¬ ∃ z : ℤ, (z : ℝ) = t) :
    ∃ K A f lam pairs, (Radial.multiquadric eps).call X X = .ok K ∧ evalPdist k none K = .ok (A, f) ∧ Solves A f.basisChange 2 pairs ∧ pairs.map Prod.fst = [1, lam] ∧ lam < 0 ∧
      fitTransform t none pairs = .error .notFinite := by
  have hD : 0 < sqDist (X 0) (X 1) := lt_of_le_of_ne (sqDist_nonneg _ _) (fun h => hX (sqDist_eq_zero.1 h.symm))
  have h0 : ∀ x : d → ℝ, sqDist x x = 0 := fun x => by simp [sqDist]
  set b := Real.sqrt (1 / (2 * eps) * sqDist (X 0) (X 1) + 1) with hb
  have hb1 : 1 < b := by
    rw [hb, Real.lt_sqrt zero_le_one]
    have : 0 < 1 / (2 * eps) * sqDist (X 0) (X 1) := by positivity
    linarith
  have hb0 : 0 < b := by linarith
  let K : Matrix (Fin 2) (Fin 2) ℝ := !![1, b; b, 1]
  have hcall : (Radial.multiquadric eps).call X X = .ok K := by
    simp only [Radial.call, Radial.evaluate, Radial.check, Radial.epsilon, if_pos he]
    congr 1
    ext i j
    fin_cases i <;> fin_cases j <;> simp [Radial.metric, Metric.dist, Radial.fn, h0, K, hb, sqDist_comm (X 1) (X 0)]
  have hcon : Connected K := by
    refine ⟨?_, fun i => ⟨i, ?_⟩⟩
    · intro i j
      fin_cases i <;> fin_cases j <;> simp [K, hb0.le]
    · fin_cases i <;> simp [K]
  have hsym : Kᵀ = K := by
    ext i j
    fin_cases i <;> fin_cases j <;> simp [K]
  have hlam : (1 - b) / (1 + b) < 0 := div_neg_of_neg_of_pos (by linarith) (by linarith)
  have hP : ∀ k' : DmapKernel, k'.Admissible → k'.isStochastic = true → k'.isConjugate = false →
      ∃ P f, evalPdist k' none K = .ok (P, f) ∧ IsEigenpair P 1 (fun _ => 1) ∧ IsEigenpair P ((1 - b) / (1 + b)) ![1, -1] := by
    intro k' hk' hst' hc'
    obtain ⟨P, f, e1, -, e3, e4⟩ := C42_pairwise k' hk' hst' hc' K hcon (fun _ => hsym)
    refine ⟨P, f, e1, ⟨fun h => one_ne_zero (congrFun h 0), by rw [one_smul]; exact e4 1⟩, ⟨fun h => one_ne_zero (congrFun h 0), ?_⟩⟩
    have hd : ∀ j : Fin 2, ∑ l, K j l = 1 + b := by
      intro j
      fin_cases j <;> simp [K, Fin.sum_univ_two, add_comm]
    have hpow : (1 + b) ^ k'.alpha ≠ 0 := (Real.rpow_pos_of_pos (by linarith) _).ne'
    have hPe : ∀ i j, P i j = K i j / (1 + b) := by
      intro i j
      rw [e3 i j]
      simp only [hd]
      rw [← Finset.sum_div, hd, div_div_div_cancel_right₀ hpow]
    have h1b : 1 + b ≠ 0 := by positivity
    funext i
    fin_cases i <;> simp [mulVec, dotProduct, Fin.sum_univ_two, hPe, K] <;> field_simp <;> ring
  suffices h : ∃ A f v w, evalPdist k none K = .ok (A, f) ∧ IsEigenpair A 1 v ∧ IsEigenpair A ((1 - b) / (1 + b)) w by
    obtain ⟨A, f, v, w, e1, e2, e3⟩ := h
    refine ⟨K, A, f, _, _, hcall, e1, ⟨[(1, v), ((1 - b) / (1 + b), w)], rfl, ?_, rfl⟩, rfl, hlam, ?_⟩
    · intro p hp
      rcases List.mem_cons.1 hp with rfl | hp
      · exact e2
      · obtain rfl := List.mem_singleton.1 hp
        exact e3
    · have ht0 : t ≠ 0 := fun h => ht ⟨0, by simp [h]⟩
      have hn : npPower ((1 - b) / (1 + b)) t = .error .notFinite := by
        unfold npPower
        rw [if_pos ⟨hlam, ht⟩]
      have h1 : npPower 1 t = .ok 1 := by
        unfold npPower
        rw [if_neg (by rintro ⟨h, -⟩; linarith), if_neg (by rintro ⟨h, -⟩; exact one_ne_zero h), Real.one_rpow]
      unfold fitTransform embed
      rw [if_neg ht0]
      simp only [List.map_cons, List.map_nil, List.mapM_cons, h1, hn]
      rfl
  cases hc : k.isConjugate with
  | false =>
    obtain ⟨P, f, e1, e2, e3⟩ := hP k hk hst hc
    exact ⟨P, f, _, _, e1, e2, e3⟩
  | true =>
    have hc' := hc
    rw [isConjugate_eq] at hc'
    simp only [Bool.and_eq_true] at hc'
    obtain ⟨P, f, e1, e2, e3⟩ := hP { k with symmetrize := false } hk hst (by simp [isConjugate_eq])
    obtain ⟨A, f', c, P', g', g1, -, g3, g4⟩ := C43_onto k hk hst hc'.1.2 hc'.2 K hcon hsym
    rw [e1] at g3
    obtain ⟨rfl, -⟩ := Prod.mk.inj (Except.ok.inj g3)
    obtain ⟨v, hv, -⟩ := g4 _ _ e2
    obtain ⟨w, hw, -⟩ := g4 _ _ e3
    exact ⟨A, f', v, w, g1, hv, hw⟩

example : ¬ ∃ z : ℤ, (z : ℝ) = 1 / 2 := by
  rintro ⟨z, hz⟩
  have h : ((2 * z : ℤ) : ℝ) = ((1 : ℤ) : ℝ) := by
    push_cast
    linarith
  have := Int.cast_injective h
  omega

/-- The samples 0, 1 and 2 on a line. -/
noncomputable def threePoints : Dist.Cloud ℝ := ⟨3, fun i => (i : ℝ)⟩

/-- C220 is violated with a cut-off: for three samples on a line of which only the neighbours are connected, and every bandwidth of at least two, the stochastic kernel has a negative eigenvalue,
whose powers do not exist for exponents that are not integers. -/
theorem C220_cutoff_violated (eps : ℝ) (he : 2 ≤ eps) (t : ℝ) (ht : ¬ ∃ z : ℤ, (z : ℝ) = t) :
    ∃ (S : Dist.Stored 3 3) (S' : Fin 3 → Fin 3 → Option ℝ) (lam : ℝ) (v : Fin 3 → ℝ),
      Dist.bruteCall (fun x y => (x - y) ^ 2) (some 2) threePoints none = .ok ⟨3, 3, S⟩ ∧ (Radial.gaussian eps).evaluateSparse S = .ok S' ∧
      IsEigenpair (Matrix.of (fun i j => (stochasticSparse S' i j).getD 0)) lam v ∧ lam < 0 ∧ npPower lam t = .error .notFinite := by
  have hpos : 0 < eps := by linarith
  set a := Real.exp (-1 / (2 * eps) * 1) with hadef
  have ha0 : 0 < a := Real.exp_pos _
  have ha : 1 / 2 < a * a := by
    rw [hadef, ← Real.exp_add]
    have h1 : -1 / (2 * eps) * 1 + -1 / (2 * eps) * 1 = -(1 / eps) := by
      field_simp
      ring
    rw [h1]
    have h2 : 1 / eps ≤ 1 / 2 := one_div_le_one_div_of_le two_pos he
    have h3 := Real.add_one_lt_exp (x := -(1 / eps)) (by simp [hpos.ne'])
    linarith
  let S : Dist.Stored 3 3 := Dist.applyCutOff (some 2) (Dist.pdistMatrix (fun x y => (x - y) ^ 2) threePoints)
  let Q : Fin 3 → Fin 3 → Option ℝ := ![![some 1, some a, none], ![some a, some 1, some a], ![none, some a, some 1]]
  have hS : S = ![![some 0, some 1, none], ![some 1, some 0, some 1], ![none, some 1, some 0]] := by
    have hp : (Dist.pdistMatrix (fun x y => (x - y) ^ 2) threePoints : Fin 3 → Fin 3 → ℝ) = ![![0, 1, 4], ![1, 0, 1], ![4, 1, 0]] := by
      funext (i : Fin 3) (j : Fin 3)
      change (if i = j then (0 : ℝ) else (((min i j : Fin 3) : ℕ) - ((max i j : Fin 3) : ℕ) : ℝ) ^ 2) = _
      fin_cases i <;> fin_cases j <;> simp <;> norm_num
    have hS' : S = Dist.applyCutOff (some 2) (![![0, 1, 4], ![1, 0, 1], ![4, 1, 0]] : Fin 3 → Fin 3 → ℝ) := by rw [← hp]
    rw [hS']
    funext i j
    fin_cases i <;> fin_cases j <;> norm_num [Dist.applyCutOff, Dist.dense2csr, Dist.invalid]
  have hQ : (Radial.gaussian eps).evaluateSparse S = .ok Q := by
    simp only [Radial.evaluateSparse, Radial.check, Radial.epsilon, if_pos hpos]
    congr 1
    funext i j
    rw [hS]
    fin_cases i <;> fin_cases j <;> simp [Q, Radial.fn, hadef]
  have hlam : (1 - 2 * (a * a)) / ((1 + a) * (1 + 2 * a)) < 0 := div_neg_of_neg_of_pos (by linarith) (by positivity)
  refine ⟨S, Q, (1 - 2 * (a * a)) / ((1 + a) * (1 + 2 * a)), ![1 + 2 * a, -2 * (1 + a), 1 + 2 * a], rfl, hQ, ⟨?_, ?_⟩, hlam, ?_⟩
  · intro h
    have := congrFun h 0
    simp at this
    linarith
  · have h0 : |a| = a := abs_of_pos ha0
    have e1 : 1 + a ≠ 0 := by positivity
    have e2 : 1 + 2 * a ≠ 0 := by positivity
    have e3 : a + 1 ≠ 0 := by positivity
    have e4 : a + 1 + a ≠ 0 := by positivity
    funext i
    fin_cases i <;> simp [mulVec, dotProduct, Fin.sum_univ_three, stochasticSparse, Q, h0, e1, e3, e4] <;> field_simp <;> ring
  · unfold npPower
    rw [if_pos ⟨hlam, ht⟩]

end Verif.Kernel
