import Verif.Kernel.RadialProps
import Verif.Kernel.Harmonics
import Verif.Kernel.PyramidFormula
import Verif.Dist.Basic
import Mathlib.Analysis.SpecialFunctions.Log.NegMulLog
import Mathlib.Topology.Algebra.Monoid
/-!
# C230: out-of-sample values depend continuously on the sample

`datafold/dynfold/dmap.py` 355-405 and 590-624, `datafold/dynfold/outofsample.py` 236-257 and 698-742.
-/

namespace Verif.Kernel

open Matrix Filter Topology

variable {m n d e : Type} [Fintype m] [Fintype n] [Fintype d] [Fintype e]

/-! ## Kernels -/

theorem sqDist_continuous (x : d → ℝ) : Continuous fun y : d → ℝ => sqDist y x := by
  unfold sqDist
  fun_prop

theorem metricDist_continuous (mt : Metric) (x : d → ℝ) : Continuous fun y : d → ℝ => mt.dist y x := by
  cases mt
  · exact sqDist_continuous x
  · exact Real.continuous_sqrt.comp (sqDist_continuous x)

/-- Every radial kernel with an accepted bandwidth is continuous in the query point. -/
theorem radial_continuous (r : Radial) (hr : r.check = .ok ()) (x : d → ℝ) : Continuous fun y : d → ℝ => r.fn (r.metric.dist y x) := by
  have hpos : ∀ e, r.epsilon = some e → 0 < e := by
    intro e he
    unfold Radial.check at hr
    rw [he] at hr
    by_contra hn
    simp only [if_neg hn] at hr
    cases hr
  have hD : ∀ y : d → ℝ, 0 ≤ sqDist y x := fun y => sqDist_nonneg y x
  cases r with
  | gaussian eps =>
    have := metricDist_continuous (Radial.gaussian eps).metric x
    simp only [Radial.fn]
    fun_prop
  | multiquadric eps =>
    have := metricDist_continuous (Radial.multiquadric eps).metric x
    simp only [Radial.fn]
    fun_prop
  | inverseMultiquadric eps =>
    have := sqDist_continuous x
    have he := hpos eps rfl
    simp only [Radial.fn, Radial.metric, Metric.dist]
    refine continuous_const.div (by fun_prop) fun y => ?_
    have := hD y
    positivity
  | inverseQuadratic eps =>
    have := sqDist_continuous x
    have he := hpos eps rfl
    simp only [Radial.fn, Radial.metric, Metric.dist]
    refine continuous_const.div (by fun_prop) fun y => ?_
    have := hD y
    positivity
  | thinplate =>
    have h1 := metricDist_continuous Metric.euclidean x
    simp only [Radial.fn, Radial.metric]
    have h2 : Continuous fun D : ℝ => D ^ 2 * Real.log D := by
      have : (fun D : ℝ => D ^ 2 * Real.log D) = fun D => D * (D * Real.log D) := by funext D; ring
      rw [this]
      exact continuous_id.mul Real.continuous_mul_log
    exact h2.comp h1
  | cubic =>
    have h1 := metricDist_continuous Metric.euclidean x
    simp only [Radial.fn, Radial.metric]
    exact h1.pow 3
  | quintic =>
    have h1 := metricDist_continuous Metric.euclidean x
    simp only [Radial.fn, Radial.metric]
    exact h1.pow 5

/-- The kernels with a bandwidth are positive. -/
theorem radial_pos (r : Radial) (hr : r.check = .ok ()) (he : r.epsilon.isSome = true) (x y : d → ℝ) : 0 < r.fn (r.metric.dist y x) := by
  have hpos : ∀ e, r.epsilon = some e → 0 < e := by
    intro e he
    unfold Radial.check at hr
    rw [he] at hr
    by_contra hn
    simp only [if_neg hn] at hr
    cases hr
  have hD : 0 ≤ sqDist y x := sqDist_nonneg y x
  cases r with
  | gaussian eps => exact Real.exp_pos _
  | multiquadric eps =>
    have he := hpos eps rfl
    simp only [Radial.fn, Radial.metric, Metric.dist]
    positivity
  | inverseMultiquadric eps =>
    have he := hpos eps rfl
    simp only [Radial.fn, Radial.metric, Metric.dist]
    positivity
  | inverseQuadratic eps =>
    have he := hpos eps rfl
    simp only [Radial.fn, Radial.metric, Metric.dist]
    positivity
  | thinplate => cases he
  | cubic => cases he
  | quintic => cases he

omit [Fintype m] [Fintype n] in
theorem radial_call_ok (r : Radial) {X : n → d → ℝ} {Y : m → d → ℝ} {K : Matrix m n ℝ} (h : r.call X Y = .ok K) :
    r.check = .ok () ∧ K = Matrix.of (fun i j => r.fn (r.metric.dist (Y i) (X j))) := by
  unfold Radial.call Radial.evaluate at h
  cases hc : r.check with
  | error e => rw [hc] at h; cases h
  | ok u =>
    rw [hc] at h
    exact ⟨rfl, (Except.ok.inj h).symm⟩

/-- After a fit, the rows of the kernel matrix are continuous functions of the query points; for a stochastic kernel they are averages. -/
theorem kernel_rows (k : DmapKernel) (hk : k.Admissible) (r : Radial) (hr : k.isStochastic = true → r.epsilon.isSome = true) [Nonempty n] (X : n → d → ℝ) (K : Matrix n n ℝ)
    (hK : r.call X X = .ok K) (A : Matrix n n ℝ) (f : Fitted n) (h1 : evalPdist k none K = .ok (A, f)) :
    ∃ w : n → (d → ℝ) → ℝ, (∀ j, Continuous (w j)) ∧ (k.isStochastic = true → ∀ y, (∀ j, 0 ≤ w j y) ∧ ∑ j, w j y = 1) ∧
      ∀ (m : Type) [Fintype m] (Y : m → d → ℝ) (Kc : Matrix m n ℝ), r.call X Y = .ok Kc → evalCdist k (some f) Kc = .ok (Matrix.of fun i j => w j (Y i)) := by
  obtain ⟨hc, rfl⟩ := radial_call_ok r hK
  cases hst : k.isStochastic with
  | false =>
    refine ⟨fun j y => r.fn (r.metric.dist y (X j)), fun j => radial_continuous r hc (X j), nofun, ?_⟩
    intro m _ Y Kc hY
    obtain ⟨-, rfl⟩ := radial_call_ok r hY
    unfold evalCdist
    simp [hst]
  | true =>
    have hp : ∀ (x y : d → ℝ), 0 < r.fn (r.metric.dist y x) := radial_pos r hc (hr hst)
    set K : Matrix n n ℝ := Matrix.of (fun i j => r.fn (r.metric.dist (X i) (X j))) with hKd
    have hconn : Connected K := ⟨fun i j => (hp _ _).le, fun i => ⟨i, hp _ _⟩⟩
    have hs := hconn.rowSums_pos
    have hsymm : ∀ i j, K i j = K j i := by
      intro i j
      have : r.metric.dist (X i) (X j) = r.metric.dist (X j) (X i) := by
        cases r.metric <;> simp only [Metric.dist] <;> rw [sqDist_comm]
      simp only [hKd, of_apply, this]
    have hf : ∃ b, f = ⟨alphaAttr k K, b⟩ := by
      cases hcj : k.isConjugate with
      | false =>
        have e := evalPdist_stochastic hk hst hcj hconn.1 hs (fun _ => hsymm)
        rw [h1] at e
        exact ⟨_, (Prod.mk.inj (Except.ok.inj e)).2⟩
      | true =>
        have e := evalPdist_conjugate hk hcj hconn.1 hs hsymm
        rw [h1] at e
        exact ⟨_, (Prod.mk.inj (Except.ok.inj e)).2⟩
    obtain ⟨b, rfl⟩ := hf
    have hden : ∀ y : d → ℝ, 0 < ∑ l, r.fn (r.metric.dist y (X l)) / rowSums K l ^ k.alpha := fun y =>
      Finset.sum_pos (fun l _ => div_pos (hp _ _) (Real.rpow_pos_of_pos (hs l) _)) Finset.univ_nonempty
    refine ⟨fun j y => (r.fn (r.metric.dist y (X j)) / rowSums K j ^ k.alpha) / ∑ l, r.fn (r.metric.dist y (X l)) / rowSums K l ^ k.alpha, ?_, ?_, ?_⟩
    · intro j
      refine Continuous.div ?_ ?_ fun y => (hden y).ne'
      · exact (radial_continuous r hc (X j)).div_const _
      · exact continuous_finsetSum _ fun l _ => (radial_continuous r hc (X l)).div_const _
    · intro _ y
      refine ⟨fun j => div_nonneg (div_nonneg (hp _ _).le (Real.rpow_pos_of_pos (hs j) _).le) (hden y).le, ?_⟩
      rw [← Finset.sum_div]
      exact div_self (hden y).ne'
    · intro m _ Y Kc hY
      obtain ⟨-, rfl⟩ := radial_call_ok r hY
      have hcc : Connected (Matrix.of (fun (i : m) j => r.fn (r.metric.dist (Y i) (X j)))) := by
        obtain ⟨j⟩ := ‹Nonempty n›
        exact ⟨fun i j => (hp _ _).le, fun i => ⟨j, hp _ _⟩⟩
      rw [evalCdist_stochastic hk hst hs hcc.1 hcc.rowSums_pos]
      rfl

/-! ## C230 -/

/-- **C230 (diffusion maps).** For every radial kernel (with stochastic normalisation: every one with a bandwidth), every setting of `alpha` and of the time exponent, the coordinates computed by `transform` are
values of continuous functions at the samples, the same ones for all samples and all calls.  With stochastic normalisation they are bounded by `λ^t / λ` times the largest value of the coordinate at the training
points (before the time exponent), however far away the sample is. -/
theorem C230_dmap (k : DmapKernel) (hk : k.Admissible) (r : Radial) (hr : k.isStochastic = true → r.epsilon.isSome = true) [Nonempty n] (X : n → d → ℝ) (K : Matrix n n ℝ)
    (hK : r.call X X = .ok K) (A : Matrix n n ℝ) (f : Fitted n) (h1 : evalPdist k none K = .ok (A, f)) (pairs : List (Pair n)) (hpos : ∀ p ∈ pairs, 0 < p.1)
    (t : ℝ) (coords : Option (List Nat)) (ht : t = 0 ∨ coords = none) :
    ∃ φ : Pair n → (d → ℝ) → ℝ, (∀ p, Continuous (φ p)) ∧
      (k.isStochastic = true → ∀ p ∈ pairs, ∀ b, (∀ j, |p.2 j| ≤ b) → ∀ y, |φ p y| ≤ p.1 ^ t / p.1 * b) ∧
      ∀ (m : Type) [Fintype m] (Y : m → d → ℝ) (Kc : Matrix m n ℝ), r.call X Y = .ok Kc →
        transform k f t coords pairs Kc = .ok ((selectPairs coords pairs).map fun p i => φ p (Y i)) := by
  obtain ⟨w, w1, w2, w3⟩ := kernel_rows k hk r hr X K hK A f h1
  refine ⟨fun p y => p.1 ^ t * ∑ j, w j y * (p.1⁻¹ * p.2 j), fun p => ?_, ?_, ?_⟩
  · exact continuous_const.mul (continuous_finsetSum _ fun j _ => (w1 j).mul continuous_const)
  · intro hst p hp b hb y
    have hp0 := hpos p hp
    have hb0 : |∑ j, w j y * (p.1⁻¹ * p.2 j)| ≤ p.1⁻¹ * b := by
      refine (Finset.abs_sum_le_sum_abs _ _).trans ?_
      have h2 : ∀ j ∈ Finset.univ, |w j y * (p.1⁻¹ * p.2 j)| ≤ w j y * (p.1⁻¹ * b) := by
        intro j _
        rw [abs_mul, abs_mul, abs_of_nonneg ((w2 hst y).1 j), abs_of_pos (inv_pos.mpr hp0)]
        exact mul_le_mul_of_nonneg_left (mul_le_mul_of_nonneg_left (hb j) (inv_pos.mpr hp0).le) ((w2 hst y).1 j)
      refine (Finset.sum_le_sum h2).trans ?_
      rw [← Finset.sum_mul, (w2 hst y).2, one_mul]
    have ht0 : 0 < p.1 ^ t := Real.rpow_pos_of_pos hp0 t
    rw [abs_mul, abs_of_pos ht0, div_eq_mul_inv, mul_assoc]
    exact mul_le_mul_of_nonneg_left hb0 ht0.le
  · intro m _ Y Kc hY
    unfold transform
    rw [w3 m Y Kc hY]
    simp only
    unfold nystrom
    rw [if_neg (by push Not; exact fun p hp => (hpos p (selectPairs_mem hp)).ne')]
    simp only
    unfold embed
    by_cases h0 : t = 0
    · rw [if_pos h0, h0]
      congr 1
      refine List.map_congr_left fun p _ => ?_
      funext i
      simp only [Real.rpow_zero, one_mul]
      rfl
    · rw [if_neg h0]
      obtain rfl : coords = none := ht.resolve_left h0
      rw [mapM_npPower (by simpa using fun a x hx => hpos (a, x) hx)]
      simp only [selectPairs, matDotDiag, List.length_map, if_true]
      congr 1
      rw [List.zipWith_map, List.zipWith_map_right, List.zipWith_self]
      rfl

/-- The hypotheses are met: the stochastic Gaussian kernel with `alpha = 1` on the two points `0` and `1`; the second coordinate is positive at the one and negative at the other training point. -/
example : ∃ K A f, (Radial.gaussian 1).call (fun (j : Fin 2) (_ : Fin 1) => if j = 0 then (0 : ℝ) else 1) (fun (j : Fin 2) (_ : Fin 1) => if j = 0 then (0 : ℝ) else 1) = .ok K ∧
    evalPdist ⟨true, 1, true, true⟩ none K = .ok (A, f) ∧ (∀ p ∈ exPairs, 0 < p.1) ∧ exPairs.length = 2 := by
  obtain ⟨K, g1, g2, -, -⟩ := C45_matrix (n := Fin 2) 1 one_pos (fun (j : Fin 2) (_ : Fin 1) => if j = 0 then (0 : ℝ) else 1)
  obtain ⟨-, hKd⟩ := radial_call_ok _ g1
  have hc : Connected K := by
    rw [hKd]
    exact ⟨fun i j => (Real.exp_pos _).le, fun i => ⟨i, Real.exp_pos _⟩⟩
  refine ⟨K, _, _, g1, evalPdist_conjugate (k := ⟨true, 1, true, true⟩) ⟨zero_le_one, le_rfl⟩ rfl hc.1 hc.rowSums_pos (fun i j => congrFun (congrFun g2 j) i), ?_, rfl⟩
  intro p hp
  simp only [exPairs, List.mem_cons, List.not_mem_nil, or_false] at hp
  rcases hp with rfl | rfl <;> norm_num

omit [Fintype e] in
/-- **C230 (geometric harmonics).** For every radial kernel, all eigenpairs and all target values, each predicted component is a continuous function of the sample; with stochastic normalisation it is
bounded by the largest absolute value of the precomputed coefficients. -/
theorem C230_harmonics (k : DmapKernel) (hk : k.Admissible) (r : Radial) (hr : k.isStochastic = true → r.epsilon.isSome = true) [Nonempty n] (X : n → d → ℝ) (K : Matrix n n ℝ)
    (hK : r.call X X = .ok K) (A : Matrix n n ℝ) (f : Fitted n) (h1 : evalPdist k none K = .ok (A, f)) (aux : Matrix n e ℝ) :
    ∃ φ : e → (d → ℝ) → ℝ, (∀ c, Continuous (φ c)) ∧ (k.isStochastic = true → ∀ c b, (∀ j, |aux j c| ≤ b) → ∀ y, |φ c y| ≤ b) ∧
      ∀ (m : Type) [Fintype m] (Y : m → d → ℝ) (Kc : Matrix m n ℝ), r.call X Y = .ok Kc → ghPredict k f aux Kc = .ok (Matrix.of fun i c => φ c (Y i)) := by
  obtain ⟨w, w1, w2, w3⟩ := kernel_rows k hk r hr X K hK A f h1
  refine ⟨fun c y => ∑ j, w j y * aux j c, fun c => continuous_finsetSum _ fun j _ => (w1 j).mul continuous_const, ?_, ?_⟩
  · intro hst c b hb y
    refine (Finset.abs_sum_le_sum_abs _ _).trans ?_
    have h2 : ∀ j ∈ Finset.univ, |w j y * aux j c| ≤ w j y * b := by
      intro j _
      rw [abs_mul, abs_of_nonneg ((w2 hst y).1 j)]
      exact mul_le_mul_of_nonneg_left (hb j) ((w2 hst y).1 j)
    refine (Finset.sum_le_sum h2).trans ?_
    rw [← Finset.sum_mul, (w2 hst y).2, one_mul]
  · intro m _ Y Kc hY
    unfold ghPredict
    rw [w3 m Y Kc hY]
    rfl

theorem levelMatrix_continuous [DecidableEq n] (α eps : ℝ) [Nonempty n] (X : n → e → ℝ) :
    ∃ w : n → (e → ℝ) → ℝ, (∀ j, Continuous (w j)) ∧ ∀ (m : Type) [Fintype m] (Y : m → e → ℝ) (i : m) (j : n), levelMatrix α eps X Y i j = w j (Y i) := by
  have hs : ∀ l, 0 < rowSums (gaussM eps (lpDistance X X)) l := fun l => Finset.sum_pos (fun j _ => gaussM_pos eps _ l j) Finset.univ_nonempty
  have hg : ∀ l : n, Continuous fun y : e → ℝ => Real.exp ((-1 / (2 * eps)) * sqDist y (X l)) := fun l => by
    have := sqDist_continuous (X l)
    fun_prop
  refine ⟨fun j y => (Real.exp ((-1 / (2 * eps)) * sqDist y (X j)) / rowSums (gaussM eps (lpDistance X X)) j ^ α) /
    ∑ l, Real.exp ((-1 / (2 * eps)) * sqDist y (X l)) / rowSums (gaussM eps (lpDistance X X)) l ^ α, fun j => ?_, fun m _ Y i j => rfl⟩
  refine Continuous.div ((hg j).div_const _) (continuous_finsetSum _ fun l _ => (hg l).div_const _) fun y => ?_
  exact (Finset.sum_pos (fun l _ => div_pos (Real.exp_pos _) (Real.rpow_pos_of_pos (hs l) _)) Finset.univ_nonempty).ne'

/-- **C230 (Laplacian pyramids).** After a fit every predicted target function is one continuous function of the sample, for all calls. -/
theorem C230_pyramids [DecidableEq n] [DecidableEq d] (cfg : LpConfig) (h0 : 0 ≤ cfg.alpha) (h1 : cfg.alpha ≤ 1) (funcs : List d) (hf : ∀ c, c ∈ funcs) (X : n → e → ℝ) (y : d → n → ℝ) (fuel : Nat)
    (levels : List (Level n d)) (h : lpFit cfg funcs X y fuel = .ok (some levels)) :
    ∃ φ : d → (e → ℝ) → ℝ, (∀ c, Continuous (φ c)) ∧ ∀ (m : Type) [Fintype m] (Y : m → e → ℝ), lpPredict cfg X levels Y = .ok fun c i => φ c (Y i) := by
  obtain ⟨-, -, -, hn, -⟩ := lpFit_ok h
  have : Nonempty n := Fintype.card_pos_iff.mp (by omega)
  choose w w1 w2 using fun j : ℕ => levelMatrix_continuous cfg.alpha (pyrEps cfg j) X
  obtain ⟨_, _, hk0⟩ := C194_formula cfg h0 h1 funcs hf X y fuel levels h X
  choose k hk _ using hk0
  classical
  refine ⟨fun c z => ∑ j ∈ Finset.range (if Grows cfg X (y c) (k c) then k c else k c + 1), ∑ l, w j l z * pyrResidual cfg X (y c) j l, fun c => ?_, ?_⟩
  · exact continuous_finsetSum _ fun j _ => continuous_finsetSum _ fun l _ => (w1 j l).mul continuous_const
  · intro m _ Y
    obtain ⟨yhat, hy, hc⟩ := C194_formula cfg h0 h1 funcs hf X y fuel levels h Y
    rw [hy]
    congr 1
    funext c i
    obtain ⟨k', hk', e⟩ := hc c
    rw [e, hk'.unique (hk c), pyrValue, Finset.sum_apply]
    refine Finset.sum_congr (by congr) fun j _ => ?_
    rw [mulVec, dotProduct]
    exact Finset.sum_congr rfl fun l _ => by rw [w2 j m Y i l]

/-! ## Cut-off -/

/-- The stochastic kernel matrix with a cut-off distance, `alpha = 0` and brute force distances: the sparse distances below the cut-off, the Gaussian kernel of the stored entries, and normalised rows
(distance.py 246-256, kernels.py 43-55 and 292-295); entries that are not stored count as zero in the Nyström extension (dmap.py 376-381). -/
noncomputable def cutRows {m n : Nat} (eps cut : ℝ) (X : Fin n → d → ℝ) (Y : Fin m → d → ℝ) : Matrix (Fin m) (Fin n) ℝ :=
  Matrix.of fun i j => (stochasticSparse (fun i j => (Dist.dense2csr (fun i j => sqDist (Y i) (X j)) cut i j).map (Radial.gaussian eps).fn) i j).getD 0

/-- The row of a query point `y` between `-1/2` and `0` for the training points `0` and `1` and the squared cut-off `9/4`. -/
theorem cutRows_inside {eps y : ℝ} (hy : -(1 / 2) < y) (hy0 : y < 0) (j : Fin 2) :
    cutRows eps (9 / 4) (fun (j : Fin 2) (_ : Fin 1) => if j = 0 then (0 : ℝ) else 1) (fun (_ : Fin 1) (_ : Fin 1) => y) 0 j =
      (if j = 0 then Real.exp ((-1 / (2 * eps)) * y ^ 2) else Real.exp ((-1 / (2 * eps)) * (y - 1) ^ 2)) /
        (Real.exp ((-1 / (2 * eps)) * y ^ 2) + Real.exp ((-1 / (2 * eps)) * (y - 1) ^ 2)) := by
  have h0 : Dist.dense2csr (fun (_ : Fin 1) (j : Fin 2) => sqDist (fun _ : Fin 1 => y) (fun _ => if j = 0 then (0 : ℝ) else 1)) (9 / 4) 0 0 = some (y ^ 2) := by
    have a1 : y ^ 2 ≠ 0 := pow_ne_zero 2 hy0.ne
    have a2 : y ^ 2 < 9 / 4 := by nlinarith
    have a3 : y ^ 2 ≠ -999 := fun h => by have := sq_nonneg y; linarith
    simp [Dist.dense2csr, sqDist, Dist.invalid, a1, not_le.mpr a2, a3]
  have h1 : Dist.dense2csr (fun (_ : Fin 1) (j : Fin 2) => sqDist (fun _ : Fin 1 => y) (fun _ => if j = 0 then (0 : ℝ) else 1)) (9 / 4) 0 1 = some ((y - 1) ^ 2) := by
    have a0 : y - 1 ≠ 0 := by linarith
    have a1 : (y - 1) ^ 2 ≠ 0 := by positivity
    have a2 : (y - 1) ^ 2 < 9 / 4 := by nlinarith
    have a3 : (y - 1) ^ 2 ≠ -999 := fun h => by have := sq_nonneg (y - 1); linarith
    simp [Dist.dense2csr, sqDist, Dist.invalid, a1, not_le.mpr a2, a3]
  have e1 := Real.exp_pos ((-1 / (2 * eps)) * y ^ 2)
  have e2 := Real.exp_pos ((-1 / (2 * eps)) * (y - 1) ^ 2)
  have hs : Real.exp ((-1 / (2 * eps)) * y ^ 2) + Real.exp ((-1 / (2 * eps)) * (y - 1) ^ 2) ≠ 0 := by positivity
  unfold cutRows stochasticSparse
  simp only [of_apply, Fin.sum_univ_two]
  fin_cases j
  · simp only [Fin.zero_eta, h0, h1, Option.map_some, Option.getD_some, Radial.fn, abs_of_pos e1, abs_of_pos e2, if_neg hs, if_true]
  · simp only [Fin.mk_one, h0, h1, Option.map_some, Option.getD_some, Radial.fn, abs_of_pos e1, abs_of_pos e2, if_neg hs]
    simp

/-- The row of the query point at the cut-off distance of the training point `1`. -/
theorem cutRows_border {eps : ℝ} (j : Fin 2) :
    cutRows eps (9 / 4) (fun (j : Fin 2) (_ : Fin 1) => if j = 0 then (0 : ℝ) else 1) (fun (_ : Fin 1) (_ : Fin 1) => -(1 / 2)) 0 j = if j = 0 then 1 else 0 := by
  have h0 : Dist.dense2csr (fun (_ : Fin 1) (j : Fin 2) => sqDist (fun _ : Fin 1 => (-(1 / 2) : ℝ)) (fun _ => if j = 0 then (0 : ℝ) else 1)) (9 / 4) 0 0 = some (1 / 4) := by
    simp [Dist.dense2csr, sqDist, Dist.invalid]; norm_num
  have h1 : Dist.dense2csr (fun (_ : Fin 1) (j : Fin 2) => sqDist (fun _ : Fin 1 => (-(1 / 2) : ℝ)) (fun _ => if j = 0 then (0 : ℝ) else 1)) (9 / 4) 0 1 = none := by
    simp [Dist.dense2csr, sqDist, Dist.invalid]; norm_num
  have e1 := Real.exp_pos ((-1 / (2 * eps)) * (1 / 4))
  unfold cutRows stochasticSparse
  simp only [of_apply, Fin.sum_univ_two]
  fin_cases j
  · simp only [Fin.zero_eta, h0, h1, Option.map_some, Option.map_none, Option.getD_some, Option.getD_none, Radial.fn, abs_of_pos e1, abs_zero, add_zero, if_neg e1.ne', if_true]
    exact div_self e1.ne'
  · simp only [Fin.mk_one, h1, Option.map_none, Option.getD_none]
    simp

/-- **C230 fails with a cut-off distance**: for the training points `0` and `1` and the cut-off `3/2`, every coordinate of the embedding that distinguishes the two training points jumps where the sample gets
within the cut-off distance of the second one. -/
theorem C230_cutoff_violated (eps lam : ℝ) (hl : lam ≠ 0) (ψ : Fin 2 → ℝ) (hψ : ψ 0 ≠ ψ 1) :
    ¬ Continuous fun y : ℝ => (cutRows eps (9 / 4) (fun (j : Fin 2) (_ : Fin 1) => if j = 0 then (0 : ℝ) else 1) (fun (_ : Fin 1) (_ : Fin 1) => y) *ᵥ fun j => lam⁻¹ * ψ j) 0 := by
  intro hc
  let g : ℝ → ℝ := fun y => Real.exp ((-1 / (2 * eps)) * y ^ 2)
  let h : ℝ → ℝ := fun y => Real.exp ((-1 / (2 * eps)) * (y - 1) ^ 2)
  have hg : Continuous g := by simp only [g]; fun_prop
  have hh : Continuous h := by simp only [h]; fun_prop
  have hpos : ∀ y, g y + h y ≠ 0 := fun y => (add_pos (Real.exp_pos _) (Real.exp_pos _)).ne'
  have hlim : Continuous fun y => g y / (g y + h y) * (lam⁻¹ * ψ 0) + h y / (g y + h y) * (lam⁻¹ * ψ 1) := by
    have := hg.div (hg.add hh) hpos
    have := hh.div (hg.add hh) hpos
    fun_prop
  have t1 := (hc.tendsto (-(1 / 2))).mono_left (nhdsWithin_le_nhds (s := Set.Ioi (-(1 / 2))))
  have t2 := (hlim.tendsto (-(1 / 2))).mono_left (nhdsWithin_le_nhds (s := Set.Ioi (-(1 / 2))))
  have hev : ∀ᶠ y : ℝ in 𝓝[>] (-(1 / 2)), y < 0 := by
    have : Set.Iio (0 : ℝ) ∈ 𝓝 (-(1 / 2) : ℝ) := Iio_mem_nhds (by norm_num)
    exact nhdsWithin_le_nhds this
  have heq : (fun y : ℝ => (cutRows eps (9 / 4) (fun (j : Fin 2) (_ : Fin 1) => if j = 0 then (0 : ℝ) else 1) (fun (_ : Fin 1) (_ : Fin 1) => y) *ᵥ fun j => lam⁻¹ * ψ j) 0) =ᶠ[𝓝[>] (-(1 / 2))]
      fun y => g y / (g y + h y) * (lam⁻¹ * ψ 0) + h y / (g y + h y) * (lam⁻¹ * ψ 1) := by
    filter_upwards [hev, self_mem_nhdsWithin] with y hy0 hy
    rw [mulVec, dotProduct, Fin.sum_univ_two, cutRows_inside hy hy0, cutRows_inside hy hy0]
    simp [g, h]
  have := tendsto_nhds_unique (t1.congr' heq) t2
  rw [mulVec, dotProduct, Fin.sum_univ_two, cutRows_border, cutRows_border] at this
  simp only [if_true, one_ne_zero, if_false, one_mul, zero_mul, add_zero] at this
  have hp := hpos (-(1 / 2))
  have hh0 : h (-(1 / 2)) ≠ 0 := (Real.exp_pos _).ne'
  field_simp at this
  apply hψ
  have h3 : h (-(1 / 2)) * (ψ 0 - ψ 1) = 0 := by linarith
  rcases mul_eq_zero.mp h3 with h4 | h4
  · exact absurd h4 hh0
  · linarith

end Verif.Kernel
