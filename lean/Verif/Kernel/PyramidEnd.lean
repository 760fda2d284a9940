import Verif.Kernel.PyramidProps
/-!
# C109, C110: when the fit of Laplacian pyramids ends, and which levels auto-adaptive models keep
-/

namespace Verif.Kernel

open Matrix Filter Topology

variable {m n d e : Type} [Fintype m] [Fintype n] [Fintype d] [Fintype e] [DecidableEq d] [DecidableEq n]

/-! ## Helper lemmas -/

theorem residual_bound {P : Matrix n n ℝ} (hP : RowStochastic P) {r : n → ℝ} {b : ℝ} (hr : ∀ i, |r i| ≤ b) {q : ℝ} (i : n) (hq : ∑ j ∈ Finset.univ.erase i, P i j ≤ q) :
    |(r - P *ᵥ r) i| ≤ 2 * q * b := by
  have hb : 0 ≤ b := (abs_nonneg _).trans (hr i)
  have h1 : (r - P *ᵥ r) i = ∑ j ∈ Finset.univ.erase i, P i j * (r i - r j) := by
    have h2 : (r - P *ᵥ r) i = ∑ j, P i j * (r i - r j) := by
      simp only [Pi.sub_apply, mulVec, dotProduct, mul_sub, Finset.sum_sub_distrib, ← Finset.sum_mul, hP.2 i, one_mul]
    rw [h2, ← Finset.add_sum_erase _ _ (Finset.mem_univ i), sub_self, mul_zero, zero_add]
  rw [h1]
  calc |∑ j ∈ Finset.univ.erase i, P i j * (r i - r j)| ≤ ∑ j ∈ Finset.univ.erase i, |P i j * (r i - r j)| := Finset.abs_sum_le_sum_abs _ _
    _ ≤ ∑ j ∈ Finset.univ.erase i, P i j * (2 * b) := by
      refine Finset.sum_le_sum (fun j _ => ?_)
      rw [abs_mul, abs_of_nonneg (hP.1 i j)]
      refine mul_le_mul_of_nonneg_left ?_ (hP.1 i j)
      calc |r i - r j| ≤ |r i| + |r j| := abs_sub _ _
        _ ≤ 2 * b := by linarith [hr i, hr j]
    _ = (∑ j ∈ Finset.univ.erase i, P i j) * (2 * b) := by rw [Finset.sum_mul]
    _ ≤ q * (2 * b) := mul_le_mul_of_nonneg_right hq (by linarith)
    _ = 2 * q * b := by ring

/-- The off-diagonal part of a row of the kernel matrix is small for small bandwidths. -/
theorem levelMatrix_offdiag {α eps : ℝ} (h0 : 0 ≤ α) (h1 : α ≤ 1) (heps : 0 < eps) {X : n → e → ℝ} {δ : ℝ} (hX : ∀ i j, i ≠ j → δ ≤ sqDist (X i) (X j)) (i : n) :
    ∑ j ∈ Finset.univ.erase i, levelMatrix α eps X X i j ≤ (Fintype.card n : ℝ) ^ 2 * Real.exp (-δ / (2 * eps)) := by
  haveI : Nonempty n := ⟨i⟩
  set G := gaussM eps (lpDistance X X) with hG
  have hle : ∀ i j, G i j ≤ 1 := by
    intro i j
    simp only [hG, gaussM, lpDistance, of_apply]
    rw [Real.exp_le_one_iff, div_mul_eq_mul_div]
    exact div_nonpos_of_nonpos_of_nonneg (by linarith [sqDist_nonneg (X i) (X j)]) (by linarith)
  have hdiag : ∀ i, G i i = 1 := by
    intro i
    simp [hG, gaussM, lpDistance, sqDist]
  have hoff : ∀ j, i ≠ j → G i j ≤ Real.exp (-δ / (2 * eps)) := by
    intro j hij
    simp only [hG, gaussM, lpDistance, of_apply]
    rw [Real.exp_le_exp, div_mul_eq_mul_div]
    exact div_le_div_of_nonneg_right (by linarith [hX i j hij]) (by linarith)
  have hs1 : ∀ j, 1 ≤ rowSums G j := fun j => (hdiag j).ge.trans (Finset.single_le_sum (f := fun l => G j l) (fun l _ => (gaussM_pos _ _ j l).le) (Finset.mem_univ j))
  have hsn : rowSums G i ≤ Fintype.card n := by
    calc rowSums G i ≤ ∑ _j : n, (1 : ℝ) := Finset.sum_le_sum (fun j _ => hle i j)
      _ = Fintype.card n := by simp
  have hw1 : ∀ j, 1 ≤ rowSums G j ^ α := fun j => Real.one_le_rpow (hs1 j) h0
  have hwi : rowSums G i ^ α ≤ Fintype.card n := (Real.rpow_le_self_of_one_le (hs1 i) h1).trans hsn
  have hsum : (rowSums G i ^ α)⁻¹ ≤ ∑ l, G i l / rowSums G l ^ α := by
    have := Finset.single_le_sum (f := fun l => G i l / rowSums G l ^ α) (fun l _ => div_nonneg (gaussM_pos _ _ i l).le (zero_le_one.trans (hw1 l))) (Finset.mem_univ i)
    simpa [hdiag i] using this
  have hwpos : 0 < rowSums G i ^ α := zero_lt_one.trans_le (hw1 i)
  have hentry : ∀ j, i ≠ j → levelMatrix α eps X X i j ≤ Fintype.card n * Real.exp (-δ / (2 * eps)) := by
    intro j hij
    change (G i j / rowSums G j ^ α) / ∑ l, G i l / rowSums G l ^ α ≤ _
    calc (G i j / rowSums G j ^ α) / ∑ l, G i l / rowSums G l ^ α ≤ (G i j / rowSums G j ^ α) / (rowSums G i ^ α)⁻¹ :=
          div_le_div_of_nonneg_left (div_nonneg (gaussM_pos _ _ i j).le (zero_le_one.trans (hw1 j))) (inv_pos.mpr hwpos) hsum
      _ = (G i j / rowSums G j ^ α) * rowSums G i ^ α := by rw [div_inv_eq_mul]
      _ ≤ G i j * rowSums G i ^ α := mul_le_mul_of_nonneg_right (div_le_self (gaussM_pos _ _ i j).le (hw1 j)) hwpos.le
      _ ≤ Real.exp (-δ / (2 * eps)) * Fintype.card n := mul_le_mul (hoff j hij) hwi hwpos.le (Real.exp_pos _).le
      _ = _ := mul_comm _ _
  calc ∑ j ∈ Finset.univ.erase i, levelMatrix α eps X X i j ≤ ∑ _j ∈ Finset.univ.erase i, Fintype.card n * Real.exp (-δ / (2 * eps)) :=
        Finset.sum_le_sum (fun j hj => hentry j (Finset.ne_of_mem_erase hj).symm)
    _ ≤ ∑ _j : n, Fintype.card n * Real.exp (-δ / (2 * eps)) :=
        Finset.sum_le_sum_of_subset_of_nonneg (Finset.erase_subset _ _) (fun _ _ _ => mul_nonneg (Nat.cast_nonneg _) (Real.exp_pos _).le)
    _ = _ := by
        rw [Finset.sum_const, Finset.card_univ, nsmul_eq_mul]
        ring

theorem norm2_le {r : n → ℝ} {b : ℝ} (hr : ∀ i, |r i| ≤ b) (hb : 0 ≤ b) : norm2 r ≤ Fintype.card n * b := by
  unfold norm2
  refine Real.sqrt_le_iff.mpr ⟨mul_nonneg (Nat.cast_nonneg _) hb, ?_⟩
  calc ∑ i, r i ^ 2 ≤ ∑ _i : n, b ^ 2 := Finset.sum_le_sum (fun i _ => sq_le_sq' (by linarith [(abs_le.mp (hr i)).1]) (abs_le.mp (hr i)).2)
    _ = Fintype.card n * b ^ 2 := by simp
    _ ≤ (Fintype.card n) ^ 2 * b ^ 2 := by
      refine mul_le_mul_of_nonneg_right ?_ (sq_nonneg b)
      exact_mod_cast Nat.le_self_pow (by norm_num) _
    _ = (Fintype.card n * b) ^ 2 := by ring

/-- The bounds of the residuals after `k` iterations. -/
noncomputable def residualBound (q : Nat → ℝ) (b : ℝ) : Nat → ℝ
  | 0 => b
  | k + 1 => 2 * q k * residualBound q b k

theorem residualBound_nonneg {q : Nat → ℝ} (hq : ∀ k, 0 ≤ q k) {b : ℝ} (hb : 0 ≤ b) : ∀ k, 0 ≤ residualBound q b k
  | 0 => hb
  | k + 1 => mul_nonneg (mul_nonneg (by norm_num) (hq k)) (residualBound_nonneg hq hb k)

theorem residualBound_tendsto {q : Nat → ℝ} (hq : ∀ k, 0 ≤ q k) (hlim : Tendsto q atTop (𝓝 0)) {b : ℝ} (hb : 0 ≤ b) : Tendsto (residualBound q b) atTop (𝓝 0) := by
  obtain ⟨N, hN⟩ := (hlim.eventually (gt_mem_nhds (show (0 : ℝ) < 1 / 4 by norm_num))).exists_forall_of_atTop
  have hstep : ∀ M, residualBound q b (M + N) ≤ residualBound q b N * (1 / 2) ^ M := by
    intro M
    induction M with
    | zero => simp
    | succ M ih =>
      have h1 : residualBound q b (M + 1 + N) = 2 * q (M + N) * residualBound q b (M + N) := by
        rw [show M + 1 + N = (M + N) + 1 by omega]
        rfl
      rw [h1, pow_succ]
      have h2 := residualBound_nonneg hq hb (M + N)
      have h3 := hN (M + N) (by omega)
      nlinarith
  refine (tendsto_add_atTop_iff_nat N).mp ?_
  refine squeeze_zero (fun M => residualBound_nonneg hq hb _) hstep ?_
  have := (tendsto_pow_atTop_nhds_zero_of_lt_one (r := (1 / 2 : ℝ)) (by norm_num) (by norm_num)).const_mul (residualBound q b N)
  simpa using this

/-! ## C109 -/

/-- C109 for pairwise distinct points: the loop ends for every valid tolerance if the bandwidth shrinks (`mu > 1`), without auto-adaptive mode. -/
theorem C109_distinct_partial (cfg : LpConfig) (h0 : 0 ≤ cfg.alpha) (h1 : cfg.alpha ≤ 1) (ha : cfg.autoAdaptive = false) (tol : ℝ) (ht : cfg.residualTol = some tol) (htol : 0 ≤ tol)
    (hmu : 1 < cfg.mu) (heps : 0 < cfg.initialEpsilon) (funcs : List d) (hf : ∀ c, c ∈ funcs) (X : n → e → ℝ) (hX : Function.Injective X) (hn : 2 ≤ Fintype.card n)
    (y : d → n → ℝ) : ∃ fuel levels, lpFit cfg funcs X y fuel = .ok (some levels) := by
  haveI : Nonempty n := Fintype.card_pos_iff.mp (by omega)
  -- the smallest distance and a bound of the targets
  obtain ⟨δ, hδ, hδX⟩ : ∃ δ : ℝ, 0 < δ ∧ ∀ i j, i ≠ j → δ ≤ sqDist (X i) (X j) := by
    let S : Finset (n × n) := Finset.univ.filter (fun p => p.1 ≠ p.2)
    have hS : S.Nonempty := by
      obtain ⟨i, j, hij⟩ := Fintype.exists_pair_of_one_lt_card (by omega : 1 < Fintype.card n)
      exact ⟨(i, j), by simp [S, hij]⟩
    obtain ⟨p, hp, hmin⟩ := S.exists_min_image (fun p => sqDist (X p.1) (X p.2)) hS
    refine ⟨sqDist (X p.1) (X p.2), ?_, fun i j hij => hmin (i, j) (by simp [S, hij])⟩
    refine lt_of_le_of_ne (sqDist_nonneg _ _) (fun hz => ?_)
    have hne : p.1 ≠ p.2 := by simpa [S] using hp
    exact hne (hX (sqDist_eq_zero.mp hz.symm))
  set b : ℝ := ∑ c, ∑ i, |y c i| with hb
  have hb0 : 0 ≤ b := Finset.sum_nonneg (fun c _ => Finset.sum_nonneg (fun i _ => abs_nonneg _))
  have hyb : ∀ c i, |y c i| ≤ b := fun c i =>
    (Finset.single_le_sum (f := fun i => |y c i|) (fun i _ => abs_nonneg _) (Finset.mem_univ i)).trans
      (Finset.single_le_sum (f := fun c => ∑ i, |y c i|) (fun c _ => Finset.sum_nonneg (fun i _ => abs_nonneg _)) (Finset.mem_univ c))
  -- the factors by which the residuals shrink
  set q : Nat → ℝ := fun k => (Fintype.card n : ℝ) ^ 2 * Real.exp (-δ / (2 * (cfg.initialEpsilon / cfg.mu ^ k))) with hq
  have hq0 : ∀ k, 0 ≤ q k := fun k => mul_nonneg (sq_nonneg _) (Real.exp_pos _).le
  have hqlim : Tendsto q atTop (𝓝 0) := by
    have h3 : Tendsto (fun k : Nat => δ / (2 * cfg.initialEpsilon) * cfg.mu ^ k) atTop atTop :=
      (tendsto_pow_atTop_atTop_of_one_lt hmu).const_mul_atTop (div_pos hδ (by linarith))
    have h4 : Tendsto (fun k : Nat => Real.exp (-(δ / (2 * cfg.initialEpsilon) * cfg.mu ^ k))) atTop (𝓝 0) := Real.tendsto_exp_neg_atTop_nhds_zero.comp h3
    have h5 := h4.const_mul ((Fintype.card n : ℝ) ^ 2)
    rw [mul_zero] at h5
    refine h5.congr (fun k => ?_)
    simp only [hq]
    congr 2
    have : cfg.mu ^ k ≠ 0 := (pow_pos (by linarith) k).ne'
    field_simp
  have hlim := (residualBound_tendsto hq0 hqlim hb0).const_mul (Fintype.card n : ℝ)
  rw [mul_zero] at hlim
  obtain ⟨N, hN⟩ := (hlim.eventually (gt_mem_nhds (show (0 : ℝ) < 1 / 10 ^ 15 by norm_num))).exists_forall_of_atTop
  -- the loop
  have hloop : ∀ j k (s : LpState n d) g, LpInv y s g → s.eps = cfg.initialEpsilon / cfg.mu ^ k → (∀ c i, |(y c - s.approx c) i| ≤ residualBound q b k ∨ c ∉ s.active) → N ≤ k + j →
      ∃ levels, lpLoop cfg (lpDistance X X) y (j + 1) s = .ok (some levels) := by
    intro j
    induction j with
    | zero =>
      intro k s g hI he hbd hk
      unfold lpLoop
      split
      · rename_i hc
        have hpos : 0 < s.eps := by
          rw [he]
          exact div_pos heps (pow_pos (by linarith) k)
        simp only [lpStep_eq h0 h1 hpos]
        generalize hs' : lpUpdate cfg y (lpDiagonal cfg (levelMatrix cfg.alpha s.eps X X)) (levelFitted cfg s.eps X) s = s'
        rw [lpDiagonal_false ha] at hs'
        obtain ⟨k1, k2, k3, k4, k5, k6⟩ := hI.step hc hs'
        have hend : ¬∃ c, s'.conds c = .noTermination := by
          rintro ⟨c, hcn⟩
          have hcm : c ∈ s.active := k5 c ((k1.2.2 c).mpr hcn)
          rw [k3 c hcm] at hcn
          refine absurd (rule_noTermination hcn).1 (not_le.mpr ?_)
          refine (norm2_le (b := residualBound q b (k + 1)) (fun i => ?_) (residualBound_nonneg hq0 hb0 _)).trans_lt (hN (k + 1) (by omega))
          rw [k2 c, if_pos hcm]
          refine residual_bound (levelMatrix_stochastic _ _ _ _) (fun i => (hbd c i).resolve_right (fun x => x hcm)) i ?_
          rw [he]
          exact levelMatrix_offdiag h0 h1 (he ▸ hpos) hδX i
        unfold lpLoop
        rw [if_neg hend]
        exact ⟨_, rfl⟩
      · exact ⟨_, rfl⟩
    | succ j ih =>
      intro k s g hI he hbd hk
      unfold lpLoop
      split
      · rename_i hc
        have hpos : 0 < s.eps := by
          rw [he]
          exact div_pos heps (pow_pos (by linarith) k)
        simp only [lpStep_eq h0 h1 hpos]
        generalize hs' : lpUpdate cfg y (lpDiagonal cfg (levelMatrix cfg.alpha s.eps X X)) (levelFitted cfg s.eps X) s = s'
        rw [lpDiagonal_false ha] at hs'
        obtain ⟨k1, k2, k3, k4, k5, k6⟩ := hI.step hc hs'
        by_cases hempty : s'.active = []
        · unfold lpLoop
          rw [if_neg]
          · exact ⟨_, rfl⟩
          · rintro ⟨c, hcn⟩
            have := (k1.2.2 c).mpr hcn
            rw [hempty] at this
            cases this
        · refine ih (k + 1) s' _ k1 ?_ (fun c i => ?_) (by omega)
          · rw [k6, if_neg hempty, he, pow_succ, div_div]
          · by_cases hcm : c ∈ s'.active
            · left
              have hcm' := k5 c hcm
              rw [k2 c, if_pos hcm']
              refine residual_bound (levelMatrix_stochastic _ _ _ _) (fun i => (hbd c i).resolve_right (fun x => x hcm')) i ?_
              rw [he]
              exact levelMatrix_offdiag h0 h1 (he ▸ hpos) hδX i
            · exact Or.inr hcm
      · exact ⟨_, rfl⟩
  obtain ⟨levels, hl⟩ := hloop N 0 (lpInit cfg funcs y) _ (LpInv.init cfg hf y) (by simp [lpInit]) (fun c i => Or.inl (by
    change |y c i - (0 : n → ℝ) i| ≤ b
    simpa using hyb c i)) (by omega)
  refine ⟨N + 1, levels, ?_⟩
  unfold lpFit
  rw [LpConfig.check_ok (Or.inl (by simp [ht])) (by rw [ht]; rintro t ⟨⟩; exact htol) hmu.le]
  simp only
  rw [if_neg (by omega), hl]

/-- Three distinct points and a model to which the theorems apply: the fit ends and the prediction is within the tolerance. -/
example : ∃ fuel levels yhat, lpFit ⟨1, 2, some (1 / 100), false, 1⟩ [(0 : Fin 1)] (![![0], ![1], ![3]] : Fin 3 → Fin 1 → ℝ) (fun _ => ![1, 5, -2]) fuel = .ok (some levels) ∧
    lpPredict ⟨1, 2, some (1 / 100), false, 1⟩ ![![0], ![1], ![3]] levels ![![0], ![1], ![3]] = .ok yhat ∧
    ∀ c, norm2 (fun i => (![1, 5, -2] : Fin 3 → ℝ) i - yhat c i) ≤ 1 / 100 := by
  have hf : ∀ c : Fin 1, c ∈ [(0 : Fin 1)] := fun c => by simp [Subsingleton.elim c 0]
  obtain ⟨fuel, levels, h⟩ := C109_distinct_partial ⟨1, 2, some (1 / 100), false, 1⟩ (by norm_num) (by norm_num) rfl (1 / 100) rfl (by norm_num) (by norm_num) (by norm_num) [(0 : Fin 1)]
    hf (![![0], ![1], ![3]] : Fin 3 → Fin 1 → ℝ) (by
      intro i j hij
      have := congrFun hij 0
      fin_cases i <;> fin_cases j <;> simp_all) (by simp) (fun _ => ![1, 5, -2])
  obtain ⟨yhat, h2, h3⟩ := C54_residual ⟨1, 2, some (1 / 100), false, 1⟩ (by norm_num) (by norm_num) rfl (1 / 100) rfl (by norm_num) [(0 : Fin 1)] hf _ _ fuel levels h
  exact ⟨fuel, levels, yhat, h, h2, h3⟩

theorem norm2_pair {r : n → ℝ} {i j : n} (hij : i ≠ j) {t : ℝ} (ht : 0 ≤ t) (h : 2 * t ^ 2 < (r i - r j) ^ 2) : t < norm2 r := by
  unfold norm2
  refine Real.lt_sqrt_of_sq_lt ?_
  have h1 : r i ^ 2 + r j ^ 2 ≤ ∑ l, r l ^ 2 := by
    rw [← Finset.sum_pair hij (f := fun l => r l ^ 2)]
    exact Finset.sum_le_sum_of_subset_of_nonneg (Finset.subset_univ _) (fun l _ _ => sq_nonneg _)
  nlinarith [sq_nonneg (r i + r j)]

/-- C109 is violated (without auto-adaptive mode) whenever two training points coincide and some target differs between them by more than `√2` times the tolerance: the loop never ends. -/
theorem C109_violated (cfg : LpConfig) (h0 : 0 ≤ cfg.alpha) (h1 : cfg.alpha ≤ 1) (ha : cfg.autoAdaptive = false) (tol : ℝ) (ht : cfg.residualTol = some tol) (htol : 0 ≤ tol)
    (hmu : 1 ≤ cfg.mu) (heps : 0 < cfg.initialEpsilon) (funcs : List d) (hf : ∀ c, c ∈ funcs) (X : n → e → ℝ) (y : d → n → ℝ) (i j : n) (hij : i ≠ j) (hX : X i = X j) (c : d)
    (hy : 2 * tol ^ 2 < (y c i - y c j) ^ 2) (hy' : 2 * (1 / 10 ^ 15) ^ 2 < (y c i - y c j) ^ 2) (fuel : Nat) : lpFit cfg funcs X y fuel = .ok none := by
  haveI : Nonempty n := ⟨i⟩
  have hn : 2 ≤ Fintype.card n := Fintype.one_lt_card_iff.mpr ⟨i, j, hij⟩
  unfold lpFit
  rw [LpConfig.check_ok (Or.inl (by simp [ht])) (by rw [ht]; rintro t ⟨⟩; exact htol) hmu]
  simp only
  rw [if_neg (by omega)]
  refine lpLoop_forever cfg (lpDistance X X) y
    (fun _ s => (∃ g, LpInv y s g) ∧ 0 < s.eps ∧ c ∈ s.active ∧ (y c - s.approx c) i - (y c - s.approx c) j = y c i - y c j) ?_ ?_ fuel 0 _ ⟨⟨_, LpInv.init cfg hf y⟩, heps, hf c, ?_⟩
  · rintro k s ⟨⟨g, hI⟩, -, hc, -⟩
    exact ⟨c, (hI.2.2 c).mp hc⟩
  · rintro k s ⟨⟨g, hI⟩, hpos, hc, hd⟩
    refine ⟨_, lpStep_eq h0 h1 hpos X y, ?_⟩
    generalize hs' : lpUpdate cfg y (lpDiagonal cfg (levelMatrix cfg.alpha s.eps X X)) (levelFitted cfg s.eps X) s = s'
    rw [lpDiagonal_false ha] at hs'
    obtain ⟨k1, k2, k3, k4, k5, k6⟩ := hI.step ⟨c, (hI.2.2 c).mp hc⟩ hs'
    have hrow : ∀ l, levelMatrix cfg.alpha s.eps X X i l = levelMatrix cfg.alpha s.eps X X j l := by
      intro l
      simp only [levelMatrix, diffusion, of_apply, gaussM, lpDistance, hX]
    have hd' : (y c - s'.approx c) i - (y c - s'.approx c) j = y c i - y c j := by
      rw [k2 c, if_pos hc]
      simp only [Pi.sub_apply (y c - s.approx c), mulVec, dotProduct, hrow]
      linarith
    have hact : c ∈ s'.active := by
      rw [k1.2.2 c, k3 c hc]
      refine rule_of_large (norm2_pair hij (by norm_num) (by rw [hd']; exact hy')).le (fun t h => ?_) (fun x => by rw [ha] at x; cases x)
      rw [ht] at h
      cases h
      exact norm2_pair hij htol (by rw [hd']; exact hy)
    refine ⟨⟨_, k1⟩, ?_, hact, hd'⟩
    rw [k6, if_neg (List.ne_nil_of_mem hact)]
    exact div_pos hpos (by linarith)
  · change (y c - (0 : n → ℝ)) i - (y c - (0 : n → ℝ)) j = _
    simp

/-- The hypotheses of `C109_violated` for two equal points with the values 0 and 1. -/
example (fuel : Nat) : lpFit ⟨1, 2, some (1 / 100), false, 1⟩ [(0 : Fin 1)] (pyX 0) (fun _ => ![0, 1]) fuel = .ok none :=
  C109_violated _ (by norm_num) (by norm_num) rfl (1 / 100) rfl (by norm_num) (by norm_num) (by norm_num) _ (fun c => by simp [Subsingleton.elim c 0]) _ _ 0 1 (by simp)
    (by funext l; simp [pyX]) 0 (by norm_num) (by norm_num) fuel

/-- An auto-adaptive model without tolerance, with the default value of `mu`. -/
noncomputable def autoCfg (α : ℝ) : LpConfig := ⟨1, 2, none, true, α⟩

/-- The weight of the other point in iteration `k`. -/
noncomputable def autoWeight (k : Nat) : ℝ := Real.exp (-1 / (2 * (1 / 2 ^ k)) * 4 ^ 2) / (1 + Real.exp (-1 / (2 * (1 / 2 ^ k)) * 4 ^ 2))

theorem autoWeight_bounds (k : Nat) : 0 < autoWeight k ∧ autoWeight k ≤ 1 / (8 * 2 ^ k) := by
  have h0 : 0 < Real.exp (-1 / (2 * (1 / 2 ^ k)) * 4 ^ 2) := Real.exp_pos _
  refine ⟨by unfold autoWeight; positivity, ?_⟩
  calc autoWeight k ≤ Real.exp (-1 / (2 * (1 / 2 ^ k)) * 4 ^ 2) := by
        unfold autoWeight
        exact div_le_self h0.le (by linarith)
    _ = (Real.exp (8 * 2 ^ k))⁻¹ := by
        rw [← Real.exp_neg]
        congr 1
        field_simp
        ring
    _ ≤ (8 * 2 ^ k)⁻¹ := by
        refine inv_anti₀ (by positivity) ?_
        linarith [Real.add_one_le_exp ((8 : ℝ) * 2 ^ k)]
    _ = 1 / (8 * 2 ^ k) := by rw [one_div]

/-- The residual at both points after `k` iterations. -/
noncomputable def autoResidual : Nat → ℝ
  | 0 => 1
  | k + 1 => autoResidual k - autoWeight k * autoResidual k

theorem autoResidual_bounds : ∀ k, 1 / 2 + 1 / (4 * 2 ^ k) ≤ autoResidual k ∧ autoResidual k ≤ 1
  | 0 => by norm_num [autoResidual]
  | k + 1 => by
    obtain ⟨h1, h2⟩ := autoResidual_bounds k
    obtain ⟨h3, h4⟩ := autoWeight_bounds k
    have hp : (0 : ℝ) < 1 / (4 * 2 ^ k) := by positivity
    refine ⟨?_, ?_⟩
    · simp only [autoResidual]
      have h5 : autoWeight k * autoResidual k ≤ 1 / (8 * 2 ^ k) := by nlinarith
      have h6 : (1 : ℝ) / (4 * 2 ^ k) = 1 / (8 * 2 ^ k) + 1 / (4 * 2 ^ (k + 1)) := by
        rw [pow_succ]
        field_simp
        norm_num
      linarith
    · simp only [autoResidual]
      nlinarith

/-- C109 is also violated in auto-adaptive mode: for a constant target at two distinct points the leave-one-out error decreases in every iteration, but not to zero, and the loop never ends. -/
theorem C109_violated_auto (α : ℝ) (h0 : 0 ≤ α) (h1 : α ≤ 1) (fuel : Nat) : lpFit (autoCfg α) [(0 : Fin 1)] (pyX 4) (fun _ _ => 1) fuel = .ok none := by
  have hf : ∀ c : Fin 1, c ∈ [(0 : Fin 1)] := fun c => by simp [Subsingleton.elim c 0]
  unfold lpFit
  rw [LpConfig.check_ok (Or.inr rfl) (fun t ht => by cases ht) (by simp [autoCfg])]
  simp only
  rw [if_neg (by simp)]
  refine lpLoop_forever (autoCfg α) (lpDistance (pyX 4) (pyX 4)) (fun _ _ => 1)
    (fun k s => (∃ g, LpInv (fun _ _ => 1) s g ∧ ∀ l, g 0 = some l → norm2 (fun _ : Fin 2 => autoResidual k) ≤ l) ∧ s.eps = 1 / 2 ^ k ∧ 0 ∈ s.active ∧
      (fun _ => 1) - s.approx 0 = fun _ => autoResidual k) ?_ ?_ fuel 0 _ ⟨⟨_, LpInv.init (autoCfg α) hf _, fun l hl => by cases hl⟩, by simp [lpInit, autoCfg], hf 0, ?_⟩
  · rintro k s ⟨⟨g, hI, -⟩, -, hc, -⟩
    exact ⟨0, (hI.2.2 0).mp hc⟩
  · rintro k s ⟨⟨g, hI, hg⟩, he, hc, hd⟩
    have hpos : 0 < s.eps := by
      rw [he]
      positivity
    refine ⟨_, lpStep_eq h0 h1 hpos (pyX 4) _, ?_⟩
    generalize hs' : lpUpdate (autoCfg α) (fun _ _ => (1 : ℝ)) (lpDiagonal (autoCfg α) (levelMatrix (autoCfg α).alpha s.eps (pyX 4) (pyX 4))) (levelFitted (autoCfg α) s.eps (pyX 4)) s = s'
    obtain ⟨k1, k2, k3, k4, k5, k6⟩ := hI.step ⟨0, (hI.2.2 0).mp hc⟩ hs'
    have hd' : (fun _ => 1) - s'.approx 0 = fun _ => autoResidual (k + 1) := by
      refine (k2 0).trans ?_
      rw [if_pos hc, hd]
      funext i
      simp only [Pi.sub_apply, mulVec, dotProduct, Fin.sum_univ_two, lpDiagonal, of_apply, pyX_matrix, he, autoResidual, autoWeight]
      fin_cases i <;> simp [autoCfg]
    obtain ⟨b1, b2⟩ := autoResidual_bounds (k + 1)
    obtain ⟨b3, b4⟩ := autoResidual_bounds k
    have hp : (0 : ℝ) < 1 / (4 * 2 ^ k) := by positivity
    have hp' : (0 : ℝ) < 1 / (4 * 2 ^ (k + 1)) := by positivity
    have hle : autoResidual (k + 1) ≤ autoResidual k := by
      simp only [autoResidual]
      nlinarith [(autoWeight_bounds k).1]
    have hnorm : norm2 (fun _ : Fin 2 => autoResidual (k + 1)) ≤ norm2 (fun _ : Fin 2 => autoResidual k) := by
      unfold norm2
      refine Real.sqrt_le_sqrt (Finset.sum_le_sum (fun _ _ => ?_))
      nlinarith
    have hlarge : 1 / 10 ^ 15 ≤ norm2 (fun _ : Fin 2 => autoResidual (k + 1)) := by
      unfold norm2
      refine Real.le_sqrt_of_sq_le ?_
      rw [Fin.sum_univ_two]
      nlinarith
    have hact : (0 : Fin 1) ∈ s'.active := by
      rw [k1.2.2 0, k3 0 hc]
      refine rule_of_large ?_ (fun t h => by cases h) (fun _ l hl => ?_)
      · rw [hd']
        exact hlarge
      · rw [hd']
        exact hnorm.trans (hg l hl)
    refine ⟨⟨_, k1, fun l hl => ?_⟩, ?_, hact, hd'⟩
    · simp only [Option.some.injEq] at hl
      rw [← hl, hd']
    · rw [k6, if_neg (List.ne_nil_of_mem hact), he, pow_succ]
      simp only [autoCfg]
      rw [div_div]
  · change (fun _ => (1 : ℝ)) - (0 : Fin 2 → ℝ) = _
    rw [sub_zero]
    rfl

/-! ## C110 -/

/-- The leave-one-out errors of the function `c` recorded in the levels that are used to evaluate it. -/
def recorded (levels : List (Level n d)) (c : d) : List ℝ :=
  levels.flatMap (fun l => ((l.active.zip l.norms).filter (fun p => p.1 = c)).map (fun p => p.2))

theorem recorded_append (l1 l2 : List (Level n d)) (c : d) : recorded (l1 ++ l2) c = recorded l1 c ++ recorded l2 c := List.flatMap_append

theorem recorded_level (eps : ℝ) (f : Fitted n) (A : List d) (hA : A.Nodup) (r : d → n → ℝ) (v : d → ℝ) (c : d) :
    recorded [⟨eps, f, A.map r, A.map v, A⟩] c = if c ∈ A then [v c] else [] := by
  unfold recorded
  rw [List.flatMap_singleton]
  dsimp only
  induction A with
  | nil => rfl
  | cons a A ih =>
    have hA' := List.nodup_cons.mp hA
    rw [List.map_cons, List.zip_cons_cons, List.filter_cons]
    by_cases h : a = c
    · subst h
      have := ih hA'.2
      rw [if_neg hA'.1] at this
      simp [this]
    · have h' : c ≠ a := fun x => h x.symm
      simp [h, h', ih hA'.2]

/-- C110: when an auto-adaptive fit ends, every target function is evaluated with at least one level, and the leave-one-out errors recorded for it never increase from level to level. -/
theorem C110_loocv (cfg : LpConfig) (h0 : 0 ≤ cfg.alpha) (h1 : cfg.alpha ≤ 1) (ha : cfg.autoAdaptive = true) (funcs : List d) (hf : ∀ c, c ∈ funcs) (hnd : funcs.Nodup) (X : n → e → ℝ)
    (y : d → n → ℝ) (fuel : Nat) (levels : List (Level n d)) (h : lpFit cfg funcs X y fuel = .ok (some levels)) (c : d) :
    recorded levels c ≠ [] ∧ (recorded levels c).Pairwise (fun a b => b ≤ a) := by
  obtain ⟨-, -, -, hn, hloop⟩ := lpFit_ok h
  haveI : Nonempty n := Fintype.card_pos_iff.mp (by omega)
  obtain ⟨s, ⟨g, hI, hand, hpw, hlast, hnone⟩, rfl, hend⟩ := lpLoop_inv cfg (lpDistance X X) y
    (fun s => ∃ g, LpInv y s g ∧ s.active.Nodup ∧ (recorded s.levels c).Pairwise (fun a b => b ≤ a) ∧ (c ∈ s.active → ∀ x ∈ recorded s.levels c, ∃ l, g c = some l ∧ l ≤ x) ∧
      ((c ∈ s.active ∧ g c = none) ∨ recorded s.levels c ≠ [])) (by
        rintro s s' ⟨g, hI, hand, hpw, hlast, hnone⟩ hc hstep
        obtain ⟨hpos, hs'⟩ := lpStep_ok h0 h1 hstep
        obtain ⟨k1, k2, k3, k4, k5, -⟩ := hI.step hc hs'
        obtain ⟨j1, -, j3, -, -, -, j7⟩ := lpUpdate_spec cfg y _ _ s g (hI.1 (hI.active_ne hc)) hI.2.1 s' hs'
        have hrec : recorded s'.levels c = recorded s.levels c ++ if c ∈ s.active ∧ s'.conds c ≠ .loocvIncreases then [norm2 (y c - s'.approx c)] else [] := by
          rw [j7, recorded_append]
          congr 1
          split
          · rename_i hk
            rw [if_neg]
            · rfl
            · rintro ⟨x, y⟩
              have : c ∈ s.active.filter (fun c => s'.conds c ≠ .loocvIncreases) := by simp [List.mem_filter, x, y]
              rw [hk] at this
              cases this
          · rw [recorded_level _ _ _ (hand.filter _)]
            simp [List.mem_filter]
        have hmono : c ∈ s.active → s'.conds c ≠ .loocvIncreases → ∀ x ∈ recorded s.levels c, norm2 (y c - s'.approx c) ≤ x := by
          intro hcm hcl x hx
          obtain ⟨l, hl, hlx⟩ := hlast hcm x hx
          rw [k3 c hcm] at hcl
          exact (rule_not_loocv hcl ha l hl).trans hlx
        refine ⟨_, k1, ?_, ?_, ?_, ?_⟩
        · rw [j3]
          exact hand.filter _
        · rw [hrec]
          split
          · rename_i hcl
            rw [List.pairwise_append]
            refine ⟨hpw, List.pairwise_singleton _ _, fun x hx z hz => ?_⟩
            rw [List.mem_singleton.mp hz]
            exact hmono hcl.1 hcl.2 x hx
          · rw [List.append_nil]
            exact hpw
        · intro hcm x hx
          have hcs := k5 c hcm
          have hcl : s'.conds c ≠ .loocvIncreases := by
            rw [(k1.2.2 c).mp hcm]
            simp
          rw [hrec, if_pos ⟨hcs, hcl⟩, List.mem_append, List.mem_singleton] at hx
          rcases hx with hx | hx
          · exact ⟨_, rfl, hmono hcs hcl x hx⟩
          · exact ⟨_, rfl, hx.ge⟩
        · right
          rw [hrec]
          by_cases hr : recorded s.levels c = []
          · obtain ⟨hcm, hgn⟩ := hnone.resolve_right (not_not.mpr hr)
            have hne : s'.conds c ≠ .loocvIncreases := by
              rw [k3 c hcm, hgn]
              intro x
              unfold terminationRule at x
              simp only [reduceCtorEq, false_and, exists_false, and_false, if_false] at x
              split_ifs at x
            rw [if_pos ⟨hcm, hne⟩]
            simp
          · simp [hr]) fuel _ _ ⟨_, LpInv.init cfg hf y, hnd, List.Pairwise.nil, (fun _ x hx => by cases hx), Or.inl ⟨hf c, rfl⟩⟩ hloop
  exact ⟨hnone.resolve_left (fun x => hend c ((hI.2.2 c).mp x.1)), hpw⟩

/-- An auto-adaptive fit that ends after one level. -/
example : ∃ levels, lpFit ⟨1, 2, some 10, true, 0⟩ [(0 : Fin 1)] (pyX 4) (fun _ _ => 1) 1 = .ok (some levels) := by
  have hc : ∃ c, (lpInit ⟨1, 2, some 10, true, 0⟩ [(0 : Fin 1)] (fun _ (_ : Fin 2) => 1)).conds c = .noTermination := ⟨0, rfl⟩
  have hI := LpInv.init (n := Fin 2) ⟨1, 2, some 10, true, 0⟩ (funcs := [(0 : Fin 1)]) (fun c => by simp [Subsingleton.elim c 0]) (fun _ _ => 1)
  unfold lpFit
  rw [LpConfig.check_ok (Or.inr rfl) (by rintro t ⟨⟩; norm_num) (by norm_num)]
  simp only
  rw [if_neg (by simp)]
  unfold lpLoop
  rw [if_pos hc]
  simp only
  rw [lpStep_eq (by norm_num) (by norm_num) (by norm_num [lpInit])]
  simp only
  generalize hs' : lpUpdate (n := Fin 2) (d := Fin 1) _ _ _ _ _ = s'
  obtain ⟨k1, k2, k3, -, -, -⟩ := hI.step hc hs'
  unfold lpLoop
  rw [if_neg]
  · exact ⟨_, rfl⟩
  · rintro ⟨c, hcn⟩
    rw [Subsingleton.elim c 0, k3 0 (by simp [lpInit])] at hcn
    refine absurd ((rule_noTermination hcn).2.1 10 rfl) (not_lt.mpr ?_)
    rw [k2 0, if_pos (by simp [lpInit])]
    change norm2 (((fun _ => 1) - (0 : Fin 2 → ℝ)) - lpDiagonal _ (levelMatrix 0 1 (pyX 4) (pyX 4)) *ᵥ ((fun _ => 1) - (0 : Fin 2 → ℝ))) ≤ 10
    rw [sub_zero]
    have hg : 0 < Real.exp (-1 / (2 * (1 : ℝ)) * 4 ^ 2) := Real.exp_pos _
    refine (norm2_le (b := 2) (fun i => ?_) (by norm_num)).trans (by norm_num)
    simp only [Pi.sub_apply, mulVec, dotProduct, Fin.sum_univ_two, lpDiagonal, of_apply, pyX_matrix]
    generalize Real.exp (-1 / (2 * (1 : ℝ)) * 4 ^ 2) = g at hg
    have h1 : 0 ≤ g / (1 + g) := by positivity
    have h2 : g / (1 + g) ≤ 1 := by
      rw [div_le_one (by linarith)]
      linarith
    fin_cases i <;> simp <;> rw [abs_le] <;> constructor <;> linarith

end Verif.Kernel
