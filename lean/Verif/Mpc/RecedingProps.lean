import Verif.Mpc.HorizonProps
/-!
# C240: the closed loop of `KMPC` and the model reaches the target

`datafold/appfold/mpc.py` 53-573.
-/

namespace Verif.Mpc

open Matrix Verif.Utils Filter Topology

section receding

variable {ν : Type} [Fintype ν] [DecidableEq ν] {nu nq : Nat}

/-! ## Specification -/

/-- The closed loop with the target `t` (mpc.py 523-571, the system is the model): before every step the controller is asked with the current state and a reference that is constantly `C t`, and the first input is applied. -/
structure Receding (k : Kmpc ν nq nu) (t : ν → ℝ) (z : Nat → ν → ℝ) (out : Nat → List (Int × (Fin nu → ℝ))) : Prop where
  asked : ∀ j, ∃ (dt t₀ : Int) (ref : List (Int × (Fin nq → ℝ))), (∀ r ∈ ref, r.2 = k.C *ᵥ t) ∧ IsControlSequence k dt t₀ (z j) ref (.ok (out j))
  step : ∀ j, z (j + 1) = k.A *ᵥ z j + k.B *ᵥ inputAt (out j) 0

/-! ## Lemmas -/

/-- If a non-negative quantity decreases by a multiple of `q` in every step, then `q` tends to zero. -/
theorem tendsto_of_decrease {V q : Nat → ℝ} (hV : ∀ j, 0 ≤ V j) (hq : ∀ j, 0 ≤ q j) {c : ℝ} (hc : 0 < c) (h : ∀ j, V (j + 1) ≤ V j - c * q j) : Tendsto q atTop (𝓝 0) := by
  have hs : ∀ n, ∑ j ∈ Finset.range n, q j ≤ V 0 / c := by
    intro n
    have : c * ∑ j ∈ Finset.range n, q j ≤ V 0 - V n := by
      induction n with
      | zero => simp
      | succ n ih => rw [Finset.sum_range_succ, mul_add]; linarith [h n]
    rw [le_div_iff₀ hc]
    linarith [hV n]
  exact (summable_of_sum_range_le hq hs).tendsto_atTop_zero

omit [DecidableEq ν] in
/-- If the weighted squares tend to zero, so do the quantities. -/
theorem tendsto_of_weighted {C : Matrix (Fin nq) ν ℝ} {wr : Fin nq → ℝ} (hw : ∀ r, 0 < wr r) {e : Nat → ν → ℝ} (h : Tendsto (fun j => quad (Cᵀ * diagonal wr * C) (e j)) atTop (𝓝 0)) :
    Tendsto (fun j => C *ᵥ e j) atTop (𝓝 0) := by
  refine tendsto_pi_nhds.2 fun r => ?_
  have h1 : Tendsto (fun j => (C *ᵥ e j) r ^ 2) atTop (𝓝 0) := by
    refine squeeze_zero (fun j => sq_nonneg _) (fun j => ?_) (by simpa using h.const_mul ((wr r)⁻¹))
    have h2 : wr r * (C *ᵥ e j) r ^ 2 ≤ quad (Cᵀ * diagonal wr * C) (e j) := by
      rw [quad_sandwich, quad_diagonal]
      exact Finset.single_le_sum (f := fun r => wr r * (C *ᵥ e j) r ^ 2) (fun r _ => mul_nonneg (hw r).le (sq_nonneg _)) (Finset.mem_univ r)
    calc (C *ᵥ e j) r ^ 2 = (wr r)⁻¹ * (wr r * (C *ᵥ e j) r ^ 2) := by rw [← mul_assoc, inv_mul_cancel₀ (hw r).ne', one_mul]
      _ ≤ _ := mul_le_mul_of_nonneg_left h2 (inv_pos.2 (hw r)).le
  have h3 := (Real.continuous_sqrt.tendsto 0).comp h1
  simp only [Function.comp_def, Real.sqrt_sq_eq_abs, Real.sqrt_zero] at h3
  exact (tendsto_zero_iff_abs_tendsto_zero _).2 h3

/-- The closed loop without bounds is a linear feedback. -/
theorem receding_error {k : Kmpc ν nq nu} (hh : 2 ≤ k.horizon) {wr wt : Fin nq → ℝ} {wu : Fin nu → ℝ} (hr : CostIs k.running wr)
    (ht : CostIs k.terminal wt) (hu : CostIs k.input wu) (h0 : ∃ r, wt r ≠ 0) (hpos : ∀ c, 0 < wu c) {t : ν → ℝ} (hA : k.A *ᵥ t = t) (hs : k.stateBounds = none) (hi : k.inputBounds = none)
    {z : Nat → ν → ℝ} {out : Nat → List (Int × (Fin nu → ℝ))} (h : Receding k t z out) (j : Nat) :
    z (j + 1) - t = k.A *ᵥ (z j - t) + k.B *ᵥ (-(lqrGain k.A k.B (diagonal wu) (riccati k.A k.B (k.Cᵀ * diagonal wr * k.C) (diagonal wu) (k.Cᵀ * diagonal wt * k.C) (k.horizon - 1)) *ᵥ (z j - t))) := by
  obtain ⟨dt, t₀, ref, href, hc⟩ := h.asked j
  have h1 := C238_feedback k hh ⟨by simp [hs], by simp [hi]⟩ hr ht hu h0 hpos dt t₀ (z j) hA ref href (out j) hc ⟨by simp [hs], by simp [hi]⟩ 0 (by omega)
  rw [h.step, h1, mulVec_sub, hA]
  simp only [feedbackInput, horizonGain, feedbackState]
  rw [Nat.sub_zero]
  abel

/-- The value of the recursion is the least of the current cost and the next value. -/
theorem riccatiStep_le {A : Matrix ν ν ℝ} {B : Matrix ν (Fin nu) ℝ} (Q : Matrix ν ν ℝ) {w : Fin nu → ℝ} (hw : ∀ c, 0 < w c) {P : Matrix ν ν ℝ} (hP : Psd P) (e : ν → ℝ) (u : Fin nu → ℝ) :
    quad (riccatiStep A B Q (diagonal w) P) e ≤ quad Q e + quad (diagonal w) u + quad P (A *ᵥ e + B *ᵥ u) := by
  rw [riccati_square Q hw hP e u]
  exact le_add_of_nonneg_right (le_trans (Finset.sum_nonneg fun c _ => mul_nonneg (hw c).le (sq_nonneg _)) (quad_input hP _))

theorem riccatiStep_eq {A : Matrix ν ν ℝ} {B : Matrix ν (Fin nu) ℝ} (Q : Matrix ν ν ℝ) {w : Fin nu → ℝ} (hw : ∀ c, 0 < w c) {P : Matrix ν ν ℝ} (hP : Psd P) (e : ν → ℝ) :
    quad Q e + quad (diagonal w) (-(lqrGain A B (diagonal w) P *ᵥ e)) + quad P (A *ᵥ e + B *ᵥ (-(lqrGain A B (diagonal w) P *ᵥ e))) = quad (riccatiStep A B Q (diagonal w) P) e := by
  rw [riccati_square Q hw hP e, neg_add_cancel]
  simp [quad]

/-- If the terminal weights can be decreased by some input, the values of the recursion decrease. -/
theorem riccati_antitone {A : Matrix ν ν ℝ} {B : Matrix ν (Fin nu) ℝ} {Q : Matrix ν ν ℝ} (hQ : Psd Q) {w : Fin nu → ℝ} (hw : ∀ c, 0 < w c) {P₀ : Matrix ν ν ℝ} (hP : Psd P₀)
    (hL : ∀ e, ∃ u, quad Q e + quad (diagonal w) u + quad P₀ (A *ᵥ e + B *ᵥ u) ≤ quad P₀ e) (j : Nat) (e : ν → ℝ) :
    quad (riccati A B Q (diagonal w) P₀ (j + 1)) e ≤ quad (riccati A B Q (diagonal w) P₀ j) e := by
  induction j generalizing e with
  | zero =>
    obtain ⟨u, hu⟩ := hL e
    exact (riccatiStep_le Q hw hP e u).trans hu
  | succ j ih =>
    have h1 := psd_riccati (A := A) (B := B) hQ hw hP j
    have h2 := psd_riccati (A := A) (B := B) hQ hw hP (j + 1)
    refine (riccatiStep_le Q hw h2 e (-(lqrGain A B (diagonal w) (riccati A B Q (diagonal w) P₀ j) *ᵥ e))).trans ?_
    have h3 := riccatiStep_eq (A := A) (B := B) Q hw h1 e
    have h4 := ih (A *ᵥ e + B *ᵥ (-(lqrGain A B (diagonal w) (riccati A B Q (diagonal w) P₀ j) *ᵥ e)))
    change _ ≤ quad (riccatiStep A B Q (diagonal w) (riccati A B Q (diagonal w) P₀ j)) e
    linarith

/-! ## Property theorems -/

/-- **C240 (terminal weights).** Without bounds, if from every state some input decreases the terminal cost by at least the running and input cost, then for every horizon the tracked quantities of the closed loop tend to
their target; so do the states if they are determined by the tracked quantities. -/
theorem C240_terminal_partial (k : Kmpc ν nq nu) (hh : 2 ≤ k.horizon) {wr wt : Fin nq → ℝ} {wu : Fin nu → ℝ} (hr : CostIs k.running wr)
    (ht : CostIs k.terminal wt) (hu : CostIs k.input wu) (h0 : ∃ r, wt r ≠ 0) (hpos : ∀ c, 0 < wu c) (hrpos : ∀ r, 0 < wr r) {t : ν → ℝ} (hA : k.A *ᵥ t = t) (hs : k.stateBounds = none) (hi : k.inputBounds = none)
    (hL : ∀ e, ∃ u, ∑ r, wr r * (k.C *ᵥ e) r ^ 2 + ∑ c, wu c * u c ^ 2 + ∑ r, wt r * (k.C *ᵥ (k.A *ᵥ e + k.B *ᵥ u)) r ^ 2 ≤ ∑ r, wt r * (k.C *ᵥ e) r ^ 2)
    (z : Nat → ν → ℝ) (out : Nat → List (Int × (Fin nu → ℝ))) (h : Receding k t z out) :
    Tendsto (fun j => k.C *ᵥ z j) atTop (𝓝 (k.C *ᵥ t)) ∧ ∀ D : Matrix ν (Fin nq) ℝ, D * k.C = 1 → Tendsto z atTop (𝓝 t) := by
  set Q := k.Cᵀ * diagonal wr * k.C with hQd
  set P₀ := k.Cᵀ * diagonal wt * k.C with hPd
  have hQ : Psd Q := psd_sandwich (psd_diagonal hr.1) k.C
  have hP₀ : Psd P₀ := psd_sandwich (psd_diagonal ht.1) k.C
  have hanti := riccati_antitone (A := k.A) (B := k.B) hQ hpos hP₀ (fun e => by
    obtain ⟨u, hu⟩ := hL e
    refine ⟨u, ?_⟩
    rw [hQd, hPd, quad_sandwich, quad_sandwich, quad_sandwich, quad_diagonal, quad_diagonal, quad_diagonal, quad_diagonal]
    exact hu)
  obtain ⟨n, hn⟩ : ∃ n, k.horizon - 1 = n := ⟨_, rfl⟩
  have hM := psd_riccati (A := k.A) (B := k.B) hQ hpos hP₀ n
  have hq : Tendsto (fun j => quad Q (z j - t)) atTop (𝓝 0) := by
    refine tendsto_of_decrease (V := fun j => quad (riccati k.A k.B Q (diagonal wu) P₀ (n + 1)) (z j - t)) (fun j => (psd_riccati hQ hpos hP₀ _).2 _) (fun j => hQ.2 _) one_pos fun j => ?_
    have h1 := receding_error hh hr ht hu h0 hpos hA hs hi h j
    rw [hn] at h1
    have h2 := riccatiStep_eq (A := k.A) (B := k.B) Q hpos hM (z j - t)
    rw [← h1] at h2
    have h3 := hanti n (z (j + 1) - t)
    have h4 := (psd_diagonal fun c => (hpos c).le).2 (-(lqrGain k.A k.B (diagonal wu) (riccati k.A k.B Q (diagonal wu) P₀ n) *ᵥ (z j - t)))
    change _ ≤ quad (riccatiStep k.A k.B Q (diagonal wu) (riccati k.A k.B Q (diagonal wu) P₀ n)) (z j - t) - _
    linarith
  have hC := tendsto_of_weighted hrpos hq
  have h1 : Tendsto (fun j => k.C *ᵥ z j) atTop (𝓝 (k.C *ᵥ t)) := by
    have := hC.add_const (k.C *ᵥ t)
    simpa [mulVec_sub] using this
  refine ⟨h1, fun D hD => ?_⟩
  have hcont : Continuous (fun y : Fin nq → ℝ => D *ᵥ y) := by fun_prop
  have h2 := (hcont.tendsto _).comp h1
  simpa [Function.comp_def, mulVec_mulVec, hD] using h2

/-- **C240 (long horizons).** Without bounds, if all weights are positive, the states are determined by the tracked quantities and the Riccati equation of LQR has a positive semidefinite solution, then every sufficiently long
horizon makes every closed loop reach its target, whatever the terminal weights are. -/
theorem C240_long_partial (k : Kmpc ν nq nu) {D : Matrix ν (Fin nq) ℝ} (hD : D * k.C = 1) {wr wt : Fin nq → ℝ} {wu : Fin nu → ℝ} (hr : CostIs k.running wr)
    (ht : CostIs k.terminal wt) (hu : CostIs k.input wu) (h0 : ∃ r, wt r ≠ 0) (hpos : ∀ c, 0 < wu c) (hrpos : ∀ r, 0 < wr r) {P : Matrix ν ν ℝ} (hd : IsDare k.A k.B (k.Cᵀ * diagonal wr * k.C) (diagonal wu) P)
    (hP : ∀ v, 0 ≤ quad P v) (hs : k.stateBounds = none) (hi : k.inputBounds = none) :
    ∃ N, ∀ n ≥ N, ∀ (t : ν → ℝ) (z : Nat → ν → ℝ) (out : Nat → List (Int × (Fin nu → ℝ))), k.A *ᵥ t = t → Receding { k with horizon := n } t z out → Tendsto z atTop (𝓝 t) := by
  set Q := k.Cᵀ * diagonal wr * k.C with hQd
  set P₀ := k.Cᵀ * diagonal wt * k.C with hPd
  have hQ : Psd Q := psd_sandwich (psd_diagonal hr.1) k.C
  have hP₀ : Psd P₀ := psd_sandwich (psd_diagonal ht.1) k.C
  have hqQ : ∀ v, quad Q v = ∑ r, wr r * (k.C *ᵥ v) r ^ 2 := fun v => by rw [hQd, quad_sandwich, quad_diagonal]
  set F := lqrGain k.A k.B (diagonal wu) P with hF
  set G : Nat → Matrix (Fin nu) ν ℝ := fun n => lqrGain k.A k.B (diagonal wu) (riccati k.A k.B Q (diagonal wu) P₀ n) with hG
  set S := diagonal wu + k.Bᵀ * P * k.B with hS
  have hgain : Tendsto G atTop (𝓝 F) := by
    obtain ⟨K, hK, hK1⟩ := quad_le_weighted (Dᵀ * P * D) hrpos
    obtain ⟨K₀, hK₀, hK2⟩ := quad_le_weighted (diagonal wt) hrpos
    have hlim := riccati_tendsto hQ hpos hP₀ ⟨hd.symm, hP⟩ hd hK (fun v => by
      have := hK1 (k.C *ᵥ v)
      rwa [quad_sandwich, mulVec_mulVec, hD, one_mulVec, ← hqQ] at this) hK₀ (fun v => by
      have := hK2 (k.C *ᵥ v)
      rwa [← quad_sandwich, ← hqQ] at this)
    exact gain_tendsto (A := k.A) hd.unit (fun N => (psd_riccati (A := k.A) (B := k.B) hQ hpos hP₀ N).1) hd.symm hlim
  set M : Matrix (Fin nu) ν ℝ → Matrix (Fin nq) (Fin nq) ℝ := fun X => (X * D)ᵀ * S * (X * D) with hM
  have hsmall : Tendsto (fun n => (∑ i, ∑ j, |M (F - G n) i j|) * ∑ r, (wr r)⁻¹) atTop (𝓝 0) := by
    have hcont : Continuous (fun X : Matrix (Fin nu) ν ℝ => (∑ i, ∑ j, |M X i j|) * ∑ r, (wr r)⁻¹) := by
      refine Continuous.mul (continuous_finsetSum _ fun i _ => continuous_finsetSum _ fun j _ => continuous_abs.comp ?_) continuous_const
      have : Continuous M := by
        rw [hM]
        fun_prop
      exact (continuous_apply j).comp ((continuous_apply i).comp this)
    have h1 : Tendsto (fun n => F - G n) atTop (𝓝 0) := by simpa using hgain.const_sub F
    have h2 := (hcont.tendsto 0).comp h1
    have h3 : (∑ i, ∑ j, |M 0 i j|) * ∑ r, (wr r)⁻¹ = 0 := by simp [hM]
    rw [h3] at h2
    exact h2
  obtain ⟨N, hN⟩ := eventually_atTop.1 (hsmall.eventually (gt_mem_nhds (by norm_num : (0 : ℝ) < 1 / 2)))
  refine ⟨N + 2, fun n hn t z out hA h => ?_⟩
  have hsq : ∀ e, quad S ((F - G (n - 1)) *ᵥ e) ≤ 1 / 2 * quad Q e := by
    intro e
    have h1 := quad_weighted (M (F - G (n - 1))) hrpos (k.C *ᵥ e)
    rw [← hqQ, hM, quad_sandwich, mulVec_mulVec, Matrix.mul_assoc, hD, Matrix.mul_one] at h1
    exact h1.trans (mul_le_mul_of_nonneg_right (hN (n - 1) (by omega)).le (hQ.2 e))
  have hq : Tendsto (fun j => quad Q (z j - t)) atTop (𝓝 0) := by
    refine tendsto_of_decrease (V := fun j => quad P (z j - t)) (fun j => hP _) (fun j => hQ.2 _) (c := 1 / 2) (by norm_num) fun j => ?_
    have h1 := receding_error (k := { k with horizon := n }) (by simp only []; omega) hr ht hu h0 hpos hA hs hi h j
    change z (j + 1) - t = k.A *ᵥ (z j - t) + k.B *ᵥ (-(G (n - 1) *ᵥ (z j - t))) at h1
    have h2 := lqr_step hd (diagonal_transpose wu) (z j - t) (-(G (n - 1) *ᵥ (z j - t)))
    rw [← h1, neg_add_eq_sub, ← sub_mulVec] at h2
    have h3 := hsq (z j - t)
    have h4 := (psd_diagonal fun c => (hpos c).le).2 (-(G (n - 1) *ᵥ (z j - t)))
    linarith
  have hC := tendsto_of_weighted hrpos hq
  have hcont : Continuous (fun y : Fin nq → ℝ => D *ᵥ y) := by fun_prop
  have h2 := (hcont.tendsto _).comp hC
  simp only [Function.comp_def, mulVec_mulVec, hD, one_mulVec, mulVec_zero] at h2
  simpa using h2.add_const t

end receding

/-! ## Short horizons -/

/-- A controller without bounds for the unstable model `z' = 2 z + u` with the running and terminal weight 1, the input weight 5 and the horizon 2. -/
noncomputable def shortK : Kmpc (Fin 1) 1 1 := ⟨2, diagonal fun _ => 2, 1, 1, none, none, .number 1, .number 1, .number 5⟩

theorem shortK_gain : lqrGain shortK.A shortK.B (diagonal fun _ => 5) (riccati shortK.A shortK.B (shortK.Cᵀ * diagonal (fun _ => 1) * shortK.C) (diagonal fun _ => 5) (shortK.Cᵀ * diagonal (fun _ => 1) * shortK.C) 1) =
    diagonal (fun _ => 13 / 14) := by
  have hinv : ∀ a : ℝ, a ≠ 0 → (diagonal (fun _ : Fin 1 => a))⁻¹ = diagonal (fun _ => a⁻¹) := by
    intro a ha
    refine inv_eq_right_inv ?_
    rw [diagonal_mul_diagonal, mul_inv_cancel₀ ha, diagonal_one]
  have h1 : riccati shortK.A shortK.B (shortK.Cᵀ * diagonal (fun _ => 1) * shortK.C) (diagonal fun _ => 5) (shortK.Cᵀ * diagonal (fun _ => 1) * shortK.C) 1 = diagonal (fun _ => 13 / 3) := by
    simp only [riccati, riccatiStep, shortK, transpose_one, Matrix.one_mul, Matrix.mul_one, diagonal_transpose, diagonal_mul_diagonal, diagonal_add]
    rw [hinv _ (by norm_num)]
    simp only [diagonal_mul_diagonal, diagonal_sub, diagonal_add]
    norm_num
  rw [h1]
  simp only [lqrGain, shortK, transpose_one, Matrix.one_mul, Matrix.mul_one, diagonal_add]
  rw [hinv _ (by norm_num)]
  simp only [diagonal_mul_diagonal]
  norm_num

/-- **C240 is violated for short horizons.** There is a controller without bounds and with positive weights, for a model with one state and one input, whose closed loop runs away from the target
from every other state. -/
theorem C240_violated (z₀ : Fin 1 → ℝ) (h0 : z₀ ≠ 0) : ∃ (z : Nat → Fin 1 → ℝ) (out : Nat → List (Int × (Fin 1 → ℝ))), z 0 = z₀ ∧ Receding shortK 0 z out ∧
    Tendsto (fun j => |z j 0|) atTop atTop := by
  have hr : CostIs (n := 1) shortK.running (fun _ => 1) := ⟨fun _ => zero_le_one, Or.inl ⟨1, zero_le_one, rfl, fun _ => rfl⟩⟩
  have ht : CostIs (n := 1) shortK.terminal (fun _ => 1) := ⟨fun _ => zero_le_one, Or.inl ⟨1, zero_le_one, rfl, fun _ => rfl⟩⟩
  have hu : CostIs (n := 1) shortK.input (fun _ => 5) := ⟨fun _ => by norm_num, Or.inl ⟨5, by norm_num, rfl, fun _ => rfl⟩⟩
  set z : Nat → Fin 1 → ℝ := fun j => ((15 / 14 : ℝ) ^ j) • z₀ with hz
  have hex : ∀ j, ∃ out, IsControlSequence shortK 1 0 (z j) [(1, 0), (2, 0)] (.ok out) := fun j =>
    C39_exists shortK le_rfl ⟨by simp [shortK], by simp [shortK]⟩ hr ht hu ⟨0, one_ne_zero⟩ (fun _ => by norm_num) 1 0 (z j) _ rfl rfl ⟨fun _ _ => 0, by simp [shortK], by simp [shortK]⟩
  choose out ho using hex
  have href : ∀ r ∈ ([(1, 0), (2, 0)] : List (Int × (Fin 1 → ℝ))), r.2 = shortK.C *ᵥ 0 := by
    intro r hr
    rw [mulVec_zero]
    simp only [List.mem_cons, List.not_mem_nil, or_false] at hr
    rcases hr with rfl | rfl <;> rfl
  refine ⟨z, out, by simp [hz], ⟨fun j => ⟨1, 0, _, href, ho j⟩, fun j => ?_⟩, ?_⟩
  · have h1 := C238_feedback shortK le_rfl ⟨by simp [shortK], by simp [shortK]⟩ hr ht hu ⟨0, one_ne_zero⟩ (fun _ => by norm_num) 1 0 (z j) (t := 0) (by simp) _ href (out j) (ho j) ⟨by simp [shortK], by simp [shortK]⟩ 0
      (by simp [shortK])
    rw [h1]
    simp only [feedbackInput, horizonGain, feedbackState, sub_zero]
    have e : shortK.horizon - 1 = 1 := rfl
    rw [e, shortK_gain]
    funext i
    simp only [hz, shortK, Pi.add_apply, mulVec_diagonal, one_mulVec, Pi.neg_apply, Pi.smul_apply, smul_eq_mul, pow_succ]
    ring
  · have h1 : z₀ 0 ≠ 0 := fun h => h0 (by funext i; fin_cases i; exact h)
    have h2 : (fun j => |z j 0|) = fun j => (15 / 14 : ℝ) ^ j * |z₀ 0| := by
      funext j
      simp only [hz, Pi.smul_apply, smul_eq_mul, abs_mul, abs_pow]
      norm_num
    rw [h2]
    exact (tendsto_pow_atTop_atTop_of_one_lt (by norm_num)).atTop_mul_const (abs_pos.2 h1)

/-! ## Non-vacuity -/

theorem receding_exists {c : ℝ} (hc : 0 < c) (n : Nat) (hn : 2 ≤ n) (z₀ t : Fin 1 → ℝ) : ∃ z out, z 0 = z₀ ∧ Receding (horizonK c n) t z out := by
  choose out ho using fun z : Fin 1 → ℝ => horizonK_exists hc n hn z t
  refine ⟨fun j => Nat.rec z₀ (fun _ z => (horizonK c n).A *ᵥ z + (horizonK c n).B *ᵥ inputAt (out z) 0) j, fun j => out _, rfl, fun j => ⟨1, 0, _, ?_, ho _⟩, fun j => rfl⟩
  intro r hr
  obtain ⟨i, -, rfl⟩ := List.mem_map.1 hr
  simp [horizonK]

/-- The hypotheses are met: closed loops exist, and with terminal weight 2 they reach every target with the horizon 2, with terminal weight 7 with every long horizon. -/
example (z₀ t : Fin 1 → ℝ) : (∃ z out, z 0 = z₀ ∧ Receding (horizonK 2 2) t z out ∧ Tendsto z atTop (𝓝 t)) ∧
    ∃ N, ∀ n ≥ N + 2, ∃ z out, z 0 = z₀ ∧ Receding (horizonK 7 n) t z out ∧ Tendsto z atTop (𝓝 t) := by
  have hr : ∀ c n, CostIs (n := 1) (horizonK c n).running (fun _ => 1) := fun _ _ => ⟨fun _ => zero_le_one, Or.inl ⟨1, zero_le_one, rfl, fun _ => rfl⟩⟩
  have hu : ∀ c n, CostIs (n := 1) (horizonK c n).input (fun _ => 2) := fun _ _ => ⟨fun _ => by norm_num, Or.inl ⟨2, by norm_num, rfl, fun _ => rfl⟩⟩
  have ht : ∀ c n, 0 < c → CostIs (n := 1) (horizonK c n).terminal (fun _ => c) := fun c _ h => ⟨fun _ => h.le, Or.inl ⟨c, h.le, rfl, fun _ => rfl⟩⟩
  constructor
  · obtain ⟨z, out, h1, h2⟩ := receding_exists (c := 2) (by norm_num) 2 le_rfl z₀ t
    refine ⟨z, out, h1, h2, (C240_terminal_partial (horizonK 2 2) (by simp [horizonK]) (hr _ _) (ht _ _ (by norm_num)) (hu _ _) ⟨0, by norm_num⟩ (fun _ => by norm_num) (fun _ => one_pos) (by simp [horizonK]) rfl rfl ?_ z out h2).2 1
      (by simp [horizonK])⟩
    intro e
    refine ⟨fun i => -(1 / 2 * e i), ?_⟩
    simp [horizonK]
    nlinarith [sq_nonneg (e 0)]
  · obtain ⟨N, hN⟩ := C240_long_partial (horizonK 7 2) (D := 1) (by simp [horizonK]) (hr _ _) (ht _ _ (by norm_num)) (hu _ _) ⟨0, by norm_num⟩ (fun _ => by norm_num) (fun _ => one_pos) horizonK_dare
      (psd_diagonal fun _ => by norm_num).2 rfl rfl
    refine ⟨N, fun n hn => ?_⟩
    obtain ⟨z, out, h1, h2⟩ := receding_exists (c := 7) (by norm_num) n (by omega) z₀ t
    exact ⟨z, out, h1, h2, hN n (by omega) t z out (by simp [horizonK]) h2⟩

end Verif.Mpc
