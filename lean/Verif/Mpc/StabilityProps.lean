import Verif.Mpc.ControlProps
import Mathlib.Topology.Algebra.InfiniteSum.Real
import Mathlib.Analysis.Normed.Group.Basic
/-!
# C229: systems controlled by `LQR` reach their target

`datafold/appfold/mpc.py` 607-664.
-/

namespace Verif.Mpc

open Matrix Verif.Utils Filter Topology

variable {ν : Type} [Fintype ν] [DecidableEq ν] {nu : Nat}

omit [DecidableEq ν] in
/-- The input of `LQR.control_sequence` makes the square that is left over zero. -/
theorem lqr_closed_square {A : Matrix ν ν ℝ} {B : Matrix ν (Fin nu) ℝ} {R : Matrix (Fin nu) (Fin nu) ℝ} {P : Matrix ν ν ℝ} {z t : ν → ℝ} {u : Fin nu → ℝ}
    (hu : lqrControl (lqrGain A B R P) z t = .ok u) : u + lqrGain A B R P *ᵥ (z - t) = 0 := by
  unfold lqrControl at hu
  split at hu
  · simp at hu
  · rw [← Except.ok.inj hu]; simp

theorem quad_diagonal {κ : Type} [Fintype κ] [DecidableEq κ] (w : κ → ℝ) (x : κ → ℝ) : quad (diagonal w) x = ∑ c, w c * x c ^ 2 := by
  unfold quad
  simp only [dotProduct, mulVec_diagonal]
  exact Finset.sum_congr rfl fun c _ => by ring

/-- **C229 (decrease).** In every step of the controlled system the cost that is still to come decreases by exactly the cost of the step. -/
theorem C229_decrease {A : Matrix ν ν ℝ} {B : Matrix ν (Fin nu) ℝ} {q : ν → ℝ} {w : Fin nu → ℝ} {P : Matrix ν ν ℝ}
    (h : IsDare A B (diagonal q) (diagonal w) P) {t : ν → ℝ} (ht : A *ᵥ t = t) (z : ν → ℝ) (u : Nat → Fin nu → ℝ)
    (hu : ∀ k, lqrControl (lqrGain A B (diagonal w) P) (trajectory A B z u k) t = .ok (u k)) (k : Nat) :
    quad P (trajectory A B z u (k + 1) - t) =
      quad P (trajectory A B z u k - t) - ∑ i, q i * (trajectory A B z u k i - t i) ^ 2 - ∑ c, w c * u k c ^ 2 := by
  have hs := lqr_step h (diagonal_transpose w) (trajectory A B z u k - t) (u k)
  have ht2 : A *ᵥ (trajectory A B z u k - t) + B *ᵥ u k = trajectory A B z u (k + 1) - t := by
    rw [trajectory, mulVec_sub, ht]; abel
  rw [ht2, lqr_closed_square (hu k), quad_diagonal, quad_diagonal] at hs
  have h0 : quad (diagonal w + Bᵀ * P * B) (0 : Fin nu → ℝ) = 0 := by simp [quad]
  rw [h0] at hs
  simp only [Pi.sub_apply] at hs
  linarith

/-- **C229 (total cost).** Over any number of steps the costs sum up to at most the value `(z - t)ᵀ P (z - t)` of the start. -/
theorem C229_total_cost {A : Matrix ν ν ℝ} {B : Matrix ν (Fin nu) ℝ} {q : ν → ℝ} {w : Fin nu → ℝ} {P : Matrix ν ν ℝ}
    (h : IsDare A B (diagonal q) (diagonal w) P) (hP : ∀ v, 0 ≤ quad P v) {t : ν → ℝ} (ht : A *ᵥ t = t) (z : ν → ℝ) (u : Nat → Fin nu → ℝ)
    (hu : ∀ k, lqrControl (lqrGain A B (diagonal w) P) (trajectory A B z u k) t = .ok (u k)) (N : Nat) :
    ∑ k ∈ Finset.range N, (∑ i, q i * (trajectory A B z u k i - t i) ^ 2 + ∑ c, w c * u k c ^ 2) ≤ quad P (z - t) := by
  have key : ∀ N, ∑ k ∈ Finset.range N, (∑ i, q i * (trajectory A B z u k i - t i) ^ 2 + ∑ c, w c * u k c ^ 2) + quad P (trajectory A B z u N - t)
      = quad P (z - t) := by
    intro N
    induction N with
    | zero => simp [trajectory]
    | succ N ih =>
      rw [Finset.sum_range_succ, C229_decrease h ht z u hu N]
      linarith
  have := key N
  have := hP (trajectory A B z u N - t)
  linarith

/-- **C229 (stability).** Let all weights of the states and of the inputs be positive and let the uncontrolled system rest at the target.  Then from every start the system controlled by
`LQR.control_sequence` converges to the target, and the inputs converge to zero. -/
theorem C229_stable {A : Matrix ν ν ℝ} {B : Matrix ν (Fin nu) ℝ} {q : ν → ℝ} (hq : ∀ i, 0 < q i) {w : Fin nu → ℝ} (hw : ∀ c, 0 < w c) {P : Matrix ν ν ℝ}
    (h : IsDare A B (diagonal q) (diagonal w) P) (hP : ∀ v, 0 ≤ quad P v) {t : ν → ℝ} (ht : A *ᵥ t = t) (z : ν → ℝ) (u : Nat → Fin nu → ℝ)
    (hu : ∀ k, lqrControl (lqrGain A B (diagonal w) P) (trajectory A B z u k) t = .ok (u k)) :
    Tendsto (fun k => trajectory A B z u k) atTop (𝓝 t) ∧ Tendsto u atTop (𝓝 0) := by
  have hq0 : ∀ (k : ℕ) (i : ν), 0 ≤ q i * (trajectory A B z u k i - t i) ^ 2 := fun k i => mul_nonneg (hq i).le (sq_nonneg _)
  have hw0 : ∀ (k : ℕ) (c : Fin nu), 0 ≤ w c * u k c ^ 2 := fun k c => mul_nonneg (hw c).le (sq_nonneg _)
  have hsum : Summable fun k => (∑ i, q i * (trajectory A B z u k i - t i) ^ 2 + ∑ c, w c * u k c ^ 2) :=
    summable_of_sum_range_le (fun k => add_nonneg (Finset.sum_nonneg fun i _ => hq0 k i) (Finset.sum_nonneg fun c _ => hw0 k c))
      (C229_total_cost h hP ht z u hu)
  have hzero := hsum.tendsto_atTop_zero
  have sq0 : ∀ f : ℕ → ℝ, ∀ c : ℝ, 0 < c → Tendsto (fun k => c * f k ^ 2) atTop (𝓝 0) → Tendsto f atTop (𝓝 0) := by
    intro f c hc hf
    have h1 : Tendsto (fun k => f k ^ 2) atTop (𝓝 0) := by
      have := hf.const_mul c⁻¹
      simpa [← mul_assoc, inv_mul_cancel₀ hc.ne'] using this
    have h2 := (Real.continuous_sqrt.tendsto 0).comp h1
    rw [Real.sqrt_zero] at h2
    rw [tendsto_zero_iff_abs_tendsto_zero]
    refine h2.congr fun k => ?_
    simp [Real.sqrt_sq_eq_abs]
  constructor
  · rw [tendsto_pi_nhds]
    intro i
    have h1 : Tendsto (fun k => trajectory A B z u k i - t i) atTop (𝓝 0) := by
      refine sq0 _ (q i) (hq i) (squeeze_zero (fun k => hq0 k i) (fun k => ?_) hzero)
      have := Finset.single_le_sum (f := fun i => q i * (trajectory A B z u k i - t i) ^ 2) (fun i _ => hq0 k i) (Finset.mem_univ i)
      have := Finset.sum_nonneg (s := Finset.univ) (f := fun c => w c * u k c ^ 2) (fun c _ => hw0 k c)
      linarith
    simpa using h1.add_const (t i)
  · rw [tendsto_pi_nhds]
    intro c
    refine sq0 _ (w c) (hw c) (squeeze_zero (fun k => hw0 k c) (fun k => ?_) hzero)
    have := Finset.single_le_sum (f := fun c => w c * u k c ^ 2) (fun c _ => hw0 k c) (Finset.mem_univ c)
    have := Finset.sum_nonneg (s := Finset.univ) (f := fun i => q i * (trajectory A B z u k i - t i) ^ 2) (fun i _ => hq0 k i)
    linarith

/-- The weights of the states must be positive: with the weight zero, `P = 0` solves the Riccati equation of `z' = z + u`, the inputs are zero and the state never moves. -/
theorem C229_zero_weight : ∃ u : Nat → Fin 1 → ℝ,
    IsDare (!![1] : Matrix (Fin 1) (Fin 1) ℝ) !![1] (diagonal fun _ => 0) (diagonal fun _ => 1) 0 ∧
    (∀ k, lqrControl (lqrGain (!![1] : Matrix (Fin 1) (Fin 1) ℝ) !![1] (diagonal fun _ => 1) 0) (trajectory !![1] !![1] (fun _ => 1) u k) 0 = .ok (u k)) ∧
    ∀ k, trajectory (!![1] : Matrix (Fin 1) (Fin 1) ℝ) !![1] (fun _ => 1) u k = fun _ => 1 := by
  refine ⟨fun _ => 0, ⟨by simp, ?_, ?_⟩, ?_, ?_⟩
  · rw [det_fin_one]; simp
  · simp
  · intro k
    unfold lqrControl lqrGain
    rw [if_neg (by simp)]; simp
  · intro k
    induction k with
    | zero => rfl
    | succ k ih =>
      rw [trajectory, ih]
      ext i; fin_cases i
      simp

/-- The hypotheses are met: `z' = 2 z + u` is unstable; with unit weights, `P = 2 + √5` and the inputs of `LQR.control_sequence` the state `1` is driven to zero. -/
example : ∃ (p : ℝ) (u : Nat → Fin 1 → ℝ), IsDare (!![2] : Matrix (Fin 1) (Fin 1) ℝ) !![1] (diagonal fun _ => 1) (diagonal fun _ => 1) !![p] ∧
    (∀ v, 0 ≤ quad !![p] v) ∧
    (∀ k, lqrControl (lqrGain (!![2] : Matrix (Fin 1) (Fin 1) ℝ) !![1] (diagonal fun _ => 1) !![p]) (trajectory !![2] !![1] (fun _ => 1) u k) 0 = .ok (u k)) := by
  let F := lqrGain (!![2] : Matrix (Fin 1) (Fin 1) ℝ) !![1] (diagonal fun _ => 1) !![2 + Real.sqrt 5]
  let z : Nat → Fin 1 → ℝ := fun k => Nat.rec (fun _ => 1) (fun _ x => (!![2] : Matrix (Fin 1) (Fin 1) ℝ) *ᵥ x + (!![1] : Matrix (Fin 1) (Fin 1) ℝ) *ᵥ (-(F *ᵥ (x - 0)))) k
  refine ⟨2 + Real.sqrt 5, fun k => -(F *ᵥ (z k - 0)), ⟨?_, ?_, ?_⟩, ?_, ?_⟩
  · ext i j; fin_cases i; fin_cases j; rfl
  · rw [det_fin_one]; simp [Matrix.add_apply, Matrix.mul_apply]
    have := Real.sqrt_nonneg 5; positivity
  · have h5 : Real.sqrt 5 * Real.sqrt 5 = 5 := Real.mul_self_sqrt (by norm_num)
    have h0 := Real.sqrt_nonneg 5
    ext i j
    fin_cases i; fin_cases j
    simp [Matrix.mul_apply, Ring.inverse_eq_inv]
    field_simp
    nlinarith
  · intro v
    have := Real.sqrt_nonneg 5
    have h2 : quad !![2 + Real.sqrt 5] v = (2 + Real.sqrt 5) * v 0 ^ 2 := by
      simp [quad, dotProduct, mulVec]; ring
    rw [h2]; positivity
  · have hz : ∀ k, trajectory (!![2] : Matrix (Fin 1) (Fin 1) ℝ) !![1] (fun _ => 1) (fun k => -(F *ᵥ (z k - 0))) k = z k := by
      intro k
      induction k with
      | zero => rfl
      | succ k ih => rw [trajectory, ih]
    intro k
    rw [hz k]
    unfold lqrControl
    rw [if_neg (by simp)]

end Verif.Mpc
