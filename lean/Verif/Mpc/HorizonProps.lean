import Verif.Mpc.StabilityProps
import Verif.Mpc.KmpcProps
import Mathlib.Topology.Instances.Matrix
import Mathlib.LinearAlgebra.Matrix.ToLinearEquiv
import Mathlib.Analysis.SpecificLimits.Basic
/-!
# C238: without active bounds, `KMPC` is a linear feedback, and that of `LQR` for long horizons

`datafold/appfold/mpc.py` 53-474, 607-664.
-/

namespace Verif.Mpc

open Matrix Verif.Utils Filter Topology

section riccati

variable {ν : Type} [Fintype ν] [DecidableEq ν] {nu nq : Nat}

/-! ## Specification -/

/-- One step of the Riccati recursion. -/
noncomputable def riccatiStep (A : Matrix ν ν ℝ) (B : Matrix ν (Fin nu) ℝ) (Q : Matrix ν ν ℝ) (R : Matrix (Fin nu) (Fin nu) ℝ) (P : Matrix ν ν ℝ) : Matrix ν ν ℝ :=
  Aᵀ * P * A - (Aᵀ * P * B) * (R + Bᵀ * P * B)⁻¹ * (Bᵀ * P * A) + Q

/-- The Riccati recursion: the weights of the cost that is still to come if `j` steps are left and the last state has the weights `P₀`. -/
noncomputable def riccati (A : Matrix ν ν ℝ) (B : Matrix ν (Fin nu) ℝ) (Q : Matrix ν ν ℝ) (R : Matrix (Fin nu) (Fin nu) ℝ) (P₀ : Matrix ν ν ℝ) : Nat → Matrix ν ν ℝ
  | 0 => P₀
  | j + 1 => riccatiStep A B Q R (riccati A B Q R P₀ j)

/-- The feedback in step `i` of `N`: `j = N - 1 - i` more steps follow. -/
noncomputable def horizonGain (A : Matrix ν ν ℝ) (B : Matrix ν (Fin nu) ℝ) (Q : Matrix ν ν ℝ) (R : Matrix (Fin nu) (Fin nu) ℝ) (P₀ : Matrix ν ν ℝ) (N i : Nat) : Matrix (Fin nu) ν ℝ :=
  lqrGain A B R (riccati A B Q R P₀ (N - 1 - i))

/-- The states of the system with the feedback for `N` steps and the target `t`. -/
noncomputable def feedbackState (A : Matrix ν ν ℝ) (B : Matrix ν (Fin nu) ℝ) (Q : Matrix ν ν ℝ) (R : Matrix (Fin nu) (Fin nu) ℝ) (P₀ : Matrix ν ν ℝ) (N : Nat) (z t : ν → ℝ) : Nat → ν → ℝ
  | 0 => z
  | i + 1 => A *ᵥ feedbackState A B Q R P₀ N z t i + B *ᵥ (-(horizonGain A B Q R P₀ N i *ᵥ (feedbackState A B Q R P₀ N z t i - t)))

/-- The inputs of the feedback. -/
noncomputable def feedbackInput (A : Matrix ν ν ℝ) (B : Matrix ν (Fin nu) ℝ) (Q : Matrix ν ν ℝ) (R : Matrix (Fin nu) (Fin nu) ℝ) (P₀ : Matrix ν ν ℝ) (N : Nat) (z t : ν → ℝ) (i : Nat) : Fin nu → ℝ :=
  -(horizonGain A B Q R P₀ N i *ᵥ (feedbackState A B Q R P₀ N z t i - t))

/-! ## Lemmas -/

/-- Symmetric and positive semidefinite. -/
def Psd {κ : Type} [Fintype κ] (P : Matrix κ κ ℝ) : Prop := Pᵀ = P ∧ ∀ v, 0 ≤ quad P v

omit [DecidableEq ν] in
theorem quad_add (M N : Matrix ν ν ℝ) (v : ν → ℝ) : quad (M + N) v = quad M v + quad N v := by simp [quad, add_mulVec]

omit [DecidableEq ν] in
theorem quad_sub (M N : Matrix ν ν ℝ) (v : ν → ℝ) : quad (M - N) v = quad M v - quad N v := by simp [quad, sub_mulVec]

omit [DecidableEq ν] in
theorem quad_sandwich {κ : Type} [Fintype κ] (P : Matrix κ κ ℝ) (C : Matrix κ ν ℝ) (v : ν → ℝ) : quad (Cᵀ * P * C) v = quad P (C *ᵥ v) := by
  unfold quad
  rw [Matrix.mul_assoc, ← mulVec_mulVec, dotProduct_mulVec v, vecMul_transpose, mulVec_mulVec]

theorem psd_diagonal {κ : Type} [Fintype κ] [DecidableEq κ] {w : κ → ℝ} (hw : ∀ c, 0 ≤ w c) : Psd (diagonal w) :=
  ⟨diagonal_transpose w, fun v => by rw [quad_diagonal]; exact Finset.sum_nonneg fun c _ => mul_nonneg (hw c) (sq_nonneg _)⟩

omit [DecidableEq ν] in
theorem psd_sandwich {κ : Type} [Fintype κ] {P : Matrix κ κ ℝ} (h : Psd P) (C : Matrix κ ν ℝ) : Psd (Cᵀ * P * C) := by
  refine ⟨?_, fun v => by rw [quad_sandwich]; exact h.2 _⟩
  rw [transpose_mul, transpose_mul, transpose_transpose, h.1, Matrix.mul_assoc]

omit [DecidableEq ν] in
theorem quad_input {B : Matrix ν (Fin nu) ℝ} {w : Fin nu → ℝ} {P : Matrix ν ν ℝ} (hP : Psd P) (x : Fin nu → ℝ) : ∑ c, w c * x c ^ 2 ≤ quad (diagonal w + Bᵀ * P * B) x := by
  rw [quad_add, quad_sandwich, quad_diagonal]
  linarith [hP.2 (B *ᵥ x)]

omit [DecidableEq ν] in
theorem quad_input_zero {B : Matrix ν (Fin nu) ℝ} {w : Fin nu → ℝ} (hw : ∀ c, 0 < w c) {P : Matrix ν ν ℝ} (hP : Psd P) {x : Fin nu → ℝ} (h : quad (diagonal w + Bᵀ * P * B) x ≤ 0) : x = 0 := by
  have h1 := quad_input (B := B) (w := w) hP x
  have h2 : ∑ c, w c * x c ^ 2 = 0 := le_antisymm (by linarith) (Finset.sum_nonneg fun c _ => mul_nonneg (hw c).le (sq_nonneg _))
  funext c
  have h3 := (Finset.sum_eq_zero_iff_of_nonneg (fun c _ => mul_nonneg (hw c).le (sq_nonneg _))).1 h2 c (Finset.mem_univ c)
  rcases mul_eq_zero.1 h3 with h4 | h4
  · exact absurd h4 (hw c).ne'
  · exact pow_eq_zero_iff two_ne_zero |>.1 h4

omit [DecidableEq ν] in
theorem input_unit {B : Matrix ν (Fin nu) ℝ} {w : Fin nu → ℝ} (hw : ∀ c, 0 < w c) {P : Matrix ν ν ℝ} (hP : Psd P) : IsUnit (diagonal w + Bᵀ * P * B).det := by
  rw [isUnit_iff_ne_zero]
  intro h
  obtain ⟨v, hv, h0⟩ := Matrix.exists_mulVec_eq_zero_iff.2 h
  refine hv (quad_input_zero (B := B) hw hP ?_)
  unfold quad
  rw [h0]
  simp

/-- Completion of squares in one step. -/
theorem riccati_square {A : Matrix ν ν ℝ} {B : Matrix ν (Fin nu) ℝ} (Q : Matrix ν ν ℝ) {w : Fin nu → ℝ} (hw : ∀ c, 0 < w c) {P : Matrix ν ν ℝ} (hP : Psd P) (e : ν → ℝ) (u : Fin nu → ℝ) :
    quad Q e + quad (diagonal w) u + quad P (A *ᵥ e + B *ᵥ u) = quad (riccatiStep A B Q (diagonal w) P) e + quad (diagonal w + Bᵀ * P * B) (u + lqrGain A B (diagonal w) P *ᵥ e) := by
  have h : IsDare A B (P - (riccatiStep A B Q (diagonal w) P - Q)) (diagonal w) P := by
    refine ⟨hP.1, input_unit hw hP, ?_⟩
    unfold riccatiStep
    abel
  have := lqr_step h (diagonal_transpose w) e u
  rw [quad_sub, quad_sub] at this
  linarith

theorem psd_step {A : Matrix ν ν ℝ} {B : Matrix ν (Fin nu) ℝ} {Q : Matrix ν ν ℝ} (hQ : Psd Q) {w : Fin nu → ℝ} (hw : ∀ c, 0 < w c) {P : Matrix ν ν ℝ} (hP : Psd P) :
    Psd (riccatiStep A B Q (diagonal w) P) := by
  constructor
  · unfold riccatiStep
    have hS : (diagonal w + Bᵀ * P * B)ᵀ = diagonal w + Bᵀ * P * B := by
      rw [transpose_add, diagonal_transpose, (psd_sandwich hP B).1]
    have hI : ((diagonal w + Bᵀ * P * B)⁻¹)ᵀ = (diagonal w + Bᵀ * P * B)⁻¹ := by rw [transpose_nonsing_inv, hS]
    generalize (diagonal w + Bᵀ * P * B)⁻¹ = I at hI
    simp only [transpose_add, transpose_sub, transpose_mul, transpose_transpose, hQ.1, hP.1, hI, Matrix.mul_assoc]
  · intro e
    have h := riccati_square (A := A) (B := B) Q hw hP e (-(lqrGain A B (diagonal w) P *ᵥ e))
    rw [neg_add_cancel] at h
    have h0 : quad (diagonal w + Bᵀ * P * B) (0 : Fin nu → ℝ) = 0 := by simp [quad]
    rw [h0, add_zero] at h
    rw [← h]
    exact add_nonneg (add_nonneg (hQ.2 _) ((psd_diagonal fun c => (hw c).le).2 _)) (hP.2 _)

theorem psd_riccati {A : Matrix ν ν ℝ} {B : Matrix ν (Fin nu) ℝ} {Q : Matrix ν ν ℝ} (hQ : Psd Q) {w : Fin nu → ℝ} (hw : ∀ c, 0 < w c) {P₀ : Matrix ν ν ℝ} (hP : Psd P₀) (j : Nat) :
    Psd (riccati A B Q (diagonal w) P₀ j) := by
  induction j with
  | zero => exact hP
  | succ j ih => exact psd_step hQ hw ih

/-- Completion of squares over the horizon. -/
theorem horizon_value {A : Matrix ν ν ℝ} {B : Matrix ν (Fin nu) ℝ} {Q : Matrix ν ν ℝ} (hQ : Psd Q) {w : Fin nu → ℝ} (hw : ∀ c, 0 < w c) {P₀ : Matrix ν ν ℝ} (hP : Psd P₀) {t : ν → ℝ} (ht : A *ᵥ t = t)
    (z : ν → ℝ) (u : Nat → Fin nu → ℝ) (N : Nat) :
    lqrCost A B Q (diagonal w) P₀ t z u N = quad (riccati A B Q (diagonal w) P₀ N) (z - t) +
      ∑ k ∈ Finset.range N, quad (diagonal w + Bᵀ * riccati A B Q (diagonal w) P₀ (N - 1 - k) * B) (u k + horizonGain A B Q (diagonal w) P₀ N k *ᵥ (trajectory A B z u k - t)) := by
  have key : ∀ n ≤ N, ∑ k ∈ Finset.range n, (quad Q (trajectory A B z u k - t) + quad (diagonal w) (u k)) + quad (riccati A B Q (diagonal w) P₀ (N - n)) (trajectory A B z u n - t) =
      quad (riccati A B Q (diagonal w) P₀ N) (z - t) +
      ∑ k ∈ Finset.range n, quad (diagonal w + Bᵀ * riccati A B Q (diagonal w) P₀ (N - 1 - k) * B) (u k + horizonGain A B Q (diagonal w) P₀ N k *ᵥ (trajectory A B z u k - t)) := by
    intro n hn
    induction n with
    | zero => simp [trajectory]
    | succ n ih =>
      have ih := ih (by omega)
      have hs := riccati_square (A := A) (B := B) Q hw (psd_riccati (A := A) (B := B) hQ hw hP (N - 1 - n)) (trajectory A B z u n - t) (u n)
      have ht2 : A *ᵥ (trajectory A B z u n - t) + B *ᵥ u n = trajectory A B z u (n + 1) - t := by
        rw [trajectory, mulVec_sub, ht]; abel
      have e1 : riccati A B Q (diagonal w) P₀ (N - n) = riccatiStep A B Q (diagonal w) (riccati A B Q (diagonal w) P₀ (N - 1 - n)) := by
        rw [show N - n = (N - 1 - n) + 1 by omega, riccati]
      rw [ht2] at hs
      rw [e1] at ih
      rw [Finset.sum_range_succ, Finset.sum_range_succ, show N - (n + 1) = N - 1 - n by omega]
      unfold horizonGain at ih ⊢
      linarith
  have := key N le_rfl
  rw [Nat.sub_self] at this
  exact this

omit [DecidableEq ν] in
theorem tracking_lqr [DecidableEq ν] (A : Matrix ν ν ℝ) (B : Matrix ν (Fin nu) ℝ) (C : Matrix (Fin nq) ν ℝ) {N : Nat} (hN : 1 ≤ N) (wr wt : Fin nq → ℝ) (wu : Fin nu → ℝ) (z t : ν → ℝ) (u : Nat → Fin nu → ℝ) :
    trackingCost A B C N wr wt wu z (fun _ => C *ᵥ t) u + quad (Cᵀ * diagonal wr * C) (z - t) = lqrCost A B (Cᵀ * diagonal wr * C) (diagonal wu) (Cᵀ * diagonal wt * C) t z u N := by
  obtain ⟨n, rfl⟩ : ∃ n, N = n + 1 := ⟨N - 1, by omega⟩
  unfold trackingCost lqrCost
  have e : ∀ (w : Fin nq → ℝ) (x : ν → ℝ), quad (Cᵀ * diagonal w * C) (x - t) = ∑ r, w r * ((C *ᵥ x) r - (C *ᵥ t) r) ^ 2 := by
    intro w x
    rw [quad_sandwich, quad_diagonal, mulVec_sub]
    rfl
  simp only [e, quad_diagonal]
  rw [Finset.sum_add_distrib, Finset.sum_add_distrib, Finset.sum_range_succ, Finset.sum_range_succ' (fun k => ∑ r, wr r * ((C *ᵥ trajectory A B z u k) r - (C *ᵥ t) r) ^ 2)]
  have e2 : ∑ x ∈ Finset.range n, ∑ r, (if x + 1 < n + 1 then wr r else wt r) * ((C *ᵥ trajectory A B z u (x + 1)) r - (C *ᵥ t) r) ^ 2 =
      ∑ x ∈ Finset.range n, ∑ r, wr r * ((C *ᵥ trajectory A B z u (x + 1)) r - (C *ᵥ t) r) ^ 2 := by
    refine Finset.sum_congr rfl fun x hx => Finset.sum_congr rfl fun r _ => ?_
    have := Finset.mem_range.1 hx
    rw [if_pos (by omega)]
  rw [e2]
  simp only [lt_self_iff_false, if_false, trajectory]
  ring

omit [DecidableEq ν] in
theorem feedback_trajectory (A : Matrix ν ν ℝ) (B : Matrix ν (Fin nu) ℝ) (Q : Matrix ν ν ℝ) (R : Matrix (Fin nu) (Fin nu) ℝ) (P₀ : Matrix ν ν ℝ) (N : Nat) (z t : ν → ℝ) (i : Nat) :
    trajectory A B z (feedbackInput A B Q R P₀ N z t) i = feedbackState A B Q R P₀ N z t i := by
  induction i with
  | zero => rfl
  | succ i ih => rw [trajectory, ih, feedbackState]; rfl

/-- The feedback has the least cost, and every input sequence with the least cost is the feedback. -/
theorem feedback_unique {A : Matrix ν ν ℝ} {B : Matrix ν (Fin nu) ℝ} {Q : Matrix ν ν ℝ} (hQ : Psd Q) {w : Fin nu → ℝ} (hw : ∀ c, 0 < w c) {P₀ : Matrix ν ν ℝ} (hP : Psd P₀) {t : ν → ℝ} (ht : A *ᵥ t = t)
    (z : ν → ℝ) (N : Nat) (u : Nat → Fin nu → ℝ) (h : lqrCost A B Q (diagonal w) P₀ t z u N ≤ lqrCost A B Q (diagonal w) P₀ t z (feedbackInput A B Q (diagonal w) P₀ N z t) N) :
    ∀ i < N, u i = feedbackInput A B Q (diagonal w) P₀ N z t i := by
  rw [horizon_value hQ hw hP ht, horizon_value hQ hw hP ht] at h
  have e1 : ∑ k ∈ Finset.range N, quad (diagonal w + Bᵀ * riccati A B Q (diagonal w) P₀ (N - 1 - k) * B) (feedbackInput A B Q (diagonal w) P₀ N z t k +
      horizonGain A B Q (diagonal w) P₀ N k *ᵥ (trajectory A B z (feedbackInput A B Q (diagonal w) P₀ N z t) k - t)) = 0 := by
    refine Finset.sum_eq_zero fun k _ => ?_
    rw [feedback_trajectory, feedbackInput, neg_add_cancel]
    simp [quad]
  rw [e1, add_zero] at h
  have hn : ∀ k, 0 ≤ quad (diagonal w + Bᵀ * riccati A B Q (diagonal w) P₀ (N - 1 - k) * B) (u k + horizonGain A B Q (diagonal w) P₀ N k *ᵥ (trajectory A B z u k - t)) := by
    intro k
    exact le_trans (Finset.sum_nonneg fun c _ => mul_nonneg (hw c).le (sq_nonneg _)) (quad_input (psd_riccati hQ hw hP _) _)
  have h0 := le_antisymm (by linarith) (Finset.sum_nonneg (s := Finset.range N) fun k _ => hn k)
  have h1 := (Finset.sum_eq_zero_iff_of_nonneg fun k _ => hn k).1 h0
  intro i
  induction i using Nat.strong_induction_on with
  | _ i ih =>
    intro hi
    have h2 := quad_input_zero hw (psd_riccati (A := A) (B := B) hQ hw hP _) (h1 i (Finset.mem_range.2 hi)).le
    have h3 : trajectory A B z u i = feedbackState A B Q (diagonal w) P₀ N z t i := by
      rw [← feedback_trajectory]
      exact trajectory_congr _ _ _ _ _ _ fun k hk => ih k hk (by omega)
    rw [h3] at h2
    exact eq_neg_of_add_eq_zero_left h2

/-- A quadratic form is bounded by the absolute values of its matrix times any sum of squares with positive weights. -/
theorem quad_weighted {κ : Type} [Fintype κ] (P : Matrix κ κ ℝ) {w : κ → ℝ} (hw : ∀ r, 0 < w r) (y : κ → ℝ) :
    quad P y ≤ ((∑ i, ∑ j, |P i j|) * ∑ r, (w r)⁻¹) * ∑ r, w r * y r ^ 2 := by
  set S := ∑ r, w r * y r ^ 2 with hS
  have hle : ∀ r, y r ^ 2 ≤ (w r)⁻¹ * S := by
    intro r
    have h1 : w r * y r ^ 2 ≤ S := Finset.single_le_sum (f := fun r => w r * y r ^ 2) (fun r _ => mul_nonneg (hw r).le (sq_nonneg _)) (Finset.mem_univ r)
    calc y r ^ 2 = (w r)⁻¹ * (w r * y r ^ 2) := by rw [← mul_assoc, inv_mul_cancel₀ (hw r).ne', one_mul]
      _ ≤ (w r)⁻¹ * S := mul_le_mul_of_nonneg_left h1 (inv_pos.2 (hw r)).le
  have hS0 : 0 ≤ S := Finset.sum_nonneg fun r _ => mul_nonneg (hw r).le (sq_nonneg _)
  have hle2 : ∀ r, y r ^ 2 ≤ (∑ r, (w r)⁻¹) * S := fun r => (hle r).trans
    (mul_le_mul_of_nonneg_right (Finset.single_le_sum (f := fun r => (w r)⁻¹) (fun r _ => (inv_pos.2 (hw r)).le) (Finset.mem_univ r)) hS0)
  have e : quad P y = ∑ i, ∑ j, y i * (P i j * y j) := by
    simp [quad, dotProduct, mulVec, Finset.mul_sum]
  rw [e, mul_assoc, Finset.sum_mul]
  refine Finset.sum_le_sum fun i _ => ?_
  rw [Finset.sum_mul]
  refine Finset.sum_le_sum fun j _ => ?_
  have h1 : y i * (P i j * y j) ≤ |P i j| * ((y i ^ 2 + y j ^ 2) / 2) := by
    calc y i * (P i j * y j) ≤ |y i * (P i j * y j)| := le_abs_self _
      _ = |P i j| * (|y i| * |y j|) := by rw [abs_mul, abs_mul]; ring
      _ ≤ _ := by
        refine mul_le_mul_of_nonneg_left ?_ (abs_nonneg _)
        have := sq_nonneg (|y i| - |y j|)
        rw [← sq_abs (y i), ← sq_abs (y j)]
        linarith
  refine h1.trans (mul_le_mul_of_nonneg_left ?_ (abs_nonneg _))
  linarith [hle2 i, hle2 j]

theorem quad_le_weighted {κ : Type} [Fintype κ] (P : Matrix κ κ ℝ) {w : κ → ℝ} (hw : ∀ r, 0 < w r) : ∃ K : ℝ, 0 ≤ K ∧ ∀ y : κ → ℝ, quad P y ≤ K * ∑ r, w r * y r ^ 2 :=
  ⟨(∑ i, ∑ j, |P i j|) * ∑ r, (w r)⁻¹, mul_nonneg (Finset.sum_nonneg fun i _ => Finset.sum_nonneg fun j _ => abs_nonneg _) (Finset.sum_nonneg fun r _ => (inv_pos.2 (hw r)).le), quad_weighted P hw⟩

/-- A solution of the Riccati equation is a fixed point of the recursion. -/
theorem riccati_fixed {A : Matrix ν ν ℝ} {B : Matrix ν (Fin nu) ℝ} {Q : Matrix ν ν ℝ} {R : Matrix (Fin nu) (Fin nu) ℝ} {P : Matrix ν ν ℝ} (h : IsDare A B Q R P) (j : Nat) : riccati A B Q R P j = P := by
  induction j with
  | zero => rfl
  | succ j ih => rw [riccati, ih]; exact h.eq.symm

/-- The cost over the horizon is at least the value of the recursion. -/
theorem riccati_le_cost {A : Matrix ν ν ℝ} {B : Matrix ν (Fin nu) ℝ} {Q : Matrix ν ν ℝ} (hQ : Psd Q) {w : Fin nu → ℝ} (hw : ∀ c, 0 < w c) {P₀ : Matrix ν ν ℝ} (hP : Psd P₀)
    (v : ν → ℝ) (u : Nat → Fin nu → ℝ) (N : Nat) : quad (riccati A B Q (diagonal w) P₀ N) v ≤ lqrCost A B Q (diagonal w) P₀ 0 v u N := by
  rw [horizon_value hQ hw hP (t := 0) (by simp) v u N, sub_zero]
  refine le_add_of_nonneg_right (Finset.sum_nonneg fun k _ => ?_)
  exact le_trans (Finset.sum_nonneg fun c _ => mul_nonneg (hw c).le (sq_nonneg _)) (quad_input (psd_riccati hQ hw hP _) _)

/-- The value of the recursion is the cost of its feedback. -/
theorem riccati_cost {A : Matrix ν ν ℝ} {B : Matrix ν (Fin nu) ℝ} {Q : Matrix ν ν ℝ} (hQ : Psd Q) {w : Fin nu → ℝ} (hw : ∀ c, 0 < w c) {P₀ : Matrix ν ν ℝ} (hP : Psd P₀)
    (v : ν → ℝ) (N : Nat) : lqrCost A B Q (diagonal w) P₀ 0 v (feedbackInput A B Q (diagonal w) P₀ N v 0) N = quad (riccati A B Q (diagonal w) P₀ N) v := by
  rw [horizon_value hQ hw hP (t := 0) (by simp), sub_zero]
  rw [Finset.sum_eq_zero, add_zero]
  intro k _
  rw [feedback_trajectory, feedbackInput, neg_add_cancel]
  simp [quad]

/-- The values of the recursion converge to those of a solution of the Riccati equation. -/
theorem riccati_tendsto {A : Matrix ν ν ℝ} {B : Matrix ν (Fin nu) ℝ} {Q : Matrix ν ν ℝ} (hQ : Psd Q) {w : Fin nu → ℝ} (hw : ∀ c, 0 < w c) {P₀ P : Matrix ν ν ℝ} (hP₀ : Psd P₀) (hP : Psd P)
    (h : IsDare A B Q (diagonal w) P) {K K₀ : ℝ} (hK : 0 ≤ K) (hPQ : ∀ v, quad P v ≤ K * quad Q v) (hK₀ : 0 ≤ K₀) (hPQ₀ : ∀ v, quad P₀ v ≤ K₀ * quad Q v) (v : ν → ℝ) :
    Tendsto (fun N => quad (riccati A B Q (diagonal w) P₀ N) v) atTop (𝓝 (quad P v)) := by
  have hstage : ∀ (u : Nat → Fin nu → ℝ) (k : Nat), 0 ≤ quad Q (trajectory A B v u k - 0) + quad (diagonal w) (u k) :=
    fun u k => add_nonneg (hQ.2 _) ((psd_diagonal fun c => (hw c).le).2 _)
  have hsq : ∀ x, 0 ≤ quad (diagonal w + Bᵀ * P * B) x := fun x => le_trans (Finset.sum_nonneg fun c _ => mul_nonneg (hw c).le (sq_nonneg _)) (quad_input hP x)
  -- the feedback of the solution
  set u := feedbackInput A B Q (diagonal w) P 0 v 0 with hu
  have hcost : ∀ N, lqrCost A B Q (diagonal w) P 0 v u N = quad P v := by
    intro N
    rw [lqr_value h (diagonal_transpose w) (t := 0) (by simp), sub_zero, Finset.sum_eq_zero, add_zero]
    intro k _
    rw [hu, feedback_trajectory, feedbackInput, horizonGain, riccati_fixed h, neg_add_cancel]
    simp [quad]
  have hsum : ∀ N, ∑ k ∈ Finset.range N, quad Q (trajectory A B v u k) ≤ quad P v := by
    intro N
    have h1 := hcost N
    unfold lqrCost at h1
    rw [Finset.sum_add_distrib] at h1
    simp only [sub_zero] at h1
    have h2 := hP.2 (trajectory A B v u N)
    have h3 : 0 ≤ ∑ k ∈ Finset.range N, quad (diagonal w) (u k) := Finset.sum_nonneg fun k _ => (psd_diagonal fun c => (hw c).le).2 _
    linarith
  have hz : Tendsto (fun N => quad Q (trajectory A B v u N)) atTop (𝓝 0) := (summable_of_sum_range_le (fun k => hQ.2 _) hsum).tendsto_atTop_zero
  have hup : ∀ N, quad (riccati A B Q (diagonal w) P₀ N) v ≤ quad P v + K₀ * quad Q (trajectory A B v u N) := by
    intro N
    have h1 := riccati_le_cost (A := A) (B := B) hQ hw hP₀ v u N
    have h2 := hcost N
    unfold lqrCost at h1 h2
    rw [sub_zero] at h1 h2
    linarith [hPQ₀ (trajectory A B v u N), hP.2 (trajectory A B v u N)]
  set c := quad P v + K₀ * quad P v with hc
  have hbound : ∀ N, quad (riccati A B Q (diagonal w) P₀ N) v ≤ c := by
    intro N
    have h1 := hsum (N + 1)
    have h2 : quad Q (trajectory A B v u N) ≤ quad P v := le_trans (Finset.single_le_sum (f := fun k => quad Q (trajectory A B v u k)) (fun k _ => hQ.2 _) (Finset.self_mem_range_succ N)) h1
    have h3 := mul_le_mul_of_nonneg_left h2 hK₀
    linarith [hup N]
  have hlow : ∀ N : Nat, quad P v - K * (c / (N + 1 : ℝ)) ≤ quad (riccati A B Q (diagonal w) P₀ (N + 1)) v := by
    intro N
    have h1 := riccati_cost (A := A) (B := B) hQ hw hP₀ v (N + 1)
    set g := feedbackInput A B Q (diagonal w) P₀ (N + 1) v 0 with hg
    have h2 : ∑ k ∈ Finset.range (N + 1), quad Q (trajectory A B v g k - 0) ≤ c := by
      have h3 := hbound (N + 1)
      rw [← h1] at h3
      unfold lqrCost at h3
      rw [Finset.sum_add_distrib] at h3
      have h4 : 0 ≤ ∑ k ∈ Finset.range (N + 1), quad (diagonal w) (g k) := Finset.sum_nonneg fun k _ => (psd_diagonal fun c => (hw c).le).2 _
      linarith [hP₀.2 (trajectory A B v g (N + 1) - 0)]
    have h3 : ∃ k ∈ Finset.range (N + 1), quad Q (trajectory A B v g k - 0) ≤ c / (N + 1 : ℝ) := by
      refine Finset.exists_le_of_sum_le ⟨0, by simp⟩ (h2.trans ?_)
      rw [Finset.sum_const, Finset.card_range, nsmul_eq_mul]
      push_cast
      rw [mul_div_cancel₀]
      positivity
    obtain ⟨k, hk, h4⟩ := h3
    have hk := Finset.mem_range.1 hk
    have h5 : quad P v ≤ lqrCost A B Q (diagonal w) P 0 v g k := by
      rw [lqr_value h (diagonal_transpose w) (t := 0) (by simp), sub_zero]
      exact le_add_of_nonneg_right (Finset.sum_nonneg fun k _ => hsq _)
    have h6 : ∑ i ∈ Finset.range k, (quad Q (trajectory A B v g i - 0) + quad (diagonal w) (g i)) ≤ ∑ i ∈ Finset.range (N + 1), (quad Q (trajectory A B v g i - 0) + quad (diagonal w) (g i)) :=
      Finset.sum_le_sum_of_subset_of_nonneg (Finset.range_mono hk.le) fun i _ _ => hstage g i
    rw [← h1]
    unfold lqrCost at h5 ⊢
    have h7 := hPQ (trajectory A B v g k - 0)
    have h8 := mul_le_mul_of_nonneg_left h4 hK
    linarith [hP₀.2 (trajectory A B v g (N + 1) - 0)]
  rw [← tendsto_add_atTop_iff_nat 1]
  refine tendsto_of_tendsto_of_tendsto_of_le_of_le (g := fun N : Nat => quad P v - K * (c / (N + 1 : ℝ))) (h := fun N : Nat => quad P v + K₀ * quad Q (trajectory A B v u (N + 1))) ?_ ?_ hlow (fun N => hup (N + 1))
  · have h1 : Tendsto (fun N : Nat => c / (N + 1 : ℝ)) atTop (𝓝 0) := by
      have := (tendsto_one_div_add_atTop_nhds_zero_nat (𝕜 := ℝ)).const_mul c
      simpa [div_eq_mul_inv] using this
    simpa using (h1.const_mul K).const_sub (quad P v)
  · have h1 := hz.comp (tendsto_add_atTop_nat 1)
    simpa using (h1.const_mul K₀).const_add (quad P v)

/-- A symmetric matrix is determined by its quadratic form. -/
theorem quad_polar {M : Matrix ν ν ℝ} (hM : Mᵀ = M) (i j : ν) : M i j = (quad M (Pi.single i 1 + Pi.single j 1) - quad M (Pi.single i 1) - quad M (Pi.single j 1)) / 2 := by
  have h : M j i = M i j := congrFun (congrFun hM i) j
  simp only [quad, mulVec_add, add_dotProduct, dotProduct_add, mulVec_single_one, single_one_dotProduct, col_apply]
  rw [h]
  ring

/-- The feedback for long horizons is that of the solution of the Riccati equation. -/
theorem gain_tendsto {A : Matrix ν ν ℝ} {B : Matrix ν (Fin nu) ℝ} {w : Fin nu → ℝ} {P : Matrix ν ν ℝ} (hu : IsUnit (diagonal w + Bᵀ * P * B).det) {M : Nat → Matrix ν ν ℝ} (hM : ∀ N, (M N)ᵀ = M N)
    (hP : Pᵀ = P) (h : ∀ v, Tendsto (fun N => quad (M N) v) atTop (𝓝 (quad P v))) : Tendsto (fun N => lqrGain A B (diagonal w) (M N)) atTop (𝓝 (lqrGain A B (diagonal w) P)) := by
  have h1 : Tendsto M atTop (𝓝 P) := by
    refine tendsto_pi_nhds.2 fun i => tendsto_pi_nhds.2 fun j => ?_
    rw [quad_polar hP i j]
    simp only [quad_polar (hM _) i j]
    exact (((h _).sub (h _)).sub (h _)).div_const 2
  have h2 : ContinuousAt (fun X : Matrix ν ν ℝ => lqrGain A B (diagonal w) X) P := by
    have h3 : ContinuousAt (fun X : Matrix ν ν ℝ => diagonal w + Bᵀ * X * B) P := by
      refine Continuous.continuousAt ?_
      fun_prop
    have h4 : ContinuousAt (fun X : Matrix ν ν ℝ => (diagonal w + Bᵀ * X * B)⁻¹) P := by
      refine ContinuousAt.comp (f := fun X : Matrix ν ν ℝ => diagonal w + Bᵀ * X * B) (g := fun Y => Y⁻¹) (continuousAt_matrix_inv _ ?_) h3
      rw [Ring.inverse_eq_inv']
      exact continuousAt_inv₀ hu.ne_zero
    unfold lqrGain
    have h5 : Continuous (fun p : Matrix (Fin nu) (Fin nu) ℝ × Matrix ν ν ℝ => p.1 * Bᵀ * p.2 * A) := by fun_prop
    exact ContinuousAt.comp (f := fun X : Matrix ν ν ℝ => ((diagonal w + Bᵀ * X * B)⁻¹, X)) (g := fun p => p.1 * Bᵀ * p.2 * A) h5.continuousAt (h4.prodMk continuousAt_id)
  exact h2.tendsto.comp h1

/-! ## Property theorems -/

/-- **C238 (feedback).** Let the reference be constant and belong to a state `t` at which the uncontrolled model rests, and let the input weights be positive.  If the inputs of the Riccati feedback for the horizon stay
within the bounds, they are what `control_sequence_horizon` returns; in particular without bounds. -/
theorem C238_feedback (k : Kmpc ν nq nu) (hh : 2 ≤ k.horizon) (hb : BoundsShape k) {wr wt : Fin nq → ℝ} {wu : Fin nu → ℝ} (hr : CostIs k.running wr)
    (ht : CostIs k.terminal wt) (hu : CostIs k.input wu) (h0 : ∃ r, wt r ≠ 0) (hpos : ∀ c, 0 < wu c) (dt t₀ : Int) (z₀ : ν → ℝ) {t : ν → ℝ} (hA : k.A *ᵥ t = t)
    (ref : List (Int × (Fin nq → ℝ))) (href : ∀ r ∈ ref, r.2 = k.C *ᵥ t) (out : List (Int × (Fin nu → ℝ))) (h : IsControlSequence k dt t₀ z₀ ref (.ok out))
    (hin : WithinBounds k.A k.B k.C k.horizon k.stateBounds k.inputBounds z₀ (feedbackInput k.A k.B (k.Cᵀ * diagonal wr * k.C) (diagonal wu) (k.Cᵀ * diagonal wt * k.C) k.horizon z₀ t)) :
    ∀ i < k.horizon, inputAt out i = feedbackInput k.A k.B (k.Cᵀ * diagonal wr * k.C) (diagonal wu) (k.Cᵀ * diagonal wt * k.C) k.horizon z₀ t i := by
  obtain ⟨s, hs, -⟩ := C39_objective_partial k hh hb hr ht hu h0 z₀ (fun i => (ref.getD i (0, fun _ => 0)).2)
  obtain ⟨-, hl, -⟩ := (isControl_ok hs).1 h
  have hm := (C39_optimal_partial k hh hb hr ht hu h0 dt t₀ z₀ ref out h).2.2 _ hin
  have e : ∀ u, trackingCost k.A k.B k.C k.horizon wr wt wu z₀ (fun i => (ref.getD i (0, fun _ => 0)).2) u = trackingCost k.A k.B k.C k.horizon wr wt wu z₀ (fun _ => k.C *ᵥ t) u := by
    intro u
    unfold trackingCost
    refine Finset.sum_congr rfl fun i hi => ?_
    have hi := Finset.mem_range.1 hi
    have : (ref.getD i (0, fun _ => 0)).2 = k.C *ᵥ t := by
      rw [List.getD_eq_getElem?_getD, List.getElem?_eq_getElem (by omega)]
      exact href _ (List.getElem_mem _)
    simp only [this]
  rw [e, e] at hm
  refine feedback_unique (psd_sandwich (psd_diagonal hr.1) _) hpos (psd_sandwich (psd_diagonal ht.1) _) hA z₀ k.horizon (inputAt out) ?_
  rw [← tracking_lqr _ _ _ (by omega), ← tracking_lqr _ _ _ (by omega)]
  linarith

/-- **C238 (LQR).** If the terminal weights solve the Riccati equation of LQR, then for every horizon the first input is that of LQR with the same weights and target. -/
theorem C238_lqr (k : Kmpc ν nq nu) (hh : 2 ≤ k.horizon) (hb : BoundsShape k) {wr wt : Fin nq → ℝ} {wu : Fin nu → ℝ} (hr : CostIs k.running wr)
    (ht : CostIs k.terminal wt) (hu : CostIs k.input wu) (h0 : ∃ r, wt r ≠ 0) (hpos : ∀ c, 0 < wu c) (hd : IsDare k.A k.B (k.Cᵀ * diagonal wr * k.C) (diagonal wu) (k.Cᵀ * diagonal wt * k.C))
    (dt t₀ : Int) (z₀ : ν → ℝ) {t : ν → ℝ} (hA : k.A *ᵥ t = t)
    (ref : List (Int × (Fin nq → ℝ))) (href : ∀ r ∈ ref, r.2 = k.C *ᵥ t) (out : List (Int × (Fin nu → ℝ))) (h : IsControlSequence k dt t₀ z₀ ref (.ok out)) (hs : k.stateBounds = none) (hi : k.inputBounds = none) :
    inputAt out 0 = -(lqrGain k.A k.B (diagonal wu) (k.Cᵀ * diagonal wt * k.C) *ᵥ (z₀ - t)) ∧
      (nu = 1 → lqrControl (lqrGain k.A k.B (diagonal wu) (k.Cᵀ * diagonal wt * k.C)) z₀ t = .ok (inputAt out 0)) := by
  have h1 := C238_feedback k hh hb hr ht hu h0 hpos dt t₀ z₀ hA ref href out h ⟨by simp [hs], by simp [hi]⟩ 0 (by omega)
  rw [feedbackInput, horizonGain, riccati_fixed hd] at h1
  refine ⟨h1, fun hn => ?_⟩
  unfold lqrControl
  rw [if_neg (by omega), h1]
  rfl

/-- **C238 (long horizons).** Let the states be determined by the tracked quantities (`D` reconstructs them), all weights be positive, `P` be a positive semidefinite solution of the Riccati equation of LQR with the running weights,
and no bounds be given.  Then the first input computed by `KMPC` tends to that of LQR as the horizon grows, whatever the terminal weights are. -/
theorem C238_limit (k : Kmpc ν nq nu) {D : Matrix ν (Fin nq) ℝ} (hD : D * k.C = 1) {wr wt : Fin nq → ℝ} {wu : Fin nu → ℝ} (hr : CostIs k.running wr)
    (ht : CostIs k.terminal wt) (hu : CostIs k.input wu) (h0 : ∃ r, wt r ≠ 0) (hpos : ∀ c, 0 < wu c) (hrpos : ∀ r, 0 < wr r) {P : Matrix ν ν ℝ} (hd : IsDare k.A k.B (k.Cᵀ * diagonal wr * k.C) (diagonal wu) P)
    (hP : ∀ v, 0 ≤ quad P v) (dt t₀ : Int) (z₀ : ν → ℝ) {t : ν → ℝ} (hA : k.A *ᵥ t = t) (hs : k.stateBounds = none) (hi : k.inputBounds = none)
    (ref : Nat → List (Int × (Fin nq → ℝ))) (href : ∀ h, ∀ r ∈ ref h, r.2 = k.C *ᵥ t) (out : Nat → List (Int × (Fin nu → ℝ)))
    (h : ∀ h, 2 ≤ h → IsControlSequence { k with horizon := h } dt t₀ z₀ (ref h) (.ok (out h))) :
    Tendsto (fun h => inputAt (out h) 0) atTop (𝓝 (-(lqrGain k.A k.B (diagonal wu) P *ᵥ (z₀ - t)))) := by
  have hQ := psd_sandwich (psd_diagonal hr.1) k.C
  have hP₀ := psd_sandwich (psd_diagonal ht.1) k.C
  have hqQ : ∀ v, quad (k.Cᵀ * diagonal wr * k.C) v = ∑ r, wr r * (k.C *ᵥ v) r ^ 2 := fun v => by rw [quad_sandwich, quad_diagonal]
  obtain ⟨K, hK, hK1⟩ := quad_le_weighted (Dᵀ * P * D) hrpos
  obtain ⟨K₀, hK₀, hK2⟩ := quad_le_weighted (diagonal wt) hrpos
  have hlim := riccati_tendsto hQ hpos hP₀ ⟨hd.symm, hP⟩ hd hK (fun v => by
    have := hK1 (k.C *ᵥ v)
    rwa [quad_sandwich, mulVec_mulVec, hD, one_mulVec, ← hqQ] at this) hK₀ (fun v => by
    have := hK2 (k.C *ᵥ v)
    rwa [← quad_sandwich, ← hqQ] at this)
  have hgain := gain_tendsto (A := k.A) hd.unit (fun N => (psd_riccati (A := k.A) (B := k.B) hQ hpos hP₀ N).1) hd.symm hlim
  have hcont : Continuous (fun F : Matrix (Fin nu) ν ℝ => -(F *ᵥ (z₀ - t))) := by fun_prop
  have h1 := ((hcont.tendsto _).comp hgain).comp (tendsto_sub_atTop_nat 1)
  refine h1.congr' ?_
  filter_upwards [eventually_ge_atTop 2] with n hn
  have h2 := C238_feedback { k with horizon := n } hn ⟨by simp [hs], by simp [hi]⟩ hr ht hu h0 hpos dt t₀ z₀ hA (ref n) (href n) (out n) (h n hn) ⟨by simp [hs], by simp [hi]⟩ 0 (by simp only []; omega)
  rw [h2]
  rfl

end riccati

/-! ## Non-vacuity -/

/-- A controller without bounds: one state `z' = z + u`, running weight 1, input weight 2. -/
noncomputable def horizonK (c : ℝ) (n : Nat) : Kmpc (Fin 1) 1 1 := ⟨n, 1, 1, 1, none, none, .number 1, .number c, .number 2⟩

theorem horizonK_dare : IsDare (1 : Matrix (Fin 1) (Fin 1) ℝ) 1 ((1 : Matrix (Fin 1) (Fin 1) ℝ)ᵀ * diagonal (fun _ => 1) * 1) (diagonal (fun _ : Fin 1 => 2)) (diagonal (fun _ => 2)) := by
  have h4 : (diagonal (fun _ : Fin 1 => (2 : ℝ)) + (1 : Matrix (Fin 1) (Fin 1) ℝ)ᵀ * diagonal (fun _ => 2) * 1) = diagonal (fun _ => 4) := by
    rw [transpose_one, Matrix.one_mul, Matrix.mul_one, diagonal_add]
    norm_num
  have hinv : (diagonal (fun _ : Fin 1 => (4 : ℝ)))⁻¹ = diagonal (fun _ => 1 / 4) := by
    refine inv_eq_right_inv ?_
    rw [diagonal_mul_diagonal]
    norm_num
  refine ⟨diagonal_transpose _, ?_, ?_⟩
  · rw [h4]; simp
  · rw [h4, hinv]
    simp only [transpose_one, Matrix.one_mul, Matrix.mul_one, diagonal_mul_diagonal, diagonal_sub, diagonal_add]
    norm_num

theorem horizonK_exists {c : ℝ} (hc : 0 < c) (n : Nat) (hn : 2 ≤ n) (z t : Fin 1 → ℝ) : ∃ out, IsControlSequence (horizonK c n) 1 0 z ((List.range n).map (fun i => ((i : Int) + 1, t))) (.ok out) := by
  refine C39_exists (horizonK c n) hn ⟨by simp [horizonK], by simp [horizonK]⟩ (wr := fun _ => 1) (wt := fun _ => c) (wu := fun _ => 2) ?_ ?_ ?_ ⟨0, hc.ne'⟩ (fun _ => by norm_num) 1 0 _ _ ?_ ?_
    ⟨fun _ _ => 0, by simp [horizonK], by simp [horizonK]⟩
  · exact ⟨fun _ => zero_le_one, Or.inl ⟨1, zero_le_one, rfl, fun _ => rfl⟩⟩
  · exact ⟨fun _ => hc.le, Or.inl ⟨c, hc.le, rfl, fun _ => rfl⟩⟩
  · exact ⟨fun _ => by norm_num, Or.inl ⟨2, by norm_num, rfl, fun _ => rfl⟩⟩
  · obtain ⟨m, rfl⟩ : ∃ m, n = m + 1 := ⟨n - 1, by omega⟩
    simp [List.range_succ_eq_map]
  · simp [horizonK]

/-- The hypotheses are met: with terminal weight 2 (a solution of the Riccati equation) the first input is `-(z - t) / 2` for the horizon 5, and with the terminal weight 7 it tends to this value. -/
example (z t : Fin 1 → ℝ) :
    (∃ ref out, IsControlSequence (horizonK 2 5) 1 0 z ref (.ok out) ∧ inputAt out 0 = -(lqrGain (1 : Matrix (Fin 1) (Fin 1) ℝ) 1 (diagonal fun _ : Fin 1 => 2) ((1 : Matrix (Fin 1) (Fin 1) ℝ)ᵀ * diagonal (fun _ => 2) * 1) *ᵥ (z - t))) ∧
    ∃ (ref : Nat → List (Int × (Fin 1 → ℝ))) (out : Nat → List (Int × (Fin 1 → ℝ))), (∀ n, 2 ≤ n → IsControlSequence (horizonK 7 n) 1 0 z (ref n) (.ok (out n))) ∧
      Tendsto (fun n => inputAt (out n) 0) atTop (𝓝 (-(lqrGain (1 : Matrix (Fin 1) (Fin 1) ℝ) 1 (diagonal fun _ : Fin 1 => 2) (diagonal fun _ => 2) *ᵥ (z - t)))) := by
  have hr : ∀ c n, CostIs (n := 1) (horizonK c n).running (fun _ => 1) := fun _ _ => ⟨fun _ => zero_le_one, Or.inl ⟨1, zero_le_one, rfl, fun _ => rfl⟩⟩
  have hu : ∀ c n, CostIs (n := 1) (horizonK c n).input (fun _ => 2) := fun _ _ => ⟨fun _ => by norm_num, Or.inl ⟨2, by norm_num, rfl, fun _ => rfl⟩⟩
  have ht : ∀ c n, 0 < c → CostIs (n := 1) (horizonK c n).terminal (fun _ => c) := fun c _ h => ⟨fun _ => h.le, Or.inl ⟨c, h.le, rfl, fun _ => rfl⟩⟩
  constructor
  · obtain ⟨out, ho⟩ := horizonK_exists (c := 2) (by norm_num) 5 (by norm_num) z t
    refine ⟨_, out, ho, (C238_lqr (horizonK 2 5) (by simp [horizonK]) ⟨by simp [horizonK], by simp [horizonK]⟩ (hr _ _) (ht _ _ (by norm_num)) (hu _ _) ⟨0, by norm_num⟩ (fun _ => by norm_num) ?_ 1 0 z (t := t)
      (by simp [horizonK]) _ ?_ out ho rfl rfl).1⟩
    · have := horizonK_dare
      simpa [horizonK] using this
    · intro r hr
      obtain ⟨i, -, rfl⟩ := List.mem_map.1 hr
      simp [horizonK]
  · choose! out ho using fun n (hn : 2 ≤ n) => horizonK_exists (c := 7) (by norm_num) n hn z t
    refine ⟨_, out, ho, C238_limit (horizonK 7 2) (D := 1) (by simp [horizonK]) (hr _ _) (ht _ _ (by norm_num)) (hu _ _) ⟨0, by norm_num⟩ (fun _ => by norm_num) (fun _ => one_pos) horizonK_dare ?_ 1 0 z (t := t)
      (by simp [horizonK]) rfl rfl _ ?_ out ho⟩
    · exact (psd_diagonal fun _ => by norm_num).2
    · intro n r hr
      obtain ⟨i, -, rfl⟩ := List.mem_map.1 hr
      simp [horizonK]

end Verif.Mpc
