import Verif.Mpc.AffineMpc
import Mathlib.Analysis.ODE.ExistUnique
import Mathlib.Analysis.Normed.Module.FiniteDimension
import Mathlib.MeasureTheory.Integral.DivergenceTheorem
import Mathlib.MeasureTheory.Integral.IntervalIntegral.Basic
import Mathlib.Analysis.SpecialFunctions.ExpDeriv
import Mathlib.Topology.Algebra.Module.FiniteDimension
/-!
# Properties of the control-affine controller

C173: the lifted initial state belongs to the state the caller asks for.
C174: the Jacobian given to the optimiser is the derivative of the cost.
-/

namespace Verif.Mpc

open Matrix

/-! ## C173 -/

section cache

variable {State Lifted : Type} [DecidableEq State]

/-- The caller never overwrites an array it has passed to the controller before (`used`: the arrays passed so far). -/
def NeverReused : List Nat → List (McOp State) → Prop
  | _, [] => True
  | used, .write a _ :: l => a ∉ used ∧ NeverReused used l
  | used, .call a :: l => NeverReused (a :: used) l

theorem run_fresh (lift : State → Lifted) (l : List (McOp State)) : ∀ (h : Heap State) (c : LiftCache Lifted) (used : List Nat), NeverReused used l →
    (∀ b, c.ref = some b → b ∈ used ∧ c.lifted = some (lift (h b))) → ∀ p ∈ runOps lift h c l, p.2 = some (lift p.1) := by
  induction l with
  | nil => intro h c used _ _ p hp; simp [runOps] at hp
  | cons op l ih =>
    intro h c used hn hc p hp
    cases op with
    | write a v =>
      refine ih _ c used hn.2 (fun b hb => ?_) p hp
      obtain ⟨h1, h2⟩ := hc b hb
      refine ⟨h1, ?_⟩
      rw [Function.update_of_ne (by rintro rfl; exact hn.1 h1)]; exact h2
    | call a =>
      have hstep : (useLift lift h c a).1 = some (lift (h a)) ∧ ∀ b, (useLift lift h c a).2.ref = some b → b ∈ a :: used ∧ (useLift lift h c a).2.lifted = some (lift (h b)) := by
        unfold useLift
        cases hr : c.ref with
        | none =>
          have : needsLift h c a = true := by simp [needsLift, hr]
          rw [if_pos this]
          exact ⟨rfl, fun b hb => by simp only [Option.some.injEq] at hb; subst hb; exact ⟨by simp, rfl⟩⟩
        | some b =>
          obtain ⟨h1, h2⟩ := hc b hr
          by_cases he : h b = h a
          · have : needsLift h c a = false := by simp [needsLift, hr, he]
            rw [this]
            simp only [Bool.false_eq_true, if_false]
            refine ⟨by rw [h2, he], fun b' hb' => ?_⟩
            rw [hr] at hb'; cases hb'
            exact ⟨List.mem_cons_of_mem _ h1, h2⟩
          · have : needsLift h c a = true := by simp [needsLift, hr, he]
            rw [if_pos this]
            exact ⟨rfl, fun b hb => by simp only [Option.some.injEq] at hb; subst hb; exact ⟨by simp, rfl⟩⟩
      rcases List.mem_cons.1 hp with rfl | hp
      · exact hstep.1
      · exact ih h _ (a :: used) hn hstep.2 p hp

/-- **C173 (partial).** For every program that does not overwrite an array after it was passed to the controller, every control signal is computed from the lift of the state that
was asked for; the cache has no effect.  Missing: arrays that are updated in place (`C173_violated`). -/
theorem C173_lift_partial (lift : State → Lifted) (h : Heap State) (l : List (McOp State)) (hl : NeverReused [] l) :
    ∀ p ∈ runOps lift h LiftCache.empty l, p.2 = some (lift p.1) :=
  run_fresh lift l h _ [] hl (fun b hb => by simp [LiftCache.empty] at hb)

/-- non-vacuity: two arrays, three calls -/
example : NeverReused [] ([.write 0 (5 : ℤ), .call 0, .write 1 7, .call 1, .call 0] : List (McOp ℤ)) ∧
    runOps (fun s : ℤ => s * s) (fun _ => 0) LiftCache.empty [.write 0 5, .call 0, .write 1 7, .call 1, .call 0] = [(5, some 25), (7, some 49), (5, some 25)] := by
  refine ⟨by simp [NeverReused], by decide +kernel⟩

/-- **C173 (violated).** A program that keeps its state in one array and updates it in place gets, at every later call, the lift of the *first* state. -/
theorem C173_violated (lift : State → Lifted) (h : Heap State) (a : Nat) (v : List State) :
    runOps lift h LiftCache.empty (.call a :: v.flatMap (fun s => [.write a s, .call a])) = (h a, some (lift (h a))) :: v.map (fun s => (s, some (lift (h a)))) := by
  have key : ∀ (v : List State) (g : Heap State) (x : Lifted), runOps lift g ⟨some a, some x⟩ (v.flatMap (fun s => [.write a s, .call a])) = v.map (fun s => (s, some x)) := by
    intro v
    induction v with
    | nil => intro g x; rfl
    | cons s v ih =>
      intro g x
      have hn : needsLift (Function.update g a s) (⟨some a, some x⟩ : LiftCache Lifted) a = false := by simp [needsLift]
      simp only [List.flatMap_cons, List.cons_append, List.nil_append, runOps, useLift, hn, Bool.false_eq_true, if_false, List.map_cons, Function.update_self]
      rw [ih]
  simp only [runOps]
  have hn : needsLift h (LiftCache.empty : LiftCache Lifted) a = true := by simp [needsLift, LiftCache.empty]
  simp only [useLift, hn, if_true]
  rw [key]

end cache

/-! ## C174 -/

section adjoint

variable {N m : Nat}

theorem einsum_transpose (B : Tensor N m) (u : Fin m → ℝ) : (Matrix.of fun j k => ∑ i, tensorT B i j k * u i) = (applyInput B u)ᵀ := by
  ext j k; simp [tensorT, applyInput]

theorem adjointRhs_eq (L : Matrix (Fin N) (Fin N) ℝ) (B : Tensor N m) (u : Fin m → ℝ) (γ y : Fin N → ℝ) :
    adjointRhs L B u γ y = -γ - (L + applyInput B u)ᵀ *ᵥ y := by
  rw [adjointRhs, einsum_transpose, transpose_add, add_mulVec, sub_sub]

/-- The first variation of the predicted system for a change `du` of the input. -/
def variationRhs (L : Matrix (Fin N) (Fin N) ℝ) (B : Tensor N m) (u du : Fin m → ℝ) (x dx : Fin N → ℝ) : Fin N → ℝ :=
  affineRhs L B u dx + applyInput B du *ᵥ x

theorem jac_sum (B : Tensor N m) (r u du : Fin m → ℝ) (x y : Fin N → ℝ) :
    ∑ i, jacEntry B r u x y i * du i = y ⬝ᵥ (applyInput B du *ᵥ x) + ∑ i, 2 * r i * u i * du i := by
  simp only [jacEntry, add_mul, Finset.sum_add_distrib]
  congr 1
  simp only [dotProduct, mulVec, applyInput, of_apply, tensorT, Finset.mul_sum, Finset.sum_mul]
  rw [Finset.sum_comm]
  refine Finset.sum_congr rfl fun k _ => ?_
  rw [Finset.sum_comm]
  refine Finset.sum_congr rfl fun j _ => ?_
  refine Finset.sum_congr rfl fun i _ => ?_
  ring

open MeasureTheory in
/-- **C174 (continuous time; partial).** Whatever the input signal: let `y` solve the adjoint equation that the code integrates, with end value zero, let `dx` be the first variation of the
predicted state for a change `du` of the input (start value zero), all on `[a, b]` and with exceptions at countably many times (jumps of the inputs).  Then the integral of the cost gradient along
the variation, states and inputs, is the integral of the computed Jacobian times the change of the input: the Jacobian is the derivative of the cost *integral*. -/
theorem C174_adjoint_partial (L : Matrix (Fin N) (Fin N) ℝ) (B : Tensor N m) (r : Fin m → ℝ) {a b : ℝ} (hab : a ≤ b) (s : Set ℝ) (hs : s.Countable)
    (u du : ℝ → Fin m → ℝ) (γ x y dx : ℝ → Fin N → ℝ) (hy : ContinuousOn y (Set.Icc a b)) (hdx : ContinuousOn dx (Set.Icc a b))
    (hyb : y b = 0) (hdxa : dx a = 0)
    (hy' : ∀ t ∈ Set.Ioo a b \ s, HasDerivAt y (adjointRhs L B (u t) (γ t) (y t)) t)
    (hdx' : ∀ t ∈ Set.Ioo a b \ s, HasDerivAt dx (variationRhs L B (u t) (du t) (x t) (dx t)) t)
    (hi1 : IntervalIntegrable (fun t => γ t ⬝ᵥ dx t) volume a b) (hi2 : IntervalIntegrable (fun t => y t ⬝ᵥ (applyInput B (du t) *ᵥ x t)) volume a b)
    (hi3 : IntervalIntegrable (fun t => ∑ i, 2 * r i * u t i * du t i) volume a b) :
    ∫ t in a..b, (γ t ⬝ᵥ dx t + ∑ i, 2 * r i * u t i * du t i) = ∫ t in a..b, ∑ i, jacEntry B r (u t) (x t) (y t) i * du t i := by
  have hcont : ContinuousOn (fun t => y t ⬝ᵥ dx t) (Set.Icc a b) := by
    simp only [dotProduct]
    refine continuousOn_finset_sum _ fun i _ => ContinuousOn.mul ?_ ?_
    · exact (continuous_apply i).comp_continuousOn hy
    · exact (continuous_apply i).comp_continuousOn hdx
  have hder : ∀ t ∈ Set.Ioo a b \ s, HasDerivAt (fun t => y t ⬝ᵥ dx t) (y t ⬝ᵥ (applyInput B (du t) *ᵥ x t) - γ t ⬝ᵥ dx t) t := by
    intro t ht
    have h1 := hasDerivAt_pi.1 (hy' t ht)
    have h2 := hasDerivAt_pi.1 (hdx' t ht)
    have h3 : HasDerivAt (fun t => y t ⬝ᵥ dx t)
        (adjointRhs L B (u t) (γ t) (y t) ⬝ᵥ dx t + y t ⬝ᵥ variationRhs L B (u t) (du t) (x t) (dx t)) t := by
      have := HasDerivAt.fun_sum (u := Finset.univ) (fun i _ => (h1 i).mul (h2 i))
      simp only [dotProduct, ← Finset.sum_add_distrib]
      exact this
    have e : adjointRhs L B (u t) (γ t) (y t) ⬝ᵥ dx t + y t ⬝ᵥ variationRhs L B (u t) (du t) (x t) (dx t) =
        y t ⬝ᵥ (applyInput B (du t) *ᵥ x t) - γ t ⬝ᵥ dx t := by
      rw [adjointRhs_eq, variationRhs, affineRhs, ← add_mulVec, dotProduct_add, sub_dotProduct, neg_dotProduct, mulVec_transpose, ← dotProduct_mulVec]
      ring
    rwa [e] at h3
  have hint : IntervalIntegrable (fun t => y t ⬝ᵥ (applyInput B (du t) *ᵥ x t) - γ t ⬝ᵥ dx t) volume a b := hi2.sub hi1
  have hftc := integral_eq_of_hasDerivAt_off_countable_of_le _ _ hab hs hcont hder hint
  rw [hyb, hdxa, zero_dotProduct, dotProduct_zero, sub_zero, intervalIntegral.integral_sub hi2 hi1] at hftc
  rw [intervalIntegral.integral_add hi1 hi3]
  simp only [jac_sum]
  rw [intervalIntegral.integral_add hi2 hi3]
  linarith

/-- non-vacuity: one state, constant zero input, the state 1, the cost gradient 1; the adjoint is `1 - t`, the variation for the change 1 is `t` -/
example : ∫ t in (0 : ℝ)..1, ((fun _ => 1 : Fin 1 → ℝ) ⬝ᵥ (fun _ => t : Fin 1 → ℝ) + ∑ i : Fin 1, 2 * (1 : ℝ) * (0 : ℝ) * (1 : ℝ)) =
    ∫ t in (0 : ℝ)..1, ∑ i : Fin 1, jacEntry (fun (_ _ : Fin 1) (_ : Fin 1) => 1) (fun _ => 1) (fun _ => 0) (fun _ => 1) (fun _ => 1 - t) i * 1 := by
  refine C174_adjoint_partial 0 (fun _ _ _ => 1) (fun _ => 1) zero_le_one ∅ Set.countable_empty (fun _ _ => 0) (fun _ _ => 1) (fun _ _ => 1) (fun _ _ => 1) (fun t _ => 1 - t) (fun t _ => t)
    (by fun_prop) (by fun_prop) (by ext; simp) (by ext; simp) ?_ ?_ ?_ ?_ ?_
  · intro t _
    rw [hasDerivAt_pi]
    intro i
    have := (hasDerivAt_id t).const_sub 1
    simpa [adjointRhs, tensorT, mulVec, dotProduct] using this
  · intro t _
    rw [hasDerivAt_pi]
    intro i
    have := hasDerivAt_id' t
    simpa [variationRhs, affineRhs, applyInput, mulVec, dotProduct] using this
  · apply Continuous.intervalIntegrable; simp only [dotProduct]; fun_prop
  · apply Continuous.intervalIntegrable; simp only [dotProduct]; fun_prop
  · apply Continuous.intervalIntegrable; fun_prop

theorem adjoint_lipschitz (L : Matrix (Fin N) (Fin N) ℝ) (B : Tensor N m) (u : Fin m → ℝ) (γ : Fin N → ℝ) : ∃ K, LipschitzWith K (adjointRhs L B u γ) := by
  have h := (LinearMap.toContinuousLinearMap (Matrix.mulVecLin (L + applyInput B u)ᵀ)).lipschitz
  have e : adjointRhs L B u γ = fun y => -γ - LinearMap.toContinuousLinearMap (Matrix.mulVecLin (L + applyInput B u)ᵀ) y := by
    funext y; rw [adjointRhs_eq]; rfl
  rw [e]
  exact ⟨_, (LipschitzWith.const (-γ)).sub h⟩

/-- The adjoint is determined by the data at all times but the last one. -/
theorem adjoint_unique {L : Matrix (Fin N) (Fin N) ℝ} {B : Tensor N m} {horizon : Nat} {t : Nat → ℝ} (ht : ∀ k < horizon, t k < t (k + 1)) {u : Nat → Fin m → ℝ} {γ γ' : Nat → Fin N → ℝ}
    (hγ : ∀ k < horizon, γ k = γ' k) {y y' : ℝ → Fin N → ℝ} (hy : AdjointSol L B horizon t u γ y) (hy' : AdjointSol L B horizon t u γ' y') :
    ∀ j ≤ horizon, y (t (horizon - j)) = y' (t (horizon - j)) := by
  intro j
  induction j with
  | zero => intro _; rw [Nat.sub_zero, hy.last, hy'.last]
  | succ j ih =>
    intro hj
    have ih := ih (by omega)
    set k := horizon - (j + 1) with hk
    have hk1 : horizon - j = k + 1 := by omega
    have hkh : k < horizon := by omega
    rw [hk1] at ih
    obtain ⟨K, hK⟩ := adjoint_lipschitz L B (u k) (γ k)
    have hleft : ∀ s ∈ Set.Ioc (t k) (t (k + 1)), Set.Icc (t k) (t (k + 1)) ∈ nhdsWithin s (Set.Iic s) := fun s hs => Icc_mem_nhdsLE_of_mem hs
    refine ODE_solution_unique_of_mem_Icc_left (v := fun _ => adjointRhs L B (u k) (γ k)) (s := fun _ => Set.univ) (fun _ _ => hK.lipschitzOnWith)
      (fun s hs => (hy.eq k hkh s hs).continuousWithinAt) (fun s hs => (hy.eq k hkh s (Set.Ioc_subset_Icc_self hs)).mono_of_mem_nhdsWithin (hleft s hs)) (fun _ _ => trivial)
      (fun s hs => (hy'.eq k hkh s hs).continuousWithinAt) (fun s hs => ?_) (fun _ _ => trivial) ih (Set.left_mem_Icc.2 (ht k hkh).le)
    have := (hy'.eq k hkh s (Set.Ioc_subset_Icc_self hs)).mono_of_mem_nhdsWithin (hleft s hs)
    rwa [← hγ k hkh] at this

/-- **C174 (violated).** The Jacobian does not depend on the reference at the last time value, for any system, horizon, state and input: two references that differ at the last time only, with
the costs `… + q² (x - ref)²` and `… + q² (x - ref')²`, get the same Jacobian, and its last column is the derivative of the input cost alone. -/
theorem C174_last_violated {n : Nat} (hn : n ≤ N) (L : Matrix (Fin N) (Fin N) ℝ) (B : Tensor N m) (horizon : Nat) (t : Nat → ℝ) (ht : ∀ k < horizon, t k < t (k + 1)) (q : Fin n → ℝ) (r : Fin m → ℝ)
    (u : Nat → Fin m → ℝ) (x : Nat → Fin N → ℝ) (ref ref' : Nat → Fin n → ℝ) (href : ∀ k < horizon, ref k = ref' k) (y y' : ℝ → Fin N → ℝ)
    (hy : AdjointSol L B horizon t u (fun k => gammaAt q (ref k) (x k) hn) y) (hy' : AdjointSol L B horizon t u (fun k => gammaAt q (ref' k) (x k) hn) y') :
    (∀ i, ∀ k ≤ horizon, affineJacobian B r t u x y i k = affineJacobian B r t u x y' i k) ∧ ∀ i, affineJacobian B r t u x y i horizon = 2 * r i * u horizon i := by
  have h := adjoint_unique ht (fun k hk => by simp only [href k hk]) hy hy'
  constructor
  · intro i k hk
    have := h (horizon - k) (by omega)
    rw [show horizon - (horizon - k) = k by omega] at this
    rw [affineJacobian, affineJacobian, this]
  · intro i; simp [affineJacobian, jacEntry, hy.last]

/-- The predicted state of the system `x' = u x`, `x(0) = 1`, for the input that is linear between `u₀` at time 0 and `u₁` at time 1. -/
noncomputable def scalarState (u₀ u₁ s : ℝ) : ℝ := Real.exp (u₀ * s + (u₁ - u₀) * s ^ 2 / 2)

theorem scalarState_solves (u₀ u₁ s : ℝ) :
    HasDerivAt (fun s => (fun _ => scalarState u₀ u₁ s : Fin 1 → ℝ)) (affineRhs 0 (fun _ _ _ => 1) (fun _ : Fin 1 => u₀ + (u₁ - u₀) * s) (fun _ => scalarState u₀ u₁ s)) s := by
  rw [hasDerivAt_pi]
  intro i
  have h1 : HasDerivAt (fun s : ℝ => u₀ * s + (u₁ - u₀) * s ^ 2 / 2) (u₀ + (u₁ - u₀) * s) s := by
    have ha := (hasDerivAt_id s).const_mul u₀
    have hb := (((hasDerivAt_id s).pow 2).const_mul (u₁ - u₀)).div_const 2
    refine (ha.add hb).congr_deriv ?_
    simp; ring
  refine h1.exp.congr_deriv ?_
  simp [affineRhs, applyInput, mulVec, dotProduct, scalarState]
  ring

/-- **C174 (violated, witness).** For `x' = u x`, `x(0) = 1`, horizon 1, unit weights, the reference 1 at time 0 (the code sets it to the initial state) and 0 at time 1: at the input zero the cost
grows with slope 1 in each of the two input values, the Jacobian given to the optimiser is zero.  The optimiser stops at once, although the constant input -1/4 is better. -/
theorem C174_witness_violated :
    let cost := fun u₀ u₁ : ℝ => affineCost 1 (fun _ : Fin 1 => 1) (fun _ : Fin 1 => 1) (fun _ k => if k = 0 then 1 else 0) (fun _ k => scalarState u₀ u₁ k) (fun _ k => if k = 0 then u₀ else u₁)
    HasDerivAt (fun v => cost v 0) 1 0 ∧ HasDerivAt (fun v => cost 0 v) 1 0 ∧ cost (-1 / 4) (-1 / 4) < cost 0 0 ∧
    ∀ y : ℝ → Fin 1 → ℝ, AdjointSol 0 (fun _ _ _ => 1) 1 (fun k => (k : ℝ)) (fun _ (_ : Fin 1) => 0)
      (fun k => gammaAt (fun _ : Fin 1 => 1) (fun _ => if k = 0 then 1 else 0) (fun _ => scalarState 0 0 k) le_rfl) y →
      ∀ i k, k ≤ 1 → affineJacobian (fun _ _ _ => 1) (fun _ : Fin 1 => 1) (fun k => (k : ℝ)) (fun _ (_ : Fin 1) => 0) (fun k _ => scalarState 0 0 k) y i k = 0 := by
  intro cost
  have h1 : ∀ c : ℝ, HasDerivAt (fun v : ℝ => v ^ 2 + c + Real.exp (v / 2) ^ 2) 1 0 := by
    intro c
    have ha := ((hasDerivAt_id' (0 : ℝ)).fun_pow 2).add_const c
    have hb := ((((hasDerivAt_id' (0 : ℝ)).div_const 2).exp).fun_pow 2)
    refine (ha.add hb).congr_deriv ?_
    norm_num
  refine ⟨?_, ?_, ?_, ?_⟩
  · have e : (fun v => cost v 0) = fun v : ℝ => v ^ 2 + 0 + Real.exp (v / 2) ^ 2 := by
      funext v
      simp [cost, affineCost, Finset.sum_range_succ, scalarState]
      ring_nf
    rw [e]; exact h1 0
  · have e : (fun v => cost 0 v) = fun v : ℝ => v ^ 2 + 0 + Real.exp (v / 2) ^ 2 := by
      funext v
      simp [cost, affineCost, Finset.sum_range_succ, scalarState]
      ring_nf
    rw [e]; exact h1 0
  · have e1 : cost (-1 / 4) (-1 / 4) = 1 / 8 + Real.exp (-1 / 2) := by
      simp [cost, affineCost, Finset.sum_range_succ, scalarState]
      rw [← Real.exp_nat_mul]
      norm_num
      ring
    have e2 : cost 0 0 = 1 := by simp [cost, affineCost, Finset.sum_range_succ, scalarState]
    have h3 := Real.add_one_le_exp (1 / 2 : ℝ)
    have h4 : Real.exp (-1 / 2) * Real.exp (1 / 2) = 1 := by rw [← Real.exp_add]; norm_num
    have h5 := Real.exp_pos (-1 / 2)
    rw [e1, e2]
    nlinarith
  · intro y hy i k hk
    have hz : AdjointSol 0 (fun _ _ _ => 1) 1 (fun k => (k : ℝ)) (fun _ (_ : Fin 1) => 0) (fun _ => (0 : Fin 1 → ℝ)) (fun _ => 0) := by
      refine ⟨rfl, fun k _ s _ => ?_⟩
      have := hasDerivWithinAt_const s (Set.Icc ((k : ℕ) : ℝ) ((k + 1 : ℕ) : ℝ)) (0 : Fin 1 → ℝ)
      simpa [adjointRhs] using this
    have hu := adjoint_unique (fun k _ => by push_cast; linarith) (fun k hk => by
      have : k = 0 := by omega
      subst this
      funext j; simp [gammaAt, scalarState]) hy hz (1 - k) (by omega)
    rw [show 1 - (1 - k) = k by omega] at hu
    simp [affineJacobian, jacEntry, hu]

end adjoint

end Verif.Mpc
