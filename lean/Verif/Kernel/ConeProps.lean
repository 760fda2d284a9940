import Verif.Kernel.Cone
import Mathlib.Geometry.Euclidean.Angle.Unoriented.Basic
import Mathlib.Analysis.Real.Pi.Bounds
import Mathlib.Analysis.InnerProductSpace.PiL2
/-!
# C134: the cone kernel
-/

namespace Verif.Kernel

open Matrix

variable {E : Type} [NormedAddCommGroup E] [InnerProductSpace ℝ E] {m n : Type} [Fintype m] [Fintype n]

/-! ## Specification -/

/-- The documented kernel (kernels.py 1963-1975): `ω` is the displacement between the samples, `θ` the angles between the derivatives and the displacement. -/
noncomputable def coneDocumented (zeta eps dt : ℝ) (q r : ConeSample E) : ℝ :=
  Real.exp (-(‖r.x - q.x‖ ^ 2 / (eps * dt ^ 2 * ‖q.xi‖ * ‖r.xi‖)) *
    Real.sqrt ((1 - zeta * Real.cos (InnerProductGeometry.angle q.xi (r.x - q.x)) ^ 2) * (1 - zeta * Real.cos (InnerProductGeometry.angle r.xi (r.x - q.x)) ^ 2)))

/-- The kernel as computed: the cosine function is applied twice. -/
noncomputable def coneTwice (zeta eps dt : ℝ) (q r : ConeSample E) : ℝ :=
  Real.exp (-(‖r.x - q.x‖ ^ 2 / (eps * dt ^ 2 * ‖q.xi‖ * ‖r.xi‖)) *
    Real.sqrt ((1 - zeta * Real.cos (Real.cos (InnerProductGeometry.angle q.xi (r.x - q.x))) ^ 2) * (1 - zeta * Real.cos (Real.cos (InnerProductGeometry.angle r.xi (r.x - q.x))) ^ 2)))

/-! ## Helper lemmas -/

theorem ConeParam.check_ok {p : ConeParam} (h0 : 0 ≤ p.zeta) (h1 : p.zeta < 1) (he : 0 < p.eps) : p.check = .ok () := by
  unfold ConeParam.check
  rw [if_neg (not_not.mpr ⟨h0, h1⟩), if_neg (not_lt.mpr he.le), if_neg he.ne']

theorem coneAngular_comm (z : ℝ) (q r : ConeSample E) : coneAngular z q r = coneAngular z r q := by
  unfold coneAngular
  rw [mul_comm]

theorem coneAngular_nonneg (z : ℝ) (q r : ConeSample E) : 0 ≤ coneAngular z q r := by
  unfold coneAngular
  split
  · exact Real.sqrt_nonneg _
  · exact zero_le_one

theorem coneFactor_comm (p : ConeParam) (dt : ℝ) (X : n → ConeSample E) (i j : n) : coneFactor p dt X X i j = coneFactor p dt X X j i := by
  unfold coneFactor coneDivide
  rw [coneAngular_comm]
  by_cases h : ‖(X i).xi‖ = 0 ∨ ‖(X j).xi‖ = 0
  · rw [if_pos h, if_pos h.symm]
  · rw [if_neg h, if_neg (fun h' => h h'.symm)]; ring

theorem coneFactor_nonneg (p : ConeParam) (he : 0 < p.eps) (dt : ℝ) (Y : m → ConeSample E) (X : n → ConeSample E) (i : m) (j : n) : 0 ≤ coneFactor p dt Y X i j := by
  unfold coneFactor coneDivide
  refine mul_nonneg ?_ (by positivity)
  split
  · exact le_rfl
  · have := coneAngular_nonneg p.zeta (Y i) (X j)
    positivity

theorem removeNoise_of_symm (M : Matrix n n ℝ) (h : ∀ i j, M i j = M j i) : removeNoise M = M := by
  funext i j
  simp only [removeNoise, Matrix.of_apply]
  rw [h j i]; ring

theorem coneCos_eq (q r : ConeSample E) (h : 1e-14 < ‖q.xi‖ * ‖r.x - q.x‖) : coneCos q r = Real.cos (InnerProductGeometry.angle q.xi (r.x - q.x)) := by
  unfold coneCos
  rw [if_neg (not_le.mpr h), InnerProductGeometry.cos_angle]

theorem coneWeight_eq (z : ℝ) (q r : ConeSample E) (h : 1e-14 < ‖q.xi‖ * ‖r.x - q.x‖) :
    coneWeight z q r = 1 - z * Real.cos (Real.cos (InnerProductGeometry.angle q.xi (r.x - q.x))) ^ 2 := by
  unfold coneWeight
  rw [coneCos_eq q r h]

theorem coneWeight_eq' (z : ℝ) (q r : ConeSample E) (h : 1e-14 < ‖r.xi‖ * ‖r.x - q.x‖) :
    coneWeight z r q = 1 - z * Real.cos (Real.cos (InnerProductGeometry.angle r.xi (r.x - q.x))) ^ 2 := by
  have : ‖q.x - r.x‖ = ‖r.x - q.x‖ := norm_sub_rev _ _
  rw [coneWeight_eq z r q (by rw [this]; exact h), ← neg_sub r.x q.x, InnerProductGeometry.angle_neg_right, Real.cos_pi_sub, Real.cos_neg]

/-! ## C134 -/

/-- C134, the true part: for admissible parameters the pair-wise kernel matrix is symmetric with values in `(0, 1]` and ones on the diagonal, and evaluating the reference samples
component-wise gives the same matrix. -/
theorem C134_matrix (p : ConeParam) (h0 : 0 ≤ p.zeta) (h1 : p.zeta < 1) (he : 0 < p.eps) (dt : ℝ) (X : n → ConeSample E) :
    ∃ K, conePdist p dt X = .ok K ∧ coneCdist p dt X X = .ok K ∧ (∀ i j, 0 < K i j ∧ K i j ≤ 1) ∧ (∀ i, K i i = 1) ∧ ∀ i j, K i j = K j i := by
  unfold conePdist coneCdist
  rw [ConeParam.check_ok h0 h1 he]
  rw [removeNoise_of_symm _ (coneFactor_comm p dt X)]
  refine ⟨_, rfl, rfl, ?_, ?_, ?_⟩
  · intro i j
    refine ⟨Real.exp_pos _, ?_⟩
    unfold coneExp
    rw [Real.exp_le_one_iff]
    have := coneFactor_nonneg p he dt X X i j
    have h2 : 0 ≤ ‖(X j).x - (X i).x‖ ^ 2 * coneFactor p dt X X i j := by positivity
    linarith
  · intro i
    simp [coneExp]
  · intro i j
    unfold coneExp
    rw [coneFactor_comm, norm_sub_rev]

/-- C134: which parameters are rejected: `zeta` outside `[0, 1)` and every `epsilon` that is not positive (zero only by a failing division). -/
theorem C134_rejects (p : ConeParam) (dt : ℝ) (X : n → ConeSample E) (Y : m → ConeSample E) :
    (∃ K, coneCdist p dt X Y = .ok K) ↔ 0 ≤ p.zeta ∧ p.zeta < 1 ∧ 0 < p.eps := by
  unfold coneCdist
  constructor
  · rintro ⟨K, hK⟩
    by_contra hc
    unfold ConeParam.check at hK
    by_cases hz : 0 ≤ p.zeta ∧ p.zeta < 1
    · rw [if_neg (not_not.mpr hz)] at hK
      rcases lt_trichotomy p.eps 0 with h | h | h
      · rw [if_pos h] at hK; cases hK
      · rw [if_neg (by rw [h]; exact lt_irrefl _), if_pos h] at hK; cases hK
      · exact hc ⟨hz.1, hz.2, h⟩
    · rw [if_pos hz] at hK; cases hK
  · rintro ⟨h0, h1, he⟩
    rw [ConeParam.check_ok h0 h1 he]
    exact ⟨_, rfl⟩

/-- C134, the true part: for `zeta = 0` the kernel is the documented one wherever the derivatives do not vanish. -/
theorem C134_nlsa_partial (eps : ℝ) (he : 0 < eps) (dt : ℝ) (X : n → ConeSample E) (Y : m → ConeSample E) :
    ∃ K, coneCdist ⟨0, eps⟩ dt X Y = .ok K ∧ ∀ i j, (Y i).xi ≠ 0 → (X j).xi ≠ 0 → K i j = coneDocumented 0 eps dt (Y i) (X j) := by
  unfold coneCdist
  rw [ConeParam.check_ok (p := ⟨0, eps⟩) le_rfl zero_lt_one he]
  refine ⟨_, rfl, fun i j hi hj => ?_⟩
  have hi' := norm_ne_zero_iff.mpr hi
  have hj' := norm_ne_zero_iff.mpr hj
  unfold coneExp coneDocumented coneFactor coneDivide coneAngular
  rw [if_neg (by rw [not_or]; exact ⟨hi', hj'⟩), if_neg (not_not.mpr rfl)]
  simp only [zero_mul, sub_zero, mul_one, Real.sqrt_one]
  congr 1
  simp only [div_eq_mul_inv, mul_inv]
  ring

/-- C134: for `zeta ≠ 0` and samples that are not almost duplicates the kernel is the documented one with the cosine of the cosine of the angles in place of the cosine of the angles. -/
theorem C134_computed (p : ConeParam) (h0 : 0 < p.zeta) (h1 : p.zeta < 1) (he : 0 < p.eps) (dt : ℝ) (X : n → ConeSample E) (Y : m → ConeSample E) :
    ∃ K, coneCdist p dt X Y = .ok K ∧ ∀ i j, 1e-14 < ‖(Y i).xi‖ * ‖(X j).x - (Y i).x‖ → 1e-14 < ‖(X j).xi‖ * ‖(X j).x - (Y i).x‖ → K i j = coneTwice p.zeta p.eps dt (Y i) (X j) := by
  unfold coneCdist
  rw [ConeParam.check_ok h0.le h1 he]
  refine ⟨_, rfl, fun i j hi hj => ?_⟩
  have hi' : ‖(Y i).xi‖ ≠ 0 := by intro h; rw [h, zero_mul] at hi; norm_num at hi
  have hj' : ‖(X j).xi‖ ≠ 0 := by intro h; rw [h, zero_mul] at hj; norm_num at hj
  unfold coneExp coneTwice coneFactor coneDivide coneAngular
  rw [if_neg (by rw [not_or]; exact ⟨hi', hj'⟩), if_pos h0.ne', coneWeight_eq _ _ _ hi, coneWeight_eq' _ _ _ hj]
  congr 1
  simp only [div_eq_mul_inv, mul_inv]
  ring

/-- C134 is violated: the documentation says that the kernel is larger for neighbours in the direction of the flow.  In the code it is smaller: let all samples have the derivative `u ≠ 0`, let `a` be a displacement
along `u` and `b` one of the same length orthogonal to `u`; then for every `zeta` in `(0, 1)` the neighbour in the direction of the flow has the smaller kernel value, although its documented value is the larger one. -/
theorem C134_alignment_violated (p : ConeParam) (h0 : 0 < p.zeta) (h1 : p.zeta < 1) (he : 0 < p.eps) (dt : ℝ) (hdt : dt ≠ 0) (x u a b : E) (c : ℝ) (hu : u ≠ 0) (hc : 0 < c) (ha : a = c • u) (hb : inner ℝ u b = 0) (hab : ‖b‖ = ‖a‖) (hlarge : 1e-14 < ‖u‖ * ‖a‖) :
    ∃ K : Matrix Unit Bool ℝ, coneCdist p dt (fun k => bif k then ⟨x + a, u⟩ else ⟨x + b, u⟩) (fun _ : Unit => ⟨x, u⟩) = .ok K ∧ K () true < K () false ∧
      coneDocumented p.zeta p.eps dt ⟨x, u⟩ ⟨x + b, u⟩ < coneDocumented p.zeta p.eps dt ⟨x, u⟩ ⟨x + a, u⟩ := by
  obtain ⟨K, hK, hf⟩ := C134_computed p h0 h1 he dt (fun k : Bool => bif k then (⟨x + a, u⟩ : ConeSample E) else ⟨x + b, u⟩) (fun _ : Unit => ⟨x, u⟩)
  refine ⟨K, hK, ?_⟩
  have hK1 := hf () true (by simpa using hlarge) (by simpa using hlarge)
  have hK2 := hf () false (by simpa [hab] using hlarge) (by simpa [hab] using hlarge)
  have hane : a ≠ 0 := by rw [ha]; exact smul_ne_zero hc.ne' hu
  have hcosa : Real.cos (InnerProductGeometry.angle u a) = 1 := by
    rw [ha, InnerProductGeometry.angle_smul_right_of_pos _ _ hc, InnerProductGeometry.angle_self hu, Real.cos_zero]
  have hcosb : Real.cos (InnerProductGeometry.angle u b) = 0 := by
    rw [InnerProductGeometry.cos_angle, hb, zero_div]
  have hun : 0 < ‖u‖ := norm_pos_iff.mpr hu
  have han : 0 < ‖a‖ := norm_pos_iff.mpr hane
  have hpos : 0 < ‖a‖ ^ 2 / (p.eps * dt ^ 2 * ‖u‖ * ‖u‖) := by
    have : 0 < dt ^ 2 := by positivity
    positivity
  have hcos1 : Real.cos 1 ^ 2 < 1 := by
    have h3 : Real.cos 1 < 1 := by
      have := Real.cos_lt_cos_of_nonneg_of_le_pi (x := 0) (y := 1) le_rfl (by linarith [Real.pi_gt_three]) one_pos
      rwa [Real.cos_zero] at this
    have h4 : 0 ≤ Real.cos 1 := Real.cos_nonneg_of_mem_Icc ⟨by linarith [Real.pi_gt_three], by linarith [Real.pi_gt_three]⟩
    nlinarith
  have hsq : 0 ≤ Real.cos 1 ^ 2 := sq_nonneg _
  constructor
  · rw [hK1, hK2]
    unfold coneTwice
    simp only [cond_true, cond_false, add_sub_cancel_left, hcosa, hcosb, hab, Real.cos_zero]
    have hz : p.zeta * Real.cos 1 ^ 2 ≤ 1 := (mul_le_mul h1.le hcos1.le hsq zero_le_one).trans (by norm_num)
    rw [Real.exp_lt_exp, Real.sqrt_mul_self (by linarith), Real.sqrt_mul_self (by linarith)]
    nlinarith [mul_pos hpos (mul_pos h0 (sub_pos.mpr hcos1))]
  · unfold coneDocumented
    simp only [add_sub_cancel_left, hcosa, hcosb, hab]
    rw [Real.exp_lt_exp, Real.sqrt_mul_self (by nlinarith), Real.sqrt_mul_self (by nlinarith)]
    nlinarith [mul_pos hpos h0]

/-- C134: a sample with vanishing derivative has the kernel value one to every sample, however far away it is. -/
theorem C134_resting (p : ConeParam) (h0 : 0 ≤ p.zeta) (h1 : p.zeta < 1) (he : 0 < p.eps) (dt : ℝ) (X : n → ConeSample E) (Y : m → ConeSample E) :
    ∃ K, coneCdist p dt X Y = .ok K ∧ ∀ i j, (Y i).xi = 0 ∨ (X j).xi = 0 → K i j = 1 := by
  unfold coneCdist
  rw [ConeParam.check_ok h0 h1 he]
  refine ⟨_, rfl, fun i j h => ?_⟩
  unfold coneExp coneFactor coneDivide
  rw [if_pos (h.imp (fun h => by rw [h, norm_zero]) (fun h => by rw [h, norm_zero]))]
  simp

/-- C134, the true part for histories: after a pair-wise evaluation of some samples the component-wise evaluation with the same samples is the one of a new kernel object. -/
theorem C134_history_partial (p : ConeParam) (h0 : 0 ≤ p.zeta) (h1 : p.zeta < 1) (he : 0 < p.eps) (dt : ℝ) (st : Option (n → E)) (X : n → ConeSample E) (Y : m → ConeSample E) :
    (coneCall p dt (coneCall p dt st X (none : Option (m → ConeSample E))).2 X (some Y)).1 = (coneCall p dt none X (some Y)).1 := by
  unfold coneCall conePdist coneCdist
  rw [ConeParam.check_ok h0 h1 he]
  rfl

/-- C134 is violated for histories: a component-wise evaluation with other reference samples uses the derivatives of the reference samples of an earlier evaluation.  Here the second reference sample moves to the right with velocity one,
the sample of the first call had velocity two. -/
theorem C134_stale_violated : ∃ (X₁ X₂ : Unit → ConeSample ℝ) (Y : Unit → ConeSample ℝ) (p : ConeParam),
    (coneCall p 1 (coneCall p 1 none X₁ (some Y)).2 X₂ (some Y)).1 ≠ (coneCall p 1 none X₂ (some Y)).1 := by
  refine ⟨fun _ => ⟨1, 2⟩, fun _ => ⟨1, 1⟩, fun _ => ⟨0, 1⟩, ⟨0, 1⟩, ?_⟩
  unfold coneCall coneCdist
  rw [ConeParam.check_ok (p := ⟨0, 1⟩) le_rfl zero_lt_one one_pos]
  intro h
  simp only [Option.getD_some, Option.getD_none, Except.ok.injEq, Sum.inr.injEq] at h
  have := congrFun (congrFun h ()) ()
  simp [coneExp, coneFactor, coneDivide, coneAngular] at this

/-- Non-vacuity of the alignment theorem: the plane with flow to the right. -/
example : ∃ (x u a b : EuclideanSpace ℝ (Fin 2)) (c : ℝ), u ≠ 0 ∧ 0 < c ∧ a = c • u ∧ inner ℝ u b = 0 ∧ ‖b‖ = ‖a‖ ∧ 1e-14 < ‖u‖ * ‖a‖ := by
  refine ⟨0, EuclideanSpace.single 0 1, EuclideanSpace.single 0 1, EuclideanSpace.single 1 1, 1, ?_, one_pos, by simp, ?_, by simp, by simp; norm_num⟩
  · intro h
    have := congrArg norm h
    simp at this
  · rw [EuclideanSpace.inner_single_left]; simp

end Verif.Kernel
