import Verif.Dmd.StandardProps
import Mathlib.Analysis.SpecialFunctions.Complex.Log
/-!
# Generator matrices: `gDMDFull` and the option `approx_generator` of `DMDStandard`
-/

namespace Verif.Dmd

open Verif.Tsc Verif.Lin Verif.Dyn Matrix

variable {ι : Type} [Fintype ι]

/-! ### Model of `approx_generator` -/

/-- An eigenvalue of the generator (dmd.py 1302-1305): `np.log(ev) / dt`; numpy's logarithm of zero is `-inf`. -/
inductive GenEv where
  | fin (z : ℂ)
  | negInf

/-- `np.log(eigenvalues_.astype(complex)) / self.dt_` (dmd.py 1305). -/
noncomputable def generatorEv (dt : ℝ) (ev : ℂ) : GenEv := by
  classical exact if ev = 0 then .negInf else .fin (Complex.log ev / dt)

/-- `np.exp(ev * t)` in `differential_spectral` (dynsystem.py 137-145); `none` is nan (`-inf * 0`). -/
noncomputable def genFactor (t : ℝ) : GenEv → Option ℂ
  | .fin z => some (Complex.exp (z * t))
  | .negInf => if t = 0 then none else some 0

/-! ### The properties -/

/-- **C80** (partial: the eigenvalue is not zero, or the time value is later than the initial time).  The approximated generator advances a component by `k` sampling
intervals exactly like the flow map. -/
theorem C80_generator_partial {dt : ℝ} (hdt : 0 < dt) (ev : ℂ) (k : Nat) (h : ev ≠ 0 ∨ 0 < k) : genFactor (k * dt) (generatorEv dt ev) = some (ev ^ k) := by
  unfold generatorEv
  by_cases h0 : ev = 0
  · rw [if_pos h0]
    have hk : 0 < k := by rcases h with h | h; exact absurd h0 h; exact h
    unfold genFactor
    rw [if_neg (by positivity), h0, zero_pow hk.ne']
  · rw [if_neg h0]
    unfold genFactor
    have hd : (dt : ℂ) ≠ 0 := by exact_mod_cast hdt.ne'
    have : Complex.log ev / dt * ((k * dt : ℝ) : ℂ) = (k : ℂ) * Complex.log ev := by push_cast; field_simp
    simp only
    rw [this, Complex.exp_nat_mul, Complex.exp_log h0]

/-- **C80, prediction.** For system matrices without eigenvalue zero the generator system and the flow map give the same states at all multiples of the sampling interval. -/
theorem C80_prediction [DecidableEq ι] (Ψ : Matrix ι ι ℂ) (ev : ι → ℂ) (hev : ∀ i, ev i ≠ 0) (bs : List (ι → ℂ)) {dt : Int} (hdt : 0 < dt)
    (ks : List Nat) :
    differentialSpectral Ψ (fun i => Complex.log (ev i) / dt) bs (ks.map (fun (k : Nat) => (k : ℝ) * dt)) = flowmapSpectral Ψ ev bs (ks.map (fun (k : Nat) => (k : Int) * dt)) dt := by
  unfold differentialSpectral flowmapSpectral
  apply List.map_congr_left
  intro b _
  rw [List.map_map, List.map_map]
  apply List.map_congr_left
  intro k _
  simp only [Function.comp_apply]
  congr 2
  funext i
  have h : stepCount dt (k * dt) = k := by
    unfold stepCount; rw [Int.mul_ediv_cancel _ hdt.ne', Int.toNat_natCast]
  rw [h]
  congr 1
  have hd : (dt : ℂ) ≠ 0 := by exact_mod_cast hdt.ne'
  have : Complex.log (ev i) / dt * (((k : ℝ) * dt : ℝ) : ℂ) = (k : ℂ) * Complex.log (ev i) := by push_cast; field_simp
  rw [this, Complex.exp_nat_mul, Complex.exp_log (hev i)]

/-- **C80, violated.** With an eigenvalue zero of the flow map the predicted state at the initial time is nan. -/
theorem C80_violated (dt : ℝ) : genFactor 0 (generatorEv dt 0) = none := by
  simp [generatorEv, genFactor]

/-- A weighted least squares solution of data which a matrix explains without error is that matrix if the inputs span the space. -/
theorem recovery_of_min {α : Type} [Fintype α] (ps : List ((α → ℝ) × (ι → ℝ))) (w : Fin ps.length → ℝ) (hw : ∀ k, 0 < w k) (A K : Matrix ι α ℝ)
    (hA : ∀ p ∈ ps, p.2 = A *ᵥ p.1) (hspan : Submodule.span ℝ {x | ∃ p ∈ ps, p.1 = x} = ⊤)
    (hmin : ∑ k, w k * stepError K ps[k].1 ps[k].2 ≤ ∑ k, w k * stepError A ps[k].1 ps[k].2) : K = A := by
  classical
  have hz : ∑ k, w k * stepError A ps[k].1 ps[k].2 = 0 := by
    apply Finset.sum_eq_zero
    intro k _
    have : stepError A ps[k].1 ps[k].2 = 0 := stepError_eq_zero.2 (hA _ (List.getElem_mem k.2)).symm
    rw [this, mul_zero]
  rw [hz] at hmin
  have hs0 := le_antisymm hmin (Finset.sum_nonneg (fun i _ => mul_nonneg (hw i).le (stepError_nonneg _ _ _)))
  rw [Finset.sum_eq_zero_iff_of_nonneg (fun i _ => mul_nonneg (hw i).le (stepError_nonneg _ _ _))] at hs0
  have hlin : K.mulVecLin = A.mulVecLin := by
    apply LinearMap.ext_on (s := {x | ∃ p ∈ ps, p.1 = x}) hspan
    rintro x ⟨p, hp, rfl⟩
    obtain ⟨j, hj, rfl⟩ := List.getElem_of_mem hp
    rcases mul_eq_zero.1 (hs0 ⟨j, hj⟩ (Finset.mem_univ _)) with h0 | h0
    · exact absurd h0 (ne_of_gt (hw ⟨j, hj⟩))
    · rw [Matrix.mulVecLin_apply, Matrix.mulVecLin_apply, ← hA _ (List.getElem_mem hj)]
      exact stepError_eq_zero.1 h0
  apply Matrix.mulVec_injective
  funext x
  exact LinearMap.congr_fun hlin x

theorem isGenerator_iff (ps : List ((ι → ℝ) × (ι → ℝ))) (K : Matrix ι ι ℝ) : IsGenerator ps K ↔ IsSystemMatrix 1 ps none K := by
  unfold IsGenerator IsSystemMatrix gram
  simp

/-- **C81, least squares.** The generator matrix computed from pairs (state, time derivative) minimises the summed squared error, and every minimiser is a possible result. -/
theorem C81_least_squares (ps : List ((ι → ℝ) × (ι → ℝ))) (K : Matrix ι ι ℝ) :
    IsGenerator ps K ↔ ∀ K', (ps.map (fun p => stepError K p.1 p.2)).sum ≤ (ps.map (fun p => stepError K' p.1 p.2)).sum := by
  rw [isGenerator_iff, isSystemMatrix_min 1 one_ne_zero ps none (by simp)]
  have : ∀ M : Matrix ι ι ℝ, ∑ k : Fin ps.length, (none : Option (Fin ps.length → ℝ)).getD (fun _ => 1) k * stepError M ps[k].1 ps[k].2 = (ps.map (fun p => stepError M p.1 p.2)).sum := by
    intro M
    rw [← Fin.sum_univ_fun_getElem ps (fun p => stepError M p.1 p.2)]
    simp
  simp only [this]

/-- **C81, recovery.** If the derivatives are `A x` and the states span the space, the generator matrix is `A`. -/
theorem C81_recovery (ps : List ((ι → ℝ) × (ι → ℝ))) (A K : Matrix ι ι ℝ) (hA : ∀ p ∈ ps, p.2 = A *ᵥ p.1)
    (hspan : Submodule.span ℝ {x | ∃ p ∈ ps, p.1 = x} = ⊤) (h : IsGenerator ps K) : K = A := by
  rw [isGenerator_iff, isSystemMatrix_min 1 one_ne_zero ps none (by simp)] at h
  exact recovery_of_min ps (fun _ => 1) (fun _ => one_pos) A K hA hspan (by simpa using h A)

/-- non-vacuity: the pairs of `exS` read as (state, derivative) pairs -/
example : (∀ p ∈ snapshotPairs exS, p.2 = exA *ᵥ p.1) ∧ Submodule.span ℝ {x | ∃ p ∈ snapshotPairs exS, p.1 = x} = ⊤ ∧ IsGenerator (snapshotPairs exS) exA := by
  refine ⟨exS_linear, exS_span, ?_⟩
  rw [C81_least_squares]
  intro K'
  have : ((snapshotPairs exS).map (fun p => stepError exA p.1 p.2)).sum = 0 := by
    apply List.sum_eq_zero
    intro x hx
    obtain ⟨p, hp, rfl⟩ := List.mem_map.1 hx
    exact stepError_eq_zero.2 (exS_linear p hp).symm
  rw [this]
  apply List.sum_nonneg
  intro x hx
  obtain ⟨p, hp, rfl⟩ := List.mem_map.1 hx
  exact stepError_nonneg _ _ _

end Verif.Dmd
