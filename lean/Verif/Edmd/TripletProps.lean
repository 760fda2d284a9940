import Verif.Edmd.Predict
import Verif.Dyn.SpectralProps
/-! # Property C37: sorting the Koopman triplets does not change predictions -/

namespace Verif.Edmd

open Verif.Tsc Verif.Np Verif.Dyn Matrix

variable {ι δ : Type} [Fintype δ] {n : Nat}

omit [Fintype δ] in
theorem permute_mulVec (M : Matrix ι (Fin n) ℂ) (σ : Equiv.Perm (Fin n)) (v : Fin n → ℂ) :
    (fun k p => M k (σ p) : Matrix ι (Fin n) ℂ) *ᵥ (fun p => v (σ p)) = M *ᵥ v := by
  funext k
  exact Equiv.sum_comp σ (fun p => M k p * v p)

theorem permute_residual (M : Matrix δ (Fin n) ℂ) (σ : Equiv.Perm (Fin n)) (x : δ → ℂ) (b : Fin n → ℂ) :
    Dyn.residual (fun k p => M k (σ p) : Matrix δ (Fin n) ℂ) x (fun p => b (σ p)) = Dyn.residual M x b := by
  unfold Dyn.residual
  rw [permute_mulVec]

/-- The spectral states of the sorted triplets are the permuted spectral states. -/
theorem permute_spectralState (s : Triplets ι δ n) (σ : Equiv.Perm (Fin n)) (x : δ → ℂ) (b : Fin n → ℂ) :
    IsSpectralState (sortTriplets s σ).left (sortTriplets s σ).right x (fun p => b (σ p)) ↔ IsSpectralState s.left s.right x b := by
  unfold IsSpectralState sortTriplets
  simp only [Option.map_eq_some_iff, Option.map_eq_none_iff]
  refine or_congr ⟨?_, ?_⟩ (and_congr_right fun _ => ⟨?_, ?_⟩)
  · rintro ⟨_, ⟨L, hL, rfl⟩, hb⟩
    refine ⟨L, hL, funext fun q => ?_⟩
    have := congrFun hb (σ.symm q)
    simp only [Equiv.apply_symm_apply] at this
    rw [this]
    simp only [mulVec, dotProduct, Matrix.of_apply, Equiv.apply_symm_apply]
  · rintro ⟨L, hL, rfl⟩
    exact ⟨_, ⟨L, hL, rfl⟩, rfl⟩
  · intro h b'
    have := h (fun p => b' (σ p))
    rwa [permute_residual, permute_residual] at this
  · intro h b'
    have h2 : b' = fun p => (fun q => b' (σ.symm q)) (σ p) := by funext p; simp
    rw [h2]
    have h3 := permute_residual s.right σ x (fun q => b' (σ.symm q))
    have h4 := permute_residual s.right σ x b
    exact (h4.trans_le (h _)).trans_eq h3.symm

/-- **C37.** For every order `σ` the possible predictions of the model with the sorted triplets are those of the model before, for every initial state, at every
time (`w` is `λ ↦ λ^s` for `s` steps or `λ ↦ exp(λ t)`). -/
theorem C37_prediction (s : Triplets ι δ n) (σ : Equiv.Perm (Fin n)) (w : ℂ → ℂ) (x : δ → ℝ) (y : ι → ℝ) :
    IsPrediction (sortTriplets s σ) w x y ↔ IsPrediction s w x y := by
  unfold IsPrediction
  constructor
  · rintro ⟨b', hb, rfl⟩
    have h2 : b' = fun p => (fun q => b' (σ.symm q)) (σ p) := by funext p; simp
    rw [h2] at hb
    refine ⟨fun q => b' (σ.symm q), (permute_spectralState s σ _ _).1 hb, ?_⟩
    rw [← permute_mulVec s.modes σ]
    congr 2
    funext p; simp [sortTriplets]
  · rintro ⟨b, hb, rfl⟩
    refine ⟨fun p => b (σ p), (permute_spectralState s σ _ _).2 hb, ?_⟩
    rw [← permute_mulVec s.modes σ]
    rfl

/-- **C37 (dictionary states).** The same for the predictions of the DMD model inside. -/
theorem C37_dictionary (s : Triplets ι δ n) (σ : Equiv.Perm (Fin n)) (w : ℂ → ℂ) (x y : δ → ℝ) :
    IsDictPrediction (sortTriplets s σ) w x y ↔ IsDictPrediction s w x y := by
  have := C37_prediction (ι := δ) ⟨s.ev, s.right, s.left, s.right⟩ σ w x y
  exact this

omit [Fintype δ] in
/-- **C37 (order).** After sorting by `argsort(importance)[::-1]` the importances of the triplets never increase. -/
theorem C37_sorted [Fintype ι] (s : Triplets ι δ n) (bs : List (Fin n → ℂ)) (σ : Equiv.Perm (Fin n)) (h : IsArgsortDesc (importance s bs) σ)
    (p q : Fin n) (hpq : p ≤ q) :
    importance (sortTriplets s σ) (bs.map (fun b p => b (σ p))) q ≤ importance (sortTriplets s σ) (bs.map (fun b p => b (σ p))) p := by
  have key : ∀ r, importance (sortTriplets s σ) (bs.map (fun b p => b (σ p))) r = importance s bs (σ r) := by
    intro r
    unfold importance
    rw [List.map_map, List.length_map]
    rfl
  rw [key, key]
  exact h p q hpq

omit [Fintype δ] in
/-- **C37 (meaning of the order).** The importance of a triplet is the mean length of its contribution `b_p · mode_p` to the reconstructed initial states. -/
theorem C37_importance [Fintype ι] (s : Triplets ι δ n) (bs : List (Fin n → ℂ)) (p : Fin n) :
    importance s bs p = (bs.map (fun b => Real.sqrt (∑ k, ‖s.modes k p * b p‖ ^ 2))).sum / bs.length := by
  unfold importance
  congr 2
  refine List.map_congr_left fun b _ => ?_
  rw [norm_mul, Complex.norm_real, Real.norm_eq_abs, abs_of_nonneg (Real.sqrt_nonneg _)]
  have : ∑ k, ‖s.modes k p * b p‖ ^ 2 = (∑ k, ‖s.modes k p‖ ^ 2) * ‖b p‖ ^ 2 := by
    rw [Finset.sum_mul]
    exact Finset.sum_congr rfl (fun k _ => by rw [norm_mul, mul_pow])
  rw [this, Real.sqrt_mul (Finset.sum_nonneg fun k _ => sq_nonneg _), Real.sqrt_sq (norm_nonneg _)]

/-- non-vacuity: two triplets exchanged; a prediction exists -/
example : ∃ (s : Triplets (Fin 1) (Fin 2) 2) (σ : Equiv.Perm (Fin 2)) (bs : List (Fin 2 → ℂ)), σ ≠ 1 ∧ IsArgsortDesc (importance s bs) σ ∧
    ∃ y, IsPrediction s (fun l => l ^ 3) (fun _ => 1) y := by
  refine ⟨⟨![1, 2], 1, some 1, !![1, 2]⟩, Equiv.swap 0 1, [fun _ => 1], ?_, ?_, _, _, Or.inl ⟨_, rfl, rfl⟩, rfl⟩
  · intro h; have := congrArg (fun f : Equiv.Perm (Fin 2) => f 0) h; revert this; decide
  · intro p q hpq
    fin_cases p <;> fin_cases q <;> simp [importance] at hpq ⊢

end Verif.Edmd
