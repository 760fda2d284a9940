import Verif.Kernel.JsfThreshold
import Verif.Kernel.JsfManyProps
/-! # C182: threshold and score of the jointly smooth functions -/

namespace Verif.Kernel

open Matrix

variable {ι n : Type} [Fintype ι] [Fintype n]

theorem shuffle_orth {p : Nat} (π : Equiv.Perm n) {W : Matrix n (Fin p) ℝ} (h : Wᵀ * W = 1) : (shuffleRows π W)ᵀ * shuffleRows π W = 1 := by
  rw [← h]
  ext a b
  simp only [Matrix.mul_apply, Matrix.transpose_apply, shuffleRows, Matrix.submatrix_apply, id]
  exact Equiv.sum_comp π (fun i => W i a * W i b)

/-- **C182 (outcome).** The threshold is computed exactly if at least three functions are requested and fewer than the smaller dimension of the matrix. -/
theorem C182_outcome (rows cols : Nat) {r : Nat} (s : Fin r → ℝ) (e : ℝ) : e0Value rows cols s = .ok e ↔ (r < rows ∧ r < cols) ∧ ∃ h : 2 < r, e = (1 + s ⟨2, h⟩) / 2 := by
  unfold e0Value svdsCheck
  by_cases h1 : 0 < r ∧ r < min rows cols
  · rw [if_pos h1]
    by_cases h2 : 2 < r
    · simp only [dif_pos h2, Except.ok.injEq]
      constructor
      · rintro rfl; exact ⟨by omega, h2, rfl⟩
      · rintro ⟨_, _, rfl⟩; rfl
    · simp only [dif_neg h2, reduceCtorEq, false_iff]
      rintro ⟨_, h, _⟩; exact h2 h
  · rw [if_neg h1]
    simp only [reduceCtorEq, false_iff]
    rintro ⟨h, h', _⟩
    omega

/-- **C182 (two splits).** With two splits the threshold is the energy, in each of the two splits, of the third jointly smooth function of the first split and the shuffled second split; it lies between 1/2 and 1.
`s` are all singular values, of which the `r` leading ones are computed. -/
theorem C182_two {p₁ p₂ r q : Nat} (π : Equiv.Perm n) {W₁ : Matrix n (Fin p₁) ℝ} {W₂ : Matrix n (Fin p₂) ℝ} (h₁ : W₁ᵀ * W₁ = 1) (h₂ : W₂ᵀ * W₂ = 1)
    {Q : Matrix (Fin p₁) (Fin q) ℝ} {s : Fin q → ℝ} {R : Matrix (Fin p₂) (Fin q) ℝ} (hs : JsfSvd (e0Two π W₁ W₂) Q s R) (hr : r ≤ q) {e : ℝ}
    (he : e0Value p₁ p₂ (fun k : Fin r => s (Fin.castLE hr k)) = .ok e) :
    ∃ h : 2 < q, (energy W₁ (jsfColumn W₁ (shuffleRows π W₂) Q s R (Fin.castAdd q ⟨2, h⟩)) = e ∧
      energy (shuffleRows π W₂) (jsfColumn W₁ (shuffleRows π W₂) Q s R (Fin.castAdd q ⟨2, h⟩)) = e) ∧ 1 / 2 ≤ e ∧ e ≤ 1 := by
  obtain ⟨_, h, rfl⟩ := (C182_outcome _ _ _ _).1 he
  have h' : 2 < q := by omega
  have hc : Fin.castLE hr ⟨2, h⟩ = ⟨2, h'⟩ := rfl
  simp only [hc]
  obtain ⟨e1, e2⟩ := jsf_energy h₁ (shuffle_orth π h₂) hs ⟨2, h'⟩
  refine ⟨h', ⟨e1, e2⟩, by linarith [hs.nonneg ⟨2, h'⟩], ?_⟩
  rw [← e1]
  have h3 := energy_le h₁ (jsfColumn W₁ (shuffleRows π W₂) Q s R (Fin.castAdd q ⟨2, h'⟩))
  rwa [jsf_dot h₁ (shuffle_orth π h₂) hs, if_pos rfl] at h3

/-- Non-vacuity: four samples, all four eigenvectors in both splits, three functions; the shuffled split is as smooth as the data and the threshold is one. -/
example (π : Equiv.Perm (Fin 4)) : ∃ (s : Fin 4 → ℝ) (R : Matrix (Fin 4) (Fin 4) ℝ), JsfSvd (e0Two π (1 : Matrix (Fin 4) (Fin 4) ℝ) (1 : Matrix (Fin 4) (Fin 4) ℝ)) 1 s R ∧
    e0Value 4 4 (fun k : Fin 3 => s (Fin.castLE (by omega) k)) = .ok 1 := by
  refine ⟨fun _ => 1, (shuffleRows π 1)ᵀ, ⟨by simp, ?_, ?_, fun _ => zero_le_one, fun _ _ _ => le_rfl⟩, ?_⟩
  · rw [Matrix.transpose_transpose]
    exact mul_eq_one_comm.1 (shuffle_orth π (W := (1 : Matrix (Fin 4) (Fin 4) ℝ)) (by simp))
  · simp [e0Two]
  · rw [C182_outcome]
    exact ⟨by norm_num, by norm_num, by norm_num⟩

/-- **C182 (three and more splits, violated).** The threshold does not depend on the shuffling: it is computed from the singular values of the data themselves. If the total energy of the third function exceeds one,
the threshold exceeds the energy of every function of norm one in every split, so that all functions would be rejected. -/
theorem C182_many_violated {p : ι → Nat} {W : (i : ι) → Matrix n (Fin (p i)) ℝ} (hW : ∀ i, (W i)ᵀ * W i = 1) {r : Nat} {u : Fin r → n → ℝ} {s : Fin r → ℝ}
    {v : Fin r → (i : ι) × Fin (p i) → ℝ} (π : Equiv.Perm n) (hs : TopSvd (e0Many π W) u s v) {rows cols : Nat} {e : ℝ} (he : e0Value rows cols s = .ok e) :
    (∀ π' : Equiv.Perm n, TopSvd (e0Many π' W) u s v) ∧
      ∃ h : 2 < r, 1 < ∑ i, energy (W i) (u ⟨2, h⟩) → ∀ (f : n → ℝ), f ⬝ᵥ f = 1 → ∀ i, energy (W i) f < e := by
  obtain ⟨_, h, rfl⟩ := (C182_outcome _ _ _ _).1 he
  refine ⟨fun _ => hs, h, fun h1 f hf i => ?_⟩
  have h2 := (C161_smoothest hW hs).2.1 ⟨2, h⟩
  rw [h2.1] at h1
  have h3 : 1 < s ⟨2, h⟩ := by
    by_contra hc
    have := hs.nonneg ⟨2, h⟩
    nlinarith
  have h4 := energy_le (hW i) f
  rw [hf] at h4
  linarith

/-- Non-vacuity: three equal splits with four eigenvectors (of four samples), three functions: the threshold is larger than one. -/
theorem C182_witness_violated (π : Equiv.Perm (Fin 4)) :
    ∃ (u : Fin 3 → Fin 4 → ℝ) (s : Fin 3 → ℝ) (v : Fin 3 → (i : Fin 3) × Fin 4 → ℝ) (e : ℝ),
      TopSvd (e0Many π (fun _ : Fin 3 => (1 : Matrix (Fin 4) (Fin 4) ℝ))) u s v ∧ e0Value 4 12 s = .ok e ∧ 1 < e := by
  have h3 : (0 : ℝ) < Real.sqrt 3 := by positivity
  have hsq : Real.sqrt 3 * Real.sqrt 3 = 3 := Real.mul_self_sqrt (by norm_num)
  have hst : ∀ f : Fin 4 → ℝ, (stackAll (fun _ : Fin 3 => (1 : Matrix (Fin 4) (Fin 4) ℝ)))ᵀ *ᵥ f = fun q => f q.2 := by
    intro f
    funext q
    have : (1 : Matrix (Fin 4) (Fin 4) ℝ)ᵀ *ᵥ f = f := by simp
    exact congrFun this q.2
  refine ⟨fun k => Pi.single (Fin.castSucc k) 1, fun _ => Real.sqrt 3, fun k q => (Real.sqrt 3)⁻¹ * (Pi.single (Fin.castSucc k) 1 : Fin 4 → ℝ) q.2, (1 + Real.sqrt 3) / 2, ?_, ?_, ?_⟩
  · refine ⟨?_, fun _ => h3.le, ?_, ?_, ?_⟩
    · intro k l
      rw [single_dotProduct, one_mul, Pi.single_apply]
      simp only [Fin.castSucc_inj]
    · intro k
      unfold e0Many
      rw [hst]
      funext q
      simp only [Pi.smul_apply, smul_eq_mul]
      rw [← mul_assoc, mul_inv_cancel₀ h3.ne', one_mul]
    · intro k
      funext a
      simp only [mulVec, dotProduct, Fintype.sum_sigma, e0Many, stackAll, Matrix.of_apply, Matrix.one_apply, ite_mul, one_mul, zero_mul, Finset.sum_ite_eq, Finset.mem_univ, if_true,
        Finset.sum_const, Finset.card_univ, Fintype.card_fin, Pi.smul_apply, smul_eq_mul, nsmul_eq_mul]
      push_cast
      rw [← mul_assoc]
      congr 1
      field_simp
      linarith
    · intro k f _
      unfold e0Many
      rw [hst]
      simp only [dotProduct, Fintype.sum_sigma, Finset.sum_const, Finset.card_univ, Fintype.card_fin, nsmul_eq_mul, sq, hsq]
      push_cast
      rfl
  · rw [C182_outcome]
    exact ⟨⟨by norm_num, by norm_num⟩, by norm_num, rfl⟩
  · nlinarith

/-- **C182 (score, violated).** For all fitted models `score_` returns an object that is not a number: the collection of the energies, for every split one list with the energies of the functions
in it. -/
theorem C182_score_violated {p : Nat} (W : List (Matrix n (Fin p) ℝ)) (fs : List (n → ℝ)) :
    ∃ v, jsfScore W fs = .inr v ∧ v.length = W.length ∧ (∀ x, jsfScore W fs ≠ .inl x) ∧
      ∀ i (hi : i < v.length) (hW : i < W.length), (v[i]).length = fs.length ∧
        ∀ j (hj : j < (v[i]).length) (hf : j < fs.length), (v[i])[j] = ∑ k, (∑ a, W[i] a k * fs[j] a) ^ 2 := by
  refine ⟨_, rfl, by simp, by simp [jsfScore, arrayOfDictValues, NpObj.sum], ?_⟩
  intro i hi hW
  refine ⟨by simp, ?_⟩
  intro j hj hf
  simp [energy, mulVec, dotProduct, sq]

end Verif.Kernel
