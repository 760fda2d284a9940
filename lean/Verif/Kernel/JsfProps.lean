import Verif.Kernel.Jsf
import Mathlib.Tactic.Positivity
import Mathlib.Tactic.FieldSimp
import Mathlib.Tactic.Linarith
import Mathlib.Tactic.FinCases
import Mathlib.Algebra.Order.BigOperators.Ring.Finset
import Mathlib.Algebra.BigOperators.Field
/-!
# C58, C111, C112: jointly smooth functions for two splits

`W₁` and `W₂` have orthonormal columns (kernel eigenvectors), `JsfSvd (W₁ᵀ * W₂) Q s R` is the singular value decomposition.
-/

namespace Verif.Kernel

open Matrix

variable {m n : Type} [Fintype m] [Fintype n]

/-! ## Helper lemmas -/

theorem col_eq {p r : Nat} (Q : Matrix (Fin p) (Fin r) ℝ) (k : Fin r) : (fun a => Q a k) = Q *ᵥ Pi.single k 1 := by
  rw [mulVec_single_one]
  rfl

theorem dot_cols {p r : Nat} {Q : Matrix (Fin p) (Fin r) ℝ} (h : Qᵀ * Q = 1) (k l : Fin r) : (Q *ᵥ Pi.single k 1) ⬝ᵥ (Q *ᵥ Pi.single l 1) = if k = l then 1 else 0 := by
  rw [dotProduct_mulVec, vecMul_mulVec, h, vecMul_one]
  simp [Pi.single_apply, eq_comm]

section two
variable {p₁ p₂ r : Nat} {W₁ : Matrix n (Fin p₁) ℝ} {W₂ : Matrix n (Fin p₂) ℝ} {Q : Matrix (Fin p₁) (Fin r) ℝ} {s : Fin r → ℝ} {R : Matrix (Fin p₂) (Fin r) ℝ}

/-- The functions with positive sign are `(W₁ q + W₂ r) / √(2 (1 + σ))`. -/
theorem jsfColumn_eq (k : Fin r) :
    jsfColumn W₁ W₂ Q s R (Fin.castAdd r k) = (Real.sqrt (2 * (1 + s k)))⁻¹ • (W₁ *ᵥ (Q *ᵥ Pi.single k 1) + W₂ *ᵥ (R *ᵥ Pi.single k 1)) := by
  unfold jsfColumn
  have hb : blockColumn (Fin.castAdd r k) = Sum.inl k := by simp [blockColumn]
  rw [hb]
  funext i
  simp only [Pi.smul_apply, smul_eq_mul, Pi.add_apply, mulVec, dotProduct, Fintype.sum_sum_type, stacked, gammaDiag, Sum.elim_inl, centerBlock, fromBlocks_apply₁₁, fromBlocks_apply₂₁,
    fromCols_apply_inl, fromCols_apply_inr]
  rw [Real.sqrt_mul (by norm_num)]
  have e1 : ∀ a, ∑ x, Q a x * (Pi.single k (1 : ℝ) : Fin r → ℝ) x = Q a k := fun a => by simp [Pi.single_apply]
  have e2 : ∀ a, ∑ x, R a x * (Pi.single k (1 : ℝ) : Fin r → ℝ) x = R a k := fun a => by simp [Pi.single_apply]
  simp only [e1, e2]
  rw [mul_add, mul_add, Finset.mul_sum, Finset.mul_sum, Finset.mul_sum, Finset.mul_sum, mul_inv]
  congr 1 <;> refine Finset.sum_congr rfl (fun j _ => ?_) <;> ring

variable (h₁ : W₁ᵀ * W₁ = 1) (h₂ : W₂ᵀ * W₂ = 1) (hs : JsfSvd (W₁ᵀ * W₂) Q s R)
include h₁ h₂ hs

theorem proj₁ (k : Fin r) : W₁ᵀ *ᵥ (W₁ *ᵥ (Q *ᵥ Pi.single k 1) + W₂ *ᵥ (R *ᵥ Pi.single k 1)) = (1 + s k) • (Q *ᵥ Pi.single k 1) := by
  rw [mulVec_add, mulVec_mulVec, h₁, one_mulVec, mulVec_mulVec, hs.eq, mulVec_mulVec, Matrix.mul_assoc _ Rᵀ R, hs.right, Matrix.mul_one, ← mulVec_mulVec]
  have : Matrix.diagonal s *ᵥ Pi.single k 1 = s k • (Pi.single k 1 : Fin r → ℝ) := by
    funext l
    by_cases h : l = k
    · subst h
      simp [mulVec_diagonal]
    · simp [mulVec_diagonal, h]
  rw [this, mulVec_smul, add_smul, one_smul]

theorem proj₂ (k : Fin r) : W₂ᵀ *ᵥ (W₁ *ᵥ (Q *ᵥ Pi.single k 1) + W₂ *ᵥ (R *ᵥ Pi.single k 1)) = (1 + s k) • (R *ᵥ Pi.single k 1) := by
  have ht : W₂ᵀ * W₁ = R * Matrix.diagonal s * Qᵀ := by
    have := congrArg Matrix.transpose hs.eq
    rw [transpose_mul, transpose_transpose, transpose_mul, transpose_mul, transpose_transpose, diagonal_transpose] at this
    rw [this, Matrix.mul_assoc]
  rw [mulVec_add, mulVec_mulVec, ht, mulVec_mulVec, mulVec_mulVec, h₂, one_mulVec, Matrix.mul_assoc _ Qᵀ Q, hs.left, Matrix.mul_one, ← mulVec_mulVec]
  have : Matrix.diagonal s *ᵥ Pi.single k 1 = s k • (Pi.single k 1 : Fin r → ℝ) := by
    funext l
    by_cases h : l = k
    · subst h
      simp [mulVec_diagonal]
    · simp [mulVec_diagonal, h]
  rw [this, mulVec_smul, add_smul, one_smul, add_comm]

theorem jsf_dot (k l : Fin r) : jsfColumn W₁ W₂ Q s R (Fin.castAdd r k) ⬝ᵥ jsfColumn W₁ W₂ Q s R (Fin.castAdd r l) = if k = l then 1 else 0 := by
  rw [jsfColumn_eq k, jsfColumn_eq l, smul_dotProduct, dotProduct_smul, add_dotProduct]
  have e1 : (W₁ *ᵥ (Q *ᵥ Pi.single k 1)) ⬝ᵥ (W₁ *ᵥ (Q *ᵥ Pi.single l 1) + W₂ *ᵥ (R *ᵥ Pi.single l 1)) = (1 + s l) * if k = l then 1 else 0 := by
    rw [dotProduct_comm, dotProduct_mulVec, ← mulVec_transpose, proj₁ h₁ h₂ hs, smul_dotProduct, dot_cols hs.left, smul_eq_mul]
    simp only [eq_comm]
  have e2 : (W₂ *ᵥ (R *ᵥ Pi.single k 1)) ⬝ᵥ (W₁ *ᵥ (Q *ᵥ Pi.single l 1) + W₂ *ᵥ (R *ᵥ Pi.single l 1)) = (1 + s l) * if k = l then 1 else 0 := by
    rw [dotProduct_comm, dotProduct_mulVec, ← mulVec_transpose, proj₂ h₁ h₂ hs, smul_dotProduct, dot_cols hs.right, smul_eq_mul]
    simp only [eq_comm]
  rw [e1, e2]
  by_cases h : k = l
  · subst h
    have hp : 0 < 2 * (1 + s k) := by linarith [hs.nonneg k]
    simp only [if_true, smul_eq_mul, mul_one]
    have := Real.mul_self_sqrt hp.le
    have hne : Real.sqrt (2 * (1 + s k)) ≠ 0 := (Real.sqrt_pos.mpr hp).ne'
    field_simp
    linarith [this, sq (Real.sqrt (2 * (1 + s k)))]
  · simp [h]

theorem jsf_energy (k : Fin r) : energy W₁ (jsfColumn W₁ W₂ Q s R (Fin.castAdd r k)) = (1 + s k) / 2 ∧ energy W₂ (jsfColumn W₁ W₂ Q s R (Fin.castAdd r k)) = (1 + s k) / 2 := by
  have hp : 0 < 2 * (1 + s k) := by linarith [hs.nonneg k]
  have hsq := Real.mul_self_sqrt hp.le
  have hne : Real.sqrt (2 * (1 + s k)) ≠ 0 := (Real.sqrt_pos.mpr hp).ne'
  have key : ∀ {p : Nat} (v : Fin p → ℝ), v ⬝ᵥ v = 1 → ∑ j, ((Real.sqrt (2 * (1 + s k)))⁻¹ • (1 + s k) • v) j ^ 2 = (1 + s k) / 2 := by
    intro p v hv
    have : ∀ j, ((Real.sqrt (2 * (1 + s k)))⁻¹ • (1 + s k) • v) j ^ 2 = ((Real.sqrt (2 * (1 + s k)))⁻¹ * (1 + s k)) ^ 2 * (v j * v j) := by
      intro j
      simp only [Pi.smul_apply, smul_eq_mul]
      ring
    simp only [this]
    rw [← Finset.mul_sum]
    change _ * (v ⬝ᵥ v) = _
    rw [hv, mul_one, mul_pow, inv_pow, sq (Real.sqrt _), hsq]
    field_simp
  unfold energy
  rw [jsfColumn_eq k, mulVec_smul, mulVec_smul, proj₁ h₁ h₂ hs, proj₂ h₁ h₂ hs]
  exact ⟨key _ (by rw [dot_cols hs.left, if_pos rfl]), key _ (by rw [dot_cols hs.right, if_pos rfl])⟩

theorem jsf_recombine (k : Fin r) : W₁ *ᵥ (W₁ᵀ *ᵥ jsfColumn W₁ W₂ Q s R (Fin.castAdd r k)) + W₂ *ᵥ (W₂ᵀ *ᵥ jsfColumn W₁ W₂ Q s R (Fin.castAdd r k)) =
    (1 + s k) • jsfColumn W₁ W₂ Q s R (Fin.castAdd r k) := by
  rw [jsfColumn_eq k]
  simp only [mulVec_smul, proj₁ h₁ h₂ hs, proj₂ h₁ h₂ hs]
  simp only [smul_add, smul_smul]
  congr 2 <;> ring

end two

/-- The fitted functions are the columns with positive sign. -/
theorem jsfFit_getElem {p₁ p₂ : Nat} (N : Nat) (W₁ : Matrix n (Fin p₁) ℝ) (W₂ : Matrix n (Fin p₂) ℝ) (Q : Matrix (Fin p₁) (Fin (min p₁ p₂)) ℝ) (s : Fin (min p₁ p₂) → ℝ)
    (R : Matrix (Fin p₂) (Fin (min p₁ p₂)) ℝ) :
    (jsfFit N W₁ W₂ Q s R).length = jsfCount N p₁ p₂ ∧ ∀ i (hi : i < (jsfFit N W₁ W₂ Q s R).length), ∃ h : i < min p₁ p₂,
      (jsfFit N W₁ W₂ Q s R)[i] = jsfColumn W₁ W₂ Q s R (Fin.castAdd _ ⟨i, h⟩) := by
  have hlen : (jsfFit N W₁ W₂ Q s R).length = jsfCount N p₁ p₂ := by
    simp only [jsfFit, List.length_map, List.length_take, List.length_finRange, jsfCount]
    omega
  refine ⟨hlen, fun i hi => ?_⟩
  have h : i < min p₁ p₂ := by
    rw [hlen] at hi
    simp only [jsfCount] at hi
    omega
  refine ⟨h, ?_⟩
  simp only [jsfFit, List.getElem_map, List.getElem_take, List.getElem_finRange]
  rfl

/-! ## C58 -/

/-- C58: for two splits with orthonormal kernel eigenvectors the jointly smooth functions are orthonormal. -/
theorem C58_orthonormal {p₁ p₂ : Nat} (N : Nat) (W₁ : Matrix n (Fin p₁) ℝ) (W₂ : Matrix n (Fin p₂) ℝ) (h₁ : W₁ᵀ * W₁ = 1) (h₂ : W₂ᵀ * W₂ = 1)
    (Q : Matrix (Fin p₁) (Fin (min p₁ p₂)) ℝ) (s : Fin (min p₁ p₂) → ℝ) (R : Matrix (Fin p₂) (Fin (min p₁ p₂)) ℝ) (hs : JsfSvd (W₁ᵀ * W₂) Q s R) :
    (jsfFit N W₁ W₂ Q s R).length = min N (min (p₁ - 1) (p₂ - 1)) ∧ ∀ i j (hi : i < (jsfFit N W₁ W₂ Q s R).length) (hj : j < (jsfFit N W₁ W₂ Q s R).length),
      (jsfFit N W₁ W₂ Q s R)[i] ⬝ᵥ (jsfFit N W₁ W₂ Q s R)[j] = if i = j then 1 else 0 := by
  obtain ⟨hlen, hget⟩ := jsfFit_getElem N W₁ W₂ Q s R
  refine ⟨hlen, fun i j hi hj => ?_⟩
  obtain ⟨h, e⟩ := hget i hi
  obtain ⟨h', e'⟩ := hget j hj
  rw [e, e', jsf_dot h₁ h₂ hs]
  simp [Fin.ext_iff]

/-! ## C111 -/

theorem energy_nonneg {p : Nat} (W : Matrix n (Fin p) ℝ) (f : n → ℝ) : 0 ≤ energy W f := Finset.sum_nonneg (fun _ _ => sq_nonneg _)

/-- Bessel's inequality for orthonormal columns. -/
theorem bessel {p r : Nat} {Q : Matrix (Fin p) (Fin r) ℝ} (h : Qᵀ * Q = 1) (a : Fin p → ℝ) : (Qᵀ *ᵥ a) ⬝ᵥ (Qᵀ *ᵥ a) ≤ a ⬝ᵥ a := by
  have hn : 0 ≤ (a - Q *ᵥ (Qᵀ *ᵥ a)) ⬝ᵥ (a - Q *ᵥ (Qᵀ *ᵥ a)) := Finset.sum_nonneg (fun i _ => mul_self_nonneg _)
  have e1 : a ⬝ᵥ (Q *ᵥ (Qᵀ *ᵥ a)) = (Qᵀ *ᵥ a) ⬝ᵥ (Qᵀ *ᵥ a) := by
    rw [dotProduct_mulVec, ← mulVec_transpose]
  have e2 : (Q *ᵥ (Qᵀ *ᵥ a)) ⬝ᵥ (Q *ᵥ (Qᵀ *ᵥ a)) = (Qᵀ *ᵥ a) ⬝ᵥ (Qᵀ *ᵥ a) := by
    rw [dotProduct_mulVec, ← mulVec_transpose, mulVec_mulVec, h, one_mulVec]
  rw [sub_dotProduct, dotProduct_sub, dotProduct_sub, e2, e1, dotProduct_comm (Q *ᵥ (Qᵀ *ᵥ a)) a, e1] at hn
  linarith

/-- C111: function `k` has the same squared norm `(1 + σₖ) / 2` when projected on the eigenvectors of either split; these values do not increase with `k`, and no function of norm one has a
larger mean than the first one. -/
theorem C111_energy {p₁ p₂ : Nat} (N : Nat) (W₁ : Matrix n (Fin p₁) ℝ) (W₂ : Matrix n (Fin p₂) ℝ) (h₁ : W₁ᵀ * W₁ = 1) (h₂ : W₂ᵀ * W₂ = 1)
    (Q : Matrix (Fin p₁) (Fin (min p₁ p₂)) ℝ) (s : Fin (min p₁ p₂) → ℝ) (R : Matrix (Fin p₂) (Fin (min p₁ p₂)) ℝ) (hs : JsfSvd (W₁ᵀ * W₂) Q s R)
    (i : Nat) (hi : i < (jsfFit N W₁ W₂ Q s R).length) :
    energy W₁ (jsfFit N W₁ W₂ Q s R)[i] = energy W₂ (jsfFit N W₁ W₂ Q s R)[i] ∧
    (∃ h : i < min p₁ p₂, energy W₁ (jsfFit N W₁ W₂ Q s R)[i] = (1 + s ⟨i, h⟩) / 2) ∧
    (∀ j (hj : j < (jsfFit N W₁ W₂ Q s R).length), i ≤ j → energy W₁ (jsfFit N W₁ W₂ Q s R)[j] ≤ energy W₁ (jsfFit N W₁ W₂ Q s R)[i]) ∧
    (i = 0 → ∀ f : n → ℝ, f ⬝ᵥ f = 1 → (energy W₁ f + energy W₂ f) / 2 ≤ (energy W₁ (jsfFit N W₁ W₂ Q s R)[i] + energy W₂ (jsfFit N W₁ W₂ Q s R)[i]) / 2) := by
  obtain ⟨hlen, hget⟩ := jsfFit_getElem N W₁ W₂ Q s R
  obtain ⟨h, e⟩ := hget i hi
  obtain ⟨e1, e2⟩ := jsf_energy h₁ h₂ hs ⟨i, h⟩
  rw [e, e1, e2]
  refine ⟨rfl, ⟨h, rfl⟩, fun j hj hij => ?_, fun hi0 f hf => ?_⟩
  · obtain ⟨h', e'⟩ := hget j hj
    rw [e', (jsf_energy h₁ h₂ hs ⟨j, h'⟩).1]
    linarith [hs.desc ⟨i, h⟩ ⟨j, h'⟩ hij]
  · subst hi0
    have hmax : ∀ k, s k ≤ s ⟨0, h⟩ := fun k => hs.desc _ _ (Nat.zero_le _)
    have hs0 := hs.nonneg ⟨0, h⟩
    generalize s ⟨0, h⟩ = t at hmax hs0
    set a := W₁ᵀ *ᵥ f with ha
    set b := W₂ᵀ *ᵥ f with hb
    have ea : energy W₁ f = a ⬝ᵥ a := Finset.sum_congr rfl (fun k _ => sq _)
    have eb : energy W₂ f = b ⬝ᵥ b := Finset.sum_congr rfl (fun k _ => sq _)
    rw [ea, eb]
    set v := W₁ *ᵥ a + W₂ *ᵥ b with hv
    -- the sum of the energies is the inner product with `v`
    have hfv : a ⬝ᵥ a + b ⬝ᵥ b = f ⬝ᵥ v := by
      rw [hv, dotProduct_add, dotProduct_mulVec f W₁ a, dotProduct_mulVec f W₂ b, ← mulVec_transpose W₁ f, ← mulVec_transpose W₂ f]
    have hcross : a ⬝ᵥ ((W₁ᵀ * W₂) *ᵥ b) ≤ t * ((a ⬝ᵥ a + b ⬝ᵥ b) / 2) := by
      rw [hs.eq, ← mulVec_mulVec, ← mulVec_mulVec, dotProduct_mulVec, ← mulVec_transpose]
      have hA := bessel hs.left a
      have hB := bessel hs.right b
      have hterm : (Qᵀ *ᵥ a) ⬝ᵥ (diagonal s *ᵥ (Rᵀ *ᵥ b)) ≤ ∑ k, t * (((Qᵀ *ᵥ a) k * (Qᵀ *ᵥ a) k + (Rᵀ *ᵥ b) k * (Rᵀ *ᵥ b) k) / 2) := by
        refine Finset.sum_le_sum (fun k _ => ?_)
        rw [mulVec_diagonal]
        generalize (Qᵀ *ᵥ a) k = x
        generalize (Rᵀ *ᵥ b) k = y
        have hk := hmax k
        have hk0 := hs.nonneg k
        nlinarith [mul_nonneg hk0 (sq_nonneg (x - y)), mul_nonneg (sub_nonneg.mpr hk) (add_nonneg (sq_nonneg x) (sq_nonneg y))]
      refine hterm.trans ?_
      rw [← Finset.mul_sum, ← Finset.sum_div, Finset.sum_add_distrib]
      refine mul_le_mul_of_nonneg_left ?_ hs0
      change ((Qᵀ *ᵥ a) ⬝ᵥ (Qᵀ *ᵥ a) + (Rᵀ *ᵥ b) ⬝ᵥ (Rᵀ *ᵥ b)) / 2 ≤ _
      linarith
    have hvv : v ⬝ᵥ v ≤ (1 + t) * (a ⬝ᵥ a + b ⬝ᵥ b) := by
      have x1 : (W₁ *ᵥ a) ⬝ᵥ (W₁ *ᵥ a) = a ⬝ᵥ a := by
        rw [dotProduct_mulVec, ← mulVec_transpose, mulVec_mulVec, h₁, one_mulVec]
      have x2 : (W₂ *ᵥ b) ⬝ᵥ (W₂ *ᵥ b) = b ⬝ᵥ b := by
        rw [dotProduct_mulVec, ← mulVec_transpose, mulVec_mulVec, h₂, one_mulVec]
      have x3 : (W₁ *ᵥ a) ⬝ᵥ (W₂ *ᵥ b) = a ⬝ᵥ ((W₁ᵀ * W₂) *ᵥ b) := by
        rw [dotProduct_comm, dotProduct_mulVec, ← mulVec_transpose, mulVec_mulVec, dotProduct_comm]
      rw [hv, add_dotProduct, dotProduct_add, dotProduct_add, x1, x2, dotProduct_comm (W₂ *ᵥ b), x3]
      linarith
    have hn : 0 ≤ ((1 + t) • f - v) ⬝ᵥ ((1 + t) • f - v) := Finset.sum_nonneg (fun i _ => mul_self_nonneg _)
    rw [sub_dotProduct, dotProduct_sub, dotProduct_sub, smul_dotProduct, smul_dotProduct, dotProduct_smul, dotProduct_smul, hf, dotProduct_comm v f, ← hfv] at hn
    simp only [smul_eq_mul, mul_one] at hn
    have hfin : (1 + t) * (a ⬝ᵥ a + b ⬝ᵥ b) ≤ (1 + t) * (1 + t) := by nlinarith
    have := le_of_mul_le_mul_left hfin (by linarith : 0 < 1 + t)
    linarith

/-! ## C112 -/

/-- C112: `transform` at the training points returns function `k` multiplied by `(1 + σₖ) / 2`, where `K W = W diag(λ)` for the eigenvectors with positive eigenvalues; it is rejected if
fewer functions than requested were computed. -/
theorem C112_nystrom_partial {p₁ p₂ : Nat} (N : Nat) (W₁ : Matrix n (Fin p₁) ℝ) (W₂ : Matrix n (Fin p₂) ℝ) (h₁ : W₁ᵀ * W₁ = 1) (h₂ : W₂ᵀ * W₂ = 1)
    (Q : Matrix (Fin p₁) (Fin (min p₁ p₂)) ℝ) (s : Fin (min p₁ p₂) → ℝ) (R : Matrix (Fin p₂) (Fin (min p₁ p₂)) ℝ) (hs : JsfSvd (W₁ᵀ * W₂) Q s R)
    (K₁ K₂ : Matrix n n ℝ) (lam₁ : Fin p₁ → ℝ) (lam₂ : Fin p₂ → ℝ) (e₁ : K₁ * W₁ = W₁ * diagonal lam₁) (e₂ : K₂ * W₂ = W₂ * diagonal lam₂) (l₁ : ∀ k, 0 < lam₁ k) (l₂ : ∀ k, 0 < lam₂ k) :
    (¬(N ≤ p₁ - 1 ∧ N ≤ p₂ - 1) → jsfNystrom N K₁ K₂ W₁ W₂ lam₁ lam₂ (jsfFit N W₁ W₂ Q s R) = .error .shape) ∧
    (N ≤ p₁ - 1 ∧ N ≤ p₂ - 1 → ∃ out, jsfNystrom N K₁ K₂ W₁ W₂ lam₁ lam₂ (jsfFit N W₁ W₂ Q s R) = .ok out ∧ out.length = N ∧
      ∀ i (hi : i < out.length) (hi' : i < (jsfFit N W₁ W₂ Q s R).length), ∃ h : i < min p₁ p₂, out[i] = ((1 + s ⟨i, h⟩) / 2) • (jsfFit N W₁ W₂ Q s R)[i]) := by
  obtain ⟨hlen, hget⟩ := jsfFit_getElem N W₁ W₂ Q s R
  have key : ∀ {p : Nat} (K : Matrix n n ℝ) (W : Matrix n (Fin p) ℝ) (lam : Fin p → ℝ), K * W = W * diagonal lam → (∀ k, 0 < lam k) → ∀ f, nystromSplit K W lam f = W *ᵥ (Wᵀ *ᵥ f) := by
    intro p K W lam he hl f
    unfold nystromSplit
    rw [← Matrix.mul_assoc, he, Matrix.mul_assoc, diagonal_mul_diagonal]
    have : (fun i => lam i * (lam i)⁻¹) = fun _ => (1 : ℝ) := funext (fun k => mul_inv_cancel₀ (hl k).ne')
    rw [this, diagonal_one, Matrix.mul_one]
  refine ⟨fun hN => ?_, fun hN => ?_⟩
  · unfold jsfNystrom
    rw [if_neg]
    rw [hlen]
    simp only [jsfCount]
    omega
  · unfold jsfNystrom
    have hN' : jsfCount N p₁ p₂ = N := by
      simp only [jsfCount]
      omega
    rw [if_pos (hlen.trans hN')]
    refine ⟨_, rfl, by rw [List.length_map, hlen, hN'], fun i hi hi' => ?_⟩
    obtain ⟨h, e⟩ := hget i hi'
    refine ⟨h, ?_⟩
    rw [List.getElem_map, e, key K₁ W₁ lam₁ e₁ l₁, key K₂ W₂ lam₂ e₂ l₂, jsf_recombine h₁ h₂ hs, smul_smul]
    congr 1
    ring

/-- C112 is violated for every function whose singular value is not one: `transform` at the training points differs from `fit_transform`. -/
theorem C112_violated {p₁ p₂ : Nat} (N : Nat) (W₁ : Matrix n (Fin p₁) ℝ) (W₂ : Matrix n (Fin p₂) ℝ) (h₁ : W₁ᵀ * W₁ = 1) (h₂ : W₂ᵀ * W₂ = 1)
    (Q : Matrix (Fin p₁) (Fin (min p₁ p₂)) ℝ) (s : Fin (min p₁ p₂) → ℝ) (R : Matrix (Fin p₂) (Fin (min p₁ p₂)) ℝ) (hs : JsfSvd (W₁ᵀ * W₂) Q s R)
    (K₁ K₂ : Matrix n n ℝ) (lam₁ : Fin p₁ → ℝ) (lam₂ : Fin p₂ → ℝ) (e₁ : K₁ * W₁ = W₁ * diagonal lam₁) (e₂ : K₂ * W₂ = W₂ * diagonal lam₂) (l₁ : ∀ k, 0 < lam₁ k) (l₂ : ∀ k, 0 < lam₂ k)
    (hN : N ≤ p₁ - 1 ∧ N ≤ p₂ - 1) (i : Nat) (hi : i < N) (h : i < min p₁ p₂) (hne : s ⟨i, h⟩ ≠ 1) :
    jsfNystrom N K₁ K₂ W₁ W₂ lam₁ lam₂ (jsfFit N W₁ W₂ Q s R) ≠ .ok (jsfFit N W₁ W₂ Q s R) := by
  intro hc
  obtain ⟨out, h3, hlen, h4⟩ := (C112_nystrom_partial N W₁ W₂ h₁ h₂ Q s R hs K₁ K₂ lam₁ lam₂ e₁ e₂ l₁ l₂).2 hN
  rw [hc] at h3
  obtain rfl := Except.ok.inj h3
  obtain ⟨h', h5⟩ := h4 i (by omega) (by omega)
  have h6 := (C58_orthonormal N W₁ W₂ h₁ h₂ Q s R hs).2 i i (by omega) (by omega)
  have h7 : (jsfFit N W₁ W₂ Q s R)[i] ⬝ᵥ (jsfFit N W₁ W₂ Q s R)[i] = (1 + s ⟨i, h⟩) / 2 * ((jsfFit N W₁ W₂ Q s R)[i] ⬝ᵥ (jsfFit N W₁ W₂ Q s R)[i]) := by
    conv_lhs => rw [h5]
    rw [smul_dotProduct, ← h5, smul_eq_mul]
  rw [h6, if_pos rfl, mul_one] at h7
  exact hne (by linarith)

/-! ## An example with three samples -/

/-- Orthonormal eigenvectors of the first split: three samples. -/
def jsfA : Matrix (Fin 3) (Fin 2) ℝ := !![1, 0; 0, 1; 0, 0]

/-- Orthonormal eigenvectors of the second split: the second direction is common to both. -/
noncomputable def jsfB : Matrix (Fin 3) (Fin 2) ℝ := !![3 / 5, 0; 0, 1; 4 / 5, 0]

/-- Singular vectors of `jsfAᵀ * jsfB`. -/
def jsfQ : Matrix (Fin 2) (Fin 2) ℝ := !![0, 1; 1, 0]

/-- Singular values of `jsfAᵀ * jsfB`. -/
noncomputable def jsfS : Fin 2 → ℝ := ![1, 3 / 5]

theorem jsfA_orth : jsfAᵀ * jsfA = 1 := by
  ext i j
  fin_cases i <;> fin_cases j <;> simp [jsfA, Matrix.mul_apply, Fin.sum_univ_three]

theorem jsfB_orth : jsfBᵀ * jsfB = 1 := by
  ext i j
  fin_cases i <;> fin_cases j <;> simp [jsfB, Matrix.mul_apply, Fin.sum_univ_three] <;> norm_num

theorem jsf_svd : JsfSvd (jsfAᵀ * jsfB) jsfQ jsfS jsfQ where
  left := by
    ext i j
    fin_cases i <;> fin_cases j <;> simp [jsfQ, Matrix.mul_apply, Fin.sum_univ_two]
  right := by
    ext i j
    fin_cases i <;> fin_cases j <;> simp [jsfQ, Matrix.mul_apply, Fin.sum_univ_two]
  eq := by
    ext i j
    fin_cases i <;> fin_cases j <;> simp [jsfA, jsfB, jsfQ, jsfS, Matrix.mul_apply, Fin.sum_univ_two, Fin.sum_univ_three, Matrix.diagonal_apply, vecMul, dotProduct]
  nonneg := by
    intro k
    fin_cases k <;> norm_num [jsfS]
  desc := by
    intro k l
    fin_cases k <;> fin_cases l <;> norm_num [jsfS]

/-- The hypotheses of C58 and C111 are met by a non-trivial example with one jointly smooth function. -/
example : (jsfFit 1 jsfA jsfB jsfQ jsfS jsfQ).length = 1 ∧ ∀ i j (hi : i < (jsfFit 1 jsfA jsfB jsfQ jsfS jsfQ).length) (hj : j < (jsfFit 1 jsfA jsfB jsfQ jsfS jsfQ).length),
    (jsfFit 1 jsfA jsfB jsfQ jsfS jsfQ)[i] ⬝ᵥ (jsfFit 1 jsfA jsfB jsfQ jsfS jsfQ)[j] = if i = j then 1 else 0 :=
  C58_orthonormal 1 jsfA jsfB jsfA_orth jsfB_orth jsfQ jsfS jsfQ jsf_svd

/-- Two planes in a space of four samples that have no direction in common. -/
def jsfC : Matrix (Fin 4) (Fin 2) ℝ := !![1, 0; 0, 1; 0, 0; 0, 0]

/-- See `jsfC`. -/
noncomputable def jsfD : Matrix (Fin 4) (Fin 2) ℝ := !![3 / 5, 0; 0, 3 / 5; 4 / 5, 0; 0, 4 / 5]

theorem jsfC_orth : jsfCᵀ * jsfC = 1 := by
  ext i j
  fin_cases i <;> fin_cases j <;> simp [jsfC, Matrix.mul_apply, Fin.sum_univ_four]

theorem jsfD_orth : jsfDᵀ * jsfD = 1 := by
  ext i j
  fin_cases i <;> fin_cases j <;> simp [jsfD, Matrix.mul_apply, Fin.sum_univ_four] <;> norm_num

/-- The singular vectors of `jsfCᵀ * jsfD`. -/
def jsfI : Matrix (Fin 2) (Fin 2) ℝ := 1

/-- The singular values of `jsfCᵀ * jsfD`. -/
noncomputable def jsfT : Fin 2 → ℝ := fun _ => 3 / 5

theorem jsfCD_svd : JsfSvd (jsfCᵀ * jsfD) jsfI jsfT jsfI where
  left := by simp [jsfI]
  right := by simp [jsfI]
  eq := by
    ext i j
    fin_cases i <;> fin_cases j <;> simp [jsfC, jsfD, jsfI, jsfT, Matrix.mul_apply, Fin.sum_univ_four]
  nonneg := fun _ => by norm_num [jsfT]
  desc := fun _ _ _ => le_refl _

/-- The hypotheses of `C112_violated`: the kernel matrices are the projections on the two planes. -/
example : jsfNystrom 1 (jsfC * jsfCᵀ) (jsfD * jsfDᵀ) jsfC jsfD (fun _ => 1) (fun _ => 1) (jsfFit 1 jsfC jsfD jsfI jsfT jsfI) ≠ .ok (jsfFit 1 jsfC jsfD jsfI jsfT jsfI) :=
  C112_violated 1 jsfC jsfD jsfC_orth jsfD_orth jsfI jsfT jsfI jsfCD_svd _ _ (fun _ => 1) (fun _ => 1)
    (by rw [Matrix.mul_assoc, jsfC_orth, Matrix.mul_one]; exact (Matrix.mul_one _).symm) (by rw [Matrix.mul_assoc, jsfD_orth, Matrix.mul_one]; exact (Matrix.mul_one _).symm)
    (fun _ => one_pos) (fun _ => one_pos) (by norm_num) 0 (by norm_num) (by norm_num) (by norm_num [jsfT])

end Verif.Kernel
