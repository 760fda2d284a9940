import Verif.Kernel.MultiScale
import Mathlib.Tactic.Linarith
import Mathlib.Tactic.Ring
import Mathlib.Tactic.NormNum
import Mathlib.Tactic.FieldSimp

/-!
# Multi-scale geometric harmonics (C200)
-/

namespace Verif.Kernel

open Matrix

/-- The result of the eigensolver: orthonormal eigenvectors with positive eigenvalues, the largest first. -/
structure IsEigTop {n k : Nat} (K : Matrix (Fin n) (Fin n) ℝ) (mu : Fin k → ℝ) (phi : Matrix (Fin n) (Fin k) ℝ) : Prop where
  orth : phiᵀ * phi = 1
  eigen : ∀ i, K *ᵥ (fun a => phi a i) = mu i • fun a => phi a i
  pos : ∀ i, 0 < mu i
  sorted : ∀ i j, i ≤ j → mu j ≤ mu i

/-! ## Helpers -/

theorem msLoop_some {n k : Nat} {eig : ℝ → (Fin k → ℝ) × Matrix (Fin n) (Fin k) ℝ} {cond tau : ℝ} {y : Fin n → ℝ} : ∀ {fuel s0 s aux},
    msLoop eig cond tau y fuel s0 = some (s, aux) →
    (∃ j : Nat, s = s0 / 2 ^ j) ∧ msError (msCoeff (eig s).2 y) (msCount cond (eig s).1) ≤ tau ∧ aux = msAux (eig s).1 (eig s).2 (msCount cond (eig s).1) y
  | 0, _, _, _, h => by simp [msLoop] at h
  | fuel + 1, s0, s, aux, h => by
    unfold msLoop at h
    split at h
    · rename_i hle
      cases h
      exact ⟨⟨0, by simp⟩, hle, rfl⟩
    · obtain ⟨⟨j, hj⟩, h2⟩ := msLoop_some h
      exact ⟨⟨j + 1, by rw [hj, pow_succ, div_div, mul_comm]⟩, h2⟩

/-- The values of the interpolant at the training points: the projection on the eigenvectors kept. -/
theorem msTrain {n k : Nat} {K : Matrix (Fin n) (Fin n) ℝ} {mu : Fin k → ℝ} {phi : Matrix (Fin n) (Fin k) ℝ} (h : IsEigTop K mu phi) (l : Nat) (y : Fin n → ℝ) :
    K *ᵥ msAux mu phi l y = phi *ᵥ fun i => if i.val < l then msCoeff phi y i else 0 := by
  have hK : K * phi = phi * diagonal mu := by
    ext a i
    have := congrFun (h.eigen i) a
    rw [Matrix.mul_diagonal, mul_comm]
    exact this
  unfold msAux
  rw [Matrix.mulVec_mulVec, hK, ← Matrix.mulVec_mulVec]
  congr 1
  funext i
  rw [Matrix.mulVec_diagonal]
  by_cases hi : i.val < l
  · rw [if_pos hi, if_pos hi, ← mul_assoc, mul_inv_cancel₀ (h.pos i).ne', one_mul]
  · rw [if_neg hi, if_neg hi, mul_zero]

theorem msResidual {n k : Nat} {phi : Matrix (Fin n) (Fin k) ℝ} (ho : phiᵀ * phi = 1) (l : Nat) (y : Fin n → ℝ) :
    let r := phi *ᵥ (fun i => if i.val < l then msCoeff phi y i else 0) - y
    r ⬝ᵥ r = y ⬝ᵥ y - ∑ i : Fin k, if i.val < l then msCoeff phi y i ^ 2 else 0 := by
  intro r
  set w : Fin k → ℝ := fun i => if i.val < l then msCoeff phi y i else 0 with hw
  have h1 : (phi *ᵥ w) ⬝ᵥ (phi *ᵥ w) = w ⬝ᵥ w := by
    rw [Matrix.dotProduct_mulVec, ← Matrix.mulVec_transpose, Matrix.mulVec_mulVec, ho, Matrix.one_mulVec]
  have h2 : (phi *ᵥ w) ⬝ᵥ y = w ⬝ᵥ msCoeff phi y := by
    rw [dotProduct_comm, Matrix.dotProduct_mulVec, ← Matrix.mulVec_transpose, dotProduct_comm]
    rfl
  have h3 : w ⬝ᵥ w = ∑ i : Fin k, if i.val < l then msCoeff phi y i ^ 2 else 0 := by
    unfold dotProduct
    refine Finset.sum_congr rfl fun i _ => ?_
    simp only [hw]
    by_cases hi : i.val < l
    · rw [if_pos hi, if_pos hi]; ring
    · rw [if_neg hi, if_neg hi]; ring
  have h4 : w ⬝ᵥ msCoeff phi y = ∑ i : Fin k, if i.val < l then msCoeff phi y i ^ 2 else 0 := by
    unfold dotProduct
    refine Finset.sum_congr rfl fun i _ => ?_
    simp only [hw]
    by_cases hi : i.val < l
    · rw [if_pos hi, if_pos hi]; ring
    · rw [if_neg hi, if_neg hi]; ring
  have : r ⬝ᵥ r = (phi *ᵥ w) ⬝ᵥ (phi *ᵥ w) - 2 * ((phi *ᵥ w) ⬝ᵥ y) + y ⬝ᵥ y := by
    simp only [r, sub_dotProduct, dotProduct_sub]
    rw [dotProduct_comm y (phi *ᵥ w)]
    ring
  rw [this, h1, h2, h3, h4]
  ring

theorem msCoeff_full {n : Nat} {phi : Matrix (Fin n) (Fin n) ℝ} (ho : phiᵀ * phi = 1) (y : Fin n → ℝ) : ∑ i, msCoeff phi y i ^ 2 = y ⬝ᵥ y := by
  have ho' : phi * phiᵀ = 1 := mul_eq_one_comm.1 ho
  have : ∑ i, msCoeff phi y i ^ 2 = (phiᵀ *ᵥ y) ⬝ᵥ (phiᵀ *ᵥ y) := by
    unfold dotProduct msCoeff
    exact Finset.sum_congr rfl fun i _ => by ring
  rw [this, Matrix.dotProduct_mulVec, ← Matrix.mulVec_transpose, Matrix.transpose_transpose, Matrix.mulVec_mulVec, ho', Matrix.one_mulVec]

theorem msCount_lt {k : Nat} {cond : ℝ} {mu : Fin k → ℝ} (i : Fin k) (hi : i.val < msCount cond mu) : mu ⟨0, i.pos⟩ / mu i < cond := by
  classical
  obtain ⟨k, rfl⟩ : ∃ m, k = m + 1 := ⟨k - 1, by omega⟩
  unfold msCount at hi
  dsimp only at hi
  split at hi
  · omega
  · have := List.not_of_lt_findIdx hi
    rw [List.getElem_ofFn] at this
    have e : (List.ofFn mu).headD 0 = mu 0 := by simp [List.ofFn_succ]
    have h' : ¬ ¬ ((List.ofFn mu).headD 0 / mu i < cond) := of_decide_eq_false this
    rw [e] at h'
    exact not_not.1 h'

theorem msCount_zero {k : Nat} {cond : ℝ} {mu : Fin k → ℝ} (h : (∀ i : Fin k, mu ⟨0, i.pos⟩ / mu i < cond) ∨ (cond ≤ 1 ∧ ∀ i, 0 < mu i)) : msCount cond mu = 0 := by
  classical
  obtain _ | k := k
  · simp [msCount]
  have e : (List.ofFn mu).headD 0 = mu 0 := by simp [List.ofFn_succ]
  unfold msCount
  dsimp only
  rw [e]
  rcases h with h | ⟨h, hp⟩
  · rw [if_pos]
    refine (List.findIdx_eq_length_of_false fun x hx => ?_).trans List.length_ofFn
    obtain ⟨i, rfl⟩ := (List.mem_ofFn' _ _).1 hx
    simpa using h i
  · have : (List.ofFn mu).findIdx (fun m => decide (¬ (mu 0 / m < cond))) = 0 := by
      rw [List.ofFn_succ, List.findIdx_cons]
      have : decide (¬ (mu 0 / mu 0 < cond)) = true := by
        rw [div_self (hp 0).ne']
        simpa using h
      rw [this]
      rfl
    rw [this]
    split <;> rfl

theorem msError_sq {k : Nat} (c : Fin k → ℝ) (l : Nat) : msError c l ^ 2 = ∑ i : Fin k, if l ≤ i.val then c i ^ 2 else 0 := by
  unfold msError
  rw [Real.sq_sqrt (Finset.sum_nonneg fun i _ => by split <;> positivity)]
  exact Finset.sum_congr rfl fun i _ => by rw [sq_abs]

/-! ## The property -/

/-- **C200** (part): if all eigenpairs are computed, then after `fit` the interpolant differs from the target at the training points by at most
`admissible_error` (Euclidean norm); the scale is the initial one halved some times and every eigenvalue used has a ratio to the largest below `condition`. -/
theorem C200_training_partial {n : Nat} {K : ℝ → Matrix (Fin n) (Fin n) ℝ} {eig : ℝ → (Fin n → ℝ) × Matrix (Fin n) (Fin n) ℝ} (he : ∀ s, IsEigTop (K s) (eig s).1 (eig s).2)
    {cond tau : ℝ} {y : Fin n → ℝ} {fuel : Nat} {s0 s : ℝ} {aux : Fin n → ℝ} (h : msLoop eig cond tau y fuel s0 = some (s, aux)) :
    Real.sqrt (∑ a, ((K s *ᵥ aux) a - y a) ^ 2) ≤ tau ∧ (∃ j : Nat, s = s0 / 2 ^ j) ∧
    ∃ l : Nat, aux = (eig s).2 *ᵥ (fun i => if i.val < l then ((eig s).1 i)⁻¹ * ∑ a, (eig s).2 a i * y a else 0) ∧
      ∀ i : Fin n, i.val < l → (eig s).1 ⟨0, i.pos⟩ / (eig s).1 i < cond := by
  obtain ⟨hs, herr, rfl⟩ := msLoop_some h
  refine ⟨?_, hs, msCount cond (eig s).1, rfl, fun i hi => msCount_lt i hi⟩
  set l := msCount cond (eig s).1
  refine le_trans (le_of_eq ?_) herr
  have hnn : 0 ≤ msError (msCoeff (eig s).2 y) l := Real.sqrt_nonneg _
  rw [← Real.sqrt_sq hnn, msError_sq]
  congr 1
  have h1 := msResidual (he s).orth l y
  dsimp only at h1
  have h2 : ∑ a, ((K s *ᵥ msAux (eig s).1 (eig s).2 l y) a - y a) ^ 2 =
      ((eig s).2 *ᵥ (fun i => if i.val < l then msCoeff (eig s).2 y i else 0) - y) ⬝ᵥ ((eig s).2 *ᵥ (fun i => if i.val < l then msCoeff (eig s).2 y i else 0) - y) := by
    rw [msTrain (he s)]
    unfold dotProduct
    exact Finset.sum_congr rfl fun a _ => by rw [Pi.sub_apply]; ring
  rw [h2, h1, ← msCoeff_full (he s).orth y, ← Finset.sum_sub_distrib]
  refine Finset.sum_congr rfl fun i _ => ?_
  by_cases hi : i.val < l
  · rw [if_pos hi, if_neg (by omega)]; ring
  · rw [if_neg hi, if_pos (by omega)]; ring

/-- A concrete case: kernel matrix `diag(2, 1)`, condition `3/2`: the first eigenvector is kept and the error is that of the second component. -/
example : msCount (3 / 2) (![2, 1] : Fin 2 → ℝ) = 1 := by
  classical
  simp [msCount, List.ofFn_succ, List.findIdx_cons]
  norm_num

example : IsEigTop (diagonal ![2, 1]) (![2, 1] : Fin 2 → ℝ) (1 : Matrix (Fin 2) (Fin 2) ℝ) where
  orth := by simp
  eigen := by
    intro i
    ext a
    fin_cases i <;> fin_cases a <;> simp [Matrix.mulVec_diagonal]
  pos := by intro i; fin_cases i <;> simp
  sorted := by intro i j; fin_cases i <;> fin_cases j <;> simp

/-- **C200 is violated** (number of eigenpairs): the error is measured only on the computed eigenvectors (the code computes 300).  For a target orthogonal to
them `fit` stops at the initial scale with the interpolant zero, whatever the size of the target. -/
theorem C200_span_violated {n k : Nat} (eig : ℝ → (Fin k → ℝ) × Matrix (Fin n) (Fin k) ℝ) (cond : ℝ) {tau : ℝ} (ht : 0 ≤ tau) (y : Fin n → ℝ) (s0 : ℝ) (fuel : Nat)
    (hy : ∀ i, ∑ a, (eig s0).2 a i * y a = 0) : msLoop eig cond tau y (fuel + 1) s0 = some (s0, 0) := by
  have hc : msCoeff (eig s0).2 y = 0 := by
    funext i
    exact hy i
  unfold msLoop
  rw [hc, if_pos]
  · unfold msAux
    rw [hc]
    congr 2
    have : (fun i : Fin k => if i.val < msCount cond (eig s0).1 then ((eig s0).1 i)⁻¹ * (0 : Fin k → ℝ) i else 0) = 0 := by
      funext i; simp
    rw [this, Matrix.mulVec_zero]
  · simpa [msError] using ht

/-- For example with one of two eigenvectors of the identity and the target `(0, 5)`. -/
example : ∃ (mu : Fin 1 → ℝ) (phi : Matrix (Fin 2) (Fin 1) ℝ), IsEigTop 1 mu phi ∧ ∀ i, ∑ a, phi a i * (![0, 5] : Fin 2 → ℝ) a = 0 := by
  refine ⟨![1], !![1; 0], ⟨?_, ?_, ?_, ?_⟩, ?_⟩
  · ext i j; fin_cases i; fin_cases j; simp [Matrix.mul_apply, Fin.sum_univ_two]
  · intro i; fin_cases i; simp
  · intro i; fin_cases i; simp
  · intro i j _; fin_cases i; fin_cases j; simp
  · intro i; fin_cases i; simp [Fin.sum_univ_two]

/-- **C200 is violated** (no result): with all eigenpairs, a target larger than `admissible_error`, and a `condition` of at most one (the default is one) or one that no ratio of
eigenvalues reaches, the number of eigenvectors used is zero for every scale and `fit` never ends. -/
theorem C200_condition_violated {n : Nat} {K : ℝ → Matrix (Fin n) (Fin n) ℝ} {eig : ℝ → (Fin n → ℝ) × Matrix (Fin n) (Fin n) ℝ} (he : ∀ s, IsEigTop (K s) (eig s).1 (eig s).2)
    {cond tau : ℝ} (hcond : cond ≤ 1 ∨ ∀ s (i : Fin n), (eig s).1 ⟨0, i.pos⟩ / (eig s).1 i < cond) {y : Fin n → ℝ} (hy : tau < Real.sqrt (∑ a, y a ^ 2)) :
    ∀ (fuel : Nat) (s0 : ℝ), msLoop eig cond tau y fuel s0 = none
  | 0, _ => rfl
  | fuel + 1, s0 => by
    have h0 : msCount cond (eig s0).1 = 0 := msCount_zero (hcond.elim (fun h => Or.inr ⟨h, (he s0).pos⟩) (fun h => Or.inl (h s0)))
    have herr : msError (msCoeff (eig s0).2 y) 0 = Real.sqrt (∑ a, y a ^ 2) := by
      unfold msError
      congr 1
      simp only [Nat.zero_le, if_true, sq_abs]
      rw [msCoeff_full (he s0).orth]
      unfold dotProduct
      exact Finset.sum_congr rfl fun a _ => by ring
    unfold msLoop
    rw [h0, herr, if_neg (not_le.2 hy)]
    exact C200_condition_violated he hcond hy fuel (s0 / 2)

/-- For example with one point, where the kernel matrix is `1` for every scale. -/
example : IsEigTop (1 : Matrix (Fin 1) (Fin 1) ℝ) (fun _ => (1 : ℝ)) (1 : Matrix (Fin 1) (Fin 1) ℝ) := ⟨by simp, by intro i; simp, by simp, by simp⟩

end Verif.Kernel
