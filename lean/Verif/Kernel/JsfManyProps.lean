import Verif.Kernel.JsfMany
import Verif.Kernel.JsfProps
/-! # C161: jointly smooth functions of three and more splits -/

namespace Verif.Kernel

open Matrix

variable {ι n : Type} [Fintype ι] [Fintype n]

section many
variable {p : ι → Nat} {W : (i : ι) → Matrix n (Fin (p i)) ℝ}

theorem stack_norm (f : n → ℝ) : ((stackAll W)ᵀ *ᵥ f) ⬝ᵥ ((stackAll W)ᵀ *ᵥ f) = ∑ i, energy (W i) f := by
  simp only [dotProduct, Fintype.sum_sigma, energy, sq]
  rfl

theorem stack_recombine (f : n → ℝ) : stackAll W *ᵥ ((stackAll W)ᵀ *ᵥ f) = ∑ i, W i *ᵥ ((W i)ᵀ *ᵥ f) := by
  funext a
  rw [Finset.sum_apply]
  simp only [mulVec, dotProduct, Fintype.sum_sigma]
  rfl

theorem nystromSplit_train {q : Nat} {K : Matrix n n ℝ} {W : Matrix n (Fin q) ℝ} {lam : Fin q → ℝ} (he : K * W = W * diagonal lam) (hl : ∀ k, 0 < lam k) (f : n → ℝ) :
    nystromSplit K W lam f = W *ᵥ (Wᵀ *ᵥ f) := by
  unfold nystromSplit
  rw [← Matrix.mul_assoc, he, Matrix.mul_assoc, diagonal_mul_diagonal]
  have : (fun i => lam i * (lam i)⁻¹) = fun _ => (1 : ℝ) := funext (fun k => mul_inv_cancel₀ (hl k).ne')
  rw [this, diagonal_one, Matrix.mul_one, mulVec_mulVec]

theorem energy_le {q : Nat} {W : Matrix n (Fin q) ℝ} (h : Wᵀ * W = 1) (f : n → ℝ) : energy W f ≤ f ⬝ᵥ f := by
  have hn : 0 ≤ (f - W *ᵥ (Wᵀ *ᵥ f)) ⬝ᵥ (f - W *ᵥ (Wᵀ *ᵥ f)) := Finset.sum_nonneg (fun i _ => mul_self_nonneg _)
  have e1 : f ⬝ᵥ (W *ᵥ (Wᵀ *ᵥ f)) = (Wᵀ *ᵥ f) ⬝ᵥ (Wᵀ *ᵥ f) := by
    rw [dotProduct_mulVec, ← mulVec_transpose]
  have e2 : (W *ᵥ (Wᵀ *ᵥ f)) ⬝ᵥ (W *ᵥ (Wᵀ *ᵥ f)) = (Wᵀ *ᵥ f) ⬝ᵥ (Wᵀ *ᵥ f) := by
    rw [dotProduct_mulVec, ← mulVec_transpose, mulVec_mulVec, h, one_mulVec]
  rw [sub_dotProduct, dotProduct_sub, dotProduct_sub, e2, e1, dotProduct_comm (W *ᵥ (Wᵀ *ᵥ f)) f, e1] at hn
  have e3 : energy W f = (Wᵀ *ᵥ f) ⬝ᵥ (Wᵀ *ᵥ f) := by simp [energy, dotProduct, sq]
  rw [e3]
  linarith

variable {r : Nat} {u : Fin r → n → ℝ} {s : Fin r → ℝ} {v : Fin r → (i : ι) × Fin (p i) → ℝ}

/-- **C161.** With any number of splits the computed functions are orthonormal, and function `k` has the largest sum of squared projections onto the eigenvectors of the splits among all functions of norm one
that are orthogonal to the previous ones; the sum is the square of the reported singular value, these do not increase with `k`, and it is at most the number of splits. -/
theorem C161_smoothest (hW : ∀ i, (W i)ᵀ * W i = 1) (h : TopSvd (stackAll W) u s v) :
    (∀ k l, u k ⬝ᵥ u l = if k = l then 1 else 0) ∧ (∀ k, ∑ i, energy (W i) (u k) = s k ^ 2 ∧ s k ^ 2 ≤ Fintype.card ι) ∧ (∀ k l, k ≤ l → s l ≤ s k) ∧
      ∀ k (f : n → ℝ), f ⬝ᵥ f = 1 → (∀ l, l < k → f ⬝ᵥ u l = 0) → ∑ i, energy (W i) f ≤ ∑ i, energy (W i) (u k) := by
  have he : ∀ k, ∑ i, energy (W i) (u k) = s k ^ 2 := by
    intro k
    have h1 : (u k) ⬝ᵥ (stackAll W *ᵥ ((stackAll W)ᵀ *ᵥ u k)) = s k ^ 2 := by
      rw [h.left, mulVec_smul, h.right, dotProduct_smul, dotProduct_smul, h.orth, if_pos rfl]
      simp [sq]
    rw [← stack_norm, ← h1, dotProduct_mulVec (u k), ← mulVec_transpose]
  refine ⟨h.orth, fun k => ⟨he k, ?_⟩, ?_, ?_⟩
  · rw [← he k]
    calc ∑ i, energy (W i) (u k) ≤ ∑ _i : ι, (1 : ℝ) := Finset.sum_le_sum (fun i _ => by have := energy_le (hW i) (u k); rwa [h.orth, if_pos rfl] at this)
      _ = Fintype.card ι := by simp
  · intro k l hkl
    have := h.top k (u l) (fun j hj => by rw [h.orth, if_neg]; intro e; omega)
    rw [stack_norm, he, h.orth, if_pos rfl, mul_one] at this
    exact le_of_sq_le_sq this (h.nonneg k)
  · intro k f hf ho
    have := h.top k f ho
    rw [stack_norm, hf, mul_one] at this
    rw [he]
    exact this

/-- C161, `transform` (partial): at the training points the returned function `k` is multiplied by `σₖ²` divided by the number of splits; it raises if fewer functions than requested were computed. -/
theorem C161_transform_partial (h : TopSvd (stackAll W) u s v) {K : ι → Matrix n n ℝ} {lam : (i : ι) → Fin (p i) → ℝ} (he : ∀ i, K i * W i = W i * diagonal (lam i)) (hl : ∀ i k, 0 < lam i k)
    (N : Nat) :
    (r ≠ N → jsfNystromAll N K W lam (List.ofFn u) = .error .shape) ∧
      (r = N → jsfNystromAll N K W lam (List.ofFn u) = .ok (List.ofFn fun k => (s k ^ 2 / (Fintype.card ι : ℝ)) • u k)) := by
  unfold jsfNystromAll
  constructor
  · intro hN
    rw [if_neg (by simpa using hN)]
  · intro hN
    rw [if_pos (by simpa using hN)]
    congr 1
    rw [List.map_ofFn]
    congr 1
    funext k
    have h1 : ∑ i, nystromSplit (K i) (W i) (lam i) (u k) = s k ^ 2 • u k := by
      rw [Finset.sum_congr rfl (fun i _ => nystromSplit_train (he i) (hl i) (u k)), ← stack_recombine, h.left, mulVec_smul, h.right, smul_smul, sq]
    simp only [Function.comp]
    rw [h1, smul_smul]
    congr 1
    ring

/-- C161, `transform` is violated: a function that is not in the span of every split's eigenvectors is returned with another size than by `fit_transform`. -/
theorem C161_transform_violated (h : TopSvd (stackAll W) u s v) {K : ι → Matrix n n ℝ} {lam : (i : ι) → Fin (p i) → ℝ} (he : ∀ i, K i * W i = W i * diagonal (lam i)) (hl : ∀ i k, 0 < lam i k)
    (k : Fin r) (hk : s k ^ 2 ≠ Fintype.card ι) (hι : 0 < Fintype.card ι) : jsfNystromAll r K W lam (List.ofFn u) ≠ .ok (List.ofFn u) := by
  rw [(C161_transform_partial h he hl r).2 rfl]
  intro hc
  have h1 := List.ofFn_injective (Except.ok.inj hc)
  have h2 := congrArg (fun x => x ⬝ᵥ u k) (congrFun h1 k)
  simp only [smul_dotProduct, h.orth, if_pos, smul_eq_mul, mul_one] at h2
  apply hk
  have : (Fintype.card ι : ℝ) ≠ 0 := by exact_mod_cast hι.ne'
  field_simp at h2
  linarith

/-- C161 is violated for the number of functions: `fit` accepts every number of functions, but with as many functions as it computes `transform` succeeds exactly if the number asked for does not exceed the number of
kernel eigenvectors of all splits together. -/
theorem C161_count_violated (N : Nat) (K : ι → Matrix n n ℝ) (W : (i : ι) → Matrix n (Fin (p i)) ℝ) (lam : (i : ι) → Fin (p i) → ℝ) (u : Fin (jsfCountAll N p) → n → ℝ) :
    (∃ R, jsfNystromAll N K W lam (List.ofFn u) = .ok R) ↔ N ≤ ∑ i, p i := by
  unfold jsfNystromAll
  rw [List.length_ofFn]
  by_cases h : jsfCountAll N p = N
  · rw [if_pos h]
    exact ⟨fun _ => min_eq_left_iff.1 h, fun _ => ⟨_, rfl⟩⟩
  · rw [if_neg h]
    exact ⟨fun ⟨_, h'⟩ => (nomatch h'), fun h' => absurd (min_eq_left h') h⟩

end many

/-! ## Example: three splits with one eigenvector each, two of them equal -/

/-- The eigenvectors. -/
def jsfThree (i : Fin 3) : Matrix (Fin 2) (Fin 1) ℝ := if i = 2 then !![0; 1] else !![1; 0]

example (u : Fin (jsfCountAll 4 (fun _ : Fin 3 => 1)) → Fin 2 → ℝ) : ¬ ∃ R, jsfNystromAll 4 (fun _ => (1 : Matrix (Fin 2) (Fin 2) ℝ)) jsfThree (fun _ _ => 1) (List.ofFn u) = .ok R := by
  rw [C161_count_violated]
  decide

/-- The singular vectors. -/
def jsfThreeU : Fin 2 → Fin 2 → ℝ := ![![1, 0], ![0, 1]]

noncomputable def jsfThreeS : Fin 2 → ℝ := ![Real.sqrt 2, 1]

noncomputable def jsfThreeV : Fin 2 → (_ : Fin 3) × Fin 1 → ℝ := ![fun q => if q.1 = 2 then 0 else 1 / Real.sqrt 2, fun q => if q.1 = 2 then 1 else 0]

theorem jsfThree_svd : TopSvd (stackAll jsfThree) jsfThreeU jsfThreeS jsfThreeV where
  orth := by intro k l; fin_cases k <;> fin_cases l <;> simp [jsfThreeU]
  nonneg := by intro k; fin_cases k <;> simp [jsfThreeS]
  left := by
    intro k
    funext q
    obtain ⟨i, j⟩ := q
    fin_cases k <;> fin_cases i <;> fin_cases j <;> simp [stackAll, jsfThree, jsfThreeU, jsfThreeS, jsfThreeV, mulVec, dotProduct]
  right := by
    intro k
    funext a
    have h2 : (Real.sqrt 2)⁻¹ + (Real.sqrt 2)⁻¹ = Real.sqrt 2 := by
      rw [← two_mul, inv_eq_one_div, mul_one_div]
      exact Real.div_sqrt
    fin_cases k <;> fin_cases a <;> simp [stackAll, jsfThree, jsfThreeU, jsfThreeS, jsfThreeV, mulVec, dotProduct, Fintype.sum_sigma, Fin.sum_univ_three, h2]
  top := by
    intro k f hf
    have hn : ((stackAll jsfThree)ᵀ *ᵥ f) ⬝ᵥ ((stackAll jsfThree)ᵀ *ᵥ f) = 2 * f 0 ^ 2 + f 1 ^ 2 := by
      rw [stack_norm]
      simp [energy, jsfThree, Fin.sum_univ_three, mulVec, dotProduct]
      ring
    rw [hn]
    fin_cases k
    · simp [jsfThreeS, dotProduct]
      nlinarith [sq_nonneg (f 1)]
    · have := hf 0 (by decide)
      simp [jsfThreeU, dotProduct] at this
      simp [jsfThreeS, dotProduct, this]
      nlinarith

example : ∑ i, energy (jsfThree i) (jsfThreeU 0) = 2 := by
  have := ((C161_smoothest (W := jsfThree) (by intro i; fin_cases i <;> (ext a b; fin_cases a; fin_cases b; simp [jsfThree, Matrix.mul_apply])) jsfThree_svd).2.1 0).1
  rw [this]
  simp [jsfThreeS]

end Verif.Kernel
