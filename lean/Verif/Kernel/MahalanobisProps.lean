import Verif.Kernel.Mahalanobis
import Verif.Kernel.Radial
import Mathlib.Analysis.SpecialFunctions.ExpDeriv
import Mathlib.Analysis.Calculus.Deriv.Pow
import Mathlib.LinearAlgebra.Matrix.PosDef
import Mathlib.Tactic.Linarith
import Mathlib.Tactic.FieldSimp
import Mathlib.Tactic.Ring
/-!
# C180 and C181: gradient of the geometric harmonics, Mahalanobis kernel
-/

namespace Verif.Kernel

open Matrix

/-! ### Specification -/

/-- The Gaussian kernel. -/
noncomputable def gaussOf {d : Type} [Fintype d] (eps : ℝ) (x y : d → ℝ) : ℝ := Real.exp (-(∑ l, (x l - y l) ^ 2) / (2 * eps))

/-- The Mahalanobis kernel for the mean of two (inverse) covariance matrices. -/
noncomputable def mahaOf {d : Type} [Fintype d] (eps : ℝ) (A B : Matrix d d ℝ) (x y : d → ℝ) : ℝ :=
  Real.exp (-(quadForm ((0.5 : ℝ) • (A + B)) (x - y)) / (2 * eps))

section
variable {n d : Type} [Fintype n] [Fintype d] [DecidableEq d]

theorem gauss_deriv (eps : ℝ) (x y : d → ℝ) (l : d) :
    HasDerivAt (fun s : ℝ => gaussOf eps (x + (Pi.single l s : d → ℝ)) y) (-(1 / eps) * ((x l - y l) * gaussOf eps x y)) 0 := by
  have h1 : ∀ s : ℝ, ∑ i, ((x + (Pi.single l s : d → ℝ)) i - y i) ^ 2 = (∑ i, (x i - y i) ^ 2) + (2 * (x l - y l) * s + s ^ 2) := by
    intro s
    rw [← Finset.add_sum_erase _ _ (Finset.mem_univ l), ← Finset.add_sum_erase (Finset.univ : Finset d) (fun i => (x i - y i) ^ 2) (Finset.mem_univ l)]
    have : ∀ i ∈ Finset.univ.erase l, ((x + (Pi.single l s : d → ℝ)) i - y i) ^ 2 = (x i - y i) ^ 2 := by
      intro i hi
      rw [Pi.add_apply, Pi.single_eq_of_ne (Finset.ne_of_mem_erase hi), add_zero]
    rw [Finset.sum_congr rfl this, Pi.add_apply, Pi.single_eq_same]
    ring
  have h2 : HasDerivAt (fun s : ℝ => -((∑ i, (x i - y i) ^ 2) + (2 * (x l - y l) * s + s ^ 2)) / (2 * eps)) (-(2 * (x l - y l)) / (2 * eps)) 0 := by
    have h3 : HasDerivAt (fun s : ℝ => 2 * (x l - y l) * s + s ^ 2) (2 * (x l - y l)) 0 := by
      have := ((hasDerivAt_id (0 : ℝ)).const_mul (2 * (x l - y l))).fun_add (hasDerivAt_pow 2 (0 : ℝ))
      refine (this.congr_deriv ?_)
      simp
    exact ((h3.const_add _).neg).div_const _
  have h4 := h2.exp
  unfold gaussOf
  simp only [h1]
  refine h4.congr_deriv ?_
  simp only [mul_zero, zero_pow two_ne_zero, add_zero]
  by_cases he : eps = 0
  · subst he; simp
  · field_simp

/-- **C180 (partial).** For a Gaussian kernel, what `gradient` computes is `-ε` times the gradient of the sum of the kernel functions, weighted with the *target values*. Missing: the prediction is the sum
weighted with the coefficients of the fit, and its gradient has the factor `-1/ε`, see `C180_violated`. -/
theorem C180_gradient_partial {eps : ℝ} (he : eps ≠ 0) (X : n → d → ℝ) (y : n → ℝ) (x : d → ℝ) (l : d) :
    ∃ g, HasDerivAt (fun s : ℝ => ∑ j, gaussOf eps (x + (Pi.single l s : d → ℝ)) (X j) * y j) g 0 ∧ ghGradient X (fun j => gaussOf eps x (X j)) y x l = -eps * g := by
  refine ⟨∑ j, -(1 / eps) * ((x l - X j l) * gaussOf eps x (X j)) * y j, ?_, ?_⟩
  · exact HasDerivAt.fun_sum (fun j _ => (gauss_deriv eps x (X j) l).mul_const (y j))
  · unfold ghGradient
    rw [Finset.mul_sum]
    refine Finset.sum_congr rfl (fun j _ => ?_)
    field_simp

/-- **C180** columns: exactly the columns that exist can be chosen, and none must be chosen for a single target. -/
theorem C180_column (nT : Nat) (v : Option Int) (k : Nat) : gradColumn nT v = .ok k ↔ k < nT ∧ (v = some (k : Int) ∨ v = none ∧ nT = 1) := by
  unfold gradColumn
  cases v with
  | none =>
    dsimp only
    by_cases h1 : 1 < nT
    · simp [h1]; omega
    · by_cases h0 : 0 < nT
      · rw [if_neg h1, if_pos h0]
        simp; omega
      · simp [h1, h0]; omega
  | some v =>
    dsimp only
    by_cases h1 : 0 ≤ v ∧ v ≤ nT
    · rw [if_neg (not_not.2 h1)]
      by_cases h2 : v.toNat < nT
      · rw [if_pos h2]; simp; omega
      · rw [if_neg h2]; simp; omega
    · rw [if_pos h1]; simp; omega

/-- **C180** is violated: the number of targets itself passes the check of the column and raises an `IndexError` afterwards. -/
theorem C180_column_violated (nT : Nat) : gradColumn nT (some (nT : Int)) = .error .shape := by
  simp [gradColumn]

end

/-- **C180** is violated: two training points on a line with target values one, interpolated with one eigenpair. For all bandwidths and points, the derivative `g` of the prediction at the second point and the
result of `gradient` have opposite signs. -/
theorem C180_violated {eps a b : ℝ} (he : 0 < eps) (hab : a ≠ b) :
    let X : Fin 2 → Unit → ℝ := ![fun _ => a, fun _ => b]
    let K : Matrix (Fin 2) (Fin 2) ℝ := fun i j => gaussOf eps (X i) (X j)
    let lam : ℝ := 1 + gaussOf eps (X 0) (X 1)
    let psi : Fin 2 → ℝ := fun _ => 1 / Real.sqrt 2
    (K *ᵥ psi = lam • psi ∧ psi ⬝ᵥ psi = 1) ∧
    ∃ aux : Matrix (Fin 2) Unit ℝ, precomputeAux [(lam, psi)] (fun _ _ => 1) = .ok aux ∧
      ∃ g, HasDerivAt (fun s : ℝ => ∑ j, gaussOf eps (X 1 + Pi.single () s) (X j) * aux j ()) g 0 ∧
        ghGradient X (fun j => gaussOf eps (X 1) (X j)) (fun _ => 1) (X 1) () * g < 0 := by
  intro X K lam psi
  have hk : ∀ i j, gaussOf eps (X i) (X j) = if i = j then 1 else gaussOf eps (X 0) (X 1) := by
    intro i j
    fin_cases i <;> fin_cases j
    · simp [gaussOf]
    · simp
    · simp only [gaussOf, X]
      simp
      ring_nf
    · simp [gaussOf]
  have hpos : 0 < gaussOf eps (X 0) (X 1) := Real.exp_pos _
  set k := gaussOf eps (X 0) (X 1) with hkdef
  have hlam : lam ≠ 0 := by positivity
  have hpsi : (1 / Real.sqrt 2) * (1 / Real.sqrt 2) = 1 / 2 := by
    rw [div_mul_div_comm, Real.mul_self_sqrt (by norm_num)]; norm_num
  refine ⟨⟨?_, ?_⟩, ?_⟩
  · ext i
    simp only [Matrix.mulVec, dotProduct, K, hk, Fin.sum_univ_two, Pi.smul_apply, smul_eq_mul, psi, lam]
    fin_cases i <;> simp <;> ring
  · simp only [dotProduct, Fin.sum_univ_two, psi, hpsi]
    norm_num
  · refine ⟨Matrix.of (fun i c => ([(lam, psi)].map (fun p => p.2 i * p.1⁻¹ * (∑ j, p.2 j * (1 : ℝ)))).sum), ?_, ?_⟩
    · unfold precomputeAux
      rw [if_neg]
      simp [hlam]
    · have haux : ∀ i : Fin 2, (Matrix.of (fun (i : Fin 2) (_ : Unit) => ([(lam, psi)].map (fun p => p.2 i * p.1⁻¹ * (∑ j, p.2 j * (1 : ℝ)))).sum)) i () = lam⁻¹ := by
        intro i
        simp only [Matrix.of_apply, List.map_cons, List.map_nil, List.sum_cons, List.sum_nil, Fin.sum_univ_two, psi]
        linear_combination (2 * lam⁻¹) * hpsi
      refine ⟨_, HasDerivAt.fun_sum (fun j _ => (gauss_deriv eps (X 1) (X j) ()).mul_const _), ?_⟩
      simp only [ghGradient, haux, Fin.sum_univ_two, hk]
      have h0 : X 0 () = a := rfl
      have h1 : X 1 () = b := rfl
      simp only [h0, h1]
      simp
      have hb : 0 < (b - a) ^ 2 := by
        have : b - a ≠ 0 := sub_ne_zero.2 hab.symm
        positivity
      have hl : 0 < lam := by positivity
      have : 0 < eps⁻¹ * lam⁻¹ * k ^ 2 * (b - a) ^ 2 := by positivity
      nlinarith

section Maha
variable {ι d : Type} [Fintype d] [DecidableEq ι]

theorem maha_apply (eps : ℝ) (X : ι → d → ℝ) (C : ι → Matrix d d ℝ) (D : ι → ι → Option ℝ) (i j : ι) :
    mahaEvaluate eps X C D i j = (mahaGauss eps X C D i j + mahaGauss eps X C D j i) / 2 := by
  simp only [mahaEvaluate, Matrix.smul_apply, Matrix.add_apply, Matrix.transpose_apply, smul_eq_mul]
  ring

theorem quadForm_neg (A : Matrix d d ℝ) (x : d → ℝ) : quadForm A (-x) = quadForm A x := by
  simp [quadForm, Matrix.mulVec_neg]

theorem quadForm_smul (A : Matrix d d ℝ) (r : ℝ) (x : d → ℝ) : quadForm (r • A) x = r * quadForm A x := by
  simp [quadForm, Matrix.smul_mulVec]

theorem maha_stored (eps : ℝ) (X : ι → d → ℝ) (C : ι → Matrix d d ℝ) (D : ι → ι → Option ℝ) {i j : ι} (hij : i ≠ j) (h : (D i j).isSome) (hq : 0 ≤ quadForm (C i + C j) (X i - X j)) :
    mahaGauss eps X C D i j = mahaOf eps (C i) (C j) (X i) (X j) := by
  obtain ⟨v, hv⟩ := Option.isSome_iff_exists.1 h
  simp only [mahaGauss, Matrix.of_apply, mahaDist, hv, Option.map_some, Option.getD_some, if_pos hij.symm, mahaOf, quadForm_smul]
  rw [Real.sq_sqrt (by positivity)]
  congr 1
  ring

theorem mahaOf_swap (eps : ℝ) (A B : Matrix d d ℝ) (x y : d → ℝ) : mahaOf eps A B x y = mahaOf eps B A y x := by
  unfold mahaOf
  rw [← quadForm_neg _ (x - y), neg_sub, add_comm A B]

/-- **C181** the kernel matrix is symmetric, for all distance matrices and patterns of stored entries. -/
theorem C181_symmetric (eps : ℝ) (X : ι → d → ℝ) (C : ι → Matrix d d ℝ) (D : ι → ι → Option ℝ) : (mahaEvaluate eps X C D)ᵀ = mahaEvaluate eps X C D := by
  unfold mahaEvaluate
  rw [Matrix.transpose_smul, Matrix.transpose_add, Matrix.transpose_transpose, add_comm]

/-- **C181 (partial).** Pairs that are stored in both directions have the value of the Mahalanobis kernel of the mean matrix, if this matrix is positive semidefinite; stored zeros on the diagonal have the value one. -/
theorem C181_value_partial (eps : ℝ) (X : ι → d → ℝ) (C : ι → Matrix d d ℝ) (D : ι → ι → Option ℝ) :
    (∀ i j, i ≠ j → (D i j).isSome → (D j i).isSome → 0 ≤ quadForm (C i + C j) (X i - X j) → mahaEvaluate eps X C D i j = mahaOf eps (C i) (C j) (X i) (X j)) ∧
    ∀ i, D i i = some 0 → mahaEvaluate eps X C D i i = 1 := by
  refine ⟨fun i j hij h1 h2 hq => ?_, fun i h => ?_⟩
  · have hq' : 0 ≤ quadForm (C j + C i) (X j - X i) := by
      rw [← quadForm_neg, neg_sub, add_comm]; exact hq
    rw [maha_apply, maha_stored eps X C D hij h1 hq, maha_stored eps X C D hij.symm h2 hq', mahaOf_swap eps (C j)]
    ring
  · rw [maha_apply]
    simp [mahaGauss, mahaDist, h]

/-- Non-vacuity: two points with unit matrices, all entries stored. -/
example : (∀ i j : Fin 2, mahaEvaluate 1 (fun (i : Fin 2) (_ : Unit) => (i : ℝ)) (fun _ => 1) (fun _ _ => some 0) i j = if i = j then 1 else Real.exp (-1 / 2)) := by
  obtain ⟨h1, h2⟩ := C181_value_partial 1 (fun (i : Fin 2) (_ : Unit) => (i : ℝ)) (fun _ => 1) (fun _ _ => some 0)
  intro i j
  by_cases h : i = j
  · subst h; rw [if_pos rfl]; exact h2 i rfl
  · rw [if_neg h, h1 i j h rfl rfl (by fin_cases i <;> fin_cases j <;> simp [quadForm, Matrix.add_mulVec])]
    unfold mahaOf
    congr 1
    rw [quadForm_smul]
    fin_cases i <;> fin_cases j <;> simp at h <;> simp [quadForm, Matrix.add_mulVec] <;> norm_num

/-- **C181** is violated: for a dense distance matrix with zeros on the diagonal all diagonal entries of the kernel matrix are zero, and so are the entries of duplicate points. -/
theorem C181_dense_violated (eps : ℝ) (X : ι → d → ℝ) (C : ι → Matrix d d ℝ) (D : ι → ι → ℝ) (hs : ∀ i j, D i j = D j i) {i j : ι} (h : D i j = 0) :
    mahaEvaluate eps X C (csrOfDense D) i j = 0 := by
  have h' : D j i = 0 := (hs i j).symm.trans h
  rw [maha_apply]
  simp [mahaGauss, mahaDist, csrOfDense, h, h']

/-- Non-vacuity: the diagonal of a dense distance matrix. -/
example : mahaEvaluate 1 (fun (i : Fin 2) (_ : Unit) => (i : ℝ)) (fun _ => 1) (csrOfDense (fun i j => |(i : ℝ) - j|)) 1 1 = 0 :=
  C181_dense_violated _ _ _ _ (fun i j => abs_sub_comm _ _) (by simp)

/-- **C181** is violated: if a pair is stored in one direction only, as for nearest neighbours, its value is half the value of the kernel. -/
theorem C181_neighbour_violated (eps : ℝ) (X : ι → d → ℝ) (C : ι → Matrix d d ℝ) (D : ι → ι → Option ℝ) {i j : ι} (hij : i ≠ j) (h1 : (D i j).isSome) (h2 : D j i = none)
    (hq : 0 ≤ quadForm (C i + C j) (X i - X j)) : mahaEvaluate eps X C D i j = mahaOf eps (C i) (C j) (X i) (X j) / 2 := by
  rw [maha_apply, maha_stored eps X C D hij h1 hq]
  simp [mahaGauss, mahaDist, h2]

/-- **C181** is violated: query points are accepted exactly if there are as many as reference points. -/
theorem C181_query_violated (nX nY : Nat) : mahaQuery nX nY = .ok () ↔ nX = nY := by
  unfold mahaQuery
  by_cases h : nX = nY
  · subst h; simp
  · simp [h]

/-- **C181** is violated: the values for query points do not depend on the query points except for the pattern of the stored distances: `D` and `D'` are the distances to two sets of query points. -/
theorem C181_points_violated (eps : ℝ) (X : ι → d → ℝ) (C : ι → Matrix d d ℝ) (D D' : ι → ι → Option ℝ) (h : ∀ i j, (D i j).isSome = (D' i j).isSome) {i j : ι} (hij : i ≠ j) :
    mahaEvaluate eps X C D i j = mahaEvaluate eps X C D' i j := by
  have hg : ∀ i j, i ≠ j → mahaGauss eps X C D i j = mahaGauss eps X C D' i j := by
    intro i j hij
    have := h i j
    simp only [mahaGauss, Matrix.of_apply, mahaDist]
    cases h1 : D i j <;> cases h2 : D' i j <;> simp [h1, h2] at this ⊢
    simp [hij.symm]
  rw [maha_apply, maha_apply, hg i j hij, hg j i hij.symm]

end Maha

end Verif.Kernel
