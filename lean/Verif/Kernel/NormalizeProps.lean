import Verif.Kernel.NormalizeLemmas
import Mathlib.Tactic.FinCases
import Mathlib.Tactic.NormNum
import Mathlib.Data.Fintype.BigOperators
/-!
# C42, C43, C90, C91: the diffusion kernel is a Markov matrix, and its symmetric conjugate has the same eigenpairs

All matrices are over arbitrary finite index types; `K` is the matrix of the internal kernel.
-/

namespace Verif.Kernel

open Matrix

variable {m n : Type} [Fintype m] [Fintype n]

/-! ## Specification -/

/-- A matrix with non-negative entries whose rows sum to one. -/
def RowStochastic (P : Matrix m n ℝ) : Prop := (∀ i j, 0 ≤ P i j) ∧ ∀ i, ∑ j, P i j = 1

/-- A non-negative kernel matrix in which every row has a positive entry. -/
def Connected (K : Matrix m n ℝ) : Prop := (∀ i j, 0 ≤ K i j) ∧ ∀ i, ∃ j, 0 < K i j

/-- `P` is obtained from `K` by dividing column `j` by `density j ^ α` and then normalising the rows. -/
def IsMarkov (α : ℝ) (density : n → ℝ) (K P : Matrix m n ℝ) : Prop := ∀ i j, P i j = (K i j / density j ^ α) / ∑ l, K i l / density l ^ α

/-- A non-zero vector that is only scaled by the matrix. -/
def IsEigenpair (A : Matrix n n ℝ) (lam : ℝ) (v : n → ℝ) : Prop := v ≠ 0 ∧ A *ᵥ v = lam • v

theorem Connected.rowSums_pos {K : Matrix m n ℝ} (h : Connected K) (i : m) : 0 < rowSums K i := by
  obtain ⟨j, hj⟩ := h.2 i
  exact Finset.sum_pos' (fun l _ => h.1 i l) ⟨j, Finset.mem_univ _, hj⟩

theorem RowStochastic.const {P : Matrix m n ℝ} (h : RowStochastic P) (c : ℝ) : P *ᵥ (fun _ => c) = fun _ => c := by
  ext i
  simp only [mulVec, dotProduct]
  rw [← Finset.sum_mul, h.2 i, one_mul]

/-! ## C42 -/

/-- C42, pair-wise evaluation without symmetric conjugate: the result is the row stochastic matrix of the textbook formula and keeps every constant vector fixed. -/
theorem C42_pairwise (k : DmapKernel) (hk : k.Admissible) (hst : k.isStochastic = true) (hc : k.isConjugate = false) (K : Matrix n n ℝ)
    (hK : Connected K) (hsym : k.distSymmetric = true → Kᵀ = K) :
    ∃ P f, evalPdist k none K = .ok (P, f) ∧ RowStochastic P ∧ IsMarkov k.alpha (fun j => ∑ l, K j l) K P ∧ ∀ c : ℝ, P *ᵥ (fun _ => c) = fun _ => c := by
  have hs := hK.rowSums_pos
  refine ⟨_, _, evalPdist_stochastic hk hst hc hK.1 hs (fun h i j => by rw [← congrFun (congrFun (hsym h) i) j]; rfl), ?_, ?_, ?_⟩
  · exact ⟨diffusion_nonneg hK.1 hs, fun i => diffusion_sum hK.1 hs (hs i)⟩
  · intro i j
    rfl
  · exact fun c => RowStochastic.const ⟨diffusion_nonneg hK.1 hs, fun i => diffusion_sum hK.1 hs (hs i)⟩ c

/-- C42, component-wise evaluation at arbitrary query points after any successful pair-wise evaluation (conjugate or not): the result is row stochastic, given by the
same formula with the densities of the reference points. -/
theorem C42_componentwise (k : DmapKernel) (hk : k.Admissible) (hst : k.isStochastic = true) (K : Matrix n n ℝ)
    (hK : Connected K) (hsym : k.distSymmetric = true → Kᵀ = K) (Kc : Matrix m n ℝ) (hKc : Connected Kc) :
    ∃ A f P, evalPdist k none K = .ok (A, f) ∧ evalCdist k (some f) Kc = .ok P ∧ RowStochastic P ∧ IsMarkov k.alpha (fun j => ∑ l, K j l) Kc P ∧
      ∀ c : ℝ, P *ᵥ (fun _ => c) = fun _ => c := by
  have hs := hK.rowSums_pos
  have hsc := hKc.rowSums_pos
  have hrow : RowStochastic (diffusion k.alpha (rowSums K) Kc) := ⟨diffusion_nonneg hKc.1 hs, fun i => diffusion_sum hKc.1 hs (hsc i)⟩
  cases hc : k.isConjugate with
  | false =>
    refine ⟨_, _, _, evalPdist_stochastic hk hst hc hK.1 hs (fun h i j => by rw [← congrFun (congrFun (hsym h) i) j]; rfl), evalCdist_stochastic hk hst hs hKc.1 hsc, hrow, ?_, hrow.const⟩
    exact fun i j => rfl
  | true =>
    have hd : k.distSymmetric = true := by
      rw [isConjugate_eq] at hc
      simp only [Bool.and_eq_true] at hc
      exact hc.2
    refine ⟨_, _, _, evalPdist_conjugate hk hc hK.1 hs (fun i j => by rw [← congrFun (congrFun (hsym hd) i) j]; rfl), evalCdist_stochastic hk hst hs hKc.1 hsc, hrow, ?_, hrow.const⟩
    exact fun i j => rfl

/-- C42: the stochastic normalisation of a sparse matrix is the one of the dense matrix with zeros in place of the entries that are not stored, if no stored entry is
negative. -/
theorem C42_sparse (K : m → n → Option ℝ) (hK : ∀ i j x, K i j = some x → 0 ≤ x) (i : m) (j : n) :
    (stochasticSparse K i j).getD 0 = stochastic (Matrix.of (fun i j => (K i j).getD 0)) i j ∧ (stochasticSparse K i j).isSome = (K i j).isSome := by
  have hn : ∀ i j, 0 ≤ (K i j).getD 0 := by
    intro i j
    cases h : K i j with
    | none => simp
    | some x => simpa using hK i j x h
  refine ⟨?_, by simp [stochasticSparse]⟩
  have habs : ∑ l, |(K i l).getD 0| = rowSums (Matrix.of (fun i j => (K i j).getD 0)) i := by
    unfold rowSums
    exact Finset.sum_congr rfl (fun l _ => by rw [abs_of_nonneg (hn i l)]; rfl)
  have hs0 : 0 ≤ rowSums (Matrix.of (fun i j => (K i j).getD 0)) i := Finset.sum_nonneg (fun l _ => hn i l)
  unfold stochasticSparse stochastic
  simp only [habs, of_apply]
  by_cases h0 : rowSums (Matrix.of (fun i j => (K i j).getD 0)) i = 0
  · have hz : (K i j).getD 0 = 0 := (Finset.sum_eq_zero_iff_of_nonneg (fun l _ => hn i l)).mp h0 j (Finset.mem_univ _)
    simp only [h0, if_true, true_or, zero_mul]
    simpa using hz
  · rw [if_neg (by rintro (h | h); exacts [h0 h, absurd (inv_nonneg.mpr hs0) (not_le.mpr h)])]
    cases h : K i j with
    | none => simp
    | some x => simp [h0, div_eq_inv_mul]

/-- C42: a kernel object is evaluated pair-wise at most once, and component-wise only after that. -/
theorem C42_rejects (k : DmapKernel) (f : Fitted n) (K : Matrix n n ℝ) (Kc : Matrix m n ℝ) :
    evalPdist k (some f) K = .error .attribute ∧ evalCdist k none Kc = .error .attribute := ⟨rfl, rfl⟩

/-- Two points with kernel values 2 and 1. -/
def exK : Matrix (Fin 2) (Fin 2) ℝ := !![2, 1; 1, 2]

theorem exK_connected : Connected exK := by
  refine ⟨?_, fun i => ⟨i, ?_⟩⟩
  · intro i j
    fin_cases i <;> fin_cases j <;> norm_num [exK]
  · fin_cases i <;> norm_num [exK]

example : exKᵀ = exK ∧ Connected exK ∧ DmapKernel.Admissible ⟨true, 1 / 2, true, true⟩ ∧ DmapKernel.isConjugate ⟨true, 1 / 2, false, true⟩ = false := by
  refine ⟨?_, exK_connected, ?_, rfl⟩
  · ext i j
    fin_cases i <;> fin_cases j <;> rfl
  · constructor <;> norm_num

/-! ## C43 -/

/-- C43: for a symmetric kernel matrix the matrix returned with `symmetrize_kernel=True` is symmetric, has exactly the eigenpairs of the Markov matrix up to the basis change,
and the Markov matrix is recovered from it. -/
theorem C43_conjugate (k : DmapKernel) (hk : k.Admissible) (hst : k.isStochastic = true) (hsy : k.symmetrize = true) (hd : k.distSymmetric = true) (K : Matrix n n ℝ)
    (hK : Connected K) (hsym : Kᵀ = K) :
    ∃ A f b P g, evalPdist k none K = .ok (A, f) ∧ f.basisChange = some b ∧ evalPdist { k with symmetrize := false } none K = .ok (P, g) ∧
      Aᵀ = A ∧ (∀ lam v, IsEigenpair A lam v ↔ IsEigenpair P lam (fun i => b i * v i)) ∧ unsymmetric A b = P ∧ ∀ i, 0 < b i := by
  have hs := hK.rowSums_pos
  have hsym' : ∀ i j, K i j = K j i := fun i j => by rw [← congrFun (congrFun hsym i) j]; rfl
  have hc : k.isConjugate = true := by rw [isConjugate_eq, hst, hsy, hd]; rfl
  have hp := densityMatrix_rowSums (k := k) hK.1 hs
  set S := densityMatrix k K with hS
  set d : n → ℝ := fun i => Real.sqrt (rowSums S i) with hdd
  have hdp : ∀ i, 0 < d i := fun i => Real.sqrt_pos.mpr (hp i)
  have hdsq : ∀ i, d i * d i = rowSums S i := fun i => Real.mul_self_sqrt (hp i).le
  have hP := evalPdist_stochastic (k := { k with symmetrize := false }) hk hst (by simp [isConjugate_eq]) hK.1 hs (fun _ => hsym')
  have hform : ∀ i j, diffusion k.alpha (rowSums K) K i j = S i j / rowSums S i := by
    intro i j
    rw [densityMatrix_diffusion hk hK.1 hs]
    rfl
  refine ⟨_, _, _, _, _, evalPdist_conjugate hk hc hK.1 hs hsym', rfl, hP, ?_, ?_, ?_, fun i => inv_pos.mpr (hdp i)⟩
  · ext i j
    simp only [transpose_apply, of_apply]
    rw [densityMatrix_symm hsym' j i]
    ring
  · intro lam v
    have hne : v ≠ 0 ↔ (fun i => (d i)⁻¹ * v i) ≠ 0 := by
      rw [not_iff_not, funext_iff, funext_iff]
      refine forall_congr' (fun i => ?_)
      simp only [Pi.zero_apply, mul_eq_zero, inv_eq_zero, (hdp i).ne', false_or]
    have heq : ∀ i, (diffusion k.alpha (rowSums K) K *ᵥ (fun i => (d i)⁻¹ * v i)) i
        = (d i)⁻¹ * ((Matrix.of (fun i j => (d i)⁻¹ * S i j * (d j)⁻¹)) *ᵥ v) i := by
      intro i
      simp only [mulVec, dotProduct, of_apply, Finset.mul_sum, hform, ← hdsq]
      refine Finset.sum_congr rfl (fun j _ => ?_)
      have := (hdp i).ne'
      have := (hdp j).ne'
      field_simp
    unfold IsEigenpair
    refine and_congr hne ?_
    rw [funext_iff, funext_iff]
    refine forall_congr' (fun i => ?_)
    change ((Matrix.of (fun i j => (d i)⁻¹ * S i j * (d j)⁻¹)) *ᵥ v) i = _ ↔ (diffusion k.alpha (rowSums K) K *ᵥ (fun i => (d i)⁻¹ * v i)) i = _
    rw [heq i]
    simp only [Pi.smul_apply, smul_eq_mul]
    rw [show lam * ((d i)⁻¹ * v i) = (d i)⁻¹ * (lam * v i) by ring]
    exact (mul_right_inj' (inv_pos.mpr (hdp i)).ne').symm
  · ext i j
    change unsymmetric (Matrix.of (fun i j => (d i)⁻¹ * S i j * (d j)⁻¹)) (fun i => (d i)⁻¹) i j = diffusion k.alpha (rowSums K) K i j
    rw [hform, ← hdsq]
    simp only [unsymmetric, of_apply]
    have := (hdp i).ne'
    have := (hdp j).ne'
    field_simp

/-- C43: every eigenpair of the Markov matrix comes from an eigenpair of the symmetric conjugate (the correspondence of `C43_conjugate` is onto). -/
theorem C43_onto (k : DmapKernel) (hk : k.Admissible) (hst : k.isStochastic = true) (hsy : k.symmetrize = true) (hd : k.distSymmetric = true) (K : Matrix n n ℝ)
    (hK : Connected K) (hsym : Kᵀ = K) :
    ∃ A f b P g, evalPdist k none K = .ok (A, f) ∧ f.basisChange = some b ∧ evalPdist { k with symmetrize := false } none K = .ok (P, g) ∧
      ∀ lam w, IsEigenpair P lam w → ∃ v, IsEigenpair A lam v ∧ w = fun i => b i * v i := by
  obtain ⟨A, f, b, P, g, h1, h2, h3, -, h5, -, h7⟩ := C43_conjugate k hk hst hsy hd K hK hsym
  refine ⟨A, f, b, P, g, h1, h2, h3, fun lam w hw => ⟨fun i => (b i)⁻¹ * w i, ?_, ?_⟩⟩
  · rw [h5]
    have : (fun i => b i * ((b i)⁻¹ * w i)) = w := by
      funext i
      rw [mul_inv_cancel_left₀ (h7 i).ne']
    rwa [this]
  · funext i
    rw [mul_inv_cancel_left₀ (h7 i).ne']

example : IsEigenpair exK 3 ![1, 1] := by
  refine ⟨fun h => by simpa using congrFun h 0, ?_⟩
  ext i
  fin_cases i <;> simp [exK, mulVec, dotProduct, Fin.sum_univ_two] <;> norm_num

/-! ## C90 -/

/-- C90, the true part: with `alpha = 0` a query point without neighbours yields a zero row, all others are stochastic. -/
theorem C90_outlier_partial (k : DmapKernel) (hst : k.isStochastic = true) (h0 : k.alpha = 0) (f : Fitted n) (Kc : Matrix m n ℝ) (hKc : ∀ i j, 0 ≤ Kc i j) :
    ∃ P, evalCdist k (some f) Kc = .ok P ∧ (∀ i j, 0 ≤ P i j) ∧
      ∀ i, ((∀ j, Kc i j = 0) → ∀ j, P i j = 0) ∧ ((∃ j, Kc i j ≠ 0) → ∑ j, P i j = 1) := by
  refine ⟨stochastic Kc, ?_, ?_, fun i => ⟨?_, ?_⟩⟩
  · unfold evalCdist
    simp only [hst, if_true, alphaCdist, h0, lt_irrefl, if_false]
  · intro i j
    unfold stochastic
    rw [of_apply]
    split
    · simp
    · rename_i h
      rw [not_or] at h
      exact mul_nonneg (not_lt.mp h.2) (hKc i j)
  · intro hz j
    unfold stochastic
    rw [of_apply, hz j, mul_zero]
  · rintro ⟨j, hj⟩
    have hpos : 0 < rowSums Kc i := Finset.sum_pos' (fun l _ => hKc i l) ⟨j, Finset.mem_univ _, lt_of_le_of_ne (hKc i j) (Ne.symm hj)⟩
    unfold stochastic
    simp only [of_apply]
    rw [← Finset.mul_sum, if_neg]
    · exact inv_mul_cancel₀ hpos.ne'
    · rintro (h | h)
      · exact hpos.ne' h
      · exact absurd (inv_pos.mpr hpos) (not_lt.mpr h.le)

/-- C90 is violated for every `alpha > 0` (the default is 1): one query point without neighbours makes the whole evaluation raise `ZeroDivisionError`. -/
theorem C90_violated (k : DmapKernel) (hk : k.Admissible) (hst : k.isStochastic = true) (hpos : 0 < k.alpha) (w : n → ℝ) (b : Option (n → ℝ))
    (Kc : Matrix m n ℝ) (hKc : ∀ i j, 0 ≤ Kc i j) (i : m) (hi : ∀ j, Kc i j = 0) :
    evalCdist k (some ⟨some w, b⟩) Kc = .error .zeroDivision := by
  unfold evalCdist
  simp only [hst, if_true, alphaCdist, if_pos hpos, densityCdist]
  rw [powSums_ok (s := rowSums Kc) hk (fun i => Finset.sum_nonneg (fun l _ => hKc i l))]
  simp only [divide]
  rw [if_pos]
  refine ⟨i, ?_⟩
  rw [show rowSums Kc i = 0 from Finset.sum_eq_zero (fun j _ => hi j)]
  exact Real.zero_rpow hpos.ne'

example : DmapKernel.Admissible ⟨true, 1, true, true⟩ ∧ (∀ j, (!![1, 2; 0, 0] : Matrix (Fin 2) (Fin 2) ℝ) 1 j = 0) := by
  refine ⟨⟨by norm_num, by norm_num⟩, fun j => ?_⟩
  fin_cases j <;> rfl

/-- **C90 (which component-wise evaluations are rejected).** With `alpha > 0` an evaluation for query points of a non-negative kernel matrix is accepted iff every query point has a neighbour and no stored row sum of the training
points is zero. -/
theorem C90_accepts (k : DmapKernel) (hk : k.Admissible) (hst : k.isStochastic = true) (hpos : 0 < k.alpha) (w : n → ℝ) (b : Option (n → ℝ)) (Kc : Matrix m n ℝ) (hKc : ∀ i j, 0 ≤ Kc i j) :
    (∃ P, evalCdist k (some ⟨some w, b⟩) Kc = .ok P) ↔ (∀ i, ∃ j, Kc i j ≠ 0) ∧ ∀ j, w j ≠ 0 := by
  unfold evalCdist
  simp only [hst, if_true, alphaCdist, if_pos hpos, densityCdist]
  rw [powSums_ok (s := rowSums Kc) hk (fun i => Finset.sum_nonneg (fun l _ => hKc i l))]
  have hrow : ∀ i, rowSums Kc i ^ k.alpha = 0 ↔ ∀ j, Kc i j = 0 := by
    intro i
    have hnn : 0 ≤ rowSums Kc i := Finset.sum_nonneg (fun l _ => hKc i l)
    rw [Real.rpow_eq_zero hnn hpos.ne']
    exact (Finset.sum_eq_zero_iff_of_nonneg (fun l _ => hKc i l)).trans (by simp)
  simp only [divide]
  by_cases h1 : ∃ i, rowSums Kc i ^ k.alpha = 0
  · rw [if_pos h1]
    obtain ⟨i, hi⟩ := h1
    constructor
    · rintro ⟨P, hP⟩; simp at hP
    · rintro ⟨h, -⟩
      obtain ⟨j, hj⟩ := h i
      exact absurd ((hrow i).1 hi j) hj
  · rw [if_neg h1]
    have h1' : ∀ i, ∃ j, Kc i j ≠ 0 := fun i => not_forall.1 (fun h => h1 ⟨i, (hrow i).2 h⟩)
    by_cases h2 : ∃ j, w j = 0
    · rw [if_pos h2]
      obtain ⟨j, hj⟩ := h2
      constructor
      · rintro ⟨P, hP⟩; simp at hP
      · rintro ⟨-, h⟩; exact absurd hj (h j)
    · rw [if_neg h2]
      exact ⟨fun _ => ⟨h1', by simpa using h2⟩, fun _ => ⟨_, rfl⟩⟩

/-! ## C91 -/

/-- Eigenvalues of a row stochastic matrix. -/
theorem RowStochastic.abs_le_one [Nonempty n] {P : Matrix n n ℝ} (h2 : RowStochastic P) {lam : ℝ} {v : n → ℝ} (h : IsEigenpair P lam v) : |lam| ≤ 1 := by
  obtain ⟨hv, he⟩ := h
  obtain ⟨i, -, hi⟩ := Finset.exists_max_image Finset.univ (fun i => |v i|) Finset.univ_nonempty
  have hpos : 0 < |v i| := by
    rw [abs_pos]
    intro h0
    apply hv
    funext j
    have := hi j (Finset.mem_univ _)
    rw [h0, abs_zero] at this
    exact abs_nonpos_iff.mp this
  have hle : |lam| * |v i| ≤ 1 * |v i| := by
    rw [← abs_mul, ← smul_eq_mul, ← Pi.smul_apply, ← he, ← h2.2 i, Finset.sum_mul]
    simp only [mulVec, dotProduct]
    refine (Finset.abs_sum_le_sum_abs _ _).trans (Finset.sum_le_sum (fun j _ => ?_))
    rw [abs_mul, abs_of_nonneg (h2.1 i j)]
    exact mul_le_mul_of_nonneg_left (hi j (Finset.mem_univ _)) (h2.1 i j)
  exact le_of_mul_le_mul_right hle hpos

/-- C91: every real eigenvalue of the diffusion kernel lies in `[-1, 1]`, and one is an eigenvalue, belonging to the constant vectors. -/
theorem C91_spectrum [Nonempty n] (k : DmapKernel) (hk : k.Admissible) (hst : k.isStochastic = true) (hc : k.isConjugate = false) (K : Matrix n n ℝ)
    (hK : Connected K) (hsym : k.distSymmetric = true → Kᵀ = K) :
    ∃ P f, evalPdist k none K = .ok (P, f) ∧ (∀ lam v, IsEigenpair P lam v → |lam| ≤ 1) ∧ IsEigenpair P 1 (fun _ => 1) := by
  obtain ⟨P, f, h1, h2, -, h4⟩ := C42_pairwise k hk hst hc K hK hsym
  refine ⟨P, f, h1, ?_, ⟨fun h => ?_, ?_⟩⟩
  · exact fun lam v hv => h2.abs_le_one hv
  · have := congrFun h (Classical.arbitrary n)
    simp at this
  · rw [h4 1, one_smul]

end Verif.Kernel
