import Verif.Kernel.Eigsolver
import Verif.Kernel.NormalizeProps
import Verif.Utils.GeneralProps
/-!
# C136: the eigenpairs of kernel matrices
-/

namespace Verif.Kernel

open Matrix Verif.Utils

variable {n : Nat}

/-! ## Helper lemmas -/

theorem lowerSym_of_symm (A : Matrix (Fin n) (Fin n) ℝ) (h : ∀ i j, A i j = A j i) : lowerSym A = A := by
  funext i j
  unfold lowerSym
  split
  · rfl
  · exact h j i

theorem realPart_of_real {q : ℂ × (Fin n → ℂ)} (h : RealPair q) : realPart q = q := by
  unfold realPart
  refine Prod.ext (Complex.ext ?_ ?_) (funext fun i => Complex.ext ?_ ?_)
  · rfl
  · exact (h.1).symm
  · rfl
  · exact (h.2 i).symm

theorem map_realPart {pairs : List (ℂ × (Fin n → ℂ))} (h : ∀ q ∈ pairs, RealPair q) : pairs.map realPart = pairs := by
  conv => rhs; rw [← List.map_id pairs]
  exact List.map_congr_left fun q hq => realPart_of_real (h q hq)

theorem imagTol_pos : 0 < imagTol := by unfold imagTol; positivity

/-- Sorting with any result of `np.argsort`: a permutation, in descending order of the eigenvalues. -/
theorem sorted_pairs {β : Type} (l : List β) (f : β → Cpx ℝ) (idx : List Nat) (h : IsArgsort (l.map f) idx) :
    (idx.reverse.filterMap fun i => l[i]?).Perm l ∧ (idx.reverse.filterMap fun i => l[i]?).Pairwise (fun a b => Cpx.le (f b) (f a)) := by
  have hp : idx.Perm (List.range l.length) := by simpa using h.1
  refine ⟨filterMap_perm l _ ((List.reverse_perm idx).trans hp), ?_⟩
  rw [List.filterMap_reverse, List.pairwise_reverse]
  have h2 := h.2
  have : (idx.filterMap fun i => (l.map f)[i]?) = (idx.filterMap fun i => l[i]?).map f := by
    rw [List.map_filterMap]
    exact List.filterMap_congr fun i _ => by rw [List.getElem?_map]
  rw [this, List.pairwise_map] at h2
  exact h2

/-! ## C136 -/

/-- C136, the true part: if a kernel that declares itself symmetric has a symmetric distance and a symmetric matrix, then the requested number of eigenpairs is returned, all of them are eigenpairs of the kernel matrix, in descending order of the
eigenvalues, and they are real for symmetric kernels. -/
theorem C136_eigenpairs_partial (flag distSym : Bool) (A : Matrix (Fin n) (Fin n) ℝ) (hsym : flag = true → distSym = true ∧ ∀ i j, A i j = A j i) (k : Nat) (pairs : List (ℂ × (Fin n → ℂ)))
    (hres : EigResult (chooseEig flag distSym k n) A k pairs) (idx : List Nat) (hidx : IsArgsort ((if flag then pairs.map realPart else pairs).map fun q => cpxOf q.1) idx) :
    ∃ R, kernelEigenpairs flag pairs idx = .ok R ∧ R.length = k ∧ R.Perm pairs ∧ (∀ q ∈ R, IsCEigenpair A q.1 q.2) ∧ (flag = true → ∀ q ∈ R, RealPair q) ∧ R.Pairwise (fun a b => b.1.re < a.1.re ∨ (b.1.re = a.1.re ∧ b.1.im ≤ a.1.im)) := by
  obtain ⟨hlen, hres⟩ := hres
  unfold kernelEigenpairs
  cases flag with
  | false =>
    simp only [Bool.false_eq_true, false_and, if_false] at hidx ⊢
    obtain ⟨hp, hs⟩ := sorted_pairs pairs (fun q => cpxOf q.1) idx hidx
    have hev : ∀ q ∈ pairs, IsCEigenpair A q.1 q.2 := by
      unfold chooseEig at hres
      by_cases hk : k = n
      · simpa [hk] using hres
      · simpa [hk] using hres
    exact ⟨_, rfl, by rw [hp.length_eq, hlen], hp, fun q hq => hev q (hp.mem_iff.1 hq), fun h => absurd h (by simp), hs⟩
  | true =>
    obtain ⟨hd, hA⟩ := hsym rfl
    have hev : ∀ q ∈ pairs, RealPair q ∧ IsCEigenpair A q.1 q.2 := by
      unfold chooseEig at hres
      by_cases hk : k = n
      · simpa [hk, lowerSym_of_symm A hA] using hres
      · simp [hk, hd] at hres
        exact fun q hq => hres hA q.1 q.2 hq
    have hreal : ∀ q ∈ pairs, RealPair q := fun q hq => (hev q hq).1
    rw [map_realPart hreal] at hidx ⊢
    simp only [if_true] at hidx ⊢
    obtain ⟨hp, hs⟩ := sorted_pairs pairs (fun q => cpxOf q.1) idx hidx
    rw [if_neg]
    · exact ⟨_, rfl, by rw [hp.length_eq, hlen], hp, fun q hq => (hev q (hp.mem_iff.1 hq)).2, fun _ q hq => hreal q (hp.mem_iff.1 hq), hs⟩
    · rintro ⟨-, q, hq, hlt⟩
      rw [(hreal q hq).1] at hlt
      exact absurd hlt (not_lt.mpr imagTol_pos.le)

/-- C136 for unsymmetric distances: if fewer than all eigenpairs are requested, then they are eigenpairs of the matrix itself also for kernels with the symmetry flag, provided that they are real (as those of a stochastic matrix that is
similar to a symmetric one). -/
theorem C136_unsymmetric (flag : Bool) (A : Matrix (Fin n) (Fin n) ℝ) (k : Nat) (hk : k ≠ n) (pairs : List (ℂ × (Fin n → ℂ))) (hres : EigResult (chooseEig flag false k n) A k pairs) (hreal : ∀ q ∈ pairs, RealPair q)
    (idx : List Nat) (hidx : IsArgsort ((if flag then pairs.map realPart else pairs).map fun q => cpxOf q.1) idx) :
    ∃ R, kernelEigenpairs flag pairs idx = .ok R ∧ R.length = k ∧ R.Perm pairs ∧ (∀ q ∈ R, IsCEigenpair A q.1 q.2) ∧ R.Pairwise (fun a b => b.1.re < a.1.re ∨ (b.1.re = a.1.re ∧ b.1.im ≤ a.1.im)) := by
  obtain ⟨hlen, hres⟩ := hres
  have hev : ∀ q ∈ pairs, IsCEigenpair A q.1 q.2 := by
    unfold chooseEig at hres
    simpa [hk] using hres
  unfold kernelEigenpairs
  rw [map_realPart hreal] at hidx ⊢
  simp only [ite_self] at hidx ⊢
  obtain ⟨hp, hs⟩ := sorted_pairs pairs (fun q => cpxOf q.1) idx hidx
  rw [if_neg]
  · exact ⟨_, rfl, by rw [hp.length_eq, hlen], hp, fun q hq => hev q (hp.mem_iff.1 hq), hs⟩
  · rintro ⟨-, q, hq, hlt⟩
    rw [(hreal q hq).1] at hlt
    exact absurd hlt (not_lt.mpr imagTol_pos.le)

/-- The kernel matrix of the counterexample: rows sum to one, not symmetric. -/
noncomputable def knnMatrix : Matrix (Fin 2) (Fin 2) ℝ := !![1 / 2, 1 / 2; 1 / 4, 3 / 4]

theorem charpoly_two (A : Matrix (Fin 2) (Fin 2) ℝ) (lam : ℂ) (v : Fin 2 → ℂ) (h : IsCEigenpair A lam v) : (A 0 0 - lam) * (A 1 1 - lam) = A 0 1 * A 1 0 := by
  obtain ⟨hv, he⟩ := h
  have h0 := congrFun he 0
  have h1 := congrFun he 1
  simp only [mulVec, dotProduct, Fin.sum_univ_two, Matrix.map_apply, Pi.smul_apply, smul_eq_mul] at h0 h1
  by_contra hne
  apply hv
  have e0 : ((A 0 0 - lam) * (A 1 1 - lam) - A 0 1 * A 1 0) * v 0 = 0 := by linear_combination (A 1 1 - lam) * h0 - A 0 1 * h1
  have e1 : ((A 0 0 - lam) * (A 1 1 - lam) - A 0 1 * A 1 0) * v 1 = 0 := by linear_combination (A 0 0 - lam) * h1 - A 1 0 * h0
  have hne' : (A 0 0 - lam) * (A 1 1 - lam) - A 0 1 * A 1 0 ≠ 0 := sub_ne_zero.mpr hne
  funext i
  fin_cases i
  · exact (mul_eq_zero.mp e0).resolve_left hne'
  · exact (mul_eq_zero.mp e1).resolve_left hne'

/-- non-vacuity of `C136_unsymmetric`: the first eigenpair of an unsymmetric matrix with symmetry flag -/
example : EigResult (chooseEig true false 1 2) knnMatrix 1 [(1, fun _ => 1)] ∧ RealPair ((1, fun _ => 1) : ℂ × (Fin 2 → ℂ)) := by
  refine ⟨⟨rfl, ?_⟩, by simp [RealPair]⟩
  simp only [chooseEig, List.mem_singleton, forall_eq, IsCEigenpair]
  refine ⟨fun h => by simpa using congrFun h 0, ?_⟩
  funext i
  fin_cases i <;> simp [knnMatrix, mulVec, dotProduct, Fin.sum_univ_two] <;> norm_num

/-- C136 is violated for kernels with the symmetry flag but an unsymmetric distance (e.g. nearest neighbours) if all eigenpairs are requested: the symmetric routine reads only the lower triangle.  For the given stochastic matrix
no returned pair is an eigenpair, whatever the routine returns, although the same call with fewer eigenpairs is correct. -/
theorem C136_full_violated : ∀ pairs idx, EigResult (chooseEig true false 2 2) knnMatrix 2 pairs → IsArgsort ((pairs.map realPart).map fun q => cpxOf q.1) idx →
    ∃ R, kernelEigenpairs true pairs idx = .ok R ∧ R.length = 2 ∧ ∀ q ∈ R, ¬ IsCEigenpair knnMatrix q.1 q.2 := by
  rintro pairs idx ⟨hlen, hres⟩ hidx
  have hev : ∀ q ∈ pairs, RealPair q ∧ IsCEigenpair (lowerSym knnMatrix) q.1 q.2 := by
    simpa [chooseEig] using hres
  have hreal : ∀ q ∈ pairs, RealPair q := fun q hq => (hev q hq).1
  unfold kernelEigenpairs
  rw [map_realPart hreal] at hidx ⊢
  simp only [if_true] at hidx ⊢
  obtain ⟨hp, -⟩ := sorted_pairs pairs (fun q => cpxOf q.1) idx hidx
  rw [if_neg]
  · refine ⟨_, rfl, by rw [hp.length_eq, hlen], fun q hq h => ?_⟩
    have h1 := charpoly_two _ _ _ h
    have h2 := charpoly_two _ _ _ (hev q (hp.mem_iff.1 hq)).2
    simp [knnMatrix, lowerSym] at h1 h2
    have : (1 : ℂ) / 16 = 0 := by linear_combination h2 - h1
    norm_num at this
  · rintro ⟨-, q, hq, hlt⟩
    rw [(hreal q hq).1] at hlt
    exact absurd hlt (not_lt.mpr imagTol_pos.le)

/-- C136: the eigenproblem of diffusion maps.  If the real pairs are eigenpairs of the symmetric matrix `A` that is conjugate to `P` by the positive diagonal `b`, the returned vectors are eigenvectors of `P` with the same eigenvalues and length one. -/
theorem C136_dmap (A : Matrix (Fin n) (Fin n) ℝ) (b : Fin n → ℝ) (hb : ∀ i, 0 < b i) (pairs : List (ℂ × (Fin n → ℂ))) (hpairs : ∀ q ∈ pairs, RealPair q ∧ IsCEigenpair A q.1 q.2) :
    ∃ R, solveEigen (some b) pairs = .ok R ∧ R.length = pairs.length ∧ R.map (fun q => q.1) = pairs.map (fun q => q.1.re) ∧ ∀ q ∈ R, IsEigenpair (unsymmetric A b) q.1 q.2 ∧ ∑ i, q.2 i ^ 2 = 1 := by
  unfold solveEigen
  rw [if_neg]
  · refine ⟨_, rfl, by simp, by simp, ?_⟩
    intro q hq
    obtain ⟨r, hr, rfl⟩ := List.mem_map.1 hq
    obtain ⟨hreal, hv0, hv⟩ := hpairs r hr
    simp only [Option.getD_some]
    -- the real vector
    have hx : ∀ i, r.2 i = (((r.2 i).re : ℝ) : ℂ) := fun i => Complex.ext rfl (by simpa using hreal.2 i)
    have hlam : r.1 = ((r.1.re : ℝ) : ℂ) := Complex.ext rfl (by simpa using hreal.1)
    have hA : ∀ i, ∑ j, A i j * (r.2 j).re = r.1.re * (r.2 i).re := by
      intro i
      have := congrFun hv i
      simp only [mulVec, dotProduct, Matrix.map_apply, Pi.smul_apply, smul_eq_mul] at this
      have := congrArg Complex.re this
      rw [Complex.re_sum] at this
      simp only [Complex.mul_re, Complex.ofReal_re, Complex.ofReal_im, zero_mul, sub_zero, hreal.1] at this
      exact this
    have hne : ∃ i, (r.2 i).re ≠ 0 := by
      by_contra hc
      push Not at hc
      exact hv0 (funext fun i => by rw [hx i, hc i]; simp)
    obtain ⟨i0, hi0⟩ := hne
    have hS : 0 < ∑ j, (b j * (r.2 j).re) ^ 2 := Finset.sum_pos' (fun j _ => sq_nonneg _) ⟨i0, Finset.mem_univ _, by have := (hb i0).ne'; positivity⟩
    have hs := Real.sqrt_pos.mpr hS
    refine ⟨⟨fun h => ?_, ?_⟩, ?_⟩
    · have := congrFun h i0
      simp only [Pi.zero_apply, div_eq_zero_iff, mul_eq_zero] at this
      rcases this with (h' | h') | h'
      · exact (hb i0).ne' h'
      · exact hi0 h'
      · exact hs.ne' h'
    · funext i
      simp only [mulVec, dotProduct, unsymmetric, Matrix.of_apply, Pi.smul_apply, smul_eq_mul]
      have : ∀ j, b i * A i j * (b j)⁻¹ * (b j * (r.2 j).re / √(∑ j, (b j * (r.2 j).re) ^ 2)) = (b i / √(∑ j, (b j * (r.2 j).re) ^ 2)) * (A i j * (r.2 j).re) := by
        intro j
        have := (hb j).ne'
        field_simp
      rw [Finset.sum_congr rfl fun j _ => this j, ← Finset.mul_sum, hA]
      ring
    · simp only [div_pow]
      rw [← Finset.sum_div, Real.sq_sqrt hS.le, div_self hS.ne']
  · rintro ⟨q, hq, h | ⟨i, h⟩⟩
    · rw [(hpairs q hq).1.1, abs_zero] at h
      exact absurd h (not_lt.mpr imagTol_pos.le)
    · rw [(hpairs q hq).1.2 i, abs_zero] at h
      exact absurd h (not_lt.mpr imagTol_pos.le)

/-- C136, singular values: more triplets than the smaller side are rejected; otherwise the triplets of the routine are returned, each value with its vectors, in descending order. -/
theorem C136_svd {m n : Nat} (A : Matrix (Fin m) (Fin n) ℝ) (k : Nat) (solver : Matrix (Fin m) (Fin n) ℝ → Nat → List (SvdTriplet m n)) (idx : List Nat)
    (hlen : (solver A k).length = k) (hsol : ∀ t ∈ solver A k, A *ᵥ t.v = t.s • t.u ∧ Aᵀ *ᵥ t.u = t.s • t.v) (hidx : IsArgsort ((solver A k).map fun t => ⟨t.s, 0⟩) idx) :
    ((∃ R, kernelSvd A k solver idx = .ok R) ↔ k ≤ m ∧ k ≤ n) ∧
      ∀ R, kernelSvd A k solver idx = .ok R → R.length = k ∧ R.Perm (solver A k) ∧ (∀ t ∈ R, A *ᵥ t.v = t.s • t.u ∧ Aᵀ *ᵥ t.u = t.s • t.v) ∧ R.Pairwise (fun a b => b.s ≤ a.s) := by
  unfold kernelSvd
  by_cases hk : min m n < k
  · rw [if_pos hk]
    exact ⟨⟨fun ⟨_, h⟩ => (by cases h), fun h => (by omega)⟩, fun R h => (by cases h)⟩
  · rw [if_neg hk]
    refine ⟨⟨fun _ => by omega, fun _ => ⟨_, rfl⟩⟩, ?_⟩
    intro R h
    cases h
    obtain ⟨hp, hs⟩ := sorted_pairs (solver A k) (fun t => (⟨t.s, 0⟩ : Cpx ℝ)) idx hidx
    refine ⟨by rw [hp.length_eq, hlen], hp, fun t ht => hsol t (hp.mem_iff.1 ht), hs.imp fun {a b} h => ?_⟩
    rcases h with h | h
    · exact h.le
    · exact h.1.le

/-- Non-vacuity: the identity with the unit vectors. -/
example : EigResult (chooseEig true true 2 2) (1 : Matrix (Fin 2) (Fin 2) ℝ) 2 [(1, ![1, 0]), (1, ![0, 1])] := by
  refine ⟨rfl, ?_⟩
  have : lowerSym (1 : Matrix (Fin 2) (Fin 2) ℝ) = 1 := lowerSym_of_symm _ fun i j => by simp [Matrix.one_apply, eq_comm]
  have h1 : (1 : Matrix (Fin 2) (Fin 2) ℝ).map (fun x : ℝ => (x : ℂ)) = 1 := by
    funext i j
    simp only [Matrix.map_apply, Matrix.one_apply]
    split <;> simp
  intro q hq
  simp only [List.mem_cons, List.not_mem_nil, or_false] at hq
  rcases hq with rfl | rfl
  · refine ⟨⟨by simp, fun i => by fin_cases i <;> simp⟩, ?_, ?_⟩
    · intro h; simpa using congrFun h 0
    · rw [this, h1]; simp
  · refine ⟨⟨by simp, fun i => by fin_cases i <;> simp⟩, ?_, ?_⟩
    · intro h; simpa using congrFun h 1
    · rw [this, h1]; simp

end Verif.Kernel
