import Verif.Kernel.TrivialProps
/-!
# C222: distances between embedded samples and diffusion distances
-/

namespace Verif.Kernel

open Matrix

variable {n : Type} [Fintype n] [DecidableEq n]

/-! ## Specification -/

/-- `π` is a positive stationary distribution of the Markov chain `P`. -/
def Stationary (P : Matrix n n ℝ) (π : n → ℝ) : Prop := (∀ i, 0 < π i) ∧ ∑ i, π i = 1 ∧ π ᵥ* P = π

/-- The squared diffusion distance: the distance between the distributions of the Markov chain `t` steps after the start in `i` and in `j`, weighted with the inverse of the stationary distribution. -/
noncomputable def diffusionDistSq (P : Matrix n n ℝ) (π : n → ℝ) (t : ℕ) (i j : n) : ℝ := ∑ k, ((P ^ t) i k - (P ^ t) j k) ^ 2 / π k

/-- The squared Euclidean distance between two rows of an embedding that is given by its columns. -/
def embDistSq (cols : List (n → ℝ)) (i j : n) : ℝ := (cols.map (fun c => (c i - c j) ^ 2)).sum

/-- The eigenproblem of a symmetric matrix as `scipy.linalg.eigh`, called through `solve_eigenproblem` (dmap.py 51-107), answers it: orthonormal eigenvectors, which are then changed to the basis of the
stochastic kernel and normalised. -/
def SolvesSymmetric (A : Matrix n n ℝ) (b : Option (n → ℝ)) (pairs : List (Pair n)) : Prop :=
  ∃ raw : List (Pair n), (∀ p ∈ raw, A *ᵥ p.2 = p.1 • p.2 ∧ p.2 ⬝ᵥ p.2 = 1) ∧ raw.Pairwise (fun p q => p.2 ⬝ᵥ q.2 = 0) ∧ pairs = raw.map (fun p => (p.1, normalizeVec (changeBasis b p.2)))

/-! ## Helper lemmas -/

omit [DecidableEq n] in
theorem bessel_list (vs : List (n → ℝ)) (h1 : ∀ v ∈ vs, v ⬝ᵥ v = 1) (h2 : vs.Pairwise (fun v w => v ⬝ᵥ w = 0)) : ∀ x : n → ℝ, (vs.map (fun v => (x ⬝ᵥ v) ^ 2)).sum ≤ x ⬝ᵥ x := by
  induction vs with
  | nil =>
    intro x
    exact Finset.sum_nonneg (fun i _ => mul_self_nonneg (x i))
  | cons v vs ih =>
    intro x
    rw [List.pairwise_cons] at h2
    have h := ih (fun w hw => h1 w (by simp [hw])) h2.2 (x - (x ⬝ᵥ v) • v)
    have e : ∀ w ∈ vs, (x - (x ⬝ᵥ v) • v) ⬝ᵥ w = x ⬝ᵥ w := by
      intro w hw
      rw [sub_dotProduct, smul_dotProduct, h2.1 w hw, smul_zero, sub_zero]
    rw [List.map_congr_left (fun w hw => by rw [e w hw])] at h
    have e2 : (x - (x ⬝ᵥ v) • v) ⬝ᵥ (x - (x ⬝ᵥ v) • v) = x ⬝ᵥ x - (x ⬝ᵥ v) ^ 2 := by
      rw [sub_dotProduct, dotProduct_sub, dotProduct_sub, smul_dotProduct, smul_dotProduct, dotProduct_smul, dotProduct_smul, h1 v (by simp), dotProduct_comm v x]
      simp only [smul_eq_mul]
      ring
    rw [List.map_cons, List.sum_cons]
    linarith

theorem parseval_list (vs : List (n → ℝ)) (h1 : ∀ v ∈ vs, v ⬝ᵥ v = 1) (h2 : vs.Pairwise (fun v w => v ⬝ᵥ w = 0)) (hl : vs.length = Fintype.card n) (x : n → ℝ) :
    (vs.map (fun v => (x ⬝ᵥ v) ^ 2)).sum = x ⬝ᵥ x := by
  let W : Matrix (Fin vs.length) n ℝ := Matrix.of (fun l k => vs[l] k)
  have hW : W * Wᵀ = 1 := by
    ext a b
    rw [mul_apply, one_apply]
    change vs[a] ⬝ᵥ vs[b] = _
    by_cases hab : a = b
    · subst hab
      rw [if_pos rfl]
      exact h1 _ (List.getElem_mem _)
    · rw [if_neg hab]
      rw [List.pairwise_iff_getElem] at h2
      rcases lt_or_gt_of_ne (fun h => hab (Fin.ext h)) with h | h
      · exact h2 a b a.2 b.2 h
      · rw [dotProduct_comm]
        exact h2 b a b.2 a.2 h
  have hW2 : Wᵀ * W = 1 := (Matrix.mul_eq_one_comm_of_card_eq _ _ _ (by rw [Fintype.card_fin, hl])).1 hW
  have e : (vs.map (fun v => (x ⬝ᵥ v) ^ 2)).sum = (W *ᵥ x) ⬝ᵥ (W *ᵥ x) := by
    rw [← Fin.sum_univ_fun_getElem]
    refine Finset.sum_congr rfl (fun l _ => ?_)
    rw [sq, dotProduct_comm]
    rfl
  rw [e, dotProduct_mulVec, ← mulVec_transpose, mulVec_mulVec, hW2, one_mulVec]

theorem unsymmetric_pow {A : Matrix n n ℝ} {b : n → ℝ} (hb : ∀ i, 0 < b i) (t : ℕ) (i j : n) : (unsymmetric A b ^ t) i j = b i * (A ^ t) i j * (b j)⁻¹ := by
  induction t generalizing i with
  | zero =>
    simp only [pow_zero, one_apply]
    by_cases h : i = j
    · subst h
      simp [(hb i).ne']
    · simp [h]
  | succ t ih =>
    rw [pow_succ', pow_succ', mul_apply, mul_apply, Finset.mul_sum, Finset.sum_mul]
    refine Finset.sum_congr rfl (fun k _ => ?_)
    rw [ih]
    have := (hb k).ne'
    simp only [unsymmetric, of_apply]
    field_simp

theorem pow_eigen {A : Matrix n n ℝ} {lam : ℝ} {v : n → ℝ} (h : A *ᵥ v = lam • v) (t : ℕ) : A ^ t *ᵥ v = lam ^ t • v := by
  induction t with
  | zero => simp
  | succ t ih => rw [pow_succ', ← mulVec_mulVec, ih, mulVec_smul, h, smul_smul, pow_succ]

theorem npPower_nat (x : ℝ) (t : ℕ) : npPower x (t : ℝ) = .ok (x ^ t) := by
  unfold npPower
  rw [if_neg (fun h => h.2 ⟨t, by simp⟩), if_neg (fun h => absurd h.2 (not_lt.2 (Nat.cast_nonneg t))), Real.rpow_natCast]

omit [Fintype n] [DecidableEq n] in
theorem fitTransform_nat (t : ℕ) (pairs : List (Pair n)) : fitTransform (t : ℝ) none pairs = .ok (pairs.map (fun p => fun i => p.1 ^ t * p.2 i)) := by
  unfold fitTransform embed
  by_cases ht : (t : ℝ) = 0
  · rw [if_pos ht]
    obtain rfl : t = 0 := by exact_mod_cast ht
    simp only [selectPairs, pow_zero, one_mul]
  · rw [if_neg ht]
    have hm : ∀ l : List ℝ, l.mapM (fun x => npPower x (t : ℝ)) = .ok (l.map (fun x => x ^ t)) := by
      intro l
      induction l with
      | nil => rfl
      | cons a l ih => rw [List.mapM_cons, ih, npPower_nat]; rfl
    rw [hm]
    simp only [selectPairs, matDotDiag, List.length_map, if_true, List.map_map]
    congr 1
    rw [List.zipWith_map]
    induction pairs with
    | nil => rfl
    | cons p ps ih => simp_all

/-- The coefficient of the difference of two rows of a power of the Markov matrix along an eigenvector of the symmetric matrix. -/
theorem row_coefficient {A : Matrix n n ℝ} {b : n → ℝ} (hb : ∀ i, 0 < b i) {lam : ℝ} {v : n → ℝ} (h : A *ᵥ v = lam • v) (t : ℕ) (i j : n) :
    (fun k => ((unsymmetric A b ^ t) i k - (unsymmetric A b ^ t) j k) * b k) ⬝ᵥ v = lam ^ t * (b i * v i - b j * v j) := by
  have e := pow_eigen h t
  have ei := congrFun e i
  have ej := congrFun e j
  simp only [mulVec, dotProduct, Pi.smul_apply, smul_eq_mul] at ei ej
  have : ∀ k, ((unsymmetric A b ^ t) i k - (unsymmetric A b ^ t) j k) * b k * v k = b i * ((A ^ t) i k * v k) - b j * ((A ^ t) j k * v k) := by
    intro k
    have := (hb k).ne'
    rw [unsymmetric_pow hb, unsymmetric_pow hb]
    field_simp
  simp only [dotProduct, this]
  rw [Finset.sum_sub_distrib, ← Finset.mul_sum, ← Finset.mul_sum, ei, ej]
  ring

/-- The embedding distance in terms of the coefficients. -/
theorem embDist_coefficients {A : Matrix n n ℝ} {b : n → ℝ} (hb : ∀ i, 0 < b i) (raw : List (Pair n)) (h1 : ∀ p ∈ raw, A *ᵥ p.2 = p.1 • p.2 ∧ p.2 ⬝ᵥ p.2 = 1) (t : ℕ) (i j : n) :
    embDistSq ((raw.map (fun p => (p.1, normalizeVec (changeBasis (some b) p.2)))).map (fun p => fun i => p.1 ^ t * p.2 i)) i j =
      (raw.map (fun p => ((fun k => ((unsymmetric A b ^ t) i k - (unsymmetric A b ^ t) j k) * b k) ⬝ᵥ p.2) ^ 2 / ∑ k, (b k * p.2 k) ^ 2)).sum := by
  unfold embDistSq
  rw [List.map_map, List.map_map]
  congr 1
  refine List.map_congr_left (fun p hp => ?_)
  rw [row_coefficient hb (h1 p hp).1]
  simp only [Function.comp, normalizeVec, changeBasis]
  have hs : ∑ k, b k * p.2 k * (b k * p.2 k) = ∑ k, (b k * p.2 k) ^ 2 := Finset.sum_congr rfl (fun k _ => by ring)
  have hnn : 0 ≤ ∑ k, (b k * p.2 k) ^ 2 := Finset.sum_nonneg (fun k _ => sq_nonneg _)
  rw [hs, ← mul_sub, ← sub_div, mul_div_assoc', div_pow, Real.sq_sqrt hnn]

omit [DecidableEq n] in
theorem weighted_norm {b : n → ℝ} (hb : ∀ i, 0 < b i) (Z : ℝ) (hZ : 0 < Z) (v : n → ℝ) (hv : v ⬝ᵥ v = 1) (a : ℝ) :
    ((∀ k, ((b k) ^ 2 * Z)⁻¹ ≤ a) → (∑ k, (b k * v k) ^ 2)⁻¹ ≤ a * Z) ∧ ((∀ k, a ≤ ((b k) ^ 2 * Z)⁻¹) → a * Z ≤ (∑ k, (b k * v k) ^ 2)⁻¹) := by
  have hs : 0 < ∑ k, (b k * v k) ^ 2 := by
    obtain ⟨i, hi⟩ : ∃ i, v i ≠ 0 := by
      by_contra h
      push Not at h
      rw [show v = 0 from funext h] at hv
      simp at hv
    exact Finset.sum_pos' (fun k _ => sq_nonneg _) ⟨i, Finset.mem_univ _, by have := mul_ne_zero (hb i).ne' hi; positivity⟩
  have hvs : ∑ k, v k ^ 2 = 1 := by
    rw [← hv]
    exact Finset.sum_congr rfl (fun k _ => sq _)
  have hbz : ∀ k, 0 < (b k) ^ 2 * Z := fun k => mul_pos (pow_pos (hb k) 2) hZ
  constructor
  · intro h
    rw [inv_le_iff_one_le_mul₀ hs, ← hvs, Finset.mul_sum]
    refine Finset.sum_le_sum (fun k _ => ?_)
    have := (inv_le_iff_one_le_mul₀ (hbz k)).1 (h k)
    nlinarith [sq_nonneg (v k)]
  · intro h
    rw [← one_div, le_div_iff₀ hs, ← hvs, Finset.mul_sum]
    refine Finset.sum_le_sum (fun k _ => ?_)
    have := h k
    rw [← one_div, le_div_iff₀ (hbz k)] at this
    nlinarith [sq_nonneg (v k)]

omit [DecidableEq n] in
/-- The stationary distribution in terms of the basis change. -/
theorem conjugate_stationary [Nonempty n] {A : Matrix n n ℝ} {b : n → ℝ} (hA : Aᵀ = A) (hb : ∀ i, 0 < b i) (hP : RowStochastic (unsymmetric A b)) :
    Stationary (unsymmetric A b) (fun i => ((b i) ^ 2 * ∑ i, ((b i) ^ 2)⁻¹)⁻¹) := by
  have hAs : ∀ i j, A i j = A j i := fun i j => by rw [← congrFun (congrFun hA i) j]; rfl
  set Z := ∑ i, ((b i) ^ 2)⁻¹ with hZdef
  have hZ : 0 < Z := Finset.sum_pos (fun i _ => inv_pos.2 (pow_pos (hb i) 2)) Finset.univ_nonempty
  refine ⟨fun i => inv_pos.2 (mul_pos (pow_pos (hb i) 2) hZ), ?_, ?_⟩
  · simp only [mul_inv]
    rw [← Finset.sum_mul, ← hZdef, mul_inv_cancel₀ hZ.ne']
  · funext j
    have h : ∀ i, ((b i) ^ 2 * Z)⁻¹ * unsymmetric A b i j = unsymmetric A b j i * ((b j) ^ 2 * Z)⁻¹ := by
      intro i
      simp only [unsymmetric, of_apply, hAs i j]
      have := (hb i).ne'
      have := (hb j).ne'
      field_simp
    simp only [vecMul, dotProduct, h]
    rw [← Finset.sum_mul, hP.2, one_mul]

theorem diffDist_norm {A : Matrix n n ℝ} {b : n → ℝ} (Z : ℝ) (t : ℕ) (i j : n) :
    diffusionDistSq (unsymmetric A b) (fun i => ((b i) ^ 2 * Z)⁻¹) t i j =
      Z * ((fun k => ((unsymmetric A b ^ t) i k - (unsymmetric A b ^ t) j k) * b k) ⬝ᵥ (fun k => ((unsymmetric A b ^ t) i k - (unsymmetric A b ^ t) j k) * b k)) := by
  simp only [diffusionDistSq, dotProduct, Finset.mul_sum]
  refine Finset.sum_congr rfl (fun k _ => ?_)
  rw [div_inv_eq_mul]
  ring

/-! ## C222 -/

omit [DecidableEq n] in
/-- C222: the Markov chain of a symmetric kernel matrix has a positive stationary distribution, with detailed balance; it is the only one if any two samples are joined by a path. -/
theorem C222_stationary [Nonempty n] (k : DmapKernel) (hk : k.Admissible) (hst : k.isStochastic = true) (hc : k.isConjugate = false) (K : Matrix n n ℝ) (hK : Connected K) (hsym : Kᵀ = K) :
    ∃ P f π, evalPdist k none K = .ok (P, f) ∧ Stationary P π ∧ (∀ i j, π i * P i j = π j * P j i) ∧ (PathConnected K → ∀ π', Stationary P π' → π' = π) := by
  have hs := hK.rowSums_pos
  have hsym' : ∀ i j, K i j = K j i := fun i j => by rw [← congrFun (congrFun hsym i) j]; rfl
  have e := evalPdist_stochastic hk hst hc hK.1 hs (fun _ => hsym')
  obtain ⟨P', f', e', hP, -⟩ := C42_pairwise k hk hst hc K hK (fun _ => hsym)
  have hh := stochastic_harmonic k hk hst hc K hK hsym P' f' e'
  rw [e] at e'
  obtain ⟨rfl, -⟩ := Prod.mk.inj (Except.ok.inj e')
  have hp := densityMatrix_rowSums (k := k) hK.1 hs
  have hform : ∀ i j, diffusion k.alpha (rowSums K) K i j = densityMatrix k K i j / rowSums (densityMatrix k K) i := by
    intro i j
    rw [densityMatrix_diffusion hk hK.1 hs]
    rfl
  set Z := ∑ i, rowSums (densityMatrix k K) i with hZdef
  have hZ : 0 < Z := Finset.sum_pos (fun i _ => hp i) Finset.univ_nonempty
  have hbal : ∀ i j, rowSums (densityMatrix k K) i / Z * diffusion k.alpha (rowSums K) K i j = rowSums (densityMatrix k K) j / Z * diffusion k.alpha (rowSums K) K j i := by
    intro i j
    have h1 := (hp i).ne'
    have h2 := (hp j).ne'
    rw [hform, hform, densityMatrix_symm hsym' j i]
    field_simp
  have hπ : ∀ i, 0 < rowSums (densityMatrix k K) i / Z := fun i => div_pos (hp i) hZ
  have hsum : ∑ i, rowSums (densityMatrix k K) i / Z = 1 := by rw [← Finset.sum_div, ← hZdef, div_self hZ.ne']
  refine ⟨_, _, fun i => rowSums (densityMatrix k K) i / Z, e, ⟨hπ, hsum, ?_⟩, hbal, ?_⟩
  · funext j
    simp only [vecMul, dotProduct, hbal _ j]
    rw [← Finset.mul_sum, hP.2, mul_one]
  · rintro hpath π' ⟨-, h2, h3⟩
    generalize hπd : (fun i => rowSums (densityMatrix k K) i / Z) = π at *
    have hπi : ∀ i, rowSums (densityMatrix k K) i / Z = π i := fun i => congrFun hπd i
    simp only [hπi] at hπ hbal hsum
    have hu := (hh (fun i => π' i / π i)).1 (by
      funext i
      have h4 := congrFun h3 i
      simp only [vecMul, dotProduct] at h4
      simp only [mulVec, dotProduct]
      rw [eq_div_iff (hπ i).ne', ← h4, Finset.sum_mul]
      refine Finset.sum_congr rfl (fun j _ => ?_)
      have h5 := (hπ j).ne'
      have h6 := hbal i j
      field_simp
      linear_combination (π' j) * h6)
    obtain ⟨i0⟩ := ‹Nonempty n›
    have hc' : ∀ i, π' i = π' i0 / π i0 * π i := fun i => by rw [← hu.path (hpath i i0), div_mul_cancel₀ _ (hπ i).ne']
    have h7 : π' i0 / π i0 = 1 := by
      rw [Finset.sum_congr rfl (fun i _ => hc' i), ← Finset.mul_sum, hsum, mul_one] at h2
      exact h2
    funext i
    rw [hc' i, h7, one_mul]

/-- C222, the true part: for every symmetric kernel matrix, every number of orthonormal eigenpairs and every integer time exponent, the Euclidean distance between two embedded samples is at most the largest
stationary probability times the diffusion distance; with all eigenpairs it is at least the smallest stationary probability times the diffusion distance (all distances squared). -/
theorem C222_bounds_partial [Nonempty n] (k : DmapKernel) (hk : k.Admissible) (hst : k.isStochastic = true) (hsy : k.symmetrize = true) (hd : k.distSymmetric = true) (K : Matrix n n ℝ)
    (hK : Connected K) (hsym : Kᵀ = K) :
    ∃ A f P g π, evalPdist k none K = .ok (A, f) ∧ evalPdist { k with symmetrize := false } none K = .ok (P, g) ∧ Stationary P π ∧
      ∀ pairs, SolvesSymmetric A f.basisChange pairs → ∀ t : ℕ, ∃ Y, fitTransform t none pairs = .ok Y ∧ ∀ i j,
        (∀ a, (∀ l, π l ≤ a) → embDistSq Y i j ≤ a * diffusionDistSq P π t i j) ∧
        (pairs.length = Fintype.card n → ∀ a, (∀ l, a ≤ π l) → a * diffusionDistSq P π t i j ≤ embDistSq Y i j) := by
  obtain ⟨A, f, b, P, g, e1, e2, e3, e4, -, e6, e7⟩ := C43_conjugate k hk hst hsy hd K hK hsym
  obtain ⟨P', g', e3', hP, -⟩ := C42_pairwise { k with symmetrize := false } hk hst (by simp [isConjugate_eq]) K hK (fun _ => hsym)
  rw [e3] at e3'
  obtain ⟨rfl, -⟩ := Prod.mk.inj (Except.ok.inj e3')
  subst e6
  set Z := ∑ i, ((b i) ^ 2)⁻¹ with hZdef
  have hZ : 0 < Z := Finset.sum_pos (fun i _ => inv_pos.2 (pow_pos (e7 i) 2)) Finset.univ_nonempty
  refine ⟨A, f, _, g, fun i => ((b i) ^ 2 * Z)⁻¹, e1, e3, conjugate_stationary e4 e7 hP, ?_⟩
  · rintro pairs ⟨raw, h1, h2, rfl⟩ t
    refine ⟨_, fitTransform_nat t _, fun i j => ?_⟩
    set x : n → ℝ := fun k => ((unsymmetric A b ^ t) i k - (unsymmetric A b ^ t) j k) * b k with hx
    have hD : diffusionDistSq (unsymmetric A b) (fun i => ((b i) ^ 2 * Z)⁻¹) t i j = Z * (x ⬝ᵥ x) := by
      rw [diffDist_norm]
    have hmap : (raw.map (fun p => (x ⬝ᵥ p.2) ^ 2)) = (raw.map Prod.snd).map (fun v => (x ⬝ᵥ v) ^ 2) := by rw [List.map_map]; rfl
    have hv1 : ∀ v ∈ raw.map Prod.snd, v ⬝ᵥ v = 1 := by
      intro v hv
      obtain ⟨p, hp, rfl⟩ := List.mem_map.1 hv
      exact (h1 p hp).2
    have hv2 : (raw.map Prod.snd).Pairwise (fun v w => v ⬝ᵥ w = 0) := List.pairwise_map.2 h2
    rw [e2, embDist_coefficients e7 raw h1 t i j, hD]
    refine ⟨fun a ha => ?_, fun hl a ha => ?_⟩
    · have hle := bessel_list _ hv1 hv2 x
      rw [← hmap] at hle
      have ha0 : 0 ≤ a := (inv_pos.2 (mul_pos (pow_pos (e7 i) 2) hZ)).le.trans (ha i)
      calc _ ≤ (raw.map (fun p => (a * Z) * (x ⬝ᵥ p.2) ^ 2)).sum := by
            refine List.sum_le_sum (fun p hp => ?_)
            rw [div_eq_mul_inv, mul_comm]
            exact mul_le_mul_of_nonneg_right ((weighted_norm e7 Z hZ p.2 (h1 p hp).2 a).1 ha) (sq_nonneg _)
        _ = (a * Z) * (raw.map (fun p => (x ⬝ᵥ p.2) ^ 2)).sum := List.sum_map_mul_left _ _ _
        _ ≤ (a * Z) * (x ⬝ᵥ x) := mul_le_mul_of_nonneg_left hle (mul_nonneg ha0 hZ.le)
        _ = _ := by ring
    · have hle := parseval_list _ hv1 hv2 (by simpa using hl) x
      rw [← hmap] at hle
      calc _ = (a * Z) * (x ⬝ᵥ x) := by ring
        _ = (a * Z) * (raw.map (fun p => (x ⬝ᵥ p.2) ^ 2)).sum := by rw [hle]
        _ = (raw.map (fun p => (a * Z) * (x ⬝ᵥ p.2) ^ 2)).sum := (List.sum_map_mul_left _ _ _).symm
        _ ≤ _ := by
            refine List.sum_le_sum (fun p hp => ?_)
            rw [div_eq_mul_inv, mul_comm ((x ⬝ᵥ p.2) ^ 2)]
            exact mul_le_mul_of_nonneg_right ((weighted_norm e7 Z hZ p.2 (h1 p hp).2 a).2 ha) (sq_nonneg _)

/-- C222: if the chain is doubly stochastic and any two samples are joined by a path then the embedding with all eigenpairs has exactly the diffusion distances, up to the factor `1/n`. -/
theorem C222_uniform [Nonempty n] (k : DmapKernel) (hk : k.Admissible) (hst : k.isStochastic = true) (hsy : k.symmetrize = true) (hd : k.distSymmetric = true) (K : Matrix n n ℝ)
    (hK : Connected K) (hsym : Kᵀ = K) (hpath : PathConnected K) (A P : Matrix n n ℝ) (f g : Fitted n) (h1 : evalPdist k none K = .ok (A, f))
    (h2 : evalPdist { k with symmetrize := false } none K = .ok (P, g)) (hcol : ∀ j, ∑ i, P i j = 1) (pairs : List (Pair n)) (h3 : SolvesSymmetric A f.basisChange pairs)
    (hl : pairs.length = Fintype.card n) (t : ℕ) :
    ∃ Y, fitTransform t none pairs = .ok Y ∧ ∀ i j, embDistSq Y i j = diffusionDistSq P (fun _ => (Fintype.card n : ℝ)⁻¹) t i j / Fintype.card n := by
  obtain ⟨A', f', P', g', π, e1, e2, e3, e4⟩ := C222_bounds_partial k hk hst hsy hd K hK hsym
  rw [h1] at e1
  obtain ⟨rfl, rfl⟩ := Prod.mk.inj (Except.ok.inj e1)
  rw [h2] at e2
  obtain ⟨rfl, rfl⟩ := Prod.mk.inj (Except.ok.inj e2)
  obtain ⟨P', g', π', c1, -, -, c4⟩ := C222_stationary { k with symmetrize := false } hk hst (by simp [isConjugate_eq]) K hK hsym
  rw [h2] at c1
  obtain ⟨rfl, rfl⟩ := Prod.mk.inj (Except.ok.inj c1)
  have hcard : (0 : ℝ) < Fintype.card n := by exact_mod_cast Fintype.card_pos
  have hu : Stationary P (fun _ => (Fintype.card n : ℝ)⁻¹) := by
    refine ⟨fun _ => inv_pos.2 hcard, ?_, ?_⟩
    · rw [Finset.sum_const, Finset.card_univ, nsmul_eq_mul, mul_inv_cancel₀ hcard.ne']
    · funext j
      simp only [vecMul, dotProduct]
      rw [← Finset.mul_sum, hcol, mul_one]
  obtain rfl : π = fun _ => (Fintype.card n : ℝ)⁻¹ := (c4 hpath _ e3).trans (c4 hpath _ hu).symm
  obtain ⟨Y, hY, hb⟩ := e4 pairs h3 t
  refine ⟨Y, hY, fun i j => le_antisymm ?_ ?_⟩
  · rw [div_eq_inv_mul]
    exact (hb i j).1 _ (fun _ => le_refl _)
  · rw [div_eq_inv_mul]
    exact (hb i j).2 hl _ (fun _ => le_refl _)

example : Connected exK ∧ exKᵀ = exK ∧ PathConnected exK ∧ ∃ P g, evalPdist ⟨true, 0, false, true⟩ none exK = .ok (P, g) ∧ ∀ j, ∑ i, P i j = 1 := by
  have hsym : exKᵀ = exK := by
    ext i j
    fin_cases i <;> fin_cases j <;> rfl
  obtain ⟨P, g, e, -, hM, -⟩ := C42_pairwise ⟨true, 0, false, true⟩ ⟨le_refl _, by simp⟩ rfl rfl exK exK_connected (fun _ => hsym)
  refine ⟨exK_connected, hsym, fun i j => .single ?_, P, g, e, fun j => ?_⟩
  · fin_cases i <;> fin_cases j <;> norm_num [exK]
  · simp only [Fin.sum_univ_two, hM _ j]
    fin_cases j <;> norm_num [exK]

/-! ### Three samples on a line -/

/-- The kernel matrix of three samples of which the outer ones are equally far from the middle one. -/
def lineK (y z : ℝ) : Matrix (Fin 3) (Fin 3) ℝ := !![1, y, z; y, 1, y; z, y, 1]

/-- Orthonormal eigenvectors of the symmetric conjugate of `lineK y z`. -/
noncomputable def lineRaw (y z : ℝ) : List (Pair (Fin 3)) :=
  [(1, normalizeVec ![Real.sqrt (1 + y + z), Real.sqrt (1 + 2 * y), Real.sqrt (1 + y + z)]), ((1 - z) / (1 + y + z), normalizeVec ![1, 0, -1]),
   (1 / (1 + 2 * y) - y / (1 + y + z), normalizeVec ![Real.sqrt (1 + 2 * y), -2 * Real.sqrt (1 + y + z), Real.sqrt (1 + 2 * y)])]

omit [DecidableEq n] in
theorem normalizeVec_dot {v w : n → ℝ} (h : v ⬝ᵥ w = 0) : normalizeVec v ⬝ᵥ normalizeVec w = 0 := by
  have : normalizeVec v ⬝ᵥ normalizeVec w = (v ⬝ᵥ w) / (Real.sqrt (∑ j, v j * v j) * Real.sqrt (∑ j, w j * w j)) := by
    simp only [dotProduct, normalizeVec, div_mul_div_comm, Finset.sum_div]
  rw [this, h, zero_div]

theorem line_eval (y z : ℝ) (hy : 0 < y) (hz : 0 < z) : ∃ A f b, evalPdist ⟨true, 0, true, true⟩ none (lineK y z) = .ok (A, f) ∧ f.basisChange = some b ∧
    (b = ![(Real.sqrt (1 + y + z))⁻¹, (Real.sqrt (1 + 2 * y))⁻¹, (Real.sqrt (1 + y + z))⁻¹]) ∧ (∀ p ∈ lineRaw y z, A *ᵥ p.2 = p.1 • p.2 ∧ p.2 ⬝ᵥ p.2 = 1) ∧
    (lineRaw y z).Pairwise (fun p q => p.2 ⬝ᵥ q.2 = 0) := by
  have hsym : ∀ i j, lineK y z i j = lineK y z j i := by
    intro i j
    fin_cases i <;> fin_cases j <;> rfl
  have hpos : ∀ i j, 0 < lineK y z i j := by
    intro i j
    fin_cases i <;> fin_cases j <;> simp [lineK, hy, hz]
  have hrow : rowSums (lineK y z) = ![1 + y + z, 1 + 2 * y, 1 + y + z] := by
    funext i
    fin_cases i <;> simp [rowSums, lineK, Fin.sum_univ_three] <;> ring
  have hD : densityMatrix ⟨true, 0, true, true⟩ (lineK y z) = lineK y z := by simp [densityMatrix]
  have e := evalPdist_conjugate (k := ⟨true, 0, true, true⟩) (K := lineK y z) ⟨le_refl _, by simp⟩ rfl (fun i j => (hpos i j).le)
    (fun i => Finset.sum_pos (fun j _ => hpos i j) Finset.univ_nonempty) hsym
  rw [hD, hrow] at e
  have h0 : 0 < 1 + y + z := by positivity
  have h1 : 0 < 1 + 2 * y := by positivity
  refine ⟨_, _, _, e, rfl, ?_, ?_, ?_⟩
  · funext i
    fin_cases i <;> rfl
  · set s0 := Real.sqrt (1 + y + z) with hs0
    set s1 := Real.sqrt (1 + 2 * y) with hs1
    have p0 : 0 < s0 := Real.sqrt_pos.2 h0
    have p1 : 0 < s1 := Real.sqrt_pos.2 h1
    have q0 : s0 ^ 2 = 1 + y + z := Real.sq_sqrt h0.le
    have q1 : s1 ^ 2 = 1 + 2 * y := Real.sq_sqrt h1.le
    intro p hp
    simp only [lineRaw, List.mem_cons, List.not_mem_nil, or_false, ← hs0, ← hs1] at hp
    rcases hp with rfl | rfl | rfl
    · refine ⟨normalizeVec_eig ?_, normalizeVec_norm (fun h => p0.ne' (congrFun h 0))⟩
      funext i
      fin_cases i <;> simp [mulVec, dotProduct, Fin.sum_univ_three, lineK, ← hs0, ← hs1] <;> field_simp <;> nlinarith
    · refine ⟨normalizeVec_eig ?_, normalizeVec_norm (fun h => one_ne_zero (congrFun h 0))⟩
      funext i
      fin_cases i <;> simp [mulVec, dotProduct, Fin.sum_univ_three, lineK, ← hs0, ← hs1] <;> rw [← q0] <;> field_simp <;> ring
    · refine ⟨normalizeVec_eig ?_, normalizeVec_norm (fun h => p1.ne' (congrFun h 0))⟩
      have hz' : z = s0 ^ 2 - 1 - y := by linarith
      have hy' : y = (s1 ^ 2 - 1) / 2 := by linarith
      funext i
      fin_cases i <;> simp [mulVec, dotProduct, Fin.sum_univ_three, lineK, ← hs0, ← hs1] <;> rw [← q0, ← q1] <;> field_simp <;> simp only [hz', hy'] <;> ring
  · simp only [lineRaw, List.pairwise_cons, List.mem_cons, List.not_mem_nil, or_false, forall_eq_or_imp, forall_eq, false_implies, implies_true, List.Pairwise.nil, and_true]
    refine ⟨⟨normalizeVec_dot ?_, normalizeVec_dot ?_⟩, normalizeVec_dot ?_⟩ <;> simp [dotProduct, Fin.sum_univ_three] <;> ring

theorem line_algebra {s0 s1 N1 N2 N3 μ ν C : ℝ} (u : ℝ) (p0 : 0 < s0) (p1 : 0 < s1) (m2 : N2 ≠ 0) (m3 : N3 ≠ 0) (l2 : μ ≠ 0) (l3 : ν ≠ 0)
    (d2 : 1 / N2 * (1 / N2) + 0 / N2 * (0 / N2) + -1 / N2 * (-1 / N2) = 1)
    (d3 : s1 / N3 * (s1 / N3) + -2 * s0 / N3 * (-2 * s0 / N3) + s1 / N3 * (s1 / N3) = 1)
    (k02 : (u * (s0⁻¹ * (s0 / N1) - s0⁻¹ * (s0 / N1))) ^ 2 /
        ((s0⁻¹ * (s0 / N1)) ^ 2 + (s1⁻¹ * (s1 / N1)) ^ 2 + (s0⁻¹ * (s0 / N1)) ^ 2) +
      ((μ * (s0⁻¹ * (1 / N2) - s0⁻¹ * (-1 / N2))) ^ 2 /
          ((s0⁻¹ * (1 / N2)) ^ 2 + (s1⁻¹ * (0 / N2)) ^ 2 + (s0⁻¹ * (-1 / N2)) ^ 2) +
        ((ν * (s0⁻¹ * (s1 / N3) - s0⁻¹ * (s1 / N3))) ^ 2 /
            ((s0⁻¹ * (s1 / N3)) ^ 2 + (s1⁻¹ * (-2 * s0 / N3)) ^ 2 + (s0⁻¹ * (s1 / N3)) ^ 2) +
          0)) =
    C * ((u * (s0⁻¹ * (s0 / N1) - s0⁻¹ * (s0 / N1))) ^ 2 +
        ((μ * (s0⁻¹ * (1 / N2) - s0⁻¹ * (-1 / N2))) ^ 2 + ((ν * (s0⁻¹ * (s1 / N3) - s0⁻¹ * (s1 / N3))) ^ 2 + 0))))
    (k01 : (u * (s0⁻¹ * (s0 / N1) - s1⁻¹ * (s1 / N1))) ^ 2 /
        ((s0⁻¹ * (s0 / N1)) ^ 2 + (s1⁻¹ * (s1 / N1)) ^ 2 + (s0⁻¹ * (s0 / N1)) ^ 2) +
      ((μ * (s0⁻¹ * (1 / N2) - s1⁻¹ * (0 / N2))) ^ 2 /
          ((s0⁻¹ * (1 / N2)) ^ 2 + (s1⁻¹ * (0 / N2)) ^ 2 + (s0⁻¹ * (-1 / N2)) ^ 2) +
        ((ν * (s0⁻¹ * (s1 / N3) - s1⁻¹ * (-2 * s0 / N3))) ^ 2 /
            ((s0⁻¹ * (s1 / N3)) ^ 2 + (s1⁻¹ * (-2 * s0 / N3)) ^ 2 + (s0⁻¹ * (s1 / N3)) ^ 2) +
          0)) =
    C * ((u * (s0⁻¹ * (s0 / N1) - s1⁻¹ * (s1 / N1))) ^ 2 +
        ((μ * (s0⁻¹ * (1 / N2) - s1⁻¹ * (0 / N2))) ^ 2 + ((ν * (s0⁻¹ * (s1 / N3) - s1⁻¹ * (-2 * s0 / N3))) ^ 2 + 0)))) :
    s0 ^ 2 = s1 ^ 2 := by
  have s0n := p0.ne'
  have s1n := p1.ne'
  have z1 : s0⁻¹ * (s0 / N1) - s1⁻¹ * (s1 / N1) = 0 := by
    rw [mul_div_assoc', mul_div_assoc', inv_mul_cancel₀ s0n, inv_mul_cancel₀ s1n, sub_self]
  have S2 : (s0⁻¹ * (1 / N2)) ^ 2 + (s1⁻¹ * (0 / N2)) ^ 2 + (s0⁻¹ * (-1 / N2)) ^ 2 = (s0 ^ 2)⁻¹ := by
    have : (s0⁻¹ * (1 / N2)) ^ 2 + (s1⁻¹ * (0 / N2)) ^ 2 + (s0⁻¹ * (-1 / N2)) ^ 2 = (s0 ^ 2)⁻¹ * (1 / N2 * (1 / N2) + 0 / N2 * (0 / N2) + -1 / N2 * (-1 / N2)) := by ring
    rw [this, d2, mul_one]
  have hδ : s0⁻¹ * (s1 / N3) - s1⁻¹ * (-2 * s0 / N3) ≠ 0 := by
    have : s0⁻¹ * (s1 / N3) - s1⁻¹ * (-2 * s0 / N3) = (s1 ^ 2 + 2 * s0 ^ 2) / (s0 * s1 * N3) := by
      field_simp
      ring
    rw [this]
    exact div_ne_zero (by positivity) (mul_ne_zero (mul_ne_zero s0n s1n) m3)
  have hS3 : 0 < (s0⁻¹ * (s1 / N3)) ^ 2 + (s1⁻¹ * (-2 * s0 / N3)) ^ 2 + (s0⁻¹ * (s1 / N3)) ^ 2 := by
    have : 0 < (s0⁻¹ * (s1 / N3)) ^ 2 := by positivity
    nlinarith [sq_nonneg (s1⁻¹ * (-2 * s0 / N3))]
  have hS3' : ((s0⁻¹ * (s1 / N3)) ^ 2 + (s1⁻¹ * (-2 * s0 / N3)) ^ 2 + (s0⁻¹ * (s1 / N3)) ^ 2) * s0 ^ 2 = 1 → s0 ^ 2 = s1 ^ 2 := by
    intro h
    have e : ((s0⁻¹ * (s1 / N3)) ^ 2 + (s1⁻¹ * (-2 * s0 / N3)) ^ 2 + (s0⁻¹ * (s1 / N3)) ^ 2) * s0 ^ 2 -
        (s1 / N3 * (s1 / N3) + -2 * s0 / N3 * (-2 * s0 / N3) + s1 / N3 * (s1 / N3)) = 4 * s0 ^ 2 / (s1 ^ 2 * N3 ^ 2) * (s0 ^ 2 - s1 ^ 2) := by
      field_simp
      ring
    rw [h, d3, sub_self] at e
    have : 4 * s0 ^ 2 / (s1 ^ 2 * N3 ^ 2) ≠ 0 := by positivity
    linarith [(mul_eq_zero.1 e.symm).resolve_left this]
  rw [z1, S2] at k01
  rw [S2] at k02
  simp only [sub_self, mul_zero, ne_eq, OfNat.ofNat_ne_zero, not_false_eq_true, zero_pow, zero_div, zero_add, add_zero, sub_zero, div_inv_eq_mul] at k01 k02
  have hC : C = s0 ^ 2 := by
    have h2 : (μ * (s0⁻¹ * (1 / N2) - s0⁻¹ * (-1 / N2))) ^ 2 ≠ 0 := by
      have : s0⁻¹ * (1 / N2) - s0⁻¹ * (-1 / N2) = 2 / (s0 * N2) := by
        field_simp
        ring
      rw [this]
      positivity
    rw [mul_comm C] at k02
    exact (mul_left_cancel₀ h2 k02).symm
  rw [hC] at k01
  generalize (s0⁻¹ * (s1 / N3)) ^ 2 + (s1⁻¹ * (-2 * s0 / N3)) ^ 2 + (s0⁻¹ * (s1 / N3)) ^ 2 = S at *
  have h3 : (ν * (s0⁻¹ * (s1 / N3) - s1⁻¹ * (-2 * s0 / N3))) ^ 2 / S = s0 ^ 2 * (ν * (s0⁻¹ * (s1 / N3) - s1⁻¹ * (-2 * s0 / N3))) ^ 2 := by linarith
  rw [div_eq_iff hS3.ne'] at h3
  have h4 : (ν * (s0⁻¹ * (s1 / N3) - s1⁻¹ * (-2 * s0 / N3))) ^ 2 ≠ 0 := pow_ne_zero _ (mul_ne_zero l3 hδ)
  have h5 : S * s0 ^ 2 = 1 := mul_left_cancel₀ h4 (by linarith)
  exact hS3' h5

/-- C222 is violated in general: for three samples of which the outer ones are equally far from the middle one, but not all three from one another, no factor turns diffusion distances into the distances of the
embedding with all eigenpairs, whatever the time exponent. -/
theorem C222_distance_violated (y z : ℝ) (hy : 0 < y) (hz : 0 < z) (hyz : z ≠ y) (hz1 : z ≠ 1) (hyz2 : 1 + z ≠ 2 * y ^ 2) :
    ∃ A f P g pairs, evalPdist ⟨true, 0, true, true⟩ none (lineK y z) = .ok (A, f) ∧ evalPdist ⟨true, 0, false, true⟩ none (lineK y z) = .ok (P, g) ∧
      SolvesSymmetric A f.basisChange pairs ∧ pairs.length = 3 ∧
      ∀ π, Stationary P π → ∀ t : ℕ, ∃ Y, fitTransform t none pairs = .ok Y ∧ ¬ ∃ c : ℝ, ∀ i j, embDistSq Y i j = c * diffusionDistSq P π t i j := by
  obtain ⟨A, f, b, e1, e2, e3, e4, e5⟩ := line_eval y z hy hz
  have hpos : ∀ i j, 0 < lineK y z i j := by
    intro i j
    fin_cases i <;> fin_cases j <;> simp [lineK, hy, hz]
  have hK : Connected (lineK y z) := ⟨fun i j => (hpos i j).le, fun i => ⟨i, hpos i i⟩⟩
  have hsym : (lineK y z)ᵀ = lineK y z := by
    ext i j
    fin_cases i <;> fin_cases j <;> rfl
  have hadm : DmapKernel.Admissible ⟨true, 0, true, true⟩ := ⟨le_refl _, by simp⟩
  obtain ⟨A', f', b', P, g, g1, g2, g3, g4, -, g6, g7⟩ := C43_conjugate ⟨true, 0, true, true⟩ hadm rfl rfl rfl (lineK y z) hK hsym
  rw [e1] at g1
  obtain ⟨rfl, rfl⟩ := Prod.mk.inj (Except.ok.inj g1)
  rw [e2] at g2
  obtain rfl := Option.some.inj g2
  obtain ⟨P', g', g3', hP, -⟩ := C42_pairwise ⟨true, 0, false, true⟩ hadm rfl rfl (lineK y z) hK (fun _ => hsym)
  obtain ⟨P'', g'', π0, c1, -, -, c4⟩ := C222_stationary ⟨true, 0, false, true⟩ hadm rfl rfl (lineK y z) hK hsym
  rw [g3'] at c1
  obtain ⟨rfl, rfl⟩ := Prod.mk.inj (Except.ok.inj c1)
  rw [g3] at g3'
  obtain ⟨rfl, rfl⟩ := Prod.mk.inj (Except.ok.inj g3')
  subst g6
  refine ⟨A, f, _, g, _, e1, g3, ⟨lineRaw y z, e4, e5, rfl⟩, rfl, fun π hπ t => ⟨_, fitTransform_nat t _, ?_⟩⟩
  have hst := conjugate_stationary g4 g7 hP
  obtain rfl := (c4 (fun i j => .single (hpos i j)) π hπ).trans (c4 (fun i j => .single (hpos i j)) _ hst).symm
  rintro ⟨c, hc⟩
  set Z := ∑ i, ((b i) ^ 2)⁻¹ with hZ
  have key : ∀ i j, ((lineRaw y z).map (fun p => (p.1 ^ t * (b i * p.2 i - b j * p.2 j)) ^ 2 / ∑ k, (b k * p.2 k) ^ 2)).sum =
      c * Z * ((lineRaw y z).map (fun p => (p.1 ^ t * (b i * p.2 i - b j * p.2 j)) ^ 2)).sum := by
    intro i j
    have h := hc i j
    rw [e2, embDist_coefficients g7 _ e4, diffDist_norm] at h
    have hv1 : ∀ v ∈ (lineRaw y z).map Prod.snd, v ⬝ᵥ v = 1 := by
      intro v hv
      obtain ⟨p, hp, rfl⟩ := List.mem_map.1 hv
      exact (e4 p hp).2
    rw [← parseval_list _ hv1 (List.pairwise_map.2 e5) rfl, List.map_map] at h
    rw [List.map_congr_left (fun p hp => by rw [row_coefficient g7 (e4 p hp).1])] at h
    rw [h, mul_assoc]
    congr 3
    exact List.map_congr_left (fun p hp => by simp only [Function.comp]; rw [row_coefficient g7 (e4 p hp).1])
  have h0 : 0 < 1 + y + z := by positivity
  have h1 : 0 < 1 + 2 * y := by positivity
  set s0 := Real.sqrt (1 + y + z) with hs0
  set s1 := Real.sqrt (1 + 2 * y) with hs1
  have p0 : 0 < s0 := Real.sqrt_pos.2 h0
  have p1 : 0 < s1 := Real.sqrt_pos.2 h1
  have q0 : s0 ^ 2 = 1 + y + z := Real.sq_sqrt h0.le
  have q1 : s1 ^ 2 = 1 + 2 * y := Real.sq_sqrt h1.le
  obtain ⟨N1, n1⟩ : ∃ N, normalizeVec ![s0, s1, s0] = ![s0 / N, s1 / N, s0 / N] := ⟨_, by funext i; fin_cases i <;> rfl⟩
  obtain ⟨N2, n2⟩ : ∃ N, normalizeVec (![1, 0, -1] : Fin 3 → ℝ) = ![1 / N, 0 / N, -1 / N] := ⟨_, by funext i; fin_cases i <;> rfl⟩
  obtain ⟨N3, n3⟩ : ∃ N, normalizeVec ![s1, -2 * s0, s1] = ![s1 / N, -2 * s0 / N, s1 / N] := ⟨_, by funext i; fin_cases i <;> rfl⟩
  have d2 := (e4 ((1 - z) / (1 + y + z), normalizeVec ![1, 0, -1]) (by simp [lineRaw])).2
  have d3 := (e4 (1 / (1 + 2 * y) - y / (1 + y + z), normalizeVec ![s1, -2 * s0, s1]) (by simp [lineRaw, hs0, hs1])).2
  rw [n2] at d2
  rw [n3] at d3
  simp only [dotProduct, Fin.sum_univ_three, cons_val_zero, cons_val_one, cons_val_two, head_cons, tail_cons] at d2 d3
  have m2 : N2 ≠ 0 := fun h => by rw [h] at d2; simp at d2
  have m3 : N3 ≠ 0 := fun h => by rw [h] at d3; simp at d3
  have l2 : ((1 - z) / (1 + y + z)) ^ t ≠ 0 := pow_ne_zero _ (div_ne_zero (sub_ne_zero.2 hz1.symm) h0.ne')
  have l3 : (1 / (1 + 2 * y) - y / (1 + y + z)) ^ t ≠ 0 := by
    refine pow_ne_zero _ (fun h => hyz2 ?_)
    field_simp at h
    nlinarith
  have k02 := key 0 2
  have k01 := key 0 1
  simp only [lineRaw, ← hs0, ← hs1, n1, n2, n3, e3, List.map_cons, List.map_nil, List.sum_cons, List.sum_nil, Fin.sum_univ_three, cons_val_zero, cons_val_one, cons_val_two, head_cons, tail_cons] at k02 k01
  generalize ((1 - z) / (1 + y + z)) ^ t = μ at *
  generalize (1 / (1 + 2 * y) - y / (1 + y + z)) ^ t = ν at *
  generalize c * Z = C at *
  have := line_algebra _ p0 p1 m2 m3 l2 l3 d2 d3 k02 k01
  rw [q0, q1] at this
  exact hyz (by linarith)

example : (1 / 16 : ℝ) ≠ 1 / 2 ∧ (1 / 16 : ℝ) ≠ 1 ∧ 1 + (1 / 16 : ℝ) ≠ 2 * (1 / 2) ^ 2 := by norm_num

/-- In particular for the Gaussian kernel, every bandwidth and three equidistant samples on a line. -/
theorem C222_line_violated (eps : ℝ) (he : 0 < eps) : ∃ K, (Radial.gaussian eps).call (fun (i : Fin 3) (_ : Fin 1) => (i : ℝ)) (fun (i : Fin 3) (_ : Fin 1) => (i : ℝ)) = .ok K ∧
    ∃ A f P g pairs, evalPdist ⟨true, 0, true, true⟩ none K = .ok (A, f) ∧ evalPdist ⟨true, 0, false, true⟩ none K = .ok (P, g) ∧
      SolvesSymmetric A f.basisChange pairs ∧ pairs.length = 3 ∧
      ∀ π, Stationary P π → ∀ t : ℕ, ∃ Y, fitTransform t none pairs = .ok Y ∧ ¬ ∃ c : ℝ, ∀ i j, embDistSq Y i j = c * diffusionDistSq P π t i j := by
  set y := Real.exp (-1 / (2 * eps)) with hy
  have hy0 : 0 < y := Real.exp_pos _
  have hy1 : y < 1 := by
    rw [hy, Real.exp_lt_one_iff]
    exact div_neg_of_neg_of_pos (by norm_num) (by positivity)
  have hy4 : Real.exp (-1 / (2 * eps) * 4) = y ^ 4 := by
    rw [hy, ← Real.exp_nat_mul]
    congr 1
    push_cast
    ring
  refine ⟨lineK y (y ^ 4), ?_, C222_distance_violated y (y ^ 4) hy0 (by positivity) (fun h => ?_) (fun h => ?_) (fun h => ?_)⟩
  · simp only [Radial.call, Radial.evaluate, Radial.check, Radial.epsilon, if_pos he]
    congr 1
    ext i j
    simp only [of_apply, Radial.metric, Metric.dist, Radial.fn, sqDist]
    fin_cases i <;> fin_cases j <;> norm_num [lineK, hy, hy4]
  · nlinarith [pow_lt_one₀ hy0.le hy1 (n := 3) (by norm_num)]
  · exact absurd h (pow_lt_one₀ hy0.le hy1 (by norm_num)).ne
  · nlinarith [mul_pos (sub_pos.2 hy1) hy0, sq_nonneg (1 - y ^ 2), pow_lt_one₀ hy0.le hy1 (n := 2) (by norm_num)]

end Verif.Kernel
