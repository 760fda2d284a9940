import Verif.Dmd.ReducedProps
import Verif.Dmd.IdentifyProps
import Verif.Transform.SeriesProps
/-! # Property C235: richer models fit the training data at least as well -/

namespace Verif.Dmd

open Verif.Tsc Verif.Np Verif.Dyn Verif.Lin Verif.Edmd Verif.Transform Matrix

variable {ι κ : Type} [Fintype ι] [Fintype κ]

/-! ### Specification -/

/-- Squared error of predicting feature `j` of the next sample by the linear function with coefficients `q` of the current sample, over all pairs. -/
def featureError {α β : Type} [Fintype α] (ps : List ((α → ℝ) × (β → ℝ))) (j : β) (q : α → ℝ) : ℝ := (ps.map (fun p => (p.2 j - q ⬝ᵥ p.1) ^ 2)).sum

/-- `P` holds (column by column) predictions, one time step ahead, of the model with the modes `Φ` and eigenvalues `ev` from the columns of `X`. -/
def IsOneStep {ν ρ : Type} [Fintype ρ] (X : Matrix ι ν ℝ) (Φ : Matrix ι ρ ℂ) (ev : ρ → ℂ) (P : Matrix ι ν ℝ) : Prop :=
  ∀ k, ∃ b, IsSpectralState none Φ (toC (fun i => X i k)) b ∧ flowmapSpectral Φ ev [b] [1] 1 = [[fun i => P i k]]

/-- The columns `e` of a factor of a singular value decomposition (`U[:, :rank]`; `e` numbers the columns that are kept). -/
def cutCols {α ρ σ : Type} (e : σ → ρ) (U : Matrix α ρ ℝ) : Matrix α σ ℝ := U.submatrix id e

/-! ### Lemmas -/

theorem sum_errors {α : Type} [Fintype α] (ps : List ((α → ℝ) × (ι → ℝ))) (K : Matrix ι α ℝ) : totalError (List.replicate ps.length 1) ps K = ∑ j, featureError ps j (K j) := by
  rw [totalError_one]
  unfold featureError
  induction ps with
  | nil => simp
  | cons p ps ih =>
    simp only [List.map_cons, List.sum_cons, Finset.sum_add_distrib, ih]
    congr 1

theorem featureError_nonneg {α β : Type} [Fintype α] (ps : List ((α → ℝ) × (β → ℝ))) (j : β) (q : α → ℝ) : 0 ≤ featureError ps j q := by
  refine List.sum_nonneg ?_
  intro x hx
  obtain ⟨p, _, rfl⟩ := List.mem_map.1 hx
  exact sq_nonneg _

/-- Least squares problems decouple into the features. -/
theorem decouple {α : Type} [Fintype α] (ps : List ((α → ℝ) × (ι → ℝ))) (K : Matrix ι α ℝ) :
    (∀ K', totalError (List.replicate ps.length 1) ps K ≤ totalError (List.replicate ps.length 1) ps K') ↔ ∀ j q, featureError ps j (K j) ≤ featureError ps j q := by
  classical
  constructor
  · intro h j q
    have := h (K.updateRow j q)
    rw [sum_errors, sum_errors, ← Finset.add_sum_erase _ _ (Finset.mem_univ j), ← Finset.add_sum_erase _ _ (Finset.mem_univ j)] at this
    rw [Finset.sum_congr rfl (g := fun i => featureError ps i (K i)) (s₂ := Finset.univ.erase j) (f := fun i => featureError ps i (K.updateRow j q i)) (by
      intro i hi; rw [Matrix.updateRow_ne (Finset.ne_of_mem_erase hi)])] at this
    rw [Matrix.updateRow_self] at this
    linarith
  · intro h K'
    rw [sum_errors, sum_errors]
    exact Finset.sum_le_sum (fun j _ => h j _)

theorem featureError_map {α α' β β' : Type} [Fintype α] [Fintype α'] (ps : List ((α → ℝ) × (β → ℝ))) (f : (α → ℝ) × (β → ℝ) → (α' → ℝ) × (β' → ℝ)) (j : β) (j' : β') (q : α → ℝ) (q' : α' → ℝ)
    (h : ∀ p ∈ ps, (f p).2 j' = p.2 j ∧ q' ⬝ᵥ (f p).1 = q ⬝ᵥ p.1) : featureError (ps.map f) j' q' = featureError ps j q := by
  unfold featureError
  rw [List.map_map]
  congr 1
  refine List.map_congr_left (fun p hp => ?_)
  simp only [Function.comp_apply, (h p hp).1, (h p hp).2]

theorem fits_features {k : TimeKind} {c : List (Row Int (ι → ℝ))} (hc : c ≠ []) (hv : Valid c) (hs : IdsAscending c ∨ EqualLengths c)
    (h2 : ∀ i, HasId c i → 2 ≤ (series c i).length) (hk : isConstDeltaTime k c = true) (K : Matrix ι ι ℝ) : Fits k c none K ↔ ∀ j q, featureError (snapshotPairs c) j (K j) ≤ featureError (snapshotPairs c) j q := by
  rw [C30_least_squares_partial hc hv hs h2 hk none (by simp), ← decouple]
  rfl

theorem controlSteps_states {c : List (Row Int (ι → ℝ))} {u : List (Row Int (κ → ℝ))} (hc : c ≠ []) (hv : Valid c) (hs : IdsAscending c ∨ EqualLengths c)
    (h2 : ∀ i, HasId c i → 2 ≤ (series c i).length) (hm : controlIndexMatches c u) : (controlSteps c u).map (fun s => (fun i => s.1 (Sum.inl i), s.2)) = snapshotPairs c := by
  obtain ⟨L, R, -, hl, hz⟩ := C03_shift_matrices_partial hc hv h2 hs
  obtain ⟨h1, h3⟩ := controlSteps_eq hv hm hz hl
  have hlen : L.length = u.length := by
    have : (L.zip R).length = (rowPairs c).length := by rw [hz]; simp [snapshotPairs, rowPairs]
    rw [List.length_zip, ← hl, min_self] at this
    omega
  rw [← h1, ← hz]
  refine List.ext_getElem (by simp [hl]; omega) (fun n h4 h5 => ?_)
  simp

/-- The normal equations of complex least squares solutions. -/
theorem lstsq_normalC {ρ : Type} [Fintype ρ] {Φ : Matrix ι ρ ℂ} {x : ι → ℂ} {b : ρ → ℂ} (h : IsLstsq Φ x b) : Φᴴ *ᵥ (Φ *ᵥ b - x) = 0 := by
  set r := Φ *ᵥ b - x with hr
  set g := Φᴴ *ᵥ r with hg
  set G := ∑ j, Complex.normSq (g j) with hG
  set H := ∑ i, Complex.normSq ((Φ *ᵥ g) i) with hH
  have hinner : (∑ i, (r i) * (starRingEnd ℂ) ((Φ *ᵥ g) i)).re = G := by
    have h1 : ∑ i, (r i) * (starRingEnd ℂ) ((Φ *ᵥ g) i) = ∑ j, g j * (starRingEnd ℂ) (g j) := by
      have e1 : ∑ i, (r i) * (starRingEnd ℂ) ((Φ *ᵥ g) i) = r ⬝ᵥ star (Φ *ᵥ g) := rfl
      have e2 : ∑ j, g j * (starRingEnd ℂ) (g j) = g ⬝ᵥ star g := rfl
      rw [e1, e2, Matrix.star_mulVec, dotProduct_comm, ← Matrix.dotProduct_mulVec, dotProduct_comm, hg]
    rw [h1, Complex.re_sum]
    refine Finset.sum_congr rfl (fun j _ => ?_)
    rw [Complex.mul_conj]; simp
  have hexp : ∀ t : ℝ, Dyn.residual Φ x (b - (t : ℂ) • g) = Dyn.residual Φ x b - 2 * t * G + t ^ 2 * H := by
    intro t
    have e : Φ *ᵥ (b - (t : ℂ) • g) - x = r - (t : ℂ) • (Φ *ᵥ g) := by
      rw [Matrix.mulVec_sub, Matrix.mulVec_smul, hr]; abel
    have e2 : ∀ i, Complex.normSq ((r - (t : ℂ) • (Φ *ᵥ g)) i) = Complex.normSq (r i) - 2 * t * ((r i) * (starRingEnd ℂ) ((Φ *ᵥ g) i)).re + t ^ 2 * Complex.normSq ((Φ *ᵥ g) i) := by
      intro i
      simp only [Pi.sub_apply, Pi.smul_apply, smul_eq_mul, Complex.normSq_apply, Complex.sub_re, Complex.sub_im, Complex.mul_re, Complex.mul_im, Complex.ofReal_re, Complex.ofReal_im, Complex.conj_re, Complex.conj_im]
      ring
    unfold Dyn.residual
    rw [e]
    simp only [e2, Finset.sum_add_distrib, Finset.sum_sub_distrib, ← Finset.mul_sum]
    rw [← Complex.re_sum, hinner]
  have hH0 : 0 ≤ H := Finset.sum_nonneg (fun _ _ => Complex.normSq_nonneg _)
  have hG0 : G = 0 := by
    have h1 := h (b - ((G / (H + 1) : ℝ) : ℂ) • g)
    rw [hexp] at h1
    have h2 : 2 * (G / (H + 1)) * G ≤ (G / (H + 1)) ^ 2 * H := by linarith
    have h3 : (0 : ℝ) < H + 1 := by linarith
    have h4 : 2 * (G / (H + 1)) * G = 2 * G ^ 2 * (H + 1) / (H + 1) ^ 2 := by field_simp
    have h5 : (G / (H + 1)) ^ 2 * H = G ^ 2 * H / (H + 1) ^ 2 := by field_simp
    rw [h4, h5, div_le_div_iff_of_pos_right (by positivity)] at h2
    have h6 : G ^ 2 * (H + 2) ≤ 0 := by nlinarith
    have h7 : G ^ 2 = 0 := by
      by_contra hne
      have := mul_pos (lt_of_le_of_ne (sq_nonneg G) (Ne.symm hne)) (show 0 < H + 2 by linarith)
      linarith
    exact pow_eq_zero_iff (two_ne_zero) |>.1 h7
  funext j
  rw [Finset.sum_eq_zero_iff_of_nonneg (fun _ _ => Complex.normSq_nonneg _)] at hG0
  exact Complex.normSq_eq_zero.1 (hG0 j (Finset.mem_univ j))

theorem conjTranspose_toCM {α β : Type} (A : Matrix α β ℝ) : (toCM A)ᴴ = toCM Aᵀ := by
  ext i j; simp [toCM, Matrix.conjTranspose_apply]

/-- One step of a reduced model with projected modes. -/
theorem oneStep_projected [DecidableEq ι] {ν ρ : Type} [Fintype ν] [Fintype ρ] [DecidableEq ρ] {X : Matrix ι ν ℝ} {U : Matrix ι ρ ℝ} (hU : Uᵀ * U = 1) {M : Matrix ρ ρ ℝ} {ev : ρ → ℂ} {W : Matrix ρ ρ ℂ} (hW : EigenBasis M ev W)
    {P : Matrix ι ν ℝ} (h : IsOneStep X (projectedModes U W) ev P) : P = U * M * Uᵀ * X := by
  have hdet : IsUnit W.det := isUnit_iff_ne_zero.2 hW.basis
  ext i k
  obtain ⟨b, hb, hp⟩ := h k
  have hl : IsLstsq (projectedModes U W) (toC (fun i => X i k)) b := by
    rcases hb with ⟨L, hL, _⟩ | ⟨_, hl⟩
    · exact nomatch hL
    · exact hl
  have hn := lstsq_normalC hl
  have hWb : W *ᵥ b = toCM Uᵀ *ᵥ toC (fun i => X i k) := by
    unfold projectedModes at hn
    rw [Matrix.conjTranspose_mul, conjTranspose_toCM, ← Matrix.mulVec_mulVec] at hn
    have h1 : toCM Uᵀ *ᵥ ((toCM U * W) *ᵥ b - toC (fun i => X i k)) = 0 := by
      have hd : IsUnit (Wᴴ).det := by rw [Matrix.det_conjTranspose]; exact hdet.star
      have := congrArg (fun v => (Wᴴ)⁻¹ *ᵥ v) hn
      simpa [Matrix.mulVec_mulVec, ← Matrix.mul_assoc, Matrix.nonsing_inv_mul _ hd] using this
    rw [Matrix.mulVec_sub, Matrix.mulVec_mulVec, ← Matrix.mul_assoc, ← toCM_mul, hU, toCM_one, Matrix.one_mul] at h1
    exact sub_eq_zero.1 h1
  have hs : stepCount 1 1 = 1 := rfl
  simp only [flowmapSpectral, List.map_cons, List.map_nil, hs, pow_one, List.cons.injEq, and_true] at hp
  rw [← congrFun hp i]
  have hd : (fun i => ev i * b i) = diagonal ev *ᵥ b := by rw [diag_mulVec]
  have h2 : projectedModes U W *ᵥ (fun i => ev i * b i) = toC ((U * M * Uᵀ) *ᵥ (fun i => X i k)) := by
    unfold projectedModes
    rw [hd, Matrix.mulVec_mulVec, Matrix.mul_assoc, ← hW.mul, ← Matrix.mulVec_mulVec, ← Matrix.mulVec_mulVec, hWb, ← toCM_mulVec, toCM_mul, toCM_mul]
    simp only [Matrix.mulVec_mulVec, Matrix.mul_assoc]
    rfl
  rw [h2, reV_toC]
  rfl

theorem sqSum_projection {α ν ρ : Type} [Fintype α] [Fintype ν] [Fintype ρ] [DecidableEq ρ] (Y : Matrix α ν ℝ) {U : Matrix α ρ ℝ} (hU : Uᵀ * U = 1) {V : Matrix ν ρ ℝ} (hV : Vᵀ * V = 1) :
    sqSum (U * (Uᵀ * Y * V) * Vᵀ - Y) = sqSum Y - sqSum (Uᵀ * Y * V) := by
  have e : U * (Uᵀ * Y * V) * Vᵀ - Y = U * (Uᵀ * Y * V) * Vᵀ + (-Y) := sub_eq_add_neg _ _
  have h1 : sqSum (U * (Uᵀ * Y * V) * Vᵀ) = sqSum (Uᵀ * Y * V) := by
    rw [sqSum_trace, sqSum_trace]
    generalize Uᵀ * Y * V = Z
    rw [Matrix.transpose_mul, Matrix.transpose_mul, Matrix.transpose_transpose]
    calc (V * (Zᵀ * Uᵀ) * (U * Z * Vᵀ)).trace = (V * (Zᵀ * (Uᵀ * U) * Z * Vᵀ)).trace := by simp only [Matrix.mul_assoc]
      _ = (Zᵀ * Z * (Vᵀ * V)).trace := by rw [hU, Matrix.mul_one, Matrix.trace_mul_comm]; simp only [Matrix.mul_assoc]
      _ = _ := by rw [hV, Matrix.mul_one]
  have h2 : ((U * (Uᵀ * Y * V) * Vᵀ)ᵀ * (-Y)).trace = - sqSum (Uᵀ * Y * V) := by
    rw [Matrix.mul_neg, Matrix.trace_neg, sqSum_trace]
    congr 1
    rw [Matrix.transpose_mul, Matrix.transpose_mul, Matrix.transpose_transpose, Matrix.mul_assoc, Matrix.trace_mul_comm]
    simp only [Matrix.mul_assoc]
  have h3 : sqSum (-Y) = sqSum Y := by simp [sqSum]
  rw [e, sqSum_add, h1, h2, h3]; ring

theorem cutCols_ortho {α ρ σ : Type} [Fintype α] [DecidableEq ρ] [DecidableEq σ] {e : σ → ρ} (he : Function.Injective e) {U : Matrix α ρ ℝ} (h : Uᵀ * U = 1) : (cutCols e U)ᵀ * cutCols e U = 1 := by
  ext i j
  have := congrFun (congrFun h (e i)) (e j)
  simp only [Matrix.mul_apply, Matrix.transpose_apply, Matrix.one_apply, cutCols, Matrix.submatrix_apply, id] at this ⊢
  rw [this]
  by_cases hij : i = j
  · rw [if_pos hij, if_pos (congrArg e hij)]
  · rw [if_neg hij, if_neg (fun h => hij (he h))]

theorem sum_comp_le {σ τ : Type} [Fintype σ] [Fintype τ] {f : σ → τ} (hf : Function.Injective f) {g : τ → ℝ} (hg : ∀ x, 0 ≤ g x) : ∑ i, g (f i) ≤ ∑ x, g x := by
  rw [show ∑ i, g (f i) = ∑ x ∈ Finset.univ.map ⟨f, hf⟩, g x by rw [Finset.sum_map]; rfl]
  exact Finset.sum_le_sum_of_subset_of_nonneg (Finset.subset_univ _) (fun x _ _ => hg x)

/-- Data of the examples. -/
def exNested : List (Row Int (Fin 1 → ℝ)) := [⟨4, 0, ![1]⟩, ⟨4, 1, ![2]⟩, ⟨4, 2, ![5]⟩]

/-! ### Property theorems -/

/-- **C235 (features).** A matrix is a possible result of the fit exactly if for every feature separately no other linear function of the samples predicts the next value better over the training pairs. -/
theorem C235_features {k : TimeKind} {c : List (Row Int (ι → ℝ))} (hc : c ≠ []) (hv : Valid c) (hs : IdsAscending c ∨ EqualLengths c)
    (h2 : ∀ i, HasId c i → 2 ≤ (series c i).length) (hk : isConstDeltaTime k c = true) (K : Matrix ι ι ℝ) : Fits k c none K ↔ ∀ j q, featureError (snapshotPairs c) j (K j) ≤ featureError (snapshotPairs c) j q :=
  fits_features hc hv hs h2 hk K

/-- **C235 (dictionary).** If every function of a dictionary `g` is one of the functions of the dictionary `g'` (function `j` is function `f j`), the model fitted with `g'` predicts each of them, one step ahead over
the training data, at least as well as every linear model `K` of the dictionary `g`, in particular the model fitted with `g`. -/
theorem C235_dictionary {δ δ' : Type} [Fintype δ] [Fintype δ'] {k : TimeKind} {c : List (Row Int (ι → ℝ))} (hc : c ≠ []) (hv : Valid c) (hs : IdsAscending c ∨ EqualLengths c)
    (h2 : ∀ i, HasId c i → 2 ≤ (series c i).length) (hk : isConstDeltaTime k c = true) {g : (ι → ℝ) → (δ → ℝ)} {g' : (ι → ℝ) → (δ' → ℝ)} (f : δ → δ') (hg : ∀ x j, g' x (f j) = g x j)
    (K : Matrix δ δ ℝ) {K' : Matrix δ' δ' ℝ} {B' : Matrix δ' ι ℝ} (h' : FitsEdmd k g' c K' B') (j : δ) :
    featureError (snapshotPairs (mapVal g' c)) (f j) (K' (f j)) ≤ featureError (snapshotPairs (mapVal g c)) j (K j) := by
  classical
  have go : ∀ {ε : Type} [Fintype ε] (g : (ι → ℝ) → (ε → ℝ)) (K : Matrix ε ε ℝ), Fits k (mapVal g c) none K → ∀ j q, featureError (snapshotPairs (mapVal g c)) j (K j) ≤ featureError (snapshotPairs (mapVal g c)) j q := by
    intro ε _ g K h
    refine (fits_features (mapVal_ne_nil.2 hc) (mapVal_valid.2 hv) (hs.imp mapVal_idsAscending.2 mapVal_equalLengths.2) (by
      intro i hi
      rw [mapVal_series, mapVal_length]
      exact h2 i (mapVal_hasId.1 hi)) (by rw [mapVal_isConstDeltaTime]; exact hk) K).1 h
  refine (go g' K' h'.1 (f j) (fun e => ∑ d ∈ Finset.univ.filter (fun d => f d = e), K j d)).trans (le_of_eq ?_)
  rw [mapVal_snapshotPairs, mapVal_snapshotPairs]
  unfold featureError
  rw [List.map_map, List.map_map]
  congr 1
  refine List.map_congr_left (fun p _ => ?_)
  simp only [Function.comp_apply, hg]
  congr 2
  simp only [dotProduct, Finset.sum_mul]
  rw [← Finset.sum_fiberwise (s := Finset.univ) (g := f) (f := fun d => K j d * g p.1 d)]
  refine Finset.sum_congr rfl (fun e _ => Finset.sum_congr rfl (fun d hd => ?_))
  rw [← (Finset.mem_filter.1 hd).2, hg]

/-- non-vacuity: the dictionaries `x` and `x², x` for the samples 1, 2, 5 -/
example : ∃ (K' : Matrix (Fin 2) (Fin 2) ℝ) (B' : Matrix (Fin 2) (Fin 1) ℝ), FitsEdmd .int (fun x => ![x 0 ^ 2, x 0]) exNested K' B' ∧
    ∀ (K : Matrix (Fin 1) (Fin 1) ℝ), featureError (snapshotPairs (mapVal (fun x => ![x 0 ^ 2, x 0]) exNested)) 1 (K' 1) ≤ featureError (snapshotPairs (mapVal (fun x => ![x 0]) exNested)) 0 (K 0) := by
  have hv : Valid exNested := by rw [valid_iff]; exact ⟨by decide, by unfold Before; decide +kernel⟩
  have h2 : ∀ i, HasId exNested i → 2 ≤ (series exNested i).length := by
    rintro i ⟨r, hr, rfl⟩
    simp only [exNested, List.mem_cons, List.not_mem_nil, or_false] at hr
    rcases hr with rfl | rfl | rfl <;> decide
  have hk : isConstDeltaTime .int exNested = true := by with_unfolding_all rfl
  obtain ⟨K', hK'⟩ := C30_exists (c := mapVal (fun x : Fin 1 → ℝ => ![x 0 ^ 2, x 0]) exNested) (k := .int) (by simp [exNested, mapVal]) (by
    intro i hi; rw [mapVal_series, mapVal_length]; exact h2 i (mapVal_hasId.1 hi)) (by rw [mapVal_isConstDeltaTime]; exact hk)
  obtain ⟨B', hB'⟩ := exists_normal (Matrix.of (fun (r : Fin exNested.length) => (![exNested[r].val 0 ^ 2, exNested[r].val 0] : Fin 2 → ℝ))) (Matrix.of (fun (r : Fin exNested.length) => exNested[r].val))
  have hfit : FitsEdmd .int (fun x => ![x 0 ^ 2, x 0]) exNested K' B' := ⟨hK', (isLstsqM_iff _ _ _).2 hB'⟩
  exact ⟨K', B', hfit, fun K => C235_dictionary (by simp [exNested]) hv (Or.inl (by unfold IdsAscending; decide)) h2 hk (fun _ => 1) (by intro x j; fin_cases j; rfl) K hfit 0⟩

/-- **C235 (control).** A model with control input predicts every feature, one step ahead over the training data, at least as well as every linear model without control input, in particular the fitted one.
(The hypotheses are those of C31; the example there, `exCX` and `exCU`, meets them.) -/
theorem C235_control {k : TimeKind} {c : List (Row Int (ι → ℝ))} {u : List (Row Int (κ → ℝ))} (hc : c ≠ []) (hv : Valid c) (hs : IdsAscending c ∨ EqualLengths c)
    (h2 : ∀ i, HasId c i → 2 ≤ (series c i).length) {A : Matrix ι ι ℝ} {B : Matrix ι κ ℝ} (h : FitsControl k c u A B) (K : Matrix ι ι ℝ) (j : ι) :
    featureError (controlSteps c u) j (hcat A B j) ≤ featureError (snapshotPairs c) j (K j) := by
  have h3 := (C31_least_squares_partial hc hv hs h2 h.1 h.2.1 A B).1 h
  have h4 : ∀ K', totalError (List.replicate (controlSteps c u).length 1) (controlSteps c u) (hcat A B) ≤ totalError (List.replicate (controlSteps c u).length 1) (controlSteps c u) K' := by
    intro K'
    have e : hcat (Matrix.of (fun i j => K' i (Sum.inl j))) (Matrix.of (fun i j => K' i (Sum.inr j))) = K' := by
      ext i (j | j) <;> rfl
    have := h3 (Matrix.of (fun i j => K' i (Sum.inl j))) (Matrix.of (fun i j => K' i (Sum.inr j)))
    rwa [e] at this
  refine ((decouple _ _).1 h4 j (Sum.elim (K j) 0)).trans (le_of_eq ?_)
  rw [← controlSteps_states hc hv hs h2 h.2.1]
  refine (featureError_map _ _ _ _ _ _ ?_).symm
  intro p _
  refine ⟨rfl, ?_⟩
  simp [dotProduct, Fintype.sum_sum_type]

/-- **C235 (rank).** Of two models with projected modes whose decompositions of the snapshots `X` are cut at different ranks (the columns `e` are among the columns `e'`), the one with the higher rank predicts
the next snapshots `Y`, one step ahead over the training data, at least as well. -/
theorem C235_rank [DecidableEq ι] {ν ρ σ τ : Type} [Fintype ν] [Fintype ρ] [DecidableEq ρ] [Fintype σ] [DecidableEq σ] [Fintype τ] [DecidableEq τ] {X Y : Matrix ι ν ℝ} {U : Matrix ι ρ ℝ} {S : ρ → ℝ} {V : Matrix ν ρ ℝ}
    (h : IsSVD X U S V) {e : σ → ρ} (he : Function.Injective e) {e' : τ → ρ} (he' : Function.Injective e') (hsub : ∀ i, ∃ j, e i = e' j)
    {ev : σ → ℂ} {W : Matrix σ σ ℂ} (hW : EigenBasis (reducedMatrix Y (cutCols e U) (S ∘ e) (cutCols e V)) ev W) {P : Matrix ι ν ℝ} (hP : IsOneStep X (projectedModes (cutCols e U) W) ev P)
    {ev' : τ → ℂ} {W' : Matrix τ τ ℂ} (hW' : EigenBasis (reducedMatrix Y (cutCols e' U) (S ∘ e') (cutCols e' V)) ev' W') {P' : Matrix ι ν ℝ} (hP' : IsOneStep X (projectedModes (cutCols e' U) W') ev' P') :
    sqSum (P' - Y) ≤ sqSum (P - Y) := by
  have key : ∀ {σ : Type} [Fintype σ] [DecidableEq σ] (e : σ → ρ), cutCols e U * reducedMatrix Y (cutCols e U) (S ∘ e) (cutCols e V) * (cutCols e U)ᵀ * X = cutCols e U * ((cutCols e U)ᵀ * Y * cutCols e V) * (cutCols e V)ᵀ := by
    intro σ _ _ e
    have hx : (cutCols e U)ᵀ * X = diagonal (S ∘ e) * (cutCols e V)ᵀ := by
      have h1 : Uᵀ * X = diagonal S * Vᵀ := by rw [h.eq, ← Matrix.mul_assoc, ← Matrix.mul_assoc, h.orthoU, Matrix.one_mul]
      ext i k
      have := congrFun (congrFun h1 (e i)) k
      rw [Matrix.diagonal_mul] at this ⊢
      exact this
    have hd : diagonal (fun i => ((S ∘ e) i)⁻¹) * diagonal (S ∘ e) = 1 := by
      rw [Matrix.diagonal_mul_diagonal, ← Matrix.diagonal_one]
      congr 1
      funext i
      exact inv_mul_cancel₀ (h.pos _).ne'
    unfold reducedMatrix
    calc _ = cutCols e U * ((cutCols e U)ᵀ * Y * cutCols e V) * (diagonal (fun i => ((S ∘ e) i)⁻¹) * ((cutCols e U)ᵀ * X)) := by simp only [Matrix.mul_assoc]
      _ = cutCols e U * ((cutCols e U)ᵀ * Y * cutCols e V) * ((diagonal (fun i => ((S ∘ e) i)⁻¹) * diagonal (S ∘ e)) * (cutCols e V)ᵀ) := by rw [hx]; simp only [Matrix.mul_assoc]
      _ = _ := by rw [hd, Matrix.one_mul]
  rw [oneStep_projected (cutCols_ortho he h.orthoU) hW hP, oneStep_projected (cutCols_ortho he' h.orthoU) hW' hP', key, key,
    sqSum_projection Y (cutCols_ortho he h.orthoU) (cutCols_ortho he h.orthoV), sqSum_projection Y (cutCols_ortho he' h.orthoU) (cutCols_ortho he' h.orthoV)]
  have hs : ∀ {σ : Type} [Fintype σ] (e : σ → ρ), sqSum ((cutCols e U)ᵀ * Y * cutCols e V) = ∑ i, ∑ j, (Uᵀ * Y * V) (e i) (e j) ^ 2 := fun _ => rfl
  choose f hf using hsub
  have hfi : Function.Injective f := fun a b hab => he (by rw [hf, hf, hab])
  rw [hs, hs]
  simp only [hf]
  have h1 : ∑ i, ∑ j, (Uᵀ * Y * V) (e' (f i)) (e' (f j)) ^ 2 ≤ ∑ i, ∑ j, (Uᵀ * Y * V) (e' (f i)) (e' j) ^ 2 :=
    Finset.sum_le_sum (fun i _ => sum_comp_le hfi (g := fun j => (Uᵀ * Y * V) (e' (f i)) (e' j) ^ 2) (fun _ => sq_nonneg _))
  have h2 : ∑ i, ∑ j, (Uᵀ * Y * V) (e' (f i)) (e' j) ^ 2 ≤ ∑ i, ∑ j, (Uᵀ * Y * V) (e' i) (e' j) ^ 2 :=
    sum_comp_le hfi (g := fun i => ∑ j, (Uᵀ * Y * V) (e' i) (e' j) ^ 2) (fun _ => Finset.sum_nonneg (fun _ _ => sq_nonneg _))
  linarith

/-- The next snapshots of the witness below. -/
def exNext : Matrix (Fin 3) (Fin 3) ℝ := !![3, 0, 0; 0, 2, -4; 0, 2, -4]

/-- The snapshots of the witness below. -/
def exNow : Matrix (Fin 3) (Fin 3) ℝ := diagonal ![3, 2, 1]

theorem exSvd : IsSVD exNow 1 ![3, 2, 1] 1 := by
  refine ⟨by simp [exNow], by simp, by simp, ?_⟩
  intro i; fin_cases i <;> norm_num

/-- The first column of three. -/
def rank1 : Fin 1 → Fin 3 := fun _ => 0

/-- The first two columns of three. -/
def rank2 : Fin 2 → Fin 3 := fun i => if i = 0 then 0 else 1

theorem rank_values : rank1 0 = 0 ∧ rank2 0 = 0 ∧ rank2 1 = 1 := ⟨rfl, rfl, rfl⟩

theorem exReduced1 : reducedMatrix exNext (cutCols rank1 (1 : Matrix (Fin 3) (Fin 3) ℝ)) (![3, 2, 1] ∘ rank1) (cutCols rank1 (1 : Matrix (Fin 3) (Fin 3) ℝ)) = 1 := by
  ext i j
  fin_cases i; fin_cases j
  simp [reducedMatrix, cutCols, Matrix.mul_apply, exNext, Matrix.one_apply, rank_values]

theorem exReduced2 : reducedMatrix exNext (cutCols rank2 (1 : Matrix (Fin 3) (Fin 3) ℝ)) (![3, 2, 1] ∘ rank2) (cutCols rank2 (1 : Matrix (Fin 3) (Fin 3) ℝ)) = 1 := by
  ext i j
  fin_cases i <;> fin_cases j <;> simp [reducedMatrix, cutCols, Matrix.mul_apply, exNext, Matrix.one_apply, rank_values]

theorem eigenBasis_one {ρ : Type} [Fintype ρ] [DecidableEq ρ] : EigenBasis (1 : Matrix ρ ρ ℝ) (fun _ => 1) 1 := by
  refine ⟨fun k => ?_, by simp⟩
  rw [toCM_one]; simp

/-- non-vacuity of the rank theorem: `exNow → exNext`, ranks 1 and 2 -/
example : ∃ P P' : Matrix (Fin 3) (Fin 3) ℝ, IsOneStep exNow (projectedModes (cutCols rank1 (1 : Matrix (Fin 3) (Fin 3) ℝ)) 1) (fun _ => 1) P ∧
    IsOneStep exNow (projectedModes (cutCols rank2 (1 : Matrix (Fin 3) (Fin 3) ℝ)) 1) (fun _ => 1) P' ∧ sqSum (P' - exNext) ≤ sqSum (P - exNext) := by
  have m1 : projectedModes (cutCols rank1 (1 : Matrix (Fin 3) (Fin 3) ℝ)) 1 = !![1; 0; 0] := by
    ext i j
    fin_cases i <;> fin_cases j <;> simp [projectedModes, toCM, cutCols, rank_values, Matrix.one_apply]
  have m2 : projectedModes (cutCols rank2 (1 : Matrix (Fin 3) (Fin 3) ℝ)) 1 = !![1, 0; 0, 1; 0, 0] := by
    ext i j
    fin_cases i <;> fin_cases j <;> simp [projectedModes, toCM, cutCols, rank_values, Matrix.one_apply]
  have h1 : IsOneStep exNow (projectedModes (cutCols rank1 (1 : Matrix (Fin 3) (Fin 3) ℝ)) 1) (fun _ => 1) (Matrix.of (fun i k => if i = 0 then exNow 0 k else 0)) := by
    intro k
    rw [m1]
    refine ⟨fun _ => (exNow 0 k : ℂ), Or.inr ⟨rfl, fun b' => ?_⟩, ?_⟩
    · have e : ∀ b : Fin 1 → ℂ, Dyn.residual !![1; 0; 0] (toC (fun i => exNow i k)) b = Complex.normSq (b 0 - exNow 0 k) + Complex.normSq (exNow 1 k) + Complex.normSq (exNow 2 k) := by
        intro b
        unfold Dyn.residual
        rw [Fin.sum_univ_three]
        simp [toC, Matrix.vecHead]
      rw [e, e]
      have := Complex.normSq_nonneg (b' 0 - exNow 0 k)
      simp only [sub_self, map_zero]
      linarith
    · simp only [flowmapSpectral, List.map_cons, List.map_nil, List.cons.injEq, and_true]
      funext i
      fin_cases i <;> simp [reV, Matrix.mulVec, dotProduct]
  have h2 : IsOneStep exNow (projectedModes (cutCols rank2 (1 : Matrix (Fin 3) (Fin 3) ℝ)) 1) (fun _ => 1) (Matrix.of (fun i k => if i = 2 then 0 else exNow i k)) := by
    intro k
    rw [m2]
    refine ⟨fun i => if i = 0 then (exNow 0 k : ℂ) else (exNow 1 k : ℂ), Or.inr ⟨rfl, fun b' => ?_⟩, ?_⟩
    · have e : ∀ b : Fin 2 → ℂ, Dyn.residual !![1, 0; 0, 1; 0, 0] (toC (fun i => exNow i k)) b = Complex.normSq (b 0 - exNow 0 k) + Complex.normSq (b 1 - exNow 1 k) + Complex.normSq (exNow 2 k) := by
        intro b
        unfold Dyn.residual
        rw [Fin.sum_univ_three]
        simp [toC, Matrix.vecHead, Matrix.vecTail]
      rw [e, e]
      have h3 := Complex.normSq_nonneg (b' 0 - exNow 0 k)
      have h4 := Complex.normSq_nonneg (b' 1 - exNow 1 k)
      simp
      linarith
    · simp only [flowmapSpectral, List.map_cons, List.map_nil, List.cons.injEq, and_true]
      funext i
      fin_cases i <;> simp [reV, Matrix.mulVec, dotProduct, Fin.sum_univ_two]
  refine ⟨_, _, h1, h2, C235_rank exSvd (e := rank1) (e' := rank2) (fun a b _ => Subsingleton.elim a b) (by decide) (by decide) (by rw [exReduced1]; exact eigenBasis_one) h1 (by rw [exReduced2]; exact eigenBasis_one) h2⟩

/-- **C235 is violated with exact modes (the default).** The snapshots `exNow → exNext` (three series with two samples each): with rank 1 the squared error over the training data is 40, with rank 2 it is 42.5. -/
theorem C235_exact_violated : ∃ (X Y : Matrix (Fin 3) (Fin 3) ℝ) (U : Matrix (Fin 3) (Fin 3) ℝ) (S : Fin 3 → ℝ) (V : Matrix (Fin 3) (Fin 3) ℝ) (ev : Fin 1 → ℂ) (W : Matrix (Fin 1) (Fin 1) ℂ) (ev' : Fin 2 → ℂ) (W' : Matrix (Fin 2) (Fin 2) ℂ),
    IsSVD X U S V ∧ S 1 < S 0 ∧ S 2 < S 1 ∧
    EigenBasis (reducedMatrix Y (cutCols rank1 U) (S ∘ rank1) (cutCols rank1 V)) ev W ∧ EigenBasis (reducedMatrix Y (cutCols rank2 U) (S ∘ rank2) (cutCols rank2 V)) ev' W' ∧
    ∀ P P', IsOneStep X (exactModes Y (S ∘ rank1) (cutCols rank1 V) W) ev P → IsOneStep X (exactModes Y (S ∘ rank2) (cutCols rank2 V) W') ev' P' → sqSum (P - Y) = 40 ∧ sqSum (P' - Y) = 85 / 2 := by
  refine ⟨exNow, exNext, 1, ![3, 2, 1], 1, fun _ => 1, 1, fun _ => 1, 1, exSvd, by norm_num, by show (1 : ℝ) < 2; norm_num, ?_, ?_, ?_⟩
  · rw [exReduced1]; exact eigenBasis_one
  · rw [exReduced2]; exact eigenBasis_one
  intro P P' hP hP'
  have m1 : exactModes exNext ((![3, 2, 1] : Fin 3 → ℝ) ∘ rank1) (cutCols rank1 (1 : Matrix (Fin 3) (Fin 3) ℝ)) 1 = !![1; 0; 0] := by
    ext i j
    fin_cases i <;> fin_cases j <;> simp [exactModes, toCM, cutCols, Matrix.mul_apply, Fin.sum_univ_three, exNext, Matrix.one_apply, rank_values]
  have m2 : exactModes exNext ((![3, 2, 1] : Fin 3 → ℝ) ∘ rank2) (cutCols rank2 (1 : Matrix (Fin 3) (Fin 3) ℝ)) 1 = !![1, 0; 0, 1; 0, 1] := by
    ext i j
    fin_cases i <;> fin_cases j <;> simp [exactModes, toCM, cutCols, Matrix.mul_apply, Fin.sum_univ_three, exNext, Matrix.one_apply, rank_values]
  rw [m1] at hP
  rw [m2] at hP'
  have norm : ∀ {ρ : Type} [Fintype ρ] {Φ : Matrix (Fin 3) ρ ℂ} {P : Matrix (Fin 3) (Fin 3) ℝ}, IsOneStep exNow Φ (fun _ => 1) P → ∀ k, ∃ b, Φᴴ *ᵥ (Φ *ᵥ b - toC (fun i => exNow i k)) = 0 ∧ ∀ i, P i k = ((Φ *ᵥ b) i).re := by
    intro ρ _ Φ P h k
    obtain ⟨b, hb, hp⟩ := h k
    refine ⟨b, lstsq_normalC ?_, fun i => ?_⟩
    · rcases hb with ⟨L, hL, _⟩ | ⟨_, hl⟩
      · exact nomatch hL
      · exact hl
    · simp only [flowmapSpectral, List.map_cons, List.map_nil, one_pow, one_mul, List.cons.injEq, and_true] at hp
      exact (congrFun hp i).symm
  have hP1 : ∀ i k, P i k = (!![3, 0, 0; 0, 0, 0; 0, 0, 0] : Matrix (Fin 3) (Fin 3) ℝ) i k := by
    intro i k
    obtain ⟨b, h1, h2⟩ := norm hP k
    have e0 := congrFun h1 0
    rw [h2]
    have e0' : (b 0).re = exNow 0 k := by
      have := congrArg Complex.re e0
      simp [Matrix.mulVec, dotProduct, Fin.sum_univ_three, toC] at this
      linarith
    fin_cases i <;> fin_cases k <;> simp [Matrix.mulVec, dotProduct, e0', exNow]
  have hP2 : ∀ i k, P' i k = (!![3, 0, 0; 0, 1, 1 / 2; 0, 1, 1 / 2] : Matrix (Fin 3) (Fin 3) ℝ) i k := by
    intro i k
    obtain ⟨b, h1, h2⟩ := norm hP' k
    have e0 := congrFun h1 0
    have e1 := congrFun h1 1
    rw [h2]
    have e0' : (b 0).re = exNow 0 k := by
      have := congrArg Complex.re e0
      simp [Matrix.mulVec, dotProduct, Fin.sum_univ_three, Fin.sum_univ_two, toC] at this
      linarith
    have e1' : (b 1).re = (exNow 1 k + exNow 2 k) / 2 := by
      have := congrArg Complex.re e1
      simp [Matrix.mulVec, dotProduct, Fin.sum_univ_three, Fin.sum_univ_two, toC] at this
      linarith
    fin_cases i <;> fin_cases k <;> simp [Matrix.mulVec, dotProduct, Fin.sum_univ_two, e0', e1', exNow]
  constructor
  · simp [sqSum, Fin.sum_univ_three, hP1, exNext]; norm_num
  · simp [sqSum, Fin.sum_univ_three, hP2, exNext]; norm_num

end Verif.Dmd
