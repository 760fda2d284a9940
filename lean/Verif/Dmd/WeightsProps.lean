import Verif.Dmd.Weights
import Verif.Dmd.InvarianceProps
import Verif.Dmd.ReducedProps
/-!
# Property C206: sample weights count the snapshot pairs

The small specification is `repeated`: every pair as often as its weight says.
-/

namespace Verif.Dmd

open Verif.Tsc Verif.Np Verif.Lin Verif.Dyn Matrix

variable {ι : Type} [Fintype ι]

/-- Every entry as often as its number says. -/
def repeated {α : Type} (ns : List Nat) (l : List α) : List α := ((ns.zip l).map (fun p => List.replicate p.1 p.2)).flatten

/-- The weights of the pairs of `c'` for the pairs of `c` in the same arrangement are summed up. -/
theorem totalError_repeated (K : Matrix ι ι ℝ) : ∀ (ns : List Nat) (ps : List ((ι → ℝ) × (ι → ℝ))),
    ((repeated ns ps).map (fun p => stepError K p.1 p.2)).sum = totalError (ns.map (fun n : Nat => (n : ℝ))) ps K := by
  intro ns
  induction ns with
  | nil => intro ps; simp [repeated, totalError]
  | cons n ns ih =>
    intro ps
    cases ps with
    | nil => simp [repeated, totalError]
    | cons p ps =>
      have h : repeated (n :: ns) (p :: ps) = List.replicate n p ++ repeated ns ps := by simp [repeated]
      have h' : totalError (((n :: ns).map (fun n : Nat => (n : ℝ)))) (p :: ps) K = n * stepError K p.1 p.2 + totalError (ns.map (fun n : Nat => (n : ℝ))) ps K := by
        simp [totalError]
      rw [h, h', List.map_append, List.sum_append, ih ps, List.map_replicate, List.sum_replicate, nsmul_eq_mul]

/-! ### Accepted weights -/

/-- **C206 (accepted weights).** `fit` accepts no weights, or, for a model of full rank, exactly one weight per pair of consecutive samples or one weight for all pairs. -/
theorem C206_accepted (rank : Option Nat) (m : Nat) (w : Option (List ℝ)) :
    (∃ v, readWeights rank m w = .ok v) ↔ ∀ u, w = some u → rank = none ∧ (u.length = m ∨ u.length = 1) := by
  cases w with
  | none => simp [readWeights]
  | some u =>
    cases rank with
    | some r => simp [readWeights]
    | none =>
      by_cases h : u.length = m
      · simp [readWeights, spreadWeights, h]
      · match u, h with
        | [], h => simp [readWeights, spreadWeights] at h ⊢; simp [h]
        | [a], h => simp [readWeights, spreadWeights] at h ⊢; simp [h]
        | a :: b :: u, h => simp [readWeights, spreadWeights] at h ⊢; simp [h]

/-- **C206 (weights that are used).** The weights are used as given, one per pair; a single one is used for every pair. -/
theorem C206_used {rank : Option Nat} {m : Nat} {u : List ℝ} {v : Option (List ℝ)} (h : readWeights rank m (some u) = .ok v) :
    ∃ x, v = some x ∧ x.length = m ∧ ∀ i, i < m → x[i]? = if u.length = m then u[i]? else u[0]? := by
  cases rank with
  | some r => simp [readWeights] at h
  | none =>
    by_cases hl : u.length = m
    · simp [readWeights, spreadWeights, hl] at h
      exact ⟨u, h.symm, hl, fun i _ => by simp [hl]⟩
    · match u, hl with
      | [], hl => simp [readWeights, spreadWeights] at hl h; simp [hl] at h
      | [a], hl =>
        simp only [readWeights, spreadWeights, if_neg hl, Except.ok.injEq] at h
        exact ⟨List.replicate m a, h.symm, by simp, fun i hi => by rw [if_neg hl]; simp [hi]⟩
      | a :: b :: u, hl => simp only [readWeights, spreadWeights, if_neg hl] at h; cases h

theorem pairs_eq {c : List (Row Int (ι → ℝ))} (hc : c ≠ []) (hv : Valid c) (hs : IdsAscending c ∨ EqualLengths c)
    (h2 : ∀ i, HasId c i → 2 ≤ (series c i).length) : (shiftRows c).1.zip (shiftRows c).2 = snapshotPairs c ∧ shiftMatrices c = .ok (shiftRows c) := by
  obtain ⟨L, R, h, -, hz⟩ := C03_shift_matrices_partial hc hv h2 hs
  unfold shiftMatrices at h ⊢
  split at h
  · cases h
  · rename_i hm
    rw [if_neg hm]
    simp only [Except.ok.injEq] at h
    rw [h]
    exact ⟨hz, rfl⟩

theorem snapshotPairs_lt {c : List (Row Int (ι → ℝ))} (hc : c ≠ []) : (snapshotPairs c).length < c.length := by
  unfold snapshotPairs
  rw [List.length_map]
  refine lt_of_le_of_lt (List.length_filter_le _ _) ?_
  induction c with
  | nil => exact absurd rfl hc
  | cons a c ih =>
    cases c with
    | nil => simp [consecutive]
    | cons b c => simpa [consecutive] using ih (by simp)

/-- **C206 is violated for weights of the samples.** One weight per sample (row of `X`), as the name and the documentation of the argument suggest, is never accepted: there are fewer pairs than samples. -/
theorem C206_samples_violated {k : TimeKind} {c : List (Row Int (ι → ℝ))} (hc : c ≠ []) (hv : Valid c) (hs : IdsAscending c ∨ EqualLengths c)
    (h2 : ∀ i, HasId c i → 2 ≤ (series c i).length) (w : List ℝ) (hw : w.length = c.length) (K : Matrix ι ι ℝ) : ¬ FitsWeighted k c (some w) K := by
  rintro ⟨v, h, -⟩
  have h1 := ((C206_accepted _ _ _).1 ⟨v, h⟩ w rfl).2
  rw [(pairs_eq hc hv hs h2).1, hw] at h1
  have h3 := snapshotPairs_lt hc
  obtain ⟨r, hr⟩ := List.exists_mem_of_ne_nil c hc
  have h4 := h2 r.id ⟨r, hr, rfl⟩
  have h5 : (series c r.id).length ≤ c.length := List.length_filter_le _ _
  omega

/-! ### Meaning of the weights -/

theorem fitsWeighted_iff {k : TimeKind} {c : List (Row Int (ι → ℝ))} {w : List ℝ} (hw : w.length = ((shiftRows c).1.zip (shiftRows c).2).length) (K : Matrix ι ι ℝ) :
    FitsWeighted k c (some w) K ↔ Fits k c (some w) K := by
  unfold FitsWeighted readWeights spreadWeights
  simp [hw]

theorem lstsq_smul {α β γ : Type} [Fintype α] [Fintype β] [Fintype γ] {a : ℝ} (ha : a ≠ 0) (G : Matrix α β ℝ) (Y : Matrix α γ ℝ) (Z : Matrix β γ ℝ) :
    IsLstsqM (a • G) (a • Y) Z ↔ IsLstsqM G Y Z := by
  have e : ∀ Z' : Matrix β γ ℝ, sqSum (a • G * Z' - a • Y) = a ^ 2 * sqSum (G * Z' - Y) := by
    intro Z'
    rw [Matrix.smul_mul, ← smul_sub]
    simp [sqSum, Finset.mul_sum, mul_pow]
  unfold IsLstsqM
  simp only [e]
  exact forall_congr' (fun Z' => mul_le_mul_iff_right₀ (by positivity))

theorem gram_scale {m : Nat} {α β : Type} (a : ℝ) (n : Nat) (w : Fin m → ℝ) (X : Matrix (Fin m) α ℝ) (Y : Matrix (Fin m) β ℝ) :
    gram n (some (fun i => a * w i)) X Y = a • gram n (some w) X Y := by
  unfold gram
  have : diagonal (fun i => a * w i) = a • diagonal w := by
    rw [← Matrix.diagonal_smul]; rfl
  simp only
  rw [this, Matrix.smul_mul, Matrix.mul_smul]

theorem isSystemMatrix_scale {a : ℝ} (ha : a ≠ 0) (n : Nat) (ps : List ((ι → ℝ) × (ι → ℝ))) (w : Fin ps.length → ℝ) (K : Matrix ι ι ℝ) :
    IsSystemMatrix n ps (some (fun i => a * w i)) K ↔ IsSystemMatrix n ps (some w) K := by
  unfold IsSystemMatrix
  rw [gram_scale, gram_scale]
  exact lstsq_smul ha _ _ _

theorem isSystemMatrix_const {a : ℝ} (ha : a ≠ 0) {n : Nat} (hn : n ≠ 0) (ps : List ((ι → ℝ) × (ι → ℝ))) (K : Matrix ι ι ℝ) :
    IsSystemMatrix n ps (some (fun _ => a)) K ↔ IsSystemMatrix n ps none K := by
  have := isSystemMatrix_scale ha n ps (fun _ => 1) K
  simp only [mul_one] at this
  rw [this]
  unfold IsSystemMatrix gram
  have h1 : (diagonal (fun _ => 1) : Matrix (Fin ps.length) (Fin ps.length) ℝ) = 1 := Matrix.diagonal_one
  simp only [h1, Matrix.one_mul]
  exact (lstsq_smul (by simp [hn]) _ _ _).symm

theorem fits_scale {k : TimeKind} {c : List (Row Int (ι → ℝ))} {a : ℝ} (ha : a ≠ 0) (w : List ℝ) (K : Matrix ι ι ℝ) :
    Fits k c (some (w.map (fun x => a * x))) K ↔ Fits k c (some w) K := by
  unfold Fits
  have e : ∀ i, (w.map (fun x => a * x)).getD i 0 = a * w.getD i 0 := by
    intro i
    simp only [List.getD_eq_getElem?_getD, List.getElem?_map]
    cases w[i]? <;> simp
  simp only [e, List.length_map, isSystemMatrix_scale ha]

/-- **C206 (scale).** Only the ratios of the weights matter. -/
theorem C206_scale {k : TimeKind} {c : List (Row Int (ι → ℝ))} {a : ℝ} (ha : a ≠ 0) (w : List ℝ) (K : Matrix ι ι ℝ) :
    FitsWeighted k c (some (w.map (fun x => a * x))) K ↔ FitsWeighted k c (some w) K := by
  unfold FitsWeighted readWeights spreadWeights
  simp only [List.length_map]
  by_cases h : w.length = ((shiftRows c).1.zip (shiftRows c).2).length
  · simp only [if_pos h, Except.ok.injEq, exists_eq_left', fits_scale ha]
  · simp only [if_neg h]
    match w with
    | [] => simp
    | [x] =>
      have := fits_scale (k := k) (c := c) ha (List.replicate ((shiftRows c).1.zip (shiftRows c).2).length x) K
      rw [List.map_replicate] at this
      simpa using this
    | x :: y :: w => simp

/-- **C206 (equal weights).** Equal weights, given once or for every pair, are the same as no weights. -/
theorem C206_uniform {k : TimeKind} {c : List (Row Int (ι → ℝ))} (hc : c ≠ []) {a : ℝ} (ha : a ≠ 0) {w : List ℝ} (hw : ∀ x ∈ w, x = a)
    (hl : w.length = 1 ∨ w.length = ((shiftRows c).1.zip (shiftRows c).2).length) (K : Matrix ι ι ℝ) : FitsWeighted k c (some w) K ↔ FitsWeighted k c none K := by
  have hn : c.length ≠ 0 := by simpa using hc
  have key : Fits k c (some (List.replicate ((shiftRows c).1.zip (shiftRows c).2).length a)) K ↔ Fits k c none K := by
    unfold Fits
    refine and_congr_right (fun _ => ?_)
    constructor
    · rintro ⟨L, R, h, hl, hK⟩
      refine ⟨L, R, h, ?_⟩
      have hLR : (L, R) = shiftRows c := by
        unfold shiftMatrices at h
        split at h
        · cases h
        · simpa using h.symm
      refine (isSystemMatrix_const ha hn (L.zip R) K).1 ?_
      have e : (fun i : Fin (L.zip R).length => (List.replicate ((shiftRows c).1.zip (shiftRows c).2).length a).getD i 0) = fun _ => a := by
        funext i
        have hi : (i : Nat) < ((shiftRows c).1.zip (shiftRows c).2).length := by rw [← hLR]; exact i.2
        rw [List.getD_eq_getElem?_getD, List.getElem?_replicate, if_pos hi]; rfl
      rw [e] at hK
      exact hK
    · rintro ⟨L, R, h, hK⟩
      have hLR : (L, R) = shiftRows c := by
        unfold shiftMatrices at h
        split at h
        · cases h
        · simpa using h.symm
      refine ⟨L, R, h, by rw [← hLR]; simp, ?_⟩
      have e : (fun i : Fin (L.zip R).length => (List.replicate ((shiftRows c).1.zip (shiftRows c).2).length a).getD i 0) = fun _ => a := by
        funext i
        have hi : (i : Nat) < ((shiftRows c).1.zip (shiftRows c).2).length := by rw [← hLR]; exact i.2
        rw [List.getD_eq_getElem?_getD, List.getElem?_replicate, if_pos hi]; rfl
      rw [e]
      exact (isSystemMatrix_const ha hn (L.zip R) K).2 hK
  have e2 : FitsWeighted k c none K ↔ Fits k c none K := by simp [FitsWeighted, readWeights]
  rw [e2, ← key]
  by_cases h : w.length = ((shiftRows c).1.zip (shiftRows c).2).length
  · rw [fitsWeighted_iff h, ← h, ← List.eq_replicate_of_mem hw]
  · obtain ⟨x, rfl⟩ := List.length_eq_one_iff.1 (hl.resolve_right h)
    obtain rfl := hw x (by simp)
    unfold FitsWeighted readWeights spreadWeights
    simp only [if_neg h, Except.ok.injEq, exists_eq_left']

/-- **C206 (weights count the pairs).** With natural numbers as weights, the fitted models are those of data that hold every pair of consecutive samples as often as its weight says, in any
arrangement; a pair of weight zero may as well be missing.  (For IDs in ascending order or series of equal lengths.) -/
theorem C206_counts_partial {k : TimeKind} {c c' : List (Row Int (ι → ℝ))} (hc : c ≠ []) (hc' : c' ≠ []) (hv : Valid c) (hv' : Valid c')
    (hs : IdsAscending c ∨ EqualLengths c) (hs' : IdsAscending c' ∨ EqualLengths c') (h2 : ∀ i, HasId c i → 2 ≤ (series c i).length)
    (h2' : ∀ i, HasId c' i → 2 ≤ (series c' i).length) (hk : isConstDeltaTime k c = true) (hk' : isConstDeltaTime k c' = true) {ns : List Nat}
    (hl : ns.length = (snapshotPairs c).length) (hp : (snapshotPairs c').Perm (repeated ns (snapshotPairs c))) (K : Matrix ι ι ℝ) :
    FitsWeighted k c (some (ns.map (fun n : Nat => (n : ℝ)))) K ↔ FitsWeighted k c' none K := by
  have e2 : FitsWeighted k c' none K ↔ Fits k c' none K := by simp [FitsWeighted, readWeights]
  rw [e2, fitsWeighted_iff (by rw [List.length_map, (pairs_eq hc hv hs h2).1, hl]),
    C30_least_squares_partial hc hv hs h2 hk _ (by
      rintro v hv'; cases hv'
      refine ⟨by rw [List.length_map, hl], ?_⟩
      intro a ha
      obtain ⟨n, -, rfl⟩ := List.mem_map.1 ha
      exact Nat.cast_nonneg n),
    C30_least_squares_partial hc' hv' hs' h2' hk' none (fun v hv => nomatch hv)]
  have e : ∀ K : Matrix ι ι ℝ, totalError (weightsOf none (snapshotPairs c').length) (snapshotPairs c') K =
      totalError (weightsOf (some (ns.map (fun n : Nat => (n : ℝ)))) (snapshotPairs c).length) (snapshotPairs c) K := by
    intro K
    classical
    simp only [weightsOf, Option.getD_none, Option.getD_some, totalError_ones]
    rw [← totalError_repeated]
    exact (hp.map _).sum_eq
  simp only [e]

/-- Two series of two samples. -/
def exNeg : List (Row Int (Fin 1 → ℝ)) := [⟨0, 0, ![1]⟩, ⟨0, 1, ![1]⟩, ⟨1, 0, ![1]⟩, ⟨1, 1, ![3]⟩]

/-- **C206 is violated for negative weights.** They are accepted, but the result can be the matrix with the *largest* weighted error. -/
theorem C206_negative_violated : ∃ (c : List (Row Int (Fin 1 → ℝ))) (w : List ℝ) (K : Matrix (Fin 1) (Fin 1) ℝ), Valid c ∧ w.length = (snapshotPairs c).length ∧
    FitsWeighted .int c (some w) K ∧ ∀ K', K' ≠ K → totalError w (snapshotPairs c) K' < totalError w (snapshotPairs c) K := by
  have hp : snapshotPairs exNeg = [(![1], ![1]), (![1], ![3])] := rfl
  have hz : (shiftRows exNeg).1.zip (shiftRows exNeg).2 = [(![1], ![1]), (![1], ![3])] := rfl
  refine ⟨exNeg, [1, -2], !![5], (valid_iff _).2 ⟨by decide +kernel, by simp [Before, exNeg]⟩, by rw [hp]; rfl, ?_, ?_⟩
  · rw [fitsWeighted_iff (by rw [hz]; rfl)]
    refine ⟨by decide, [![1], ![1]], [![1], ![3]], rfl, rfl, ?_⟩
    intro Z
    have e : gram exNeg.length (some (fun i : Fin 2 => ([1, -2] : List ℝ).getD i 0)) (startM [((![1] : Fin 1 → ℝ), (![1] : Fin 1 → ℝ)), (![1], ![3])])
        (startM [((![1] : Fin 1 → ℝ), (![1] : Fin 1 → ℝ)), (![1], ![3])]) * (!![5] : Matrix (Fin 1) (Fin 1) ℝ)ᵀ -
        gram exNeg.length (some (fun i : Fin 2 => ([1, -2] : List ℝ).getD i 0)) (startM [((![1] : Fin 1 → ℝ), (![1] : Fin 1 → ℝ)), (![1], ![3])])
        (endM [((![1] : Fin 1 → ℝ), (![1] : Fin 1 → ℝ)), (![1], ![3])]) = 0 := by
      ext i j; fin_cases i; fin_cases j
      simp [gram, startM, endM, Matrix.mul_apply, Matrix.diagonal, Fin.sum_univ_two]
      norm_num
    refine le_trans (le_of_eq ?_) (sqSum_nonneg _)
    exact sqSum_eq_zero.2 e
  · intro K' hK
    rw [hp]
    have e : ∀ M : Matrix (Fin 1) (Fin 1) ℝ, totalError [1, -2] [((![1] : Fin 1 → ℝ), (![1] : Fin 1 → ℝ)), (![1], ![3])] M = 8 - (M 0 0 - 5) ^ 2 := by
      intro M
      simp [totalError, stepError, Matrix.mulVec, dotProduct]
      ring
    have h5 : K' 0 0 ≠ 5 := by
      intro h; apply hK; ext i j; fin_cases i; fin_cases j; simpa using h
    rw [e, e]
    have : 0 < (K' 0 0 - 5) ^ 2 := by
      have : K' 0 0 - 5 ≠ 0 := sub_ne_zero.2 h5
      positivity
    simpa using this

/-- The second of the series twice, the first one not at all. -/
def exTwice : List (Row Int (Fin 1 → ℝ)) := [⟨3, 0, ![1]⟩, ⟨3, 1, ![3]⟩, ⟨7, 5, ![1]⟩, ⟨7, 6, ![3]⟩]

theorem exNeg_two : ∀ i, HasId exNeg i → 2 ≤ (series exNeg i).length := by
  rintro i ⟨r, hr, rfl⟩
  simp only [exNeg, List.mem_cons, List.not_mem_nil, or_false] at hr
  rcases hr with rfl | rfl | rfl | rfl <;> decide

theorem exTwice_two : ∀ i, HasId exTwice i → 2 ≤ (series exTwice i).length := by
  rintro i ⟨r, hr, rfl⟩
  simp only [exTwice, List.mem_cons, List.not_mem_nil, or_false] at hr
  rcases hr with rfl | rfl | rfl | rfl <;> decide

/-- non-vacuity: the weights 0 and 2 -/
example : ∃ K, FitsWeighted .int exNeg (some (([0, 2] : List Nat).map (fun n : Nat => (n : ℝ)))) K ∧ FitsWeighted .int exTwice none K := by
  obtain ⟨K, h⟩ := C30_exists (k := .int) (c := exTwice) (by simp [exTwice]) exTwice_two (by decide)
  have h' : FitsWeighted .int exTwice none K := ⟨none, rfl, h⟩
  refine ⟨K, (C206_counts_partial (by simp [exNeg]) (by simp [exTwice]) ((valid_iff _).2 ⟨by decide +kernel, by simp [Before, exNeg]⟩)
    ((valid_iff _).2 ⟨by decide +kernel, by simp [Before, exTwice]⟩) (Or.inl (by unfold IdsAscending; decide)) (Or.inl (by unfold IdsAscending; decide))
    exNeg_two exTwice_two (by decide) (by decide) rfl (List.Perm.refl _) K).2 h', h'⟩

/-- non-vacuity: four equal weights for the four samples of two series are rejected, two of them are the same as no weights -/
example : (∀ K, ¬ FitsWeighted .int exNeg (some [1, 1, 1, 1]) K) ∧ ∃ K, FitsWeighted .int exNeg (some [3, 3]) K := by
  refine ⟨fun K => C206_samples_violated (by simp [exNeg]) ((valid_iff _).2 ⟨by decide +kernel, by simp [Before, exNeg]⟩) (Or.inl (by unfold IdsAscending; decide))
    exNeg_two _ rfl K, ?_⟩
  obtain ⟨K, h⟩ := C30_exists (k := .int) (c := exNeg) (by simp [exNeg]) exNeg_two (by decide)
  exact ⟨K, (C206_uniform (a := 3) (by simp [exNeg]) (by norm_num) (by simp) (Or.inr rfl) K).2 ⟨none, rfl, h⟩⟩

/-! ### Residuals -/

/-- The weighted squared violation of `φ(y) = λ φ(x)` of the linear observable `φ(x) = Σ v_i x_i`. -/
noncomputable def weightedViolation (w : List ℝ) (ps : List ((ι → ℝ) × (ι → ℝ))) (ev : ℂ) (v : ι → ℂ) : ℝ :=
  ((w.zip ps).map (fun p => p.1 * Complex.normSq (toC p.2.2 ⬝ᵥ v - ev * (toC p.2.1 ⬝ᵥ v)))).sum

theorem form_weighted {m : Nat} (n : Nat) (w : Fin m → ℝ) (X Y : Matrix (Fin m) ι ℝ) (v : ι → ℂ) :
    star v ⬝ᵥ toCM (gram n (some w) X Y) *ᵥ v = ∑ k, (w k : ℂ) * (star (toC (X k) ⬝ᵥ v) * (toC (Y k) ⬝ᵥ v)) := by
  have h : toCM (gram n (some w) X Y) = (toCM X)ᵀ * toCM (diagonal w * Y) := by
    unfold gram
    ext i j
    simp [toCM, Matrix.mul_apply]
  have hx : ∀ k, (toCM (diagonal w * Y) *ᵥ v) k = (w k : ℂ) * (toC (Y k) ⬝ᵥ v) := by
    intro k
    simp [Matrix.mulVec, dotProduct, toCM, toC, Matrix.diagonal_mul, Finset.mul_sum, mul_assoc]
  have hs : star v ᵥ* (toCM X)ᵀ = star (toCM X *ᵥ v) := by
    rw [Matrix.vecMul_transpose]
    funext k
    simp only [Matrix.mulVec, dotProduct, toCM, Matrix.map_apply, Pi.star_apply, star_sum, star_mul', RCLike.star_def, Complex.conj_ofReal]
  rw [h, ← Matrix.mulVec_mulVec, Matrix.dotProduct_mulVec, hs, dotProduct]
  refine Finset.sum_congr rfl (fun k _ => ?_)
  rw [hx]
  have : star (toCM X *ᵥ v) k = star (toC (X k) ⬝ᵥ v) := rfl
  rw [this]; ring

theorem weighted_sum {α : Type} (f : α → ℝ) : ∀ (ps : List α) (w : List ℝ), w.length = ps.length →
    ∑ k : Fin ps.length, w.getD k 0 * f ps[k] = ((w.zip ps).map (fun p => p.1 * f p.2)).sum := by
  intro ps
  induction ps with
  | nil => intro w _; simp
  | cons p ps ih =>
    intro w hl
    cases w with
    | nil => simp at hl
    | cons a w =>
      rw [List.zip_cons_cons, List.map_cons, List.sum_cons, ← ih w (by simpa using hl)]
      erw [Fin.sum_univ_succ]
      simp

/-- **C206 (residuals).** With weights, the squared residual of a component is the weighted squared violation of `φ(y) = λ φ(x)` divided by the weighted square of `φ(x)`. -/
theorem C206_residuals {ps : List ((ι → ℝ) × (ι → ℝ))} {w : List ℝ} (hl : w.length = ps.length) (ev : ℂ) (v : ι → ℂ) :
    weightedResidual ps (fun i => w.getD i 0) ev v = (weightedViolation w ps ev v, ((w.zip ps).map (fun p => p.1 * Complex.normSq (toC p.2.1 ⬝ᵥ v))).sum) := by
  have hT : ∀ X Y : Matrix (Fin ps.length) ι ℝ, (toCM (gram 0 (some (fun i : Fin ps.length => w.getD i 0)) X Y))ᵀ = toCM (gram 0 (some (fun i : Fin ps.length => w.getD i 0)) Y X) := by
    intro X Y
    have : (gram 0 (some (fun i : Fin ps.length => w.getD i 0)) X Y)ᵀ = gram 0 (some (fun i : Fin ps.length => w.getD i 0)) Y X := by
      unfold gram
      simp only
      rw [Matrix.transpose_mul, Matrix.transpose_mul, Matrix.transpose_transpose, Matrix.diagonal_transpose, Matrix.mul_assoc]
    rw [← this]; rfl
  unfold weightedResidual residualParts weightedViolation
  simp only [hT]
  refine Prod.ext ?_ ?_
  · simp only
    rw [Matrix.add_mulVec, Matrix.sub_mulVec, Matrix.sub_mulVec, dotProduct_add, dotProduct_sub, dotProduct_sub]
    simp only [Matrix.smul_mulVec, dotProduct_smul, form_weighted, smul_eq_mul]
    rw [← weighted_sum (fun p : (ι → ℝ) × (ι → ℝ) => Complex.normSq (toC p.2 ⬝ᵥ v - ev * (toC p.1 ⬝ᵥ v))) ps w hl]
    rw [← Complex.ofReal_re (∑ k : Fin ps.length, _)]
    congr 1
    rw [Complex.ofReal_sum, Finset.mul_sum, Finset.mul_sum, Finset.mul_sum, ← Finset.sum_sub_distrib, ← Finset.sum_sub_distrib, ← Finset.sum_add_distrib]
    refine Finset.sum_congr rfl (fun k _ => ?_)
    have e1 : startM ps k = ps[k].1 := rfl
    have e2 : endM ps k = ps[k].2 := rfl
    rw [e1, e2]
    simp only [Complex.ofReal_mul, Complex.normSq_eq_conj_mul_self, map_sub, map_mul, RCLike.star_def]
    ring
  · simp only
    rw [form_weighted, ← weighted_sum (fun p : (ι → ℝ) × (ι → ℝ) => Complex.normSq (toC p.1 ⬝ᵥ v)) ps w hl, ← Complex.ofReal_re (∑ k : Fin ps.length, _)]
    congr 1
    rw [Complex.ofReal_sum]
    refine Finset.sum_congr rfl (fun k _ => ?_)
    have e1 : startM ps k = ps[k].1 := rfl
    rw [e1]
    simp only [Complex.ofReal_mul, Complex.normSq_eq_conj_mul_self, RCLike.star_def]

end Verif.Dmd
