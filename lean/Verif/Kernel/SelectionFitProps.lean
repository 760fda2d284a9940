import Verif.Kernel.SelectionFit
import Verif.Kernel.SelectionProps
import Mathlib.Data.List.GetD
/-!
# C227: the selection by local regression does not depend on signs, scale, order of samples or the least squares solution
-/

namespace Verif.Kernel

open Matrix

variable {s p q : Nat}

/-! ### Specification -/

/-- The columns have other signs, and all of them are multiplied by the same positive factor. -/
def SameUpToSigns {m : Nat} (c : ℝ) (V V' : Matrix (Fin s) (Fin m) ℝ) : Prop :=
  ∃ σ : Fin m → ℝ, (∀ b, σ b = 1 ∨ σ b = -1) ∧ ∀ a b, V' a b = c * σ b * V a b

/-- Number of (ordered) pairs of rows whose squared distance satisfies a condition. -/
noncomputable def pairCount (X : Matrix (Fin s) (Fin q) ℝ) (P : ℝ → Prop) [DecidablePred P] : Nat :=
  (Finset.univ.filter (fun ij : Fin s × Fin s => P (∑ b, (X ij.1 b - X ij.2 b) ^ 2))).card

/-! ### Lemmas: bandwidth -/

theorem sqDist_nn (x y : Fin q → ℝ) : 0 ≤ sqDist x y := Finset.sum_nonneg (fun _ _ => sq_nonneg _)

theorem flatSquares_eq (X : Matrix (Fin s) (Fin q) ℝ) : flatSquares X = (List.finRange s).flatMap (fun i => (List.finRange s).map (fun j => sqDist (X i) (X j))) := by
  unfold flatSquares
  simp only [Real.sq_sqrt (sqDist_nn _ _)]

theorem countP_sum {α : Type} (P : α → Bool) : ∀ l : List α, l.countP P = (l.map (fun a => if P a = true then 1 else 0)).sum
  | [] => rfl
  | a :: l => by
    rw [List.countP_cons, List.map_cons, List.sum_cons, countP_sum P l, add_comm]

theorem flatSquares_countP (X : Matrix (Fin s) (Fin q) ℝ) (P : ℝ → Prop) [DecidablePred P] : (flatSquares X).countP (fun x => decide (P x)) = pairCount X P := by
  rw [flatSquares_eq, List.countP_flatMap, ← Fin.sum_univ_def]
  unfold pairCount
  rw [Finset.card_filter, Fintype.sum_prod_type]
  refine Finset.sum_congr rfl (fun i _ => ?_)
  rw [Function.comp_apply, countP_sum, List.map_map, ← Fin.sum_univ_def]
  refine Finset.sum_congr rfl (fun j _ => ?_)
  simp [sqDist]

theorem flatSquares_sum (X : Matrix (Fin s) (Fin q) ℝ) : (flatSquares X).sum = ∑ i, ∑ j, sqDist (X i) (X j) := by
  rw [flatSquares_eq, List.flatMap_def, List.sum_flatten, List.map_map, ← Fin.sum_univ_def]
  refine Finset.sum_congr rfl (fun i _ => ?_)
  rw [Function.comp_apply, ← Fin.sum_univ_def]

theorem flatSquares_length (X : Matrix (Fin s) (Fin q) ℝ) : (flatSquares X).length = s * s := by
  rw [flatSquares_eq, List.length_flatMap]
  simp

theorem le_countP_take {α : Type} {P : α → Bool} {l : List α} {k : Nat} (hk : k ≤ l.length) (h : ∀ a ∈ l.take k, P a = true) : k ≤ l.countP P := by
  conv_rhs => rw [← List.take_append_drop k l]
  rw [List.countP_append, List.countP_eq_length.2 h, List.length_take]
  omega

theorem le_countP_drop {α : Type} {P : α → Bool} {l : List α} {k : Nat} (h : ∀ a ∈ l.drop k, P a = true) : l.length - k ≤ l.countP P := by
  conv_rhs => rw [← List.take_append_drop k l]
  rw [List.countP_append, List.countP_eq_length.2 h, List.length_drop]
  omega

/-- The list sorted as `median` does. -/
theorem sortedReal (l : List ℝ) : ∃ t : List ℝ, t = l.mergeSort (fun a b => @decide (a ≤ b) (Classical.propDecidable _)) ∧ t.Perm l ∧ t.Pairwise (· ≤ ·) := by
  refine ⟨_, rfl, List.mergeSort_perm _ _, ?_⟩
  have := List.pairwise_mergeSort (le := fun a b : ℝ => @decide (a ≤ b) (Classical.propDecidable _)) (by simp; intro a b c; exact le_trans) (by simp; exact le_total) l
  simpa using this

theorem sorted_getD {t : List ℝ} (h : t.Pairwise (· ≤ ·)) {i j : Nat} (hij : i ≤ j) (hj : j < t.length) : t.getD i 0 ≤ t.getD j 0 := by
  rw [List.getD_eq_getElem _ _ (by omega), List.getD_eq_getElem _ _ hj]
  rcases Nat.lt_or_eq_of_le hij with h1 | h1
  · exact List.pairwise_iff_getElem.1 h i j (by omega) hj h1
  · subst h1; rfl

/-- At least half of the entries are at most the median, and at least half are at least the median. -/
theorem median_spec {l : List ℝ} (hl : l ≠ []) : l.length ≤ 2 * l.countP (fun x => decide (x ≤ median l)) ∧ l.length ≤ 2 * l.countP (fun x => decide (median l ≤ x)) := by
  obtain ⟨t, ht, hp, hs⟩ := sortedReal l
  have hlen := hp.length_eq
  have hpos : 0 < l.length := List.length_pos_iff.2 hl
  have hm : median l = if l.length % 2 = 1 then t.getD (l.length / 2) 0 else (t.getD (l.length / 2 - 1) 0 + t.getD (l.length / 2) 0) / 2 := by
    unfold median; rw [ht]
  rw [← hp.countP_eq, ← hp.countP_eq]
  have hmem : ∀ k x, x ∈ t.take k → ∃ i, i < k ∧ i < t.length ∧ x = t.getD i 0 := by
    intro k x hx
    obtain ⟨i, hi, rfl⟩ := List.mem_iff_getElem.1 hx
    rw [List.length_take] at hi
    exact ⟨i, by omega, by omega, by rw [List.getElem_take, List.getD_eq_getElem _ _ (by omega)]⟩
  have hmem' : ∀ k x, x ∈ t.drop k → ∃ i, k ≤ i ∧ i < t.length ∧ x = t.getD i 0 := by
    intro k x hx
    obtain ⟨i, hi, rfl⟩ := List.mem_iff_getElem.1 hx
    rw [List.length_drop] at hi
    exact ⟨k + i, by omega, by omega, by rw [List.getElem_drop, List.getD_eq_getElem _ _ (by omega)]⟩
  by_cases ho : l.length % 2 = 1
  · rw [if_pos ho] at hm
    have h1 : l.length / 2 + 1 ≤ t.countP (fun x => decide (x ≤ median l)) := le_countP_take (by omega) (by
      intro x hx
      obtain ⟨i, hi, hi', rfl⟩ := hmem _ _ hx
      rw [decide_eq_true_eq, hm]
      exact sorted_getD hs (by omega) (by omega))
    have h2 : t.length - l.length / 2 ≤ t.countP (fun x => decide (median l ≤ x)) := le_countP_drop (by
      intro x hx
      obtain ⟨i, hi, hi', rfl⟩ := hmem' _ _ hx
      rw [decide_eq_true_eq, hm]
      exact sorted_getD hs (by omega) (by omega))
    omega
  · rw [if_neg ho] at hm
    have h3 := sorted_getD hs (i := l.length / 2 - 1) (j := l.length / 2) (by omega) (by omega)
    have h1 : l.length / 2 ≤ t.countP (fun x => decide (x ≤ median l)) := le_countP_take (by omega) (by
      intro x hx
      obtain ⟨i, hi, hi', rfl⟩ := hmem _ _ hx
      rw [decide_eq_true_eq, hm]
      have := sorted_getD hs (i := i) (j := l.length / 2 - 1) (by omega) (by omega)
      linarith)
    have h2 : t.length - l.length / 2 ≤ t.countP (fun x => decide (median l ≤ x)) := le_countP_drop (by
      intro x hx
      obtain ⟨i, hi, hi', rfl⟩ := hmem' _ _ hx
      rw [decide_eq_true_eq, hm]
      have := sorted_getD hs (i := l.length / 2) (j := i) (by omega) (by omega)
      linarith)
    omega

theorem median_nonneg {l : List ℝ} (h : ∀ x ∈ l, 0 ≤ x) : 0 ≤ median l := by
  obtain ⟨t, ht, hp, hs⟩ := sortedReal l
  have hg : ∀ i, 0 ≤ t.getD i 0 := by
    intro i
    by_cases hi : i < t.length
    · rw [List.getD_eq_getElem _ _ hi]; exact h _ (hp.mem_iff.1 (List.getElem_mem hi))
    · rw [List.getD_eq_default _ _ (by omega)]
  have hm : median l = if l.length % 2 = 1 then t.getD (l.length / 2) 0 else (t.getD (l.length / 2 - 1) 0 + t.getD (l.length / 2) 0) / 2 := by
    unfold median; rw [ht]
  rw [hm]
  split_ifs
  · exact hg _
  · have := hg (l.length / 2 - 1); have := hg (l.length / 2); linarith

theorem median_perm {l l' : List ℝ} (h : l.Perm l') : median l = median l' := by
  obtain ⟨t, ht, hp, hs⟩ := sortedReal l
  obtain ⟨t', ht', hp', hs'⟩ := sortedReal l'
  have : t = t' := List.Perm.eq_of_pairwise (fun a b _ _ => le_antisymm) hs hs' (hp.trans (h.trans hp'.symm))
  unfold median
  rw [← ht, ← ht', this, h.length_eq]

theorem median_scale {a : ℝ} (ha : 0 < a) (l : List ℝ) : median (l.map (a * ·)) = a * median l := by
  obtain ⟨t, ht, hp, hs⟩ := sortedReal l
  obtain ⟨t', ht', hp', hs'⟩ := sortedReal (l.map (a * ·))
  have hte : t' = t.map (a * ·) := by
    refine List.Perm.eq_of_pairwise (fun a b _ _ => le_antisymm) hs' ?_ (hp'.trans (hp.map _).symm)
    rw [List.pairwise_map]
    exact hs.imp (fun h => mul_le_mul_of_nonneg_left h ha.le)
  have hg : ∀ i, (t.map (a * ·)).getD i 0 = a * t.getD i 0 := by
    intro i
    simp only [List.getD_eq_getElem?_getD, List.getElem?_map]
    cases t[i]? <;> simp
  unfold median
  rw [← ht, ← ht', hte, List.length_map]
  simp only [hg]
  split_ifs <;> ring

theorem mean_scale (a : ℝ) (l : List ℝ) : mean (l.map (a * ·)) = a * mean l := by
  unfold mean
  rw [List.sum_map_mul_left _ _ _, List.length_map, List.map_id']
  ring

theorem bandwidth_pos (b : BandwidthType) {scale machineEps : ℝ} (hs : 0 < scale) (he : 0 < machineEps) (X : Matrix (Fin s) (Fin q) ℝ) : 0 < regressionBandwidth b scale machineEps X := by
  have hn : ∀ x ∈ flatSquares X, 0 ≤ x := by
    rw [flatSquares_eq]
    intro x hx
    obtain ⟨i, _, hx⟩ := List.mem_flatMap.1 hx
    obtain ⟨j, _, rfl⟩ := List.mem_map.1 hx
    exact sqDist_nn _ _
  unfold regressionBandwidth
  simp only
  split_ifs with h
  · exact he
  · refine lt_of_le_of_ne (div_nonneg ?_ hs.le) (Ne.symm h)
    cases b with
    | median => exact median_nonneg hn
    | mean => exact div_nonneg (List.sum_nonneg hn) (Nat.cast_nonneg _)

/-! ### Lemmas: coefficients -/

/-- The weighted normal equations are solved exactly. -/
theorem coeffRow_exact {eps : ℝ} {X : Matrix (Fin s) (Fin q) ℝ} {i : Fin s} {row : Fin s → ℝ} : IsCoeffRow eps X i row ↔ ∃ A : Matrix (Option (Fin q)) (Fin s) ℝ,
    ((regressionData X i)ᵀ * Matrix.diagonal (regressionWeights eps X i) * regressionData X i) * A = (regressionData X i)ᵀ * Matrix.diagonal (regressionWeights eps X i) ∧ row = A none := by
  constructor
  · rintro ⟨A, hA, hr⟩
    refine ⟨A, ?_, hr⟩
    set w := regressionWeights eps X i with hwdef
    have hw : ∀ j, 0 ≤ w j := fun j => (Real.exp_pos _).le
    set D := regressionData X i
    have hd : Matrix.diagonal w = (Matrix.diagonal (fun i => Real.sqrt (w i)))ᵀ * Matrix.diagonal (fun i => Real.sqrt (w i)) := by
      rw [diagonal_transpose, diagonal_mul_diagonal]
      congr 1
      funext i
      exact (Real.mul_self_sqrt (hw i)).symm
    set R := Matrix.diagonal (fun i => Real.sqrt (w i)) with hR
    obtain ⟨Z, hZ⟩ := Lin.exists_normal (R * D) R
    have hZ' : (Dᵀ * Matrix.diagonal w * D) * Z = Dᵀ * Matrix.diagonal w := by
      rw [hd]
      rw [transpose_mul] at hZ
      simp only [Matrix.mul_assoc] at hZ ⊢
      exact hZ
    exact hA.solves hZ'
  · rintro ⟨A, hA, hr⟩
    refine ⟨A, fun Z' => ?_, hr⟩
    rw [hA, sub_self, Lin.sqSum_eq_zero.2 rfl]
    exact Lin.sqSum_nonneg _

/-- The first row is the same for all solutions. -/
theorem coeffRow_unique {eps : ℝ} {X : Matrix (Fin s) (Fin q) ℝ} {i : Fin s} {row row' : Fin s → ℝ} (h : IsCoeffRow eps X i row) (h' : IsCoeffRow eps X i row') : row = row' := by
  obtain ⟨A, hA, rfl⟩ := coeffRow_exact.1 h
  obtain ⟨B, hB, rfl⟩ := coeffRow_exact.1 h'
  set w := regressionWeights eps X i with hwdef
  have hw : ∀ j, 0 < w j := fun j => Real.exp_pos _
  set D := regressionData X i with hD
  funext j
  set e : Option (Fin q) → ℝ := fun o => A o j - B o j with he
  have h0 : (Dᵀ * Matrix.diagonal w * D) *ᵥ e = 0 := by
    have : (Dᵀ * Matrix.diagonal w * D) * (A - B) = 0 := by rw [Matrix.mul_sub, hA, hB, sub_self]
    funext o
    have := congrFun (congrFun this o) j
    simpa [Matrix.mul_apply, mulVec, dotProduct, he] using this
  have h1 : ∑ i, w i * ((D *ᵥ e) i) ^ 2 = 0 := by
    have : e ⬝ᵥ ((Dᵀ * Matrix.diagonal w * D) *ᵥ e) = 0 := by rw [h0, dotProduct_zero]
    rw [← mulVec_mulVec, ← mulVec_mulVec, dotProduct_mulVec, vecMul_transpose] at this
    rw [← this]
    simp only [dotProduct, mulVec_diagonal]
    exact Finset.sum_congr rfl (fun i _ => by ring)
  have h2 : (D *ᵥ e) i = 0 := by
    have := (Finset.sum_eq_zero_iff_of_nonneg (fun i _ => mul_nonneg (hw i).le (sq_nonneg _))).mp h1 i (Finset.mem_univ i)
    have := (mul_eq_zero.mp this).resolve_left (hw i).ne'
    exact pow_eq_zero_iff (two_ne_zero) |>.mp this
  have h3 : (D *ᵥ e) i = e none := by
    simp only [hD, mulVec, dotProduct, Fintype.sum_option, regressionData, of_apply, one_mul, sub_self, zero_mul, Finset.sum_const_zero, add_zero]
  rw [h3] at h2
  exact sub_eq_zero.1 h2

/-- Other signs and another scale of the columns with the same weights. -/
theorem coeffRow_scale {eps eps' : ℝ} {X X' : Matrix (Fin s) (Fin q) ℝ} {i : Fin s} {row : Fin s → ℝ} (d : Fin q → ℝ) (hd : ∀ b, d b ≠ 0) (hX : ∀ a b, X' a b = d b * X a b)
    (hw : regressionWeights eps' X' i = regressionWeights eps X i) (h : IsCoeffRow eps X i row) : IsCoeffRow eps' X' i row := by
  rw [coeffRow_exact] at h ⊢
  obtain ⟨A, hA, rfl⟩ := h
  let D : Option (Fin q) → ℝ := fun o => o.elim 1 d
  let D' : Option (Fin q) → ℝ := fun o => o.elim 1 (fun b => (d b)⁻¹)
  have hdata : regressionData X' i = regressionData X i * Matrix.diagonal D := by
    ext j o
    rw [mul_diagonal]
    cases o with
    | none => simp [regressionData, D]
    | some a => simp [regressionData, D, hX]; ring
  have hinv : Matrix.diagonal D * Matrix.diagonal D' = 1 := by
    rw [diagonal_mul_diagonal, ← diagonal_one]
    congr 1
    funext o
    cases o with
    | none => simp [D, D']
    | some a => simp [D, D', hd a]
  refine ⟨Matrix.diagonal D' * A, ?_, ?_⟩
  · rw [hdata, hw, transpose_mul, diagonal_transpose]
    have := congrArg (fun M => Matrix.diagonal D * M) hA
    simp only [Matrix.mul_assoc] at this ⊢
    rw [← this]
    congr 4
    rw [← Matrix.mul_assoc, hinv, Matrix.one_mul]
  · funext j
    rw [diagonal_mul]
    simp [D']

theorem coeffRow_perm {eps : ℝ} {X : Matrix (Fin s) (Fin q) ℝ} (π : Equiv.Perm (Fin s)) {i : Fin s} {row : Fin s → ℝ} (h : IsCoeffRow eps X (π i) row) :
    IsCoeffRow eps (X.submatrix π id) i (fun j => row (π j)) := by
  rw [coeffRow_exact] at h ⊢
  obtain ⟨A, hA, rfl⟩ := h
  have hdata : regressionData (X.submatrix π id) i = (regressionData X (π i)).submatrix π id := by
    ext j o
    cases o with
    | none => simp [regressionData]
    | some a => simp [regressionData]
  have hw : Matrix.diagonal (regressionWeights eps (X.submatrix π id) i) = (Matrix.diagonal (regressionWeights eps X (π i))).submatrix π π := by
    rw [submatrix_diagonal _ _ π.injective]
    rfl
  refine ⟨A.submatrix id π, ?_, rfl⟩
  rw [hdata, hw, transpose_submatrix, submatrix_mul_equiv, submatrix_mul_equiv]
  have := congrArg (fun M => M.submatrix id π) hA
  rw [← this]
  rfl

theorem weights_scale {b : BandwidthType} {scale machineEps c : ℝ} (hc : 0 < c) {X X' : Matrix (Fin s) (Fin q) ℝ} (hX : SameUpToSigns c X X')
    (h : c = 1 ∨ regressionBandwidth b scale 0 X ≠ 0) (i : Fin s) :
    regressionWeights (regressionBandwidth b scale machineEps X') X' i = regressionWeights (regressionBandwidth b scale machineEps X) X i := by
  obtain ⟨σ, hσ, hX⟩ := hX
  have hd : ∀ i j, sqDist (X' i) (X' j) = c ^ 2 * sqDist (X i) (X j) := by
    intro i j
    unfold sqDist
    rw [Finset.mul_sum]
    refine Finset.sum_congr rfl (fun a _ => ?_)
    rw [hX, hX]
    rcases hσ a with e | e <;> rw [e] <;> ring
  have hf : flatSquares X' = (flatSquares X).map (c ^ 2 * ·) := by
    rw [flatSquares_eq, flatSquares_eq, List.map_flatMap]
    simp only [List.map_map, hd]
    rfl
  have hc2 : 0 < c ^ 2 := by positivity
  unfold regressionBandwidth at h ⊢
  simp only at h ⊢
  rw [hf, median_scale hc2, mean_scale]
  funext j
  unfold regressionWeights
  rw [Real.sq_sqrt (sqDist_nn _ _), Real.sq_sqrt (sqDist_nn _ _), hd]
  rcases h with rfl | h
  · simp
  · congr 1
    cases b <;> simp only at h ⊢ <;> split_ifs at h with h0
    · exact absurd rfl h
    · rw [if_neg h0, if_neg (by rw [mul_div_assoc]; exact mul_ne_zero hc2.ne' h0)]
      field_simp
    · exact absurd rfl h
    · rw [if_neg h0, if_neg (by rw [mul_div_assoc]; exact mul_ne_zero hc2.ne' h0)]
      field_simp

theorem bandwidth_perm (b : BandwidthType) (scale machineEps : ℝ) (X : Matrix (Fin s) (Fin q) ℝ) (π : Equiv.Perm (Fin s)) :
    regressionBandwidth b scale machineEps (X.submatrix π id) = regressionBandwidth b scale machineEps X := by
  have hp : ((List.finRange s).map π).Perm (List.finRange s) := by
    rw [List.perm_ext_iff_of_nodup ((List.nodup_finRange s).map π.injective) (List.nodup_finRange s)]
    intro a
    simp only [List.mem_map, List.mem_finRange, true_and, iff_true]
    exact π.surjective a
  have hf : (flatSquares (X.submatrix π id)).Perm (flatSquares X) := by
    rw [flatSquares_eq, flatSquares_eq]
    have e : (List.finRange s).flatMap (fun i => (List.finRange s).map (fun j => sqDist (X.submatrix π id i) (X.submatrix π id j))) =
        ((List.finRange s).map π).flatMap (fun i => ((List.finRange s).map π).map (fun j => sqDist (X i) (X j))) := by
      rw [List.flatMap_map]
      simp only [List.map_map]
      rfl
    rw [e]
    exact hp.flatMap (fun i _ => hp.map _)
  have hm : mean (flatSquares (X.submatrix π id)) = mean (flatSquares X) := by
    unfold mean; rw [hf.sum_eq, hf.length_eq]
  unfold regressionBandwidth
  rw [median_perm hf, hm]

theorem residual_transfer {b : BandwidthType} {scale machineEps : ℝ} {X X' : Matrix (Fin s) (Fin q) ℝ} {t t' : Fin s → ℝ} {k : ℝ} (hk : k ≠ 0) (ht : ∀ i, t' i = k * t i)
    (h : ∀ i row, IsCoeffRow (regressionBandwidth b scale machineEps X) X i row → IsCoeffRow (regressionBandwidth b scale machineEps X') X' i row) {r : Except KErr ℝ}
    (hr : IsResidual b scale machineEps X t r) : IsResidual b scale machineEps X' t' r := by
  obtain ⟨C, hC, rfl⟩ := hr
  refine ⟨C, fun i => h i _ (hC i), ?_⟩
  have ht' : t' = k • t := funext ht
  have h1 : ∑ i, t' i ^ 2 = k ^ 2 * ∑ i, t i ^ 2 := by
    rw [Finset.mul_sum]; exact Finset.sum_congr rfl (fun i _ => by rw [ht]; ring)
  have h2 : ∑ i, (t' i - (C *ᵥ t') i) ^ 2 = k ^ 2 * ∑ i, (t i - (C *ᵥ t) i) ^ 2 := by
    rw [Finset.mul_sum]
    refine Finset.sum_congr rfl (fun i _ => ?_)
    rw [ht', mulVec_smul, Pi.smul_apply, Pi.smul_apply, smul_eq_mul, smul_eq_mul]
    ring
  have hk2 : k ^ 2 ≠ 0 := pow_ne_zero 2 hk
  rw [h1, h2, mul_div_mul_left _ _ hk2]
  by_cases h0 : ∑ i, t i ^ 2 = 0
  · rw [if_pos h0, if_pos (by rw [h0, mul_zero])]
  · rw [if_neg h0, if_neg (mul_ne_zero hk2 h0)]

theorem sameUpToSigns_symm {m : Nat} {c : ℝ} (hc : 0 < c) {V V' : Matrix (Fin s) (Fin m) ℝ} (h : SameUpToSigns c V V') : SameUpToSigns c⁻¹ V' V := by
  obtain ⟨σ, hσ, h⟩ := h
  refine ⟨σ, hσ, fun a b => ?_⟩
  rw [h]
  rcases hσ b with e | e <;> rw [e] <;> field_simp

theorem fitResiduals_signs {b : BandwidthType} {scale machineEps c : ℝ} (hc : 0 < c) {V V' : Matrix (Fin s) (Fin (p + 2)) ℝ} (hV : SameUpToSigns c V V')
    (h : c = 1 ∨ ∀ t, regressionBandwidth b scale 0 (domainColumns V t) ≠ 0) {computed : List ℝ} (hf : FitResiduals b scale machineEps V computed) :
    FitResiduals b scale machineEps V' computed := by
  obtain ⟨σ, hσ, hV⟩ := hV
  obtain ⟨hl, hf⟩ := hf
  refine ⟨hl, fun t => ?_⟩
  have hσ0 : ∀ b, c * σ b ≠ 0 := fun b => mul_ne_zero hc.ne' (by rcases hσ b with e | e <;> rw [e] <;> norm_num)
  refine residual_transfer (k := c * σ ⟨t + 2, by omega⟩) (hσ0 _) (fun i => hV _ _) ?_ (hf t)
  intro i row hrow
  refine coeffRow_scale (fun b => c * σ ⟨b + 1, by omega⟩) (fun b => hσ0 _) (fun a b => hV _ _) ?_ hrow
  exact weights_scale hc ⟨fun b => σ ⟨b + 1, by omega⟩, fun b => hσ _, fun a b => hV _ _⟩ (h.imp id (fun h => h t)) i

theorem bandwidth_zero_scale {b : BandwidthType} {scale c : ℝ} (hc : 0 < c) {X X' : Matrix (Fin s) (Fin q) ℝ} (hX : SameUpToSigns c X X') (h : regressionBandwidth b scale 0 X ≠ 0) :
    regressionBandwidth b scale 0 X' ≠ 0 := by
  obtain ⟨σ, hσ, hX⟩ := hX
  have hf : flatSquares X' = (flatSquares X).map (c ^ 2 * ·) := by
    rw [flatSquares_eq, flatSquares_eq, List.map_flatMap]
    have hd : ∀ i j, sqDist (X' i) (X' j) = c ^ 2 * sqDist (X i) (X j) := by
      intro i j
      unfold sqDist
      rw [Finset.mul_sum]
      refine Finset.sum_congr rfl (fun a _ => ?_)
      rw [hX, hX]
      rcases hσ a with e | e <;> rw [e] <;> ring
    simp only [List.map_map, hd]
    rfl
  have hc2 : 0 < c ^ 2 := by positivity
  unfold regressionBandwidth at h ⊢
  simp only at h ⊢
  rw [hf, median_scale hc2, mean_scale]
  cases b <;> simp only [ite_eq_left_iff, ne_eq, not_forall, exists_prop] at h ⊢ <;>
    simp_all [mul_div_assoc, hc.ne']

/-! ### Property theorems -/

/-- **C227 (bandwidth).** The bandwidth of the regression is positive.  With `"mean"` it is the mean of the squared distances between all pairs of rows divided by `eps_med_scale`; with `"median"` it is
`m / eps_med_scale` for a number `m` such that at least half of the squared distances are at most `m` and at least half are at least `m`.  If that is zero, the machine precision is used. -/
theorem C227_bandwidth {scale machineEps : ℝ} (hs : 0 < scale) (he : 0 < machineEps) (hn : 0 < s) (X : Matrix (Fin s) (Fin q) ℝ) :
    (∀ b, 0 < regressionBandwidth b scale machineEps X) ∧
    ((∀ i j, X i = X j) → regressionBandwidth .mean scale machineEps X = machineEps) ∧
    ((¬ ∀ i j, X i = X j) → regressionBandwidth .mean scale machineEps X = (∑ i, ∑ j, ∑ b, (X i b - X j b) ^ 2) / s ^ 2 / scale) ∧
    ∃ m, s ^ 2 ≤ 2 * pairCount X (· ≤ m) ∧ s ^ 2 ≤ 2 * pairCount X (m ≤ ·) ∧ regressionBandwidth .median scale machineEps X = if m = 0 then machineEps else m / scale := by
  have hs2 : ((s : ℝ) ^ 2) ≠ 0 := by positivity
  have e : mean (flatSquares X) = (∑ i, ∑ j, ∑ b, (X i b - X j b) ^ 2) / s ^ 2 := by
    unfold mean
    rw [flatSquares_sum, flatSquares_length]
    push_cast
    rw [sq]; rfl
  have hiff : (∑ i, ∑ j, ∑ b, (X i b - X j b) ^ 2) / s ^ 2 / scale = 0 ↔ ∀ i j, X i = X j := by
    rw [div_eq_zero_iff, or_iff_left hs.ne', div_eq_zero_iff, or_iff_left hs2, Finset.sum_eq_zero_iff_of_nonneg (fun i _ => Finset.sum_nonneg (fun j _ => Finset.sum_nonneg (fun _ _ => sq_nonneg _)))]
    simp only [Finset.mem_univ, true_imp_iff]
    refine forall_congr' (fun i => ?_)
    rw [Finset.sum_eq_zero_iff_of_nonneg (fun j _ => Finset.sum_nonneg (fun _ _ => sq_nonneg _))]
    simp only [Finset.mem_univ, true_imp_iff]
    refine forall_congr' (fun j => ?_)
    rw [Finset.sum_eq_zero_iff_of_nonneg (fun _ _ => sq_nonneg _)]
    simp only [Finset.mem_univ, true_imp_iff, sq_eq_zero_iff, sub_eq_zero]
    exact funext_iff.symm
  refine ⟨fun b => bandwidth_pos b hs he X, fun h => ?_, fun h => ?_, median (flatSquares X), ?_, ?_, ?_⟩
  · unfold regressionBandwidth
    simp only
    rw [e, if_pos (hiff.2 h)]
  · unfold regressionBandwidth
    simp only
    rw [e, if_neg (fun h' => h (hiff.1 h'))]
  · have := (median_spec (l := flatSquares X) (by rw [ne_eq, ← List.length_eq_zero_iff, flatSquares_length]; positivity)).1
    rwa [flatSquares_length, flatSquares_countP, ← sq] at this
  · have := (median_spec (l := flatSquares X) (by rw [ne_eq, ← List.length_eq_zero_iff, flatSquares_length]; positivity)).2
    rwa [flatSquares_length, flatSquares_countP, ← sq] at this
  · unfold regressionBandwidth
    simp only [div_eq_zero_iff, hs.ne', or_false]

/-- **C227 (residual).** The residual compares the target with its local regression: at each sample `i` the value at `i` of an affine function that minimises the squared error, weighted by the Gaussian kernel of the distance to
sample `i` in the space of the previous eigenvectors, among all affine functions. -/
theorem C227_residual (b : BandwidthType) {scale machineEps : ℝ} (X : Matrix (Fin s) (Fin q) ℝ) (t : Fin s → ℝ) (r : ℝ) (h : IsResidual b scale machineEps X t (.ok r)) :
    ∃ (c₀ : Fin s → ℝ) (c : Fin s → Fin q → ℝ),
      (∀ i (d₀ : ℝ) (d : Fin q → ℝ),
        ∑ j, Real.exp (-(∑ a, (X i a - X j a) ^ 2) / regressionBandwidth b scale machineEps X) * (t j - (c₀ i + ∑ a, c i a * (X j a - X i a))) ^ 2 ≤
        ∑ j, Real.exp (-(∑ a, (X i a - X j a) ^ 2) / regressionBandwidth b scale machineEps X) * (t j - (d₀ + ∑ a, d a * (X j a - X i a))) ^ 2) ∧
      r = Real.sqrt ((∑ i, (t i - c₀ i) ^ 2) / ∑ i, t i ^ 2) := by
  obtain ⟨C, hC, h⟩ := h
  split at h
  · cases h
  have h := Except.ok.inj h
  have hC' : ∀ i, ∃ A : Matrix (Option (Fin q)) (Fin s) ℝ, ((regressionData X i)ᵀ * Matrix.diagonal (regressionWeights (regressionBandwidth b scale machineEps X) X i) * regressionData X i) * A =
    (regressionData X i)ᵀ * Matrix.diagonal (regressionWeights (regressionBandwidth b scale machineEps X) X i) ∧ C i = A none := fun i => coeffRow_exact.1 (hC i)
  choose A hA hrow using hC'
  refine ⟨fun i => (A i *ᵥ t) none, fun i a => (A i *ᵥ t) (some a), ?_, ?_⟩
  · intro i d₀ d
    beta_reduce
    set D := regressionData X i with hD
    set w := regressionWeights (regressionBandwidth b scale machineEps X) X i with hw
    have hwj : ∀ j, Real.exp (-(∑ a, (X i a - X j a) ^ 2) / regressionBandwidth b scale machineEps X) = w j := by
      intro j
      rw [hw, regressionWeights, Real.sq_sqrt (sqDist_nn _ _), neg_one_mul]; rfl
    have hDv : ∀ (v : Option (Fin q) → ℝ) j, v none + ∑ a, v (some a) * (X j a - X i a) = (D *ᵥ v) j := by
      intro v j
      simp only [hD, mulVec, dotProduct, Fintype.sum_option, regressionData, of_apply, one_mul]
      congr 1
      exact Finset.sum_congr rfl (fun a _ => mul_comm _ _)
    set v := A i *ᵥ t with hv
    let u : Option (Fin q) → ℝ := fun o => o.elim d₀ d
    have hu : ∀ j, d₀ + ∑ a, d a * (X j a - X i a) = (D *ᵥ u) j := fun j => hDv u j
    simp only [hwj, hDv v, hu]
    have hnormal : (Dᵀ * Matrix.diagonal w * D) *ᵥ v = (Dᵀ * Matrix.diagonal w) *ᵥ t := by
      rw [hv, mulVec_mulVec, hA i]
    have hcross : ∑ j, w j * ((t j - (D *ᵥ v) j) * (D *ᵥ (v - u)) j) = 0 := by
      have e1 : (v - u) ⬝ᵥ ((Dᵀ * Matrix.diagonal w) *ᵥ t - (Dᵀ * Matrix.diagonal w * D) *ᵥ v) = 0 := by rw [hnormal, sub_self, dotProduct_zero]
      rw [← mulVec_mulVec (v := v), ← mulVec_sub, ← mulVec_mulVec, dotProduct_mulVec, vecMul_transpose] at e1
      rw [← e1]
      simp only [dotProduct, mulVec_diagonal, Pi.sub_apply]
      exact Finset.sum_congr rfl (fun j _ => by ring)
    have hexp : ∑ j, w j * (t j - (D *ᵥ u) j) ^ 2 = ∑ j, w j * (t j - (D *ᵥ v) j) ^ 2 + 2 * ∑ j, w j * ((t j - (D *ᵥ v) j) * (D *ᵥ (v - u)) j) + ∑ j, w j * ((D *ᵥ (v - u)) j) ^ 2 := by
      rw [Finset.mul_sum, ← Finset.sum_add_distrib, ← Finset.sum_add_distrib]
      refine Finset.sum_congr rfl (fun j _ => ?_)
      rw [mulVec_sub, Pi.sub_apply]
      ring
    rw [hexp, hcross]
    have : 0 ≤ ∑ j, w j * ((D *ᵥ (v - u)) j) ^ 2 := Finset.sum_nonneg (fun j _ => mul_nonneg (Real.exp_pos _).le (sq_nonneg _))
    linarith
  · rw [h]
    congr 3
    funext i
    have : (C *ᵥ t) i = (A i *ᵥ t) none := by simp only [mulVec, hrow i]
    rw [this]

/-- **C227 (unique).** Although the local regressions may have many solutions, the residuals of a fit are determined by the eigenvectors: two fits give the same residuals. -/
theorem C227_unique {b : BandwidthType} {scale machineEps : ℝ} {V : Matrix (Fin s) (Fin (p + 2)) ℝ} {computed computed' : List ℝ} (h : FitResiduals b scale machineEps V computed)
    (h' : FitResiduals b scale machineEps V computed') : computed = computed' := by
  obtain ⟨hl, h⟩ := h
  obtain ⟨hl', h'⟩ := h'
  refine List.ext_getElem (by omega) (fun t ht ht' => ?_)
  obtain ⟨C, hC, e⟩ := h ⟨t, by omega⟩
  obtain ⟨C', hC', e'⟩ := h' ⟨t, by omega⟩
  have : C = C' := funext (fun i => coeffRow_unique (hC i) (hC' i))
  subst this
  exact Except.ok.inj (e.trans e'.symm)

/-- **C227 (signs and scale).** Eigenvectors are only determined up to their sign.  Other signs, and a common positive factor, do not change the residuals, hence not the selection.  (For a factor other than one the median or
mean of the squared distances must not be zero, because the machine precision that replaces it has no scale.) -/
theorem C227_signs (b : BandwidthType) (scale machineEps : ℝ) {c : ℝ} (hc : 0 < c) {V V' : Matrix (Fin s) (Fin (p + 2)) ℝ} (hV : SameUpToSigns c V V')
    (h : c = 1 ∨ ∀ t, regressionBandwidth b scale 0 (domainColumns V t) ≠ 0) (computed : List ℝ) :
    FitResiduals b scale machineEps V' computed ↔ FitResiduals b scale machineEps V computed := by
  refine ⟨fun hf => fitResiduals_signs (inv_pos.2 hc) (sameUpToSigns_symm hc hV) (h.imp (fun h => by rw [h, inv_one]) (fun h t => ?_)) hf, fun hf => fitResiduals_signs hc hV h hf⟩
  obtain ⟨σ, hσ, hV⟩ := hV
  exact bandwidth_zero_scale hc ⟨fun b => σ ⟨b + 1, by omega⟩, fun b => hσ _, fun a b => hV _ _⟩ (h t)

/-- **C227 (order of the samples).** The residuals, hence the selection, do not depend on the order of the samples. -/
theorem C227_order (b : BandwidthType) (scale machineEps : ℝ) (V : Matrix (Fin s) (Fin (p + 2)) ℝ) (π : Equiv.Perm (Fin s)) (computed : List ℝ) (h : FitResiduals b scale machineEps V computed) :
    FitResiduals b scale machineEps (V.submatrix π id) computed := by
  obtain ⟨hl, h⟩ := h
  refine ⟨hl, fun t => ?_⟩
  have e1 : domainColumns (V.submatrix π id) t = (domainColumns V t).submatrix π id := rfl
  have e2 : targetColumn (V.submatrix π id) t = fun i => targetColumn V t (π i) := rfl
  rw [e1, e2]
  obtain ⟨C, hC, e⟩ := h t
  refine ⟨C.submatrix π π, fun i => ?_, ?_⟩
  · rw [bandwidth_perm]
    exact coeffRow_perm π (hC (π i))
  · rw [e]
    have h1 : ∑ i, targetColumn V t (π i) ^ 2 = ∑ i, targetColumn V t i ^ 2 := Equiv.sum_comp π (fun i => targetColumn V t i ^ 2)
    have hm : ∀ i, (C.submatrix π π *ᵥ fun i => targetColumn V t (π i)) i = (C *ᵥ targetColumn V t) (π i) := by
      intro i
      simp only [mulVec, dotProduct, submatrix_apply]
      exact Equiv.sum_comp π (fun j => C (π i) j * targetColumn V t j)
    have h2 : ∑ i, (targetColumn V t (π i) - (C.submatrix π π *ᵥ fun i => targetColumn V t (π i)) i) ^ 2 = ∑ i, (targetColumn V t i - (C *ᵥ targetColumn V t) i) ^ 2 := by
      simp only [hm]
      exact Equiv.sum_comp π (fun i => (targetColumn V t i - (C *ᵥ targetColumn V t) i) ^ 2)
    rw [h1, h2]

/-- **C227 (dependent eigenvectors).** An eigenvector that is an affine function of the previous ones is never selected with a threshold. -/
theorem C227_dependent {b : BandwidthType} {scale machineEps : ℝ} {V : Matrix (Fin s) (Fin (p + 2)) ℝ} {computed : List ℝ} (h : FitResiduals b scale machineEps V computed) {thr : ℝ} {idx : List Nat}
    (hi : selectThreshold thr computed = .ok idx) (t : Fin p) (c₀ : ℝ) (c : Fin (t + 1) → ℝ) (haff : ∀ a, V a ⟨t + 2, by omega⟩ = c₀ + ∑ k : Fin (t + 1), c k * V a ⟨k + 1, by omega⟩) : (t : Nat) + 2 ∉ idx := by
  obtain ⟨hl, h⟩ := h
  have hz : targetColumn V t ≠ 0 := by
    intro h0
    obtain ⟨C, hC, e⟩ := h t
    rw [h0] at e
    simp at e
  have h0 := Except.ok.inj (C104_dependent b scale machineEps (domainColumns V t) (targetColumn V t) c₀ c haff hz _ (h t))
  by_cases hthr : 0 < thr ∧ thr < 1
  · obtain ⟨idx', e, -, -, -, h4⟩ := (C57_threshold thr computed).1 hthr
    obtain rfl := Except.ok.inj (e.symm.trans hi)
    rw [h4]
    rintro ⟨h5, h6⟩
    rw [show computed[(t : Nat)] = 0 from h0] at h6
    linarith
  · rw [(C57_threshold thr computed).2 hthr] at hi
    cases hi

/-- **C227 (transform).** After a fit with a threshold or a dimension, `transform` of eigenvectors with as many columns as in the fit succeeds and its `j`-th column is the column of the `j`-th selected index. -/
theorem C227_transform {computed : List ℝ} (hl : computed.length = p) (hpos : ∀ x ∈ computed, 0 ≤ x) {idx : List Nat} (hi : (∃ thr, selectThreshold thr computed = .ok idx) ∨ ∃ dim, SelectDim dim computed (.ok idx))
    {n : Nat} (V : Matrix (Fin n) (Fin (p + 2)) ℝ) :
    ∃ Y, selectColumns idx V = .ok Y ∧ Y.length = idx.length ∧ ∀ j (h1 : j < Y.length) (h2 : j < idx.length), ∃ h3 : idx[j] < p + 2, ∀ a, Y[j] a = V a ⟨idx[j], h3⟩ := by
  have hlt : ∀ i ∈ idx, i < p + 2 := by
    rcases hi with ⟨thr, hi⟩ | ⟨dim, hi⟩
    · unfold selectThreshold at hi
      split_ifs at hi with h
      obtain rfl := Except.ok.inj hi
      intro i h'
      have := (List.mem_filter.1 h').1
      rw [List.mem_range] at this
      omega
    · by_cases hd : 1 ≤ dim ∧ dim ≤ computed.length + 1
      · obtain ⟨idx', e, -, -, h3, -⟩ := (C57_dim dim computed hpos _ hi).1 hd
        obtain rfl := Except.ok.inj e
        intro i h'
        have := (h3 i h').2
        omega
      · cases (C57_dim dim computed hpos _ hi).2 hd
  clear hi
  induction idx with
  | nil => exact ⟨[], rfl, rfl, fun j h1 _ => by simp at h1⟩
  | cons i idx ih =>
    obtain ⟨Y, h1, h2, h3⟩ := ih (fun i h => hlt i (List.mem_cons_of_mem _ h))
    have hi := hlt i List.mem_cons_self
    refine ⟨(fun a => V a ⟨i, hi⟩) :: Y, ?_, by simp [h2], ?_⟩
    · unfold selectColumns at h1 ⊢
      rw [List.mapM_cons, h1, dif_pos hi]
      rfl
    · intro j g1 g2
      cases j with
      | zero => exact ⟨hi, fun a => rfl⟩
      | succ j => exact h3 j (by simpa using g1) (by simpa using g2)

/-! ### Non-vacuity -/

/-- A fit exists whenever no eigenvector is zero. -/
theorem fitResiduals_exists (b : BandwidthType) (scale machineEps : ℝ) (V : Matrix (Fin s) (Fin (p + 2)) ℝ) (h : ∀ t, targetColumn V t ≠ 0) : ∃ computed, FitResiduals b scale machineEps V computed := by
  have : ∀ t, ∃ x, IsResidual b scale machineEps (domainColumns V t) (targetColumn V t) (.ok x) := by
    intro t
    obtain ⟨r, C, hC, hr⟩ := residual_exists b scale machineEps (domainColumns V t) (targetColumn V t)
    rw [if_neg (by
      intro h0
      apply h t
      funext i
      have := (Finset.sum_eq_zero_iff_of_nonneg (fun i _ => sq_nonneg (targetColumn V t i))).mp h0 i (Finset.mem_univ i)
      exact pow_eq_zero_iff (two_ne_zero) |>.mp this)] at hr
    exact ⟨_, C, hC, by rw [if_neg (by
      intro h0
      apply h t
      funext i
      have := (Finset.sum_eq_zero_iff_of_nonneg (fun i _ => sq_nonneg (targetColumn V t i))).mp h0 i (Finset.mem_univ i)
      exact pow_eq_zero_iff (two_ne_zero) |>.mp this)]⟩
  choose f hf using this
  exact ⟨List.ofFn f, by simp, fun t => by simpa using hf t⟩

/-- Three samples of four eigenvectors: the third one is an affine function of the second one, the last one is not. -/
def exV : Matrix (Fin 3) (Fin 4) ℝ := !![1, 0, 1, 1; 1, 1, 3, 0; 1, 2, 5, 1]

/-- non-vacuity: there is a fit of these eigenvectors, also with other signs and scale (the bandwidth of both regressions is not zero), and the dependent one is not selected. -/
example : (∃ computed, FitResiduals .mean 3 1 exV computed ∧ ∃ idx, selectThreshold (1 / 2) computed = .ok idx ∧ 2 ∉ idx) ∧
    SameUpToSigns 2 exV !![2, 0, 2, -2; 2, -2, 6, 0; 2, -4, 10, -2] ∧ ∀ t, regressionBandwidth .mean 3 0 (domainColumns exV t) ≠ 0 := by
  refine ⟨?_, ⟨![1, -1, 1, -1], ?_, ?_⟩, ?_⟩
  · obtain ⟨computed, hc⟩ := fitResiduals_exists .mean 3 1 (p := 2) exV (by
      intro t h0
      have h1 := congrFun h0 0
      revert h1
      fin_cases t <;> simp [targetColumn, exV])
    obtain ⟨idx, e, -⟩ := (C57_threshold (1 / 2) computed).1 (by norm_num)
    refine ⟨computed, hc, idx, e, ?_⟩
    refine C227_dependent hc e (0 : Fin 2) 1 (fun _ => 2) ?_
    intro a
    fin_cases a <;> simp [exV] <;> norm_num
  · intro b; fin_cases b <;> simp
  · intro a b
    fin_cases a <;> fin_cases b <;> simp [exV] <;> norm_num
  · intro t
    have hd : ∀ t, ¬ ∀ i j, domainColumns (p := 2) exV t i = domainColumns exV t j := by
      intro t h
      have := congrFun (h 0 1) 0
      simp [domainColumns, exV] at this
    have hpos := (C227_bandwidth (scale := 3) (machineEps := 1) (by norm_num) (by norm_num) (by norm_num) (domainColumns exV t)).1 .mean
    have e := (C227_bandwidth (scale := 3) (machineEps := 1) (by norm_num) (by norm_num) (by norm_num) (domainColumns exV t)).2.2.1 (hd t)
    have e' : regressionBandwidth .mean 3 0 (domainColumns exV t) = regressionBandwidth .mean 3 1 (domainColumns exV t) ∨ regressionBandwidth .mean 3 1 (domainColumns exV t) = 1 := by
      unfold regressionBandwidth
      simp only
      split_ifs
      · exact Or.inr rfl
      · exact Or.inl rfl
    rcases e' with e' | e'
    · rw [e']; exact hpos.ne'
    · exfalso
      rw [e'] at e
      revert e
      match t with
      | 0 => simp [domainColumns, exV, Fin.sum_univ_succ]; norm_num
      | 1 => simp [domainColumns, exV, Fin.sum_univ_succ]; norm_num

end Verif.Kernel
