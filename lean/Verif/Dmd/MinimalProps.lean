import Verif.Dmd.InvarianceProps
/-!
# Property C196, continued: the fit of smallest norm

`LinearRegression(fit_intercept=False)` (dmd.py 824-834) calls `scipy.linalg.lstsq`, which among all least squares solutions returns the one of smallest norm.  This matters
if the data do not span the state space.
-/

namespace Verif.Dmd

open Verif.Tsc Verif.Np Verif.Lin Verif.Dyn Matrix

variable {ι : Type} [Fintype ι] [DecidableEq ι]

/-- The system matrix that `DMDStandard(rank=None).fit` (dmd.py 758-846, 1200-1328) takes among all least squares solutions: the one of smallest norm (documented behaviour of
`scipy.linalg.lstsq`, exact arithmetic). -/
def FitsMin (k : TimeKind) (c : List (Row Int (ι → ℝ))) (w : Option (List ℝ)) (K : Matrix ι ι ℝ) : Prop :=
  Fits k c w K ∧ ∀ K', Fits k c w K' → sqSum K ≤ sqSum K'

/-! ### Lemmas -/

theorem sqSum_similar {T S : Matrix ι ι ℝ} (h : Inverses T S) {a : ℝ} (ha : Tᵀ * T = a • 1) (K : Matrix ι ι ℝ) : sqSum (T * K * S) = sqSum K := by
  have hS : a • (S * Sᵀ) = 1 := by
    have : S * Sᵀ * (Tᵀ * T) = 1 := by
      calc S * Sᵀ * (Tᵀ * T) = S * (T * S)ᵀ * T := by rw [Matrix.transpose_mul]; simp only [Matrix.mul_assoc]
        _ = 1 := by rw [h.1, Matrix.transpose_one, Matrix.mul_one, h.2]
    rwa [ha, Matrix.mul_smul, Matrix.mul_one] at this
  rw [sqSum_trace, sqSum_trace]
  have e : (T * K * S)ᵀ * (T * K * S) = a • (Sᵀ * (Kᵀ * K * S)) := by
    calc (T * K * S)ᵀ * (T * K * S) = Sᵀ * Kᵀ * (Tᵀ * T) * K * S := by simp only [Matrix.transpose_mul, Matrix.mul_assoc]
      _ = a • (Sᵀ * (Kᵀ * K * S)) := by rw [ha]; simp only [Matrix.mul_smul, Matrix.smul_mul, Matrix.mul_one, Matrix.mul_assoc]
  rw [e, Matrix.trace_smul, Matrix.trace_mul_comm, Matrix.mul_assoc, ← Matrix.trace_smul, ← Matrix.mul_smul, hS, Matrix.mul_one]

/-! ### Property theorems -/

/-- In other coordinates that are rotated, reflected, permuted or scaled by a common factor, the fit of smallest norm is the original one, also for data that do not span the state
space. -/
theorem C196_minimal_similar {k : TimeKind} {c : List (Row Int (ι → ℝ))} (hc : c ≠ []) {T S : Matrix ι ι ℝ} (h : Inverses T S) {a : ℝ} (ha : Tᵀ * T = a • 1)
    (w : Option (List ℝ)) (hw : ∀ v, w = some v → ∀ a ∈ v, 0 ≤ a) (K : Matrix ι ι ℝ) :
    FitsMin k (mapVal (T *ᵥ ·) c) w (T * K * S) ↔ FitsMin k c w K := by
  unfold FitsMin
  rw [C196_coordinates hc h w hw]
  refine and_congr_right (fun _ => ⟨fun hm K' hK' => ?_, fun hm K' hK' => ?_⟩)
  · have := hm _ ((C196_coordinates hc h w hw K').2 hK')
    rwa [sqSum_similar h ha, sqSum_similar h ha] at this
  · have e : T * (S * K' * T) * S = K' := by
      calc T * (S * K' * T) * S = (T * S) * K' * (T * S) := by simp only [Matrix.mul_assoc]
        _ = K' := by rw [h.1, Matrix.one_mul, Matrix.mul_one]
    rw [← e] at hK' ⊢
    rw [sqSum_similar h ha, sqSum_similar h ha]
    exact hm _ ((C196_coordinates hc h w hw _).1 hK')

/-- If the data determine the system matrix, the fit of smallest norm in any other coordinates is the original one. -/
theorem C196_minimal_determined {k : TimeKind} {c : List (Row Int (ι → ℝ))} (hc : c ≠ []) {T S : Matrix ι ι ℝ} (h : Inverses T S)
    (w : Option (List ℝ)) (hw : ∀ v, w = some v → ∀ a ∈ v, 0 ≤ a) {K : Matrix ι ι ℝ} (hu : ∀ K', Fits k c w K' → K' = K) (hK : Fits k c w K) :
    ∀ M, FitsMin k (mapVal (T *ᵥ ·) c) w M ↔ M = T * K * S := by
  have all : ∀ M, Fits k (mapVal (T *ᵥ ·) c) w M → M = T * K * S := by
    intro M hM
    have e : T * (S * M * T) * S = M := by
      calc T * (S * M * T) * S = (T * S) * M * (T * S) := by simp only [Matrix.mul_assoc]
        _ = M := by rw [h.1, Matrix.one_mul, Matrix.mul_one]
    rw [← e] at hM
    rw [← hu _ ((C196_coordinates hc h w hw _).1 hM), e]
  intro M
  refine ⟨fun hM => all M hM.1, ?_⟩
  rintro rfl
  exact ⟨(C196_coordinates hc h w hw K).2 hK, fun K' hK' => by rw [all K' hK']⟩

/-- Two samples of a state at rest on the first axis. -/
def exLine : List (Row Int (Fin 2 → ℝ)) := [⟨0, 0, ![1, 0]⟩, ⟨0, 1, ![1, 0]⟩]

theorem exLine_start : gram exLine.length none (startM (([![1, 0]] : List (Fin 2 → ℝ)).zip ([![1, 0]] : List (Fin 2 → ℝ)))) (startM (([![1, 0]] : List (Fin 2 → ℝ)).zip ([![1, 0]] : List (Fin 2 → ℝ)))) =
    !![1 / 2, 0; 0, 0] := by
  ext i j
  show (1 / (exLine.length : ℝ)) * _ = _
  refine (congrArg _ (Fin.sum_univ_one (fun k : Fin 1 => ((![1, 0] : Fin 2 → ℝ) i * (![1, 0] : Fin 2 → ℝ) j)))).trans ?_
  fin_cases i <;> fin_cases j <;> simp [exLine]

theorem exLine_end : gram exLine.length none (startM (([![1, 0]] : List (Fin 2 → ℝ)).zip ([![1, 0]] : List (Fin 2 → ℝ)))) (endM (([![1, 0]] : List (Fin 2 → ℝ)).zip ([![1, 0]] : List (Fin 2 → ℝ)))) =
    !![1 / 2, 0; 0, 0] := exLine_start

theorem exLine_fits (K : Matrix (Fin 2) (Fin 2) ℝ) : Fits .int exLine none K ↔ K 0 0 = 1 ∧ K 1 0 = 0 := by
  have hs : shiftMatrices exLine = .ok ([![1, 0]], [![1, 0]]) := rfl
  have hd : isConstDeltaTime .int exLine = true := by decide
  have hl : IsLstsqM (!![1 / 2, 0; 0, 0] : Matrix (Fin 2) (Fin 2) ℝ) !![1 / 2, 0; 0, 0] Kᵀ ↔ K 0 0 = 1 ∧ K 1 0 = 0 := by
    rw [isLstsqM_iff]
    constructor
    · intro h'
      have h0 := congrFun (congrFun h' 0) 0
      have h1 := congrFun (congrFun h' 0) 1
      simp [Matrix.mul_apply, Fin.sum_univ_two] at h0 h1
      exact ⟨by linarith, h1⟩
    · rintro ⟨h0, h1⟩
      ext i j
      fin_cases i <;> fin_cases j <;> simp [Matrix.mul_apply, Fin.sum_univ_two, h0, h1]
  unfold Fits
  rw [hs]
  simp only [hd, true_and, Except.ok.injEq, Prod.mk.injEq]
  constructor
  · rintro ⟨L, R, ⟨rfl, rfl⟩, h⟩
    unfold IsSystemMatrix at h
    rw [exLine_start, exLine_end] at h
    exact hl.1 h
  · intro h
    refine ⟨_, _, ⟨rfl, rfl⟩, ?_⟩
    unfold IsSystemMatrix
    rw [exLine_start, exLine_end]
    exact hl.2 h

/-- The property fails for data that do not span the state space: in sheared coordinates the fit of smallest norm is another model.  The state at rest is moved from the first axis to
the diagonal; in the old coordinates the second unit vector is mapped to zero, in the new coordinates it is not. -/
theorem C196_minimal_violated : ∃ (c : List (Row Int (Fin 2 → ℝ))) (T S K K' : Matrix (Fin 2) (Fin 2) ℝ), Inverses T S ∧ Valid c ∧ FitsMin .int c none K ∧
    FitsMin .int (mapVal (T *ᵥ ·) c) none K' ∧ K' ≠ T * K * S ∧ K' *ᵥ (T *ᵥ ![0, 1]) ≠ T *ᵥ (K *ᵥ ![0, 1]) := by
  have hT : Inverses (!![1, 0; 1, 1] : Matrix (Fin 2) (Fin 2) ℝ) !![1, 0; -1, 1] := by
    constructor <;> (ext i j; fin_cases i <;> fin_cases j <;> simp [Matrix.mul_apply, Fin.sum_univ_two])
  have hw : ∀ v : List ℝ, (none : Option (List ℝ)) = some v → ∀ a ∈ v, 0 ≤ a := fun v hv => nomatch hv
  have key : ∀ M : Matrix (Fin 2) (Fin 2) ℝ, Fits .int (mapVal ((!![1, 0; 1, 1] : Matrix (Fin 2) (Fin 2) ℝ) *ᵥ ·) exLine) none M ↔ M 0 0 + M 0 1 = 1 ∧ M 1 0 + M 1 1 = 1 := by
    intro M
    have e : !![1, 0; 1, 1] * (!![1, 0; -1, 1] * M * !![1, 0; 1, 1]) * !![1, 0; -1, 1] = M := by
      calc _ = (!![1, 0; 1, 1] * !![1, 0; -1, 1]) * M * (!![1, 0; 1, 1] * !![1, 0; -1, 1]) := by simp only [Matrix.mul_assoc]
        _ = M := by rw [hT.1, Matrix.one_mul, Matrix.mul_one]
    rw [← e, C196_coordinates (by simp [exLine]) hT none hw, exLine_fits, e]
    simp [Matrix.mul_apply, Matrix.vecMul, dotProduct, Fin.sum_univ_two]
    intro h1
    constructor <;> intro h2 <;> linarith
  refine ⟨exLine, !![1, 0; 1, 1], !![1, 0; -1, 1], !![1, 0; 0, 0], !![1 / 2, 1 / 2; 1 / 2, 1 / 2], hT, (valid_iff _).2 ⟨by decide +kernel, by simp [Before, exLine]⟩,
    ⟨(exLine_fits _).2 (by simp), ?_⟩, ⟨(key _).2 (by norm_num), ?_⟩, ?_, ?_⟩
  · intro K' h
    obtain ⟨h0, h1⟩ := (exLine_fits _).1 h
    simp [sqSum, Fin.sum_univ_two, h0, h1]
    nlinarith [sq_nonneg (K' 0 1), sq_nonneg (K' 1 1)]
  · intro K' h
    obtain ⟨h0, h1⟩ := (key _).1 h
    simp [sqSum, Fin.sum_univ_two]
    nlinarith [sq_nonneg (K' 0 0 - K' 0 1), sq_nonneg (K' 1 0 - K' 1 1)]
  · intro h
    have := congrFun (congrFun h 0) 1
    simp [Matrix.mul_apply, Fin.sum_univ_two] at this
  · intro h
    have := congrFun h 0
    simp [Matrix.mulVec, dotProduct, Fin.sum_univ_two] at this

/-- The hypotheses of the similarity theorem hold for a rotation by a right angle together with a doubling of the unit, on data that do not span the plane. -/
example : FitsMin .int exLine none !![1, 0; 0, 0] ∧ Inverses (!![0, -2; 2, 0] : Matrix (Fin 2) (Fin 2) ℝ) !![0, 1 / 2; -(1 / 2), 0] ∧
    (!![0, -2; 2, 0] : Matrix (Fin 2) (Fin 2) ℝ)ᵀ * !![0, -2; 2, 0] = (4 : ℝ) • 1 := by
  refine ⟨⟨(exLine_fits _).2 (by simp), fun K' h => ?_⟩, ⟨?_, ?_⟩, ?_⟩
  · obtain ⟨h0, h1⟩ := (exLine_fits _).1 h
    simp [sqSum, Fin.sum_univ_two, h0, h1]
    nlinarith [sq_nonneg (K' 0 1), sq_nonneg (K' 1 1)]
  all_goals (ext i j; fin_cases i <;> fin_cases j <;> simp [Matrix.mul_apply, Fin.sum_univ_two] <;> norm_num)

/-- The hypotheses of the determined case hold for samples of a linear system that span the plane. -/
example : Fits .int exS none exA ∧ ∀ K', Fits .int exS none K' → K' = exA := by
  have ha : IdsAscending exS := by unfold IdsAscending; decide
  have all : ∀ K', Fits .int exS none K' → K' = exA := fun K' hK' =>
    C30_recovery_partial (by simp [exS]) exS_valid (Or.inl ha) exS_two none (by simp) exA exS_linear exS_span hK'
  obtain ⟨K, hK⟩ := C30_exists (c := exS) (k := .int) (by simp [exS]) exS_two (by decide)
  exact ⟨all K hK ▸ hK, all⟩

end Verif.Dmd
