import Verif.Dmd.Standard
import Verif.Dyn.SpectralProps
import Mathlib.LinearAlgebra.Matrix.Notation
import Mathlib.Tactic.FinCases
import Mathlib.Tactic.NormNum
/-!
# Reduced rank DMD: modes and predictions
-/

namespace Verif.Dmd

open Verif.Tsc Verif.Dyn Matrix

variable {ι ν ρ : Type} [Fintype ι] [Fintype ν] [Fintype ρ] [DecidableEq ι] [DecidableEq ν] [DecidableEq ρ]

/-! ### Specification -/

/-- `U diag(S) Vᵀ` is a singular value decomposition of `X` without the zero singular values. -/
structure IsSVD (X : Matrix ι ν ℝ) (U : Matrix ι ρ ℝ) (S : ρ → ℝ) (V : Matrix ν ρ ℝ) : Prop where
  eq : X = U * diagonal S * Vᵀ
  orthoU : Uᵀ * U = 1
  orthoV : Vᵀ * V = 1
  pos : ∀ i, 0 < S i

/-- `W` holds eigenvectors of `K` (columns) to the eigenvalues `ev` and is a basis. -/
structure EigenBasis (K : Matrix ρ ρ ℝ) (ev : ρ → ℂ) (W : Matrix ρ ρ ℂ) : Prop where
  eig : ∀ k, toCM K *ᵥ (fun i => W i k) = ev k • (fun i => W i k)
  basis : W.det ≠ 0

/-- The modes (columns of `Φ`) are eigenvectors of `A`. -/
def ModesOf (A : Matrix ι ι ℝ) (ev : ρ → ℂ) (Φ : Matrix ι ρ ℂ) : Prop := ∀ k, toCM A *ᵥ (fun i => Φ i k) = ev k • (fun i => Φ i k)

/-! ### Lemmas -/

theorem toCM_mul {α β γ : Type} [Fintype α] [Fintype β] (A : Matrix α β ℝ) (B : Matrix β γ ℝ) : toCM (A * B) = toCM A * toCM B := by
  ext i j; simp [toCM, Matrix.mul_apply]

theorem toCM_diagonal (d : ρ → ℝ) : toCM (diagonal d) = diagonal (fun i => ((d i : ℝ) : ℂ)) := by
  ext i j
  by_cases h : i = j
  · subst h; simp [toCM]
  · simp [toCM, Matrix.diagonal_apply_ne _ h]

theorem toCM_one : toCM (1 : Matrix ρ ρ ℝ) = 1 := by
  ext i j
  by_cases h : i = j
  · subst h; simp [toCM]
  · simp [toCM, Matrix.one_apply_ne h]

theorem modesOf_iff {A : Matrix ι ι ℝ} {ev : ρ → ℂ} {Φ : Matrix ι ρ ℂ} : ModesOf A ev Φ ↔ toCM A * Φ = Φ * diagonal ev := by
  constructor
  · intro h
    ext i k
    have := congrFun (h k) i
    rw [Matrix.mul_diagonal, mul_comm]
    simpa [Matrix.mul_apply, Matrix.mulVec, dotProduct] using this
  · intro h k
    funext i
    have := congrFun (congrFun h i) k
    rw [Matrix.mul_diagonal, mul_comm] at this
    simpa [Matrix.mul_apply, Matrix.mulVec, dotProduct] using this

theorem EigenBasis.mul {K : Matrix ρ ρ ℝ} {ev : ρ → ℂ} {W : Matrix ρ ρ ℂ} (h : EigenBasis K ev W) : toCM K * W = W * diagonal ev :=
  modesOf_iff.1 h.eig

theorem exactModes_eq (Y : Matrix ι ν ℝ) (S : ρ → ℝ) (V : Matrix ν ρ ℝ) (W : Matrix ρ ρ ℂ) :
    exactModes Y S V W = toCM (Y * (V * diagonal (fun i => (S i)⁻¹))) * W := by
  unfold exactModes
  rw [toCM_mul, toCM_mul, toCM_diagonal]
  simp only [Matrix.mul_assoc]

/-- Facts for data of a linear system whose snapshots stay in the span of the left singular vectors. -/
theorem reduced_facts {A : Matrix ι ι ℝ} {X Y : Matrix ι ν ℝ} {U : Matrix ι ρ ℝ} {S : ρ → ℝ} {V : Matrix ν ρ ℝ} (h : IsSVD X U S V) (hY : Y = A * X)
    (hin : U * (Uᵀ * Y) = Y) : Y * (V * diagonal (fun i => (S i)⁻¹)) = A * U ∧ A * U = U * reducedMatrix Y U S V := by
  have h1 : Y * (V * diagonal (fun i => (S i)⁻¹)) = A * U := by
    rw [hY, h.eq]
    have hd : diagonal S * diagonal (fun i => (S i)⁻¹) = (1 : Matrix ρ ρ ℝ) := by
      rw [Matrix.diagonal_mul_diagonal, ← Matrix.diagonal_one]
      congr 1
      funext i
      exact mul_inv_cancel₀ (h.pos i).ne'
    calc A * (U * diagonal S * Vᵀ) * (V * diagonal (fun i => (S i)⁻¹))
        = A * (U * (diagonal S * ((Vᵀ * V) * diagonal (fun i => (S i)⁻¹)))) := by simp only [Matrix.mul_assoc]
      _ = A * U := by rw [h.orthoV, Matrix.one_mul, hd, Matrix.mul_one]
  refine ⟨h1, ?_⟩
  unfold reducedMatrix
  rw [← Matrix.mul_assoc U, hin, h1]

theorem mode_power {A : Matrix ι ι ℝ} {ev : ρ → ℂ} {Φ : Matrix ι ρ ℂ} (h : ModesOf A ev Φ) (k : Nat) :
    Φ * diagonal (fun i => ev i ^ k) = toCM A ^ k * Φ := by
  induction k with
  | zero => simp
  | succ k ih =>
    have : diagonal (fun i => ev i ^ (k + 1)) = diagonal (fun i => ev i ^ k) * diagonal ev := by
      rw [Matrix.diagonal_mul_diagonal]; congr 1
    rw [this, ← Matrix.mul_assoc, ih, Matrix.mul_assoc, ← modesOf_iff.1 h, ← Matrix.mul_assoc, pow_succ]

theorem lstsq_solves {Φ : Matrix ι ρ ℂ} {x : ι → ℂ} {b : ρ → ℂ} (h : IsLstsq Φ x b) (hs : ∃ b', Φ *ᵥ b' = x) : Φ *ᵥ b = x := by
  obtain ⟨b', hb'⟩ := hs
  have h0 : Dyn.residual Φ x b' = 0 := by unfold Dyn.residual; rw [hb', sub_self]; simp
  have h1 := h b'
  rw [h0] at h1
  have h2 : Dyn.residual Φ x b = 0 := le_antisymm h1 (Finset.sum_nonneg (fun i _ => Complex.normSq_nonneg _))
  unfold Dyn.residual at h2
  rw [Finset.sum_eq_zero_iff_of_nonneg (fun i _ => Complex.normSq_nonneg _)] at h2
  funext i
  have := Complex.normSq_eq_zero.1 (h2 i (Finset.mem_univ i))
  simpa [sub_eq_zero] using this

/-! ### The properties -/

/-- **C78, exact modes.** `U, S, V` may be any factors (a singular value decomposition of the snapshots cut at any rank): the exact modes are eigenvectors of the
matrix `Y V S⁻¹ Uᵀ`, which maps the projected snapshots to the shifted ones. -/
theorem C78_exact (Y : Matrix ι ν ℝ) (U : Matrix ι ρ ℝ) (S : ρ → ℝ) (V : Matrix ν ρ ℝ) {ev : ρ → ℂ} {W : Matrix ρ ρ ℂ}
    (h : EigenBasis (reducedMatrix Y U S V) ev W) : ModesOf (Y * (V * diagonal (fun i => (S i)⁻¹)) * Uᵀ) ev (exactModes Y S V W) := by
  rw [modesOf_iff, exactModes_eq, toCM_mul, Matrix.mul_assoc, ← Matrix.mul_assoc (toCM Uᵀ), ← toCM_mul, Matrix.mul_assoc _ W, ← h.mul]
  unfold reducedMatrix
  rw [Matrix.mul_assoc Uᵀ]

/-- **C78, projected modes.** The projected modes are eigenvectors of the projection of the same matrix to the leading left singular vectors. -/
theorem C78_projected (Y : Matrix ι ν ℝ) (U : Matrix ι ρ ℝ) (S : ρ → ℝ) (V : Matrix ν ρ ℝ) (hU : Uᵀ * U = 1) {ev : ρ → ℂ} {W : Matrix ρ ρ ℂ}
    (h : EigenBasis (reducedMatrix Y U S V) ev W) :
    ModesOf (U * Uᵀ * (Y * (V * diagonal (fun i => (S i)⁻¹)) * Uᵀ)) ev (projectedModes U W) := by
  have e : U * Uᵀ * (Y * (V * diagonal (fun i => (S i)⁻¹)) * Uᵀ) * U = U * reducedMatrix Y U S V := by
    unfold reducedMatrix
    calc U * Uᵀ * (Y * (V * diagonal (fun i => (S i)⁻¹)) * Uᵀ) * U
        = U * (Uᵀ * Y * (V * diagonal (fun i => (S i)⁻¹))) * (Uᵀ * U) := by simp only [Matrix.mul_assoc]
      _ = _ := by rw [hU, Matrix.mul_one]
  rw [modesOf_iff]
  unfold projectedModes
  rw [← Matrix.mul_assoc, ← toCM_mul, e, toCM_mul, Matrix.mul_assoc, h.mul, ← Matrix.mul_assoc]

/-- **C78, recovery.** Snapshots `X` and `Y = A X` of a linear system which stay in the span of the left singular vectors of `X` (the rank is that of the data): both
kinds of modes are eigenvectors of the system matrix itself. -/
theorem C78_recovery {A : Matrix ι ι ℝ} {X Y : Matrix ι ν ℝ} {U : Matrix ι ρ ℝ} {S : ρ → ℝ} {V : Matrix ν ρ ℝ} (h : IsSVD X U S V) (hY : Y = A * X)
    (hin : U * (Uᵀ * Y) = Y) {ev : ρ → ℂ} {W : Matrix ρ ρ ℂ} (hW : EigenBasis (reducedMatrix Y U S V) ev W) :
    ModesOf A ev (projectedModes U W) ∧ ModesOf A ev (exactModes Y S V W) := by
  obtain ⟨h1, h2⟩ := reduced_facts h hY hin
  have hp : toCM A * (toCM U * W) = toCM U * W * diagonal ev := by
    rw [← Matrix.mul_assoc, ← toCM_mul, h2, toCM_mul, Matrix.mul_assoc, hW.mul, ← Matrix.mul_assoc]
  have he : exactModes Y S V W = toCM U * W * diagonal ev := by
    rw [exactModes_eq, h1, toCM_mul, Matrix.mul_assoc, hp]
  refine ⟨modesOf_iff.2 hp, ?_⟩
  rw [modesOf_iff, he, ← Matrix.mul_assoc, hp]

/-- **C78, prediction.** For such data the reduced model predicts the true trajectory of every initial condition in the span of the data: with projected modes always,
with exact modes if no eigenvalue is zero.  `bs` are the least squares spectral states, `times` multiples of the sampling rate. -/
theorem C78_predict {A : Matrix ι ι ℝ} {X Y : Matrix ι ν ℝ} {U : Matrix ι ρ ℝ} {S : ρ → ℝ} {V : Matrix ν ρ ℝ} (h : IsSVD X U S V) (hY : Y = A * X)
    (hin : U * (Uᵀ * Y) = Y) {ev : ρ → ℂ} {W : Matrix ρ ρ ℂ} (hW : EigenBasis (reducedMatrix Y U S V) ev W) {Φ : Matrix ι ρ ℂ}
    (hΦ : Φ = projectedModes U W ∨ (Φ = exactModes Y S V W ∧ ∀ k, ev k ≠ 0))
    (ics : List (ι → ℝ)) (hic : ∀ x ∈ ics, ∃ z, x = U *ᵥ z) (bs : List (ρ → ℂ)) (hb : List.Forall₂ (fun x b => IsSpectralState none Φ (toC x) b) ics bs)
    (times : List Int) (dt : Int) : flowmapSpectral Φ ev bs times dt = flowmapMatrix A ics times dt := by
  obtain ⟨h1, h2⟩ := reduced_facts h hY hin
  obtain ⟨hm1, hm2⟩ := C78_recovery h hY hin hW
  have hm : ModesOf A ev Φ := by rcases hΦ with rfl | ⟨rfl, _⟩ <;> assumption
  have hu : IsUnit W.det := isUnit_iff_ne_zero.2 hW.basis
  have hsolv : ∀ x, (∃ z, x = U *ᵥ z) → ∃ b', Φ *ᵥ b' = toC x := by
    rintro x ⟨z, rfl⟩
    have hz : toC (U *ᵥ z) = toCM U *ᵥ (fun i => (z i : ℂ)) := (toCM_mulVec U z).symm
    rcases hΦ with rfl | ⟨rfl, hev⟩
    · refine ⟨W⁻¹ *ᵥ (fun i => (z i : ℂ)), ?_⟩
      unfold projectedModes
      rw [Matrix.mulVec_mulVec, Matrix.mul_assoc, Matrix.mul_nonsing_inv _ hu, Matrix.mul_one, hz]
    · have he : exactModes Y S V W = toCM U * (W * diagonal ev) := by
        rw [exactModes_eq, h1, h2, toCM_mul, Matrix.mul_assoc, hW.mul]
      have hu' : IsUnit (W * diagonal ev).det := by
        rw [isUnit_iff_ne_zero, Matrix.det_mul, Matrix.det_diagonal]
        exact mul_ne_zero hW.basis (Finset.prod_ne_zero_iff.2 (fun k _ => hev k))
      refine ⟨(W * diagonal ev)⁻¹ *ᵥ (fun i => (z i : ℂ)), ?_⟩
      rw [he, Matrix.mulVec_mulVec, Matrix.mul_assoc, Matrix.mul_nonsing_inv _ hu', Matrix.mul_one, hz]
  unfold flowmapSpectral flowmapMatrix
  induction hb with
  | nil => rfl
  | @cons x b ics bs hxb _ ih =>
    rw [List.map_cons, List.map_cons, ih (fun y hy => hic y (by simp [hy]))]
    congr 1
    apply List.map_congr_left
    intro t _
    have hx : Φ *ᵥ b = toC x := by
      rcases hxb with ⟨L, hL, _⟩ | ⟨_, hl⟩
      · cases hL
      · exact lstsq_solves hl (hsolv x (hic x (by simp)))
    have : Φ *ᵥ (fun i => ev i ^ stepCount dt t * b i) = toC (A ^ stepCount dt t *ᵥ x) := by
      have hd : (fun i => ev i ^ stepCount dt t * b i) = diagonal (fun i => ev i ^ stepCount dt t) *ᵥ b := by
        rw [diag_mulVec]
      rw [hd, Matrix.mulVec_mulVec, mode_power hm, ← Matrix.mulVec_mulVec, hx, toCM_pow]
      exact toCM_mulVec _ x
    rw [this, reV_toC]

/-- non-vacuity: one snapshot pair `(3, 0) → (6, 0)` of `diag(2, 7)`, rank 1 -/
example : ∃ (A : Matrix (Fin 2) (Fin 2) ℝ) (X Y : Matrix (Fin 2) (Fin 1) ℝ) (U : Matrix (Fin 2) (Fin 1) ℝ) (S : Fin 1 → ℝ) (V : Matrix (Fin 1) (Fin 1) ℝ)
    (ev : Fin 1 → ℂ) (W : Matrix (Fin 1) (Fin 1) ℂ), IsSVD X U S V ∧ Y = A * X ∧ U * (Uᵀ * Y) = Y ∧ EigenBasis (reducedMatrix Y U S V) ev W ∧ ∀ k, ev k ≠ 0 := by
  refine ⟨!![2, 0; 0, 7], !![3; 0], !![6; 0], !![1; 0], ![3], 1, ![2], 1, ⟨?_, ?_, ?_, ?_⟩, ?_, ?_, ⟨?_, ?_⟩, ?_⟩
  · ext i j; fin_cases i <;> fin_cases j <;> simp [Matrix.mul_apply, Matrix.vecMul_diagonal]
  · ext i j; fin_cases i; fin_cases j; simp [Matrix.mul_apply, Fin.sum_univ_two]
  · simp
  · intro i; fin_cases i; simp
  · ext i j; fin_cases i <;> fin_cases j <;> simp [Matrix.mul_apply, Fin.sum_univ_two] <;> norm_num
  · ext i j; fin_cases i <;> fin_cases j <;> simp [Matrix.mul_apply, Fin.sum_univ_two]
  · intro k; funext i; fin_cases k; fin_cases i
    simp [reducedMatrix, toCM, Matrix.mulVec, dotProduct, Matrix.mul_apply, Fin.sum_univ_two]
    norm_num
  · simp
  · intro k; fin_cases k; simp

/-! ### The residual filter -/

/-- The true mean squared violation of `φ(y) = λ φ(x)` of the linear observable `φ(x) = Σ v_i x_i` over the snapshot pairs. -/
noncomputable def violation (n : Nat) (ps : List ((ι → ℝ) × (ι → ℝ))) (ev : ℂ) (v : ι → ℂ) : ℝ :=
  (1 / (n : ℝ)) * (ps.map (fun p => Complex.normSq (toC p.2 ⬝ᵥ v - ev * (toC p.1 ⬝ᵥ v)))).sum

/-- What the filter is called with (dmd.py 789-846, no weights): the matrices `G`, `G'`, `R`. -/
noncomputable def residualOf (n : Nat) (ps : List ((ι → ℝ) × (ι → ℝ))) (ev : ℂ) (v : ι → ℂ) : ℝ × ℝ :=
  residualParts (gram n none (startM ps) (startM ps)) (gram n none (startM ps) (endM ps)) (gram n none (endM ps) (endM ps)) ev v

theorem form_gram {m : Nat} (n : Nat) (X Y : Matrix (Fin m) ι ℝ) (v : ι → ℂ) :
    star v ⬝ᵥ toCM (gram n none X Y) *ᵥ v = ((1 / (n : ℝ) : ℝ) : ℂ) * ∑ k, star (toC (X k) ⬝ᵥ v) * (toC (Y k) ⬝ᵥ v) := by
  have h : toCM (gram n none X Y) = ((1 / (n : ℝ) : ℝ) : ℂ) • ((toCM X)ᵀ * toCM Y) := by
    unfold gram
    ext i j
    simp [toCM, Matrix.mul_apply]
  have hx : ∀ (Z : Matrix (Fin m) ι ℝ) k, (toCM Z *ᵥ v) k = toC (Z k) ⬝ᵥ v := fun Z k => rfl
  have hs : star v ᵥ* (toCM X)ᵀ = star (toCM X *ᵥ v) := by
    rw [Matrix.vecMul_transpose]
    funext k
    simp only [Matrix.mulVec, dotProduct, toCM, Matrix.map_apply, Pi.star_apply, star_sum, star_mul', RCLike.star_def, Complex.conj_ofReal]
  rw [h, Matrix.smul_mulVec, dotProduct_smul, ← Matrix.mulVec_mulVec, Matrix.dotProduct_mulVec, hs, smul_eq_mul]
  rfl

/-- **C79, what the residual measures.** The squared residual used by the filter is `violation / E|φ|²` of the observable whose coefficients are the given vector. -/
theorem C79_measures (n : Nat) (ps : List ((ι → ℝ) × (ι → ℝ))) (ev : ℂ) (v : ι → ℂ) : (residualOf n ps ev v).1 = violation n ps ev v := by
  have hT : ∀ X Y : Matrix (Fin ps.length) ι ℝ, (toCM (gram n none X Y))ᵀ = toCM (gram n none Y X) := by
    intro X Y
    have : (gram n none X Y)ᵀ = gram n none Y X := by
      unfold gram
      rw [Matrix.transpose_smul, Matrix.transpose_mul, Matrix.transpose_transpose]
    rw [← this]; rfl
  unfold residualOf residualParts violation
  simp only [hT]
  rw [Matrix.add_mulVec, Matrix.sub_mulVec, Matrix.sub_mulVec, dotProduct_add, dotProduct_sub, dotProduct_sub]
  simp only [Matrix.smul_mulVec, dotProduct_smul, form_gram, smul_eq_mul]
  rw [← Fin.sum_univ_fun_getElem ps (fun p => Complex.normSq (toC p.2 ⬝ᵥ v - ev * (toC p.1 ⬝ᵥ v)))]
  rw [← Complex.ofReal_re ((1 / (n : ℝ)) * _)]
  congr 1
  rw [Complex.ofReal_mul, Complex.ofReal_sum]
  rw [mul_left_comm ev, mul_left_comm (star ev), mul_left_comm (((Complex.normSq ev : ℝ) : ℂ)), ← mul_sub, ← mul_sub, ← mul_add]
  congr 1
  rw [Finset.mul_sum, Finset.mul_sum, Finset.mul_sum, ← Finset.sum_sub_distrib, ← Finset.sum_sub_distrib, ← Finset.sum_add_distrib]
  refine Finset.sum_congr rfl (fun k _ => ?_)
  change star (toC ps[k.1].2 ⬝ᵥ v) * (toC ps[k.1].2 ⬝ᵥ v) - ev * (star (toC ps[k.1].2 ⬝ᵥ v) * (toC ps[k.1].1 ⬝ᵥ v)) - star ev * (star (toC ps[k.1].1 ⬝ᵥ v) * (toC ps[k.1].2 ⬝ᵥ v))
    + (Complex.normSq ev : ℂ) * (star (toC ps[k.1].1 ⬝ᵥ v) * (toC ps[k.1].1 ⬝ᵥ v)) = _
  simp only [Complex.normSq_eq_conj_mul_self, map_sub, map_mul, RCLike.star_def]
  ring

/-- **C79** (partial: for coefficients of an eigenfunction): for exact data of `x' = A x` a component whose vector is a left eigenvector of `A` has residual zero and is never
removed. -/
theorem C79_filter_partial {A : Matrix ι ι ℝ} {ev : ℂ} {v : ι → ℂ} (hv : v ᵥ* toCM A = ev • v) (n : Nat) (ps : List ((ι → ℝ) × (ι → ℝ)))
    (hA : ∀ p ∈ ps, p.2 = A *ᵥ p.1) : (residualOf n ps ev v).1 = 0 := by
  rw [C79_measures]
  unfold violation
  rw [List.sum_eq_zero, mul_zero]
  intro x hx
  obtain ⟨p, hp, rfl⟩ := List.mem_map.1 hx
  rw [hA p hp, Complex.normSq_eq_zero, sub_eq_zero]
  have : toC (A *ᵥ p.1) = toCM A *ᵥ toC p.1 := (toCM_mulVec A p.1).symm
  rw [this, dotProduct_comm, Matrix.dotProduct_mulVec, hv, smul_dotProduct, smul_eq_mul, dotProduct_comm]

/-- **C79, violated.** The filter gets the DMD modes (right eigenvectors of the system matrix).  Exact data of `x' = [[1, 1], [0, 2]] x`: the true eigenvalue 1 has the mode `(1, 0)`
and its squared residual is `5/1`, so a threshold of 2 removes it. -/
theorem C79_violated : ∃ (A : Matrix (Fin 2) (Fin 2) ℝ) (ps : List ((Fin 2 → ℝ) × (Fin 2 → ℝ))) (v : Fin 2 → ℂ),
    (∀ p ∈ ps, p.2 = A *ᵥ p.1) ∧ toCM A *ᵥ v = (1 : ℂ) • v ∧ v ≠ 0 ∧ (residualOf 1 ps 1 v).1 = 5 ∧ (residualOf 1 ps 1 v).2 = 1 := by
  refine ⟨!![1, 1; 0, 2], [(![0, 1], ![1, 2]), (![1, 2], ![3, 4])], ![1, 0], ?_, ?_, ?_, ?_, ?_⟩
  · intro p hp
    simp only [List.mem_cons, List.not_mem_nil, or_false] at hp
    rcases hp with rfl | rfl <;> funext i <;> fin_cases i <;> simp <;> norm_num
  · funext i; fin_cases i <;> simp [toCM, Matrix.mulVec, dotProduct]
  · intro h; have := congrFun h 0; simp at this
  · rw [C79_measures]
    simp [violation, toC, dotProduct, Complex.normSq]
    norm_num
  · unfold residualOf residualParts
    simp only [form_gram]
    simp [startM, toC, dotProduct]

end Verif.Dmd
