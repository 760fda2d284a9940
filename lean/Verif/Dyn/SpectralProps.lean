import Verif.Dyn.Spectral
import Verif.Dyn.LinearProps
import Mathlib.Analysis.Complex.Basic
import Mathlib.Topology.Instances.Matrix
/-!
# C27: spectral and matrix mode agree (also C26 for differential systems)
-/

namespace Verif.Dyn

open Verif.Tsc Matrix NormedSpace

variable {ι κ : Type} [Fintype ι] [DecidableEq ι] [Fintype κ]

/-- Specification: `ev` and the columns of `Ψ` are eigenpairs of `A` and the eigenvectors are a basis (`A` is diagonalisable). -/
structure Diagonalises (A : Matrix ι ι ℝ) (ev : ι → ℂ) (Ψ : Matrix ι ι ℂ) : Prop where
  eig : ∀ k i, (toCM A *ᵥ (fun j => Ψ j k)) i = ev k * Ψ i k
  basis : Ψ.det ≠ 0

theorem Diagonalises.mul {A : Matrix ι ι ℝ} {ev : ι → ℂ} {Ψ : Matrix ι ι ℂ} (h : Diagonalises A ev Ψ) :
    toCM A * Ψ = Ψ * diagonal ev := by
  ext i k
  have := h.eig k i
  rw [Matrix.mul_diagonal, mul_comm]
  simpa [Matrix.mul_apply, Matrix.mulVec, dotProduct] using this

theorem reV_toC (x : ι → ℝ) : reV (toC x) = x := by funext i; simp [reV, toC]

theorem toCM_mulVec {κ : Type} [Fintype κ] (A : Matrix ι κ ℝ) (x : κ → ℝ) : toCM A *ᵥ (fun i => (x i : ℂ)) = toC (A *ᵥ x) := by
  funext i; simp [toCM, toC, Matrix.mulVec, dotProduct]

theorem toCM_mulVec' (A : Matrix ι ι ℝ) (x : ι → ℝ) : toCM A *ᵥ toC x = toC (A *ᵥ x) := toCM_mulVec A x

theorem toCM_eq (A : Matrix ι ι ℝ) : toCM A = Complex.ofRealHom.mapMatrix A := rfl

theorem toCM_pow (A : Matrix ι ι ℝ) (k : Nat) : toCM A ^ k = toCM (A ^ k) := by
  rw [toCM_eq, toCM_eq, map_pow]

theorem diag_mulVec (v b : ι → ℂ) : diagonal v *ᵥ b = fun i => v i * b i := by
  funext i; exact Matrix.mulVec_diagonal v b i

/-- With a basis of eigenvectors both ways to compute the spectral state give coordinates: `Ψ b = x`. -/
theorem spectralState_coord {A : Matrix ι ι ℝ} {ev : ι → ℂ} {Ψ : Matrix ι ι ℂ} (h : Diagonalises A ev Ψ)
    {left : Option (Matrix ι ι ℂ)} (hl : left = none ∨ (left = leftEigenvectors A ev Ψ)) {x b : ι → ℂ} (hb : IsSpectralState left Ψ x b) :
    Ψ *ᵥ b = x := by
  have hu : IsUnit Ψ.det := isUnit_iff_ne_zero.2 h.basis
  rcases hb with ⟨L, hL, rfl⟩ | ⟨_, hb⟩
  · rcases hl with hl | hl
    · rw [hl] at hL; cases hL
    · rw [hL] at hl
      unfold leftEigenvectors at hl
      split at hl
      · cases hl
      · rename_i hdet
        have hu' : IsUnit (Ψ * diagonal ev).det := isUnit_iff_ne_zero.2 hdet
        cases hl
        have h1 : (Ψ * diagonal ev)⁻¹ * toCM A * Ψ = 1 := by
          rw [Matrix.mul_assoc, h.mul, Matrix.nonsing_inv_mul _ hu']
        have h2 : Ψ * ((Ψ * diagonal ev)⁻¹ * toCM A) = 1 := mul_eq_one_comm.1 h1
        rw [Matrix.mulVec_mulVec, h2, Matrix.one_mulVec]
  · have h0 : residual Ψ x (Ψ⁻¹ *ᵥ x) = 0 := by
      unfold residual
      rw [Matrix.mulVec_mulVec, Matrix.mul_nonsing_inv _ hu, Matrix.one_mulVec, sub_self]
      simp
    have h1 := hb (Ψ⁻¹ *ᵥ x)
    rw [h0] at h1
    have h2 : residual Ψ x b = 0 := le_antisymm h1 (Finset.sum_nonneg (fun i _ => Complex.normSq_nonneg _))
    unfold residual at h2
    rw [Finset.sum_eq_zero_iff_of_nonneg (fun i _ => Complex.normSq_nonneg _)] at h2
    funext i
    have := Complex.normSq_eq_zero.1 (h2 i (Finset.mem_univ i))
    simpa [sub_eq_zero] using this

theorem Diagonalises.pow {A : Matrix ι ι ℝ} {ev : ι → ℂ} {Ψ : Matrix ι ι ℂ} (h : Diagonalises A ev Ψ) (k : Nat) :
    Ψ * diagonal (fun i => ev i ^ k) = toCM A ^ k * Ψ := by
  induction k with
  | zero => simp
  | succ k ih =>
    have : diagonal (fun i => ev i ^ (k + 1)) = diagonal (fun i => ev i ^ k) * diagonal ev := by
      rw [Matrix.diagonal_mul_diagonal]; simp [pow_succ]
    rw [this, ← Matrix.mul_assoc, ih, Matrix.mul_assoc, ← h.mul, ← Matrix.mul_assoc, ← pow_succ]

/-- **C27.** If the columns of `Ψ` are a basis of eigenvectors of the real system matrix `A`, spectral mode (with spectral states computed
either from the left eigenvectors or by least squares) predicts the same states as matrix mode, for all initial conditions and numbers of
steps. -/
theorem C27_flowmap {A : Matrix ι ι ℝ} {ev : ι → ℂ} {Ψ : Matrix ι ι ℂ} (h : Diagonalises A ev Ψ)
    {left : Option (Matrix ι ι ℂ)} (hl : left = none ∨ (left = leftEigenvectors A ev Ψ))
    (ics : List (ι → ℝ)) (bs : List (ι → ℂ)) (hb : List.Forall₂ (fun x b => IsSpectralState left Ψ (toC x) b) ics bs)
    (times : List Int) (dt : Int) : flowmapSpectral Ψ ev bs times dt = flowmapMatrix A ics times dt := by
  unfold flowmapSpectral flowmapMatrix
  induction hb with
  | nil => rfl
  | @cons x b xs bs hxb _ ih =>
    rw [List.map_cons, List.map_cons, ih]
    congr 1
    apply List.map_congr_left
    intro t _
    rw [← diag_mulVec (fun i => ev i ^ stepCount dt t) b, Matrix.mulVec_mulVec, h.pow, ← Matrix.mulVec_mulVec, spectralState_coord h hl hxb,
      toCM_pow, toCM_mulVec', reV_toC]

omit [Fintype ι] [DecidableEq ι] in
theorem toCM_continuous : Continuous (fun A : Matrix ι ι ℝ => toCM A) :=
  Continuous.matrix_map continuous_id Complex.continuous_ofReal

set_option backward.isDefEq.respectTransparency false in
open scoped Norms.Operator in
theorem toCM_exp (A : Matrix ι ι ℝ) : toCM (exp A) = exp (toCM A) := by
  have := map_exp (Complex.ofRealHom.mapMatrix : Matrix ι ι ℝ →+* Matrix ι ι ℂ) toCM_continuous A
  exact this

/-- **C27, differential systems.** The same for the continuous time systems: `Ψ exp(Λt) b = exp(At) x` at all real times. -/
theorem C27_differential {A : Matrix ι ι ℝ} {ev : ι → ℂ} {Ψ : Matrix ι ι ℂ} (h : Diagonalises A ev Ψ)
    {left : Option (Matrix ι ι ℂ)} (hl : left = none ∨ (left = leftEigenvectors A ev Ψ))
    (ics : List (ι → ℝ)) (bs : List (ι → ℂ)) (hb : List.Forall₂ (fun x b => IsSpectralState left Ψ (toC x) b) ics bs)
    (times : List ℝ) : differentialSpectral Ψ ev bs times = differentialMatrix A ics times := by
  have hu : IsUnit Ψ.det := isUnit_iff_ne_zero.2 h.basis
  have hA : toCM A = Ψ * diagonal ev * Ψ⁻¹ := by
    rw [← h.mul, Matrix.mul_assoc, Matrix.mul_nonsing_inv _ hu, Matrix.mul_one]
  unfold differentialSpectral differentialMatrix
  induction hb with
  | nil => rfl
  | @cons x b xs bs hxb _ ih =>
    rw [List.map_cons, List.map_cons, ih]
    congr 1
    apply List.map_congr_left
    intro t _
    have hx := spectralState_coord h hl hxb
    have hexp : toCM (exp (t • A)) = Ψ * diagonal (fun i => Complex.exp (ev i * t)) * Ψ⁻¹ := by
      rw [toCM_exp]
      have h1 : toCM (t • A) = Ψ * diagonal (fun i => ev i * t) * Ψ⁻¹ := by
        have : toCM (t • A) = (t : ℂ) • toCM A := by ext i j; simp [toCM]
        rw [this, hA, ← Matrix.smul_mul, ← Matrix.mul_smul, ← Matrix.diagonal_smul]
        congr 3
        funext i; simp [mul_comm]
      rw [h1, Matrix.exp_conj _ _ ((Matrix.isUnit_iff_isUnit_det _).2 hu), Matrix.exp_diagonal]
      congr 3
      funext i
      rw [Complex.exp_eq_exp_ℂ, Pi.coe_exp]
    have : toC (exp (t • A) *ᵥ x) = Ψ *ᵥ (fun i => Complex.exp (ev i * t) * b i) := by
      rw [← toCM_mulVec, hexp]
      change (_ * _) *ᵥ toC x = _
      rw [← hx, Matrix.mulVec_mulVec, Matrix.mul_assoc, Matrix.nonsing_inv_mul _ hu, Matrix.mul_one,
        ← Matrix.mulVec_mulVec, diag_mulVec]
    rw [← this, reV_toC]

/-- **C26, differential systems**: the semigroup law, `x(s+t)` is reached from `x(s)` after time `t`. -/
theorem C26_differential (A : Matrix ι ι ℝ) (x : ι → ℝ) (s t : ℝ) :
    differentialMatrix A [x] [0, s, s + t] = [[x, exp (s • A) *ᵥ x, exp (t • A) *ᵥ (exp (s • A) *ᵥ x)]] := by
  unfold differentialMatrix
  have : exp ((s + t) • A) = exp (t • A) * exp (s • A) := by
    rw [add_comm, add_smul]
    exact Matrix.exp_add_of_commute _ _ ((Commute.refl A).smul_left t |>.smul_right s)
  simp [this, Matrix.mulVec_mulVec]

/-- **C28, spectral mode.** With left eigenvectors the controlled spectral system predicts the same states as the controlled matrix
system. -/
theorem C28_spectral_controlled {A : Matrix ι ι ℝ} {ev : ι → ℂ} {Ψ L : Matrix ι ι ℂ} (h : Diagonalises A ev Ψ)
    (hl : leftEigenvectors A ev Ψ = some L) (B : Matrix ι κ ℝ) (ics : List (ι → ℝ)) (us : List (List (κ → ℝ))) (times : List Int) :
    flowmapSpectralControlled Ψ L ev B (ics.map (fun x => L *ᵥ toC x)) us times = flowmapMatrixControlled A B ics us times := by
  have hL : Ψ * L = 1 := by
    ext i j
    have := spectralState_coord h (Or.inr hl.symm) (x := Pi.single j 1) (b := L *ᵥ Pi.single j 1) (Or.inl ⟨L, rfl, rfl⟩)
    rw [Matrix.mulVec_mulVec] at this
    have h2 := congrFun this i
    rw [Matrix.mulVec_single_one] at h2
    rw [Matrix.one_apply]
    simpa [Matrix.col_apply, Pi.single_apply] using h2
  have hM : Ψ * (diagonal ev * L) = toCM A := by
    rw [← Matrix.mul_assoc, ← h.mul, Matrix.mul_assoc, hL, Matrix.mul_one]
  have hloop : ∀ (x : ι → ℝ) (ds ds' : List Int) (u : List (κ → ℝ)), ds.length = ds'.length →
      spectralControlledLoop (toCM A) B x ds u = controlledLoop A B x ds' u := by
    intro x ds
    induction ds generalizing x with
    | nil => intro ds' u hd; cases ds' <;> simp_all [spectralControlledLoop, controlledLoop]
    | cons d ds ih =>
      intro ds' u hd
      cases ds' with
      | nil => simp at hd
      | cons d' ds' =>
        cases u with
        | nil => simp [spectralControlledLoop, controlledLoop]
        | cons u us =>
          rw [spectralControlledLoop, controlledLoop]
          have : reV (toCM A *ᵥ toC x + toCM B *ᵥ spectralControlledLoop.toC' u) = A *ᵥ x + B *ᵥ u := by
            unfold spectralControlledLoop.toC'
            rw [toCM_mulVec, toCM_mulVec']
            funext i; simp [reV, toC]
          rw [this, ih _ ds' us (by simpa using hd)]
  unfold flowmapSpectralControlled flowmapMatrixControlled
  rw [List.zipWith_map_left]
  congr 1
  funext x u
  rw [hM, Matrix.mulVec_mulVec, hL, Matrix.one_mulVec, reV_toC]
  exact hloop x _ _ u (by rw [length_diffs]; simp)

/-- **C75 is violated** by the code: the left eigenvectors cannot be computed for any system matrix with eigenvalue zero, however
well-conditioned its eigenvectors are. -/
theorem C75_violated {A : Matrix ι ι ℝ} {ev : ι → ℂ} {Ψ : Matrix ι ι ℂ} {k : ι} (hk : ev k = 0) : leftEigenvectors A ev Ψ = none := by
  unfold leftEigenvectors
  rw [if_pos]
  rw [Matrix.det_mul, Matrix.det_diagonal, Finset.prod_eq_zero (Finset.mem_univ k) hk, mul_zero]

/-- **C75** (partial: no eigenvalue is zero): the left eigenvectors exist and reconstruct the matrix, `A = Ψ Λ L`, `L Ψ = 1`. -/
theorem C75_left_partial {A : Matrix ι ι ℝ} {ev : ι → ℂ} {Ψ : Matrix ι ι ℂ} (h : Diagonalises A ev Ψ) (hev : ∀ k, ev k ≠ 0) :
    ∃ L, leftEigenvectors A ev Ψ = some L ∧ L * Ψ = 1 ∧ toCM A = Ψ * diagonal ev * L := by
  have hdet : (Ψ * diagonal ev).det ≠ 0 := by
    rw [Matrix.det_mul, Matrix.det_diagonal]
    exact mul_ne_zero h.basis (Finset.prod_ne_zero_iff.2 (fun k _ => hev k))
  have hu' : IsUnit (Ψ * diagonal ev).det := isUnit_iff_ne_zero.2 hdet
  refine ⟨(Ψ * diagonal ev)⁻¹ * toCM A, ?_, ?_, ?_⟩
  · unfold leftEigenvectors; rw [if_neg hdet]
  · rw [Matrix.mul_assoc, h.mul, Matrix.nonsing_inv_mul _ hu']
  · rw [← Matrix.mul_assoc, Matrix.mul_nonsing_inv _ hu', Matrix.one_mul]

/-- A rotation by 90 degrees: real matrix with complex eigenpairs. -/
def exRot : Matrix (Fin 2) (Fin 2) ℝ := !![0, -1; 1, 0]

example : Diagonalises exRot ![Complex.I, -Complex.I] !![1, 1; -Complex.I, Complex.I] := by
  constructor
  · intro k i
    fin_cases k <;> fin_cases i <;> simp [toCM, exRot, Matrix.mulVec, dotProduct, Fin.sum_univ_two]
  · rw [Matrix.det_fin_two_of]
    intro h
    have := congrArg Complex.im h
    norm_num at this

end Verif.Dyn
