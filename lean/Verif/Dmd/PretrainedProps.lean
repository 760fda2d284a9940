import Verif.Dmd.Pretrained
import Verif.Dyn.SpectralProps
import Verif.Dyn.SystemProps
/-!
# C177: pretrained models and the PyDMD wrapper
-/

namespace Verif.Dmd

open Verif.Tsc Verif.Dyn Matrix

variable {ι : Type} [Fintype ι] [DecidableEq ι]

theorem colNorm_ne_zero {Ψ : Matrix ι ι ℂ} (h : Ψ.det ≠ 0) (k : ι) : (colNorm Ψ k : ℂ) ≠ 0 := by
  intro h0
  have h1 : colNorm Ψ k = 0 := by exact_mod_cast h0
  unfold colNorm at h1
  rw [Real.sqrt_eq_zero (Finset.sum_nonneg fun i _ => Complex.normSq_nonneg _), Finset.sum_eq_zero_iff_of_nonneg fun i _ => Complex.normSq_nonneg _] at h1
  exact h (Matrix.det_eq_zero_of_column_eq_zero k (fun i => Complex.normSq_eq_zero.1 (h1 i (Finset.mem_univ i))))

/-- Sorting and normalising keeps the eigenpairs. -/
theorem diagonalises_sorted {A : Matrix ι ι ℝ} {ev : ι → ℂ} {Ψ : Matrix ι ι ℂ} (h : Diagonalises A ev Ψ) (σ : Equiv.Perm ι) :
    Diagonalises A (fun k => ev (σ k)) (Matrix.of (fun i k => Ψ i (σ k) / (colNorm Ψ (σ k) : ℂ))) := by
  constructor
  · intro k i
    have := h.eig (σ k) i
    have he : (fun j => Matrix.of (fun i k => Ψ i (σ k) / (colNorm Ψ (σ k) : ℂ)) j k) = (colNorm Ψ (σ k) : ℂ)⁻¹ • (fun j => Ψ j (σ k)) := by
      funext j; simp [div_eq_inv_mul]
    rw [he, Matrix.mulVec_smul, Pi.smul_apply, this]
    simp [div_eq_inv_mul]; ring
  · have he : (Matrix.of (fun i k => Ψ i (σ k) / (colNorm Ψ (σ k) : ℂ))) = Ψ.submatrix id σ * diagonal (fun k => (colNorm Ψ (σ k) : ℂ)⁻¹) := by
      ext i k; rw [Matrix.mul_diagonal]; simp [div_eq_mul_inv]
    rw [he, Matrix.det_mul, Matrix.det_diagonal, Matrix.det_permute']
    refine mul_ne_zero (mul_ne_zero ?_ h.basis) (Finset.prod_ne_zero_iff.2 fun k _ => inv_ne_zero (colNorm_ne_zero h.basis _))
    rcases Int.units_eq_one_or (Equiv.Perm.sign σ) with e | e <;> simp [e]

theorem spectralComponents_some {A : Matrix ι ι ℝ} {ev : ι → ℂ} {Ψ Φ : Matrix ι ι ℂ} {σ : Equiv.Perm ι} {b : Bool} {w : ι → ℂ} {L : Option (Matrix ι ι ℂ)}
    (h : spectralComponents A ev Ψ σ b = some (Φ, w, L)) :
    w = (fun k => ev (σ k)) ∧ Φ = Matrix.of (fun i k => Ψ i (σ k) / (colNorm Ψ (σ k) : ℂ)) ∧ (L = none ∨ L = leftEigenvectors A w Φ) := by
  unfold spectralComponents at h
  dsimp only at h
  split at h
  · rw [Option.map_eq_some_iff] at h
    obtain ⟨L', h1, h2⟩ := h
    cases h2
    exact ⟨rfl, rfl, Or.inr h1.symm⟩
  · cases h
    exact ⟨rfl, rfl, Or.inl rfl⟩

/-- **C177 (both modes agree; partial: the matrix is diagonalisable, and invertible if left eigenvectors are asked for).** Whatever basis of eigenvectors the eigensolver returns, in whatever order
they are sorted: `from_available_system_matrix` succeeds in both modes, and the predicted states are those of the given matrix, `A^k x` after `k` steps. -/
theorem C177_flowmap_partial {A : Matrix ι ι ℝ} {ev : ι → ℂ} {Ψ : Matrix ι ι ℂ} (h : Diagonalises A ev Ψ) (σ : Equiv.Perm ι) (mode : SysMode) (b : Bool)
    (hb : b = true → IsUnit A.det) :
    ∃ s, fromSystemMatrix mode A b ev Ψ σ = some s ∧ ∀ dt ics times out, PredictsFlow s dt ics times out →
      out = ics.map (fun x => times.map (fun t => (A ^ stepCount dt t) *ᵥ x)) := by
  cases mode with
  | matrix => exact ⟨.matrix A, rfl, fun dt ics times out ho => ho⟩
  | spectral =>
    have hd := diagonalises_sorted h σ
    have hex : ∃ s, spectralComponents A ev Ψ σ b = some s := by
      unfold spectralComponents
      cases b with
      | false => exact ⟨_, rfl⟩
      | true =>
        have hne : ∀ k, ev (σ k) ≠ 0 := by
          intro k hk
          have h1 := congrArg Matrix.det hd.mul
          rw [Matrix.det_mul, Matrix.det_mul, Matrix.det_diagonal, mul_comm, Finset.prod_eq_zero (Finset.mem_univ k) hk, mul_zero] at h1
          rcases mul_eq_zero.1 h1 with h2 | h2
          · exact hd.basis h2
          · have : (toCM A).det = ((A.det : ℝ) : ℂ) := by
              rw [toCM_eq]; exact (RingHom.map_det Complex.ofRealHom A).symm
            rw [this] at h2
            exact (hb rfl).ne_zero (by exact_mod_cast h2)
        obtain ⟨L, hL, _⟩ := C75_left_partial hd hne
        exact ⟨_, by simp only [if_true]; rw [hL]; rfl⟩
    obtain ⟨⟨Φ, w, L⟩, hs⟩ := hex
    obtain ⟨rfl, rfl, hl⟩ := spectralComponents_some hs
    refine ⟨.spectral _ _ L, by unfold fromSystemMatrix; simp only [hs]; rfl, ?_⟩
    rintro dt ics times out ⟨bs, h1, rfl⟩
    exact C27_flowmap hd hl ics bs h1 times dt

/-- **C177 (differential systems; partial in the same way).** The predicted states are `exp(t A) x`. -/
theorem C177_differential_partial {A : Matrix ι ι ℝ} {ev : ι → ℂ} {Ψ : Matrix ι ι ℂ} (h : Diagonalises A ev Ψ) (σ : Equiv.Perm ι) (mode : SysMode) (b : Bool) (s : Pretrained ι)
    (hs : fromSystemMatrix mode A b ev Ψ σ = some s) (ics : List (ι → ℝ)) (times : List ℝ) (out : List (List (ι → ℝ))) (ho : PredictsDiff s ics times out) :
    out = ics.map (fun x => times.map (fun t => NormedSpace.exp (t • A) *ᵥ x)) := by
  cases mode with
  | matrix =>
    cases hs
    exact ho
  | spectral =>
    have hd := diagonalises_sorted h σ
    unfold fromSystemMatrix at hs
    dsimp only at hs
    rw [Option.map_eq_some_iff] at hs
    obtain ⟨⟨Φ, w, L⟩, h1, rfl⟩ := hs
    obtain ⟨rfl, rfl, hl⟩ := spectralComponents_some h1
    obtain ⟨bs, h2, rfl⟩ := ho
    exact C27_differential hd hl ics bs h2 times

/-- **C177 (normalisation).** The eigenvectors of a model in spectral mode have norm one and belong to the eigenvalues at the same position. -/
theorem C177_normalised {A : Matrix ι ι ℝ} {ev : ι → ℂ} {Ψ : Matrix ι ι ℂ} (h : Diagonalises A ev Ψ) (σ : Equiv.Perm ι) (b : Bool) (Φ : Matrix ι ι ℂ) (w : ι → ℂ) (L : Option (Matrix ι ι ℂ))
    (hs : fromSystemMatrix .spectral A b ev Ψ σ = some (.spectral Φ w L)) :
    (∀ k, ∑ i, Complex.normSq (Φ i k) = 1) ∧ ∀ k i, (toCM A *ᵥ (fun j => Φ j k)) i = w k * Φ i k := by
  unfold fromSystemMatrix at hs
  dsimp only at hs
  rw [Option.map_eq_some_iff] at hs
  obtain ⟨⟨Φ', w', L'⟩, h1, h2⟩ := hs
  cases h2
  obtain ⟨rfl, rfl, -⟩ := spectralComponents_some h1
  refine ⟨fun k => ?_, (diagonalises_sorted h σ).eig⟩
  have h0 := colNorm_ne_zero h.basis (σ k)
  have hs : ∑ i, Complex.normSq (Ψ i (σ k)) = colNorm Ψ (σ k) ^ 2 := (Real.sq_sqrt (Finset.sum_nonneg fun i _ => Complex.normSq_nonneg _)).symm
  simp only [Matrix.of_apply, Complex.normSq_div, Complex.normSq_ofReal]
  rw [← Finset.sum_div, hs, sq, div_self]
  have : colNorm Ψ (σ k) ≠ 0 := by exact_mod_cast h0
  exact mul_ne_zero this this

/-- **C177 (singular matrices; violated).** For every diagonalisable matrix with eigenvalue zero, e.g. every projection, a pretrained model with left eigenvectors cannot be set up. -/
theorem C177_singular_violated {A : Matrix ι ι ℝ} {ev : ι → ℂ} {Ψ : Matrix ι ι ℂ} {k : ι} (hk : ev k = 0) (σ : Equiv.Perm ι) : fromSystemMatrix .spectral A true ev Ψ σ = none := by
  unfold fromSystemMatrix spectralComponents
  have : leftEigenvectors A (fun k => ev (σ k)) (Matrix.of (fun i k => Ψ i (σ k) / (colNorm Ψ (σ k) : ℂ))) = none := C75_violated (k := σ.symm k) (by simpa using hk)
  simp [this]

/-- **C177 (dimensions; violated).** `fit` accepts data with any number of features; if it is not the size of the system matrix, every prediction with the fitted model raises. -/
theorem C177_dimension_violated {α : Type} (s : Sys α) (hm : s.mode = .matrix) (A : Shape α) (n : Nat) (hA : s.sysMatrix = some A) (hs : A.shape = [n, n]) (m : Nat) (hmn : m ≠ n)
    (nIc nTimes : Nat) (dt : ℚ) : pretrainedPredict (pretrainedFit s m) nIc nTimes dt = .error .icLength := by
  simp [pretrainedPredict, pretrainedFit, evolveCheck, chooseMatrix, hm, hA, hs, checkIc, hmn]

/-- **C177 (dimensions).** With the right number of features, time values and a positive sampling interval, the checks of the prediction pass. -/
theorem C177_dimension {α : Type} (s : Sys α) (hm : s.mode = .matrix) (hc : s.controlled = false) (A : Shape α) (n : Nat) (hA : s.sysMatrix = some A) (hs : A.shape = [n, n])
    (nIc nTimes : Nat) {dt : ℚ} (hdt : 0 < dt) : ∃ e, pretrainedPredict (pretrainedFit s n) nIc nTimes dt = .ok e ∧ e.nIc = nIc ∧ e.nTimes = nTimes ∧ e.nFeatures = n := by
  cases ht : s.ty with
  | differential => exact ⟨⟨A, nIc, nTimes, n, none⟩, by simp [pretrainedPredict, pretrainedFit, evolveCheck, chooseMatrix, hm, hA, hs, checkIc, checkTimes, hc, checkDelta, ht], rfl, rfl, rfl⟩
  | flowmap => exact ⟨⟨A, nIc, nTimes, n, some dt⟩, by simp [pretrainedPredict, pretrainedFit, evolveCheck, chooseMatrix, hm, hA, hs, checkIc, checkTimes, hc, checkDelta, ht, not_le.2 hdt], rfl, rfl, rfl⟩

/-! ### PyDMD -/

variable {V W : Type}

/-- **C177 (wrapper).** `PyDMDWrapper.fit` hands the states of the single time series, in order, to the PyDMD model and sets up the linear system, for every method but `dmdc`; collections of several
series and unknown methods are rejected. -/
theorem C177_wrapper_partial (m : PyMethod) (hm : m ≠ .dmdc) (X : List (Row Int V)) (U : Option (List (Row Int W))) (r : PyInput V W × Bool) :
    pyFit m X U = .ok r ↔ m ≠ .unknown ∧ (∀ a ∈ X, ∀ b ∈ X, a.id = b.id) ∧ r = (⟨X.map (·.val), none⟩, true) := by
  have hlen : ¬ 1 < (ids X).length ↔ ∀ a ∈ X, ∀ b ∈ X, a.id = b.id := by
    constructor
    · intro h a ha b hb
      have h1 := mem_ids.2 (⟨a, ha, rfl⟩ : HasId X a.id)
      have h2 := mem_ids.2 (⟨b, hb, rfl⟩ : HasId X b.id)
      match hi : ids X with
      | [] => rw [hi] at h1; simp at h1
      | [x] => rw [hi] at h1 h2; simp at h1 h2; rw [h1, h2]
      | x :: y :: l => rw [hi] at h; simp at h
    · intro h hlt
      match hi : ids X with
      | [] => rw [hi] at hlt; simp at hlt
      | [x] => rw [hi] at hlt; simp at hlt
      | x :: y :: l =>
        have hnd := ids_nodup X
        rw [hi] at hnd
        obtain ⟨a, ha, ea⟩ := mem_ids.1 (show x ∈ ids X by rw [hi]; simp)
        obtain ⟨b, hb, eb⟩ := mem_ids.1 (show y ∈ ids X by rw [hi]; simp)
        have := h a ha b hb
        rw [ea, eb] at this
        simp [this] at hnd
  unfold pyFit
  by_cases hu : m = .unknown
  · simp [hu]
  · by_cases h1 : 1 < (ids X).length
    · simp only [hu, if_false, h1, if_true, reduceCtorEq, ne_eq, not_false_eq_true, true_and, false_iff]
      rintro ⟨h2, _⟩
      exact hlen.2 h2 h1
    · simp only [hu, if_false, h1, hm, Except.ok.injEq, ne_eq, not_false_eq_true, true_and, hlen.1 h1]
      constructor
      · rintro rfl; exact ⟨hlen.1 h1, rfl⟩
      · rintro ⟨_, rfl⟩; rfl

/-- **C177 (wrapper with control; violated).** With method `dmdc` every fitted model raises in `predict`, whatever the data, because the linear system is never set up. -/
theorem C177_dmdc_violated (X : List (Row Int V)) (U : Option (List (Row Int W))) (r : PyInput V W × Bool) (h : pyFit .dmdc X U = .ok r) : pyPredict r = .error .notSetup := by
  unfold pyFit at h
  simp only [reduceCtorEq, if_false, if_true] at h
  split at h
  · cases h
  · cases U with
    | none => cases h
    | some U => cases h; rfl

/-- **C177 (alignment of the control input; violated).** The control state that the PyDMD model pairs with the step from sample `t` to sample `t+1` is the one attached to sample `t+1`, and not the one of
sample `t` that acts on this step in all other models: the first control state is not used. -/
theorem C177_alignment_violated (X : List (Row Int V)) (U : List (Row Int W)) (r : PyInput V W × Bool) (h : pyFit .dmdc X (some U) = .ok r) (t : Nat) :
    ∃ l, r.1.control = some l ∧ l[t]? = (U[t + 1]?).map (·.val) := by
  unfold pyFit at h
  simp only [reduceCtorEq, if_false, if_true] at h
  split at h
  · cases h
  · cases h
    exact ⟨_, rfl, by simp [List.getElem?_drop, Nat.add_comm]⟩

/-- non-vacuity: a single controlled series is accepted -/
example : ∃ r, pyFit .dmdc [⟨0, 0, 1⟩, ⟨0, 1, 2⟩, (⟨0, 2, 3⟩ : Row Int Nat)] (some [⟨0, 0, 7⟩, ⟨0, 1, 8⟩, (⟨0, 2, 9⟩ : Row Int Nat)]) = .ok r ∧ r.1.control = some [8, 9] :=
  ⟨_, rfl, rfl⟩

/-- non-vacuity: the rotation of `Dyn.exRot` is invertible -/
example : IsUnit exRot.det := by simp [exRot, Matrix.det_fin_two]

end Verif.Dmd
