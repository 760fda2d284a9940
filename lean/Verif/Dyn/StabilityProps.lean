import Verif.Dyn.SpectralProps
import Verif.Dyn.SystemProps
import Verif.Dyn.LinearLemmas
import Mathlib.Analysis.SpecificLimits.Normed
import Mathlib.Analysis.Normed.Algebra.GelfandFormula
import Mathlib.Analysis.Matrix.Normed
/-!
# C246: long predictions

Whether predictions stay bounded, decay or grow is decided by the eigenvalues of the fitted model.
-/

namespace Verif.Dyn

open Verif.Tsc Matrix

variable {ι κ ρ : Type} [Fintype ι] [Fintype κ] [Fintype ρ]

/-! ## Specification -/

/-- Initial conditions with one state per time series and ascending time values, the first of them `t0`. -/
structure GoodRequest {V : Type} (X : List (Row Int V)) (t0 : Int) (times : List Int) : Prop where
  nonempty : X ≠ []
  distinct : (X.map (·.id)).Nodup
  first : times.head? = some t0
  ascending : times.Pairwise (· < ·)

/-- How strongly the modes can show in feature `i` of the states predicted from the spectral state `b`. -/
noncomputable def amplitude (modes : Matrix κ ρ ℂ) (b : ρ → ℂ) (i : κ) : ℝ := ∑ k, ‖modes i k‖ * ‖b k‖

/-! ## Helper lemmas -/

theorem evolveFrame_rows {V W : Type} {X : List (Row Int V)} {t0 : Int} {times : List Int} (h : GoodRequest X t0 times) (F : Int → V → W) :
    ∃ d, evolveFrame X times (fun ics norm => ics.map (fun x => norm.map (fun t => F t x))) = .ok d ∧ (∀ x ∈ X, ∀ t ∈ times, ⟨x.id, t, F (t - t0) x.val⟩ ∈ d) ∧
      ∀ r ∈ d, t0 ≤ r.time ∧ ∃ x ∈ X, x.id = r.id ∧ r.val = F (r.time - t0) x.val := by
  obtain ⟨hne, hnd, hf, hasc⟩ := h
  cases times with
  | nil => simp at hf
  | cons t ts =>
    simp only [List.head?_cons, Option.some.injEq] at hf
    subst hf
    obtain ⟨d, hd, _, _, hid, hc⟩ := evolveFrame_ok X t ts (fun ics norm => ics.map (fun x => norm.map (fun t => F t x))) hne hnd hasc (by simp) (by simp)
    have hz : ∀ x : V, (t :: ts).zip (((t :: ts).map (· - t)).map (fun s => F s x)) = (t :: ts).map (fun s => (s, F (s - t) x)) := by
      intro x
      rw [List.map_map]
      generalize t :: ts = l
      induction l with
      | nil => rfl
      | cons a l ih => rw [List.map_cons, List.map_cons, List.zip_cons_cons, ih]; rfl
    refine ⟨d, hd, ?_, ?_⟩
    · intro x hx s hs
      obtain ⟨k, hk, rfl⟩ := List.getElem_of_mem hx
      have h1 := hc k hk
      simp only [List.getElem_map] at h1
      rw [hz] at h1
      have h2 : (s, F (s - t) X[k].val) ∈ content d X[k].id := by rw [h1]; exact List.mem_map.2 ⟨s, hs, rfl⟩
      unfold content series at h2
      obtain ⟨r, hr, h3⟩ := List.mem_map.1 h2
      obtain ⟨hr1, hr2⟩ := List.mem_filter.1 hr
      simp only [Prod.mk.injEq] at h3
      have hr3 : r.id = X[k].id := by simpa using hr2
      rw [← hr3]
      obtain ⟨i, u, v⟩ := r
      simp only at h3 ⊢
      rw [← h3.2, ← h3.1]
      exact hr1
    · intro r hr
      obtain ⟨x, hx, hxi⟩ := (hid r.id).1 ⟨r, hr, rfl⟩
      obtain ⟨k, hk, rfl⟩ := List.getElem_of_mem hx
      have h1 := hc k hk
      simp only [List.getElem_map] at h1
      rw [hz, hxi] at h1
      have h2 : (r.time, r.val) ∈ content d r.id := List.mem_map.2 ⟨r, List.mem_filter.2 ⟨hr, by simp⟩, rfl⟩
      rw [h1] at h2
      obtain ⟨s, hs, h3⟩ := List.mem_map.1 h2
      simp only [Prod.mk.injEq] at h3
      refine ⟨?_, _, hx, hxi, ?_⟩
      · rw [← h3.1]
        rcases List.mem_cons.1 hs with rfl | hs
        · exact le_refl _
        · exact le_of_lt (List.rel_of_pairwise_cons hasc hs)
      · rw [← h3.1, ← h3.2]

omit [Fintype κ] in
theorem mode_bound (modes : Matrix κ ρ ℂ) (c b : ρ → ℂ) {q : ℝ} (hc : ∀ k, ‖c k‖ ≤ q) (i : κ) : |reV (modes *ᵥ (fun k => c k * b k)) i| ≤ q * amplitude modes b i := by
  unfold reV amplitude
  refine (Complex.abs_re_le_norm _).trans ?_
  simp only [Matrix.mulVec, dotProduct]
  refine (norm_sum_le _ _).trans ?_
  rw [Finset.mul_sum]
  apply Finset.sum_le_sum
  intro k _
  rw [norm_mul, norm_mul]
  calc ‖modes i k‖ * (‖c k‖ * ‖b k‖) ≤ ‖modes i k‖ * (q * ‖b k‖) :=
        mul_le_mul_of_nonneg_left (mul_le_mul_of_nonneg_right (hc k) (norm_nonneg _)) (norm_nonneg _)
    _ = q * (‖modes i k‖ * ‖b k‖) := by ring

omit [Fintype κ] in
theorem amplitude_nonneg (modes : Matrix κ ρ ℂ) (b : ρ → ℂ) (i : κ) : 0 ≤ amplitude modes b i :=
  Finset.sum_nonneg (fun _ _ => mul_nonneg (norm_nonneg _) (norm_nonneg _))

theorem predictSpectral_rows (modes : Matrix κ ρ ℂ) (ev : ρ → ℂ) (spec : (ι → ℝ) → (ρ → ℂ)) (dt : Int) {X : List (Row Int (ι → ℝ))} {t0 : Int} {times : List Int} (h : GoodRequest X t0 times) :
    ∃ d, predictSpectral modes ev spec dt X times = .ok d ∧ (∀ x ∈ X, ∀ t ∈ times, ⟨x.id, t, reV (modes *ᵥ (fun i => ev i ^ stepCount dt (t - t0) * spec x.val i))⟩ ∈ d) ∧
      ∀ r ∈ d, t0 ≤ r.time ∧ ∃ x ∈ X, x.id = r.id ∧ r.val = reV (modes *ᵥ (fun i => ev i ^ stepCount dt (r.time - t0) * spec x.val i)) := by
  obtain ⟨d, hd, h1, h2⟩ := evolveFrame_rows h (fun t x => reV (modes *ᵥ (fun i => ev i ^ stepCount dt t * spec x i)))
  refine ⟨d, ?_, h1, h2⟩
  rw [← hd]
  unfold predictSpectral flowmapSpectral
  congr 1
  funext ics norm
  rw [List.map_map]
  rfl

theorem predictMatrix_rows [DecidableEq ι] (A : Matrix ι ι ℝ) (dt : Int) {X : List (Row Int (ι → ℝ))} {t0 : Int} {times : List Int} (h : GoodRequest X t0 times) :
    ∃ d, predictMatrix A dt X times = .ok d ∧ (∀ x ∈ X, ∀ t ∈ times, ⟨x.id, t, A ^ stepCount dt (t - t0) *ᵥ x.val⟩ ∈ d) ∧
      ∀ r ∈ d, t0 ≤ r.time ∧ ∃ x ∈ X, x.id = r.id ∧ r.val = A ^ stepCount dt (r.time - t0) *ᵥ x.val :=
  evolveFrame_rows h (fun t x => A ^ stepCount dt t *ᵥ x)

section Gelfand
attribute [local instance] Matrix.linftyOpNormedRing Matrix.linftyOpNormedAlgebra

theorem powers_small [DecidableEq ι] {M : Matrix ι ι ℂ} (h : ∀ (μ : ℂ) (v : ι → ℂ), v ≠ 0 → M *ᵥ v = μ • v → ‖μ‖ < 1) {ε : ℝ} (hε : 0 < ε) :
    ∃ n : Nat, ∀ m ≥ n, ∀ (v : ι → ℂ) (i : ι), ‖(M ^ m *ᵥ v) i‖ ≤ ε * ∑ j, ‖v j‖ := by
  by_cases hn : Nonempty ι
  swap
  · exact ⟨0, fun m _ v i => (hn ⟨i⟩).elim⟩
  have hs : ∀ μ ∈ spectrum ℂ M, ‖μ‖₊ < (1 : NNReal) := by
    intro μ hμ
    rw [spectrum.mem_iff, Matrix.isUnit_iff_isUnit_det, isUnit_iff_ne_zero, not_not] at hμ
    obtain ⟨v, hv, hz⟩ := Matrix.exists_mulVec_eq_zero_iff.2 hμ
    refine h μ v hv ?_
    rw [Matrix.sub_mulVec, sub_eq_zero] at hz
    rw [← hz, Algebra.algebraMap_eq_smul_one, Matrix.smul_mulVec, Matrix.one_mulVec]
  have hr := spectrum.spectralRadius_lt_of_forall_lt M hs
  obtain ⟨r, hr1, hr2⟩ := ENNReal.lt_iff_exists_nnreal_btwn.1 hr
  have hlim := (spectrum.pow_nnnorm_pow_one_div_tendsto_nhds_spectralRadius M).eventually (gt_mem_nhds hr1)
  have hr3 : (r : ℝ) < 1 := by exact_mod_cast hr2
  obtain ⟨n0, hn0⟩ := Filter.eventually_atTop.1 hlim
  obtain ⟨n1, hn1⟩ := exists_pow_lt_of_lt_one hε hr3
  refine ⟨max (max n0 n1) 1, fun m hm v i => ?_⟩
  have hm0 : n0 ≤ m := (le_max_left _ _).trans ((le_max_left _ _).trans hm)
  have hm1 : n1 ≤ m := (le_max_right _ _).trans ((le_max_left _ _).trans hm)
  have hm2 : 1 ≤ m := (le_max_right _ _).trans hm
  have h1 : (‖M ^ m‖₊ : ENNReal) < (r : ENNReal) ^ m := by
    have := hn0 m hm0
    have h2 := ENNReal.rpow_lt_rpow this (z := m) (by exact_mod_cast hm2)
    rw [← ENNReal.rpow_mul, one_div, inv_mul_cancel₀ (by exact_mod_cast (by omega : m ≠ 0)), ENNReal.rpow_one, ENNReal.rpow_natCast] at h2
    exact h2
  have h2 : ‖M ^ m‖ < (r : ℝ) ^ m := by exact_mod_cast h1
  have h3 : ‖M ^ m‖ ≤ ε := (h2.trans_le ((pow_le_pow_of_le_one r.2 hr3.le hm1).trans hn1.le)).le
  calc ‖(M ^ m *ᵥ v) i‖ ≤ ‖M ^ m *ᵥ v‖ := norm_le_pi_norm _ _
    _ ≤ ‖M ^ m‖ * ‖v‖ := Matrix.linfty_opNorm_mulVec _ _
    _ ≤ ε * ∑ j, ‖v j‖ := by
      refine mul_le_mul h3 ?_ (norm_nonneg _) hε.le
      exact (pi_norm_le_iff_of_nonneg (Finset.sum_nonneg (fun _ _ => norm_nonneg _))).2
        (fun j => Finset.single_le_sum (f := fun j => ‖v j‖) (fun _ _ => norm_nonneg _) (Finset.mem_univ j))

end Gelfand

/-! ## Property theorems -/

/-- **C246 (bounded).** If no eigenvalue is larger than 1 in modulus, no predicted value exceeds the amplitude of the modes, at any time. -/
theorem C246_bounded_partial (modes : Matrix κ ρ ℂ) (ev : ρ → ℂ) (spec : (ι → ℝ) → (ρ → ℂ)) (dt : Int) (hev : ∀ k, ‖ev k‖ ≤ 1) {X : List (Row Int (ι → ℝ))} {t0 : Int} {times : List Int}
    (h : GoodRequest X t0 times) :
    ∃ d, predictSpectral modes ev spec dt X times = .ok d ∧ ∀ r ∈ d, ∃ x ∈ X, x.id = r.id ∧ ∀ i, |r.val i| ≤ amplitude modes (spec x.val) i := by
  obtain ⟨d, hd, _, h2⟩ := predictSpectral_rows modes ev spec dt h
  refine ⟨d, hd, fun r hr => ?_⟩
  obtain ⟨_, x, hx, hi, hv⟩ := h2 r hr
  refine ⟨x, hx, hi, fun i => ?_⟩
  rw [hv]
  have := mode_bound modes (fun k => ev k ^ stepCount dt (r.time - t0)) (spec x.val) (q := 1) (fun k => by
    rw [norm_pow]; exact pow_le_one₀ (norm_nonneg _) (hev k)) i
  rwa [one_mul] at this

/-- **C246 (decay).** If all eigenvalues are smaller than 1 in modulus, predictions tend to zero: after finitely many sampling intervals (how many does not depend on the requested time values)
every predicted value is below any given tolerance. -/
theorem C246_decay_partial (modes : Matrix κ ρ ℂ) (ev : ρ → ℂ) (spec : (ι → ℝ) → (ρ → ℂ)) {dt : Int} (hdt : 0 < dt) (hev : ∀ k, ‖ev k‖ < 1) {X : List (Row Int (ι → ℝ))} {ε : ℝ} (hε : 0 < ε) :
    ∃ n : Nat, ∀ t0 times, GoodRequest X t0 times → ∃ d, predictSpectral modes ev spec dt X times = .ok d ∧ ∀ r ∈ d, t0 + n * dt ≤ r.time → ∀ i, |r.val i| < ε := by
  obtain ⟨q, hq0, hq1, hq⟩ : ∃ q : ℝ, 0 ≤ q ∧ q < 1 ∧ ∀ k, ‖ev k‖ ≤ q := by
    by_cases he : Nonempty ρ
    · obtain ⟨k0, hk0⟩ := Finite.exists_max (fun k => ‖ev k‖)
      exact ⟨_, norm_nonneg _, hev k0, hk0⟩
    · exact ⟨0, le_refl _, one_pos, fun k => (he ⟨k⟩).elim⟩
  obtain ⟨M, hM⟩ : ∃ M : ℝ, 0 < M ∧ ∀ x ∈ X, ∀ i, amplitude modes (spec x.val) i ≤ M := by
    refine ⟨1 + (X.map (fun x => ∑ i, amplitude modes (spec x.val) i)).sum, ?_, ?_⟩
    · refine add_pos_of_pos_of_nonneg one_pos (List.sum_nonneg ?_)
      intro a ha
      obtain ⟨x, _, rfl⟩ := List.mem_map.1 ha
      exact Finset.sum_nonneg (fun i _ => amplitude_nonneg _ _ _)
    · intro x hx i
      have h1 : amplitude modes (spec x.val) i ≤ ∑ i, amplitude modes (spec x.val) i :=
        Finset.single_le_sum (f := fun i => amplitude modes (spec x.val) i) (fun i _ => amplitude_nonneg _ _ _) (Finset.mem_univ i)
      have h2 := List.single_le_sum (l := X.map (fun x => ∑ i, amplitude modes (spec x.val) i)) (by
        intro a ha
        obtain ⟨x, _, rfl⟩ := List.mem_map.1 ha
        exact Finset.sum_nonneg (fun i _ => amplitude_nonneg _ _ _)) _ (List.mem_map.2 ⟨x, hx, rfl⟩)
      linarith
  obtain ⟨n, hn⟩ := exists_pow_lt_of_lt_one (div_pos hε hM.1) hq1
  refine ⟨n, fun t0 times h => ?_⟩
  obtain ⟨d, hd, _, h2⟩ := predictSpectral_rows modes ev spec dt h
  refine ⟨d, hd, fun r hr ht i => ?_⟩
  obtain ⟨_, x, hx, _, hv⟩ := h2 r hr
  rw [hv]
  have hs : n ≤ stepCount dt (r.time - t0) := by
    unfold stepCount
    have : (n : Int) ≤ (r.time - t0) / dt := by rw [Int.le_ediv_iff_mul_le hdt]; omega
    omega
  have hb := mode_bound modes (fun k => ev k ^ stepCount dt (r.time - t0)) (spec x.val) (q := q ^ n) (fun k => by
    rw [norm_pow]
    exact (pow_le_pow_left₀ (norm_nonneg _) (hq k) _).trans (pow_le_pow_of_le_one hq0 hq1.le hs)) i
  calc _ ≤ q ^ n * amplitude modes (spec x.val) i := hb
    _ ≤ q ^ n * M := mul_le_mul_of_nonneg_left (hM.2 x hx i) (pow_nonneg hq0 _)
    _ < ε := by rwa [lt_div_iff₀ hM.1] at hn

/-- **C246 (matrix mode).** The predictions of a diagonalisable system matrix without eigenvalue larger than 1 in modulus stay bounded by a constant of the model times the size of the initial
condition. -/
theorem C246_matrix_partial [DecidableEq ι] {A : Matrix ι ι ℝ} {ev : ι → ℂ} {Ψ : Matrix ι ι ℂ} (hA : Diagonalises A ev Ψ) (hev : ∀ k, ‖ev k‖ ≤ 1) :
    ∃ C : ℝ, ∀ (dt : Int) (X : List (Row Int (ι → ℝ))) (t0 : Int) (times : List Int), GoodRequest X t0 times →
      ∃ d, predictMatrix A dt X times = .ok d ∧ ∀ r ∈ d, ∃ x ∈ X, x.id = r.id ∧ ∀ i, |r.val i| ≤ C * ∑ j, |x.val j| := by
  have hdet : IsUnit Ψ.det := isUnit_iff_ne_zero.2 hA.basis
  have key : ∀ (n : Nat) (x : ι → ℝ), A ^ n *ᵥ x = reV (Ψ *ᵥ (fun k => ev k ^ n * (Ψ⁻¹ *ᵥ toC x) k)) := by
    intro n x
    rw [← diag_mulVec (fun k => ev k ^ n), Matrix.mulVec_mulVec, hA.pow, Matrix.mulVec_mulVec, Matrix.mul_assoc, Matrix.mul_nonsing_inv _ hdet, Matrix.mul_one, toCM_pow, toCM_mulVec', reV_toC]
  refine ⟨∑ i, ∑ k, ‖Ψ i k‖ * ∑ j, ‖Ψ⁻¹ k j‖, fun dt X t0 times h => ?_⟩
  obtain ⟨d, hd, _, h2⟩ := predictMatrix_rows A dt h
  refine ⟨d, hd, fun r hr => ?_⟩
  obtain ⟨_, x, hx, hi, hv⟩ := h2 r hr
  refine ⟨x, hx, hi, fun i => ?_⟩
  rw [hv, key]
  have hb := mode_bound Ψ (fun k => ev k ^ stepCount dt (r.time - t0)) (Ψ⁻¹ *ᵥ toC x.val) (q := 1) (fun k => by
    rw [norm_pow]; exact pow_le_one₀ (norm_nonneg _) (hev k)) i
  rw [one_mul] at hb
  refine hb.trans ?_
  have hs : ∀ k, ‖(Ψ⁻¹ *ᵥ toC x.val) k‖ ≤ (∑ j, ‖Ψ⁻¹ k j‖) * ∑ j, |x.val j| := by
    intro k
    simp only [Matrix.mulVec, dotProduct]
    refine (norm_sum_le _ _).trans ?_
    rw [Finset.sum_mul]
    apply Finset.sum_le_sum
    intro j _
    rw [norm_mul]
    refine mul_le_mul_of_nonneg_left ?_ (norm_nonneg _)
    have : ‖toC x.val j‖ = |x.val j| := by simp [toC]
    rw [this]
    exact Finset.single_le_sum (f := fun j => |x.val j|) (fun _ _ => abs_nonneg _) (Finset.mem_univ j)
  unfold amplitude
  calc ∑ k, ‖Ψ i k‖ * ‖(Ψ⁻¹ *ᵥ toC x.val) k‖ ≤ ∑ k, ‖Ψ i k‖ * ((∑ j, ‖Ψ⁻¹ k j‖) * ∑ j, |x.val j|) :=
        Finset.sum_le_sum (fun k _ => mul_le_mul_of_nonneg_left (hs k) (norm_nonneg _))
    _ = (∑ k, ‖Ψ i k‖ * ∑ j, ‖Ψ⁻¹ k j‖) * ∑ j, |x.val j| := by rw [Finset.sum_mul]; exact Finset.sum_congr rfl (fun k _ => by ring)
    _ ≤ _ := by
      refine mul_le_mul_of_nonneg_right ?_ (Finset.sum_nonneg (fun _ _ => abs_nonneg _))
      exact Finset.single_le_sum (f := fun i => ∑ k, ‖Ψ i k‖ * ∑ j, ‖Ψ⁻¹ k j‖)
        (fun _ _ => Finset.sum_nonneg (fun _ _ => mul_nonneg (norm_nonneg _) (Finset.sum_nonneg (fun _ _ => norm_nonneg _)))) (Finset.mem_univ i)

/-- **C246 (decay, matrix mode).** If all eigenvalues of the system matrix (diagonalisable or not) are smaller than 1 in modulus, predictions tend to zero: after finitely many sampling intervals
(how many depends on the model only) every predicted value is below any given fraction of the initial condition. -/
theorem C246_decay_matrix [DecidableEq ι] {A : Matrix ι ι ℝ} (hA : ∀ (μ : ℂ) (v : ι → ℂ), v ≠ 0 → toCM A *ᵥ v = μ • v → ‖μ‖ < 1) {dt : Int} (hdt : 0 < dt) {ε : ℝ} (hε : 0 < ε) :
    ∃ n : Nat, ∀ (X : List (Row Int (ι → ℝ))) (t0 : Int) (times : List Int), GoodRequest X t0 times → ∃ d, predictMatrix A dt X times = .ok d ∧
      ∀ r ∈ d, t0 + n * dt ≤ r.time → ∃ x ∈ X, x.id = r.id ∧ ∀ i, |r.val i| ≤ ε * ∑ j, |x.val j| := by
  obtain ⟨n, hn⟩ := powers_small hA hε
  refine ⟨n, fun X t0 times h => ?_⟩
  obtain ⟨d, hd, _, h2⟩ := predictMatrix_rows A dt h
  refine ⟨d, hd, fun r hr ht => ?_⟩
  obtain ⟨_, x, hx, hi, hv⟩ := h2 r hr
  refine ⟨x, hx, hi, fun i => ?_⟩
  have hs : n ≤ stepCount dt (r.time - t0) := by
    unfold stepCount
    have : (n : Int) ≤ (r.time - t0) / dt := by rw [Int.le_ediv_iff_mul_le hdt]; omega
    omega
  have h3 := hn _ hs (toC x.val) i
  rw [toCM_pow, toCM_mulVec', ← hv] at h3
  simpa [toC] using h3

/-- **C246 (growth).** An eigenvalue larger than 1 in modulus with real eigenvector makes predictions from that eigenvector exceed every bound. -/
theorem C246_growth [DecidableEq ι] {A : Matrix ι ι ℝ} {v : ι → ℝ} {μ : ℝ} (hv : A *ᵥ v = μ • v) (hμ : 1 < |μ|) {i : ι} (hi : v i ≠ 0) {dt : Int} (hdt : 0 < dt) (M : ℝ) :
    ∃ n : Nat, ∀ (X : List (Row Int (ι → ℝ))) (t0 : Int) (times : List Int), GoodRequest X t0 times → ∃ d, predictMatrix A dt X times = .ok d ∧
      ∀ x ∈ X, x.val = v → ∀ t ∈ times, t0 + n * dt ≤ t → ∃ r ∈ d, r.id = x.id ∧ r.time = t ∧ M < |r.val i| := by
  have hp : ∀ n : Nat, A ^ n *ᵥ v = μ ^ n • v := by
    intro n
    induction n with
    | zero => simp
    | succ n ih => rw [pow_succ', ← Matrix.mulVec_mulVec, ih, Matrix.mulVec_smul, hv, smul_smul, pow_succ]
  obtain ⟨n, hn⟩ := pow_unbounded_of_one_lt (M / |v i|) hμ
  refine ⟨n, fun X t0 times h => ?_⟩
  obtain ⟨d, hd, h1, _⟩ := predictMatrix_rows A dt h
  refine ⟨d, hd, fun x hx hxv t ht hle => ⟨_, h1 x hx t ht, rfl, rfl, ?_⟩⟩
  have hs : n ≤ stepCount dt (t - t0) := by
    unfold stepCount
    have : (n : Int) ≤ (t - t0) / dt := by rw [Int.le_ediv_iff_mul_le hdt]; omega
    omega
  simp only [hxv, hp, Pi.smul_apply, smul_eq_mul, abs_mul, abs_pow]
  rw [div_lt_iff₀ (abs_pos.2 hi)] at hn
  exact hn.trans_le (mul_le_mul_of_nonneg_right (pow_le_pow_right₀ hμ.le hs) (abs_nonneg _))

/-- **C246 (differential systems).** If no eigenvalue of the generator has a positive real part, no state at a time `t ≥ 0` exceeds the amplitude of the modes. -/
theorem C246_differential_partial (Ψ : Matrix ι ι ℂ) (ev : ι → ℂ) (hev : ∀ k, (ev k).re ≤ 0) (bs : List (ι → ℂ)) (times : List ℝ) (ht : ∀ t ∈ times, 0 ≤ t) :
    List.Forall₂ (fun b states => ∀ x ∈ states, ∀ i, |x i| ≤ amplitude Ψ b i) bs (differentialSpectral Ψ ev bs times) := by
  unfold differentialSpectral
  rw [List.forall₂_map_right_iff, List.forall₂_same]
  intro b _ x hx i
  obtain ⟨t, h, rfl⟩ := List.mem_map.1 hx
  have := mode_bound Ψ (fun k => Complex.exp (ev k * t)) b (q := 1) (fun k => by
    rw [Complex.norm_exp]
    refine Real.exp_le_one_iff.2 ?_
    simp only [Complex.mul_re, Complex.ofReal_re, Complex.ofReal_im, mul_zero, sub_zero]
    exact mul_nonpos_of_nonpos_of_nonneg (hev k) (ht t h)) i
  rwa [one_mul] at this

/-- The system `x ↦ x + y, y ↦ y`. -/
def shear : Matrix (Fin 2) (Fin 2) ℝ := !![1, 1; 0, 1]

/-- **C246 is violated** for matrices which cannot be diagonalised: all eigenvalues of this system matrix are 1, and the prediction from `(0, 1)` is `n` after `n` steps. -/
theorem C246_violated : (∀ (μ : ℂ) (v : Fin 2 → ℂ), v ≠ 0 → toCM shear *ᵥ v = μ • v → μ = 1) ∧
    ∀ n : Nat, ∃ d, predictMatrix shear 1 [⟨0, 0, ![0, 1]⟩] [0, n + 1] = .ok d ∧ ∃ r ∈ d, r.time = n + 1 ∧ r.val 0 = n + 1 := by
  constructor
  · intro μ v hv h
    have h0 := congrFun h 0
    have h1 := congrFun h 1
    simp only [toCM, shear, Matrix.mulVec, dotProduct, Fin.sum_univ_two, Pi.smul_apply, smul_eq_mul, Matrix.map_apply] at h0 h1
    norm_num at h0 h1
    by_cases hz : v 1 = 0
    · rw [hz, add_zero] at h0
      by_cases hz0 : v 0 = 0
      · exact absurd (by funext i; fin_cases i <;> simp [hz, hz0]) hv
      · have : (μ - 1) * v 0 = 0 := by rw [sub_mul, one_mul, ← h0, sub_self]
        exact sub_eq_zero.1 ((mul_eq_zero.1 this).resolve_right hz0)
    · have : (μ - 1) * v 1 = 0 := by rw [sub_mul, one_mul, ← h1, sub_self]
      exact sub_eq_zero.1 ((mul_eq_zero.1 this).resolve_right hz)
  · intro n
    have hp : ∀ n : Nat, shear ^ n = !![1, (n : ℝ); 0, 1] := by
      intro n
      induction n with
      | zero => ext i j; fin_cases i <;> fin_cases j <;> simp
      | succ n ih => rw [pow_succ, ih]; ext i j; fin_cases i <;> fin_cases j <;> simp [shear, Matrix.mul_apply, Fin.sum_univ_two, add_comm]
    obtain ⟨d, hd, h1, _⟩ := predictMatrix_rows shear 1 (X := [⟨0, 0, ![0, 1]⟩]) (t0 := 0) (times := [0, (n : Int) + 1]) ⟨by simp, by simp, rfl, by simp⟩
    refine ⟨d, hd, _, h1 _ (List.mem_singleton_self _) (n + 1) (by simp), rfl, ?_⟩
    have : stepCount 1 ((n : Int) + 1 - 0) = n + 1 := by unfold stepCount; omega
    simp only [this, hp, Matrix.mulVec, dotProduct, Fin.sum_univ_two]
    simp

/-! ## Examples -/

example : GoodRequest [(⟨0, 0, ![(1 : ℝ)]⟩ : Row Int (Fin 1 → ℝ)), ⟨3, 0, ![2]⟩] 0 [0, 1, 7] := ⟨by simp, by decide, rfl, by decide⟩

/-- A stable spiral: eigenvalues `± i / 2`. -/
example : ∀ k, ‖(![Complex.I / 2, -Complex.I / 2] : Fin 2 → ℂ) k‖ < 1 := by
  intro k; fin_cases k <;> simp <;> norm_num

/-- The hypothesis of the decay in matrix mode holds for a matrix which cannot be diagonalised. -/
example : ∀ (μ : ℂ) (v : Fin 2 → ℂ), v ≠ 0 → toCM (!![0, 1; 0, 0] : Matrix (Fin 2) (Fin 2) ℝ) *ᵥ v = μ • v → ‖μ‖ < 1 := by
  intro μ v hv h
  have h0 := congrFun h 0
  have h1 := congrFun h 1
  simp [toCM, Matrix.mulVec, dotProduct, Fin.sum_univ_two] at h0 h1
  rcases h1 with h1 | h1
  · simp [h1]
  · rw [h1] at h0
    rcases mul_eq_zero.1 h0.symm with h2 | h2
    · simp [h2]
    · exact absurd (by funext i; fin_cases i <;> simp [h1, h2]) hv

example : Diagonalises (1 : Matrix (Fin 2) (Fin 2) ℝ) (fun _ => 1) 1 ∧ ∀ k : Fin 2, ‖(fun _ : Fin 2 => (1 : ℂ)) k‖ ≤ 1 := by
  refine ⟨⟨fun k i => ?_, by simp⟩, fun k => by simp⟩
  have : toCM (1 : Matrix (Fin 2) (Fin 2) ℝ) = 1 := by
    ext i j; by_cases h : i = j
    · subst h; simp [toCM]
    · simp [toCM, h]
  rw [this, Matrix.one_mulVec, one_mul]

example : (!![2] : Matrix (Fin 1) (Fin 1) ℝ) *ᵥ ![1] = (2 : ℝ) • ![1] ∧ 1 < |(2 : ℝ)| ∧ (![1] : Fin 1 → ℝ) 0 ≠ 0 := by
  refine ⟨?_, by norm_num, by simp⟩
  funext i; fin_cases i; simp [Matrix.mulVec, dotProduct]

end Verif.Dyn
