import Verif.Dmd.ControlProps
import Verif.Dmd.NoiseProps
import Verif.Edmd.Predict
import Mathlib.Topology.Order.Compact
import Mathlib.Topology.Instances.Matrix
import Mathlib.Analysis.Normed.Group.Basic
/-! # Property C232: the error of identified system matrices is bounded by the disturbances of the data and their excitation -/

namespace Verif.Dmd

open Verif.Tsc Verif.Np Verif.Dyn Verif.Lin Matrix Filter Topology

variable {ι κ α : Type} [Fintype ι] [Fintype κ] [Fintype α]

/-! ### Specification -/

/-- The start samples of the pairs excite every direction at least with the energy `s`: `Σ w (v · x)² ≥ s ‖v‖²`. -/
def Excited (w : List ℝ) (ps : List ((α → ℝ) × (ι → ℝ))) (s : ℝ) : Prop := ∀ v : α → ℝ, s * sqLen v ≤ ((w.zip ps).map (fun p => p.1 * (v ⬝ᵥ p.2.1) ^ 2)).sum

/-- `K` has the smallest total error of all matrices. -/
def Minimal (w : List ℝ) (ps : List ((α → ℝ) × (ι → ℝ))) (K : Matrix ι α ℝ) : Prop := ∀ K', totalError w ps K ≤ totalError w ps K'

/-! ### Lemmas -/

theorem list_sum_comm {β γ : Type} [Fintype γ] (l : List β) (f : β → γ → ℝ) : (l.map (fun p => ∑ i, f p i)).sum = ∑ i, (l.map (fun p => f p i)).sum := by
  induction l with
  | nil => simp
  | cons a l ih => simp only [List.map_cons, List.sum_cons, ih, Finset.sum_add_distrib]

theorem list_sum_lin {β : Type} (l : List β) (f g h : β → ℝ) (a b : ℝ) : (l.map (fun p => f p + a * g p + b * h p)).sum = (l.map f).sum + a * (l.map g).sum + b * (l.map h).sum := by
  induction l with
  | nil => simp
  | cons p l ih => simp only [List.map_cons, List.sum_cons, ih]; ring

/-- The total error along a line of matrices. -/
theorem totalError_line (w : List ℝ) (ps : List ((α → ℝ) × (ι → ℝ))) (K D : Matrix ι α ℝ) (t : ℝ) :
    totalError w ps (K + t • D) = totalError w ps K + (-2 * t) * ((w.zip ps).map (fun p => p.1 * ((p.2.2 - K *ᵥ p.2.1) ⬝ᵥ (D *ᵥ p.2.1)))).sum +
      t ^ 2 * ((w.zip ps).map (fun p => p.1 * sqLen (D *ᵥ p.2.1))).sum := by
  unfold totalError
  rw [← list_sum_lin]
  congr 1
  refine List.map_congr_left fun p _ => ?_
  have : stepError (K + t • D) p.2.1 p.2.2 = stepError K p.2.1 p.2.2 + (-2 * t) * ((p.2.2 - K *ᵥ p.2.1) ⬝ᵥ (D *ᵥ p.2.1)) + t ^ 2 * sqLen (D *ᵥ p.2.1) := by
    unfold stepError sqLen dotProduct
    rw [Finset.mul_sum, Finset.mul_sum, ← Finset.sum_add_distrib, ← Finset.sum_add_distrib]
    refine Finset.sum_congr rfl fun i _ => ?_
    rw [add_mulVec, smul_mulVec]
    simp only [Pi.add_apply, Pi.smul_apply, Pi.sub_apply, smul_eq_mul]
    ring
  rw [this]
  ring

theorem weighted_nonneg {w : List ℝ} (hw : ∀ a ∈ w, 0 ≤ a) {β : Type} (ps : List β) (f : β → ℝ) (hf : ∀ p, 0 ≤ f p) : 0 ≤ ((w.zip ps).map (fun p => p.1 * f p.2)).sum := by
  refine List.sum_nonneg fun x hx => ?_
  obtain ⟨p, hp, rfl⟩ := List.mem_map.1 hx
  exact mul_nonneg (hw _ (List.of_mem_zip hp).1) (hf _)

/-- Theorem of Pythagoras for least squares. -/
theorem minimal_pythagoras {w : List ℝ} (hw : ∀ a ∈ w, 0 ≤ a) {ps : List ((α → ℝ) × (ι → ℝ))} {K : Matrix ι α ℝ} (hK : Minimal w ps K) (M : Matrix ι α ℝ) :
    totalError w ps M = totalError w ps K + ((w.zip ps).map (fun p => p.1 * sqLen ((M - K) *ᵥ p.2.1))).sum := by
  set q := ((w.zip ps).map (fun p => p.1 * sqLen ((M - K) *ᵥ p.2.1))).sum with hq
  set c := ((w.zip ps).map (fun p => p.1 * ((p.2.2 - K *ᵥ p.2.1) ⬝ᵥ ((M - K) *ᵥ p.2.1)))).sum with hc
  have hq0 : 0 ≤ q := weighted_nonneg hw ps (fun p => sqLen ((M - K) *ᵥ p.1)) (fun _ => sqLen_nonneg _)
  have hline := fun t => totalError_line w ps K (M - K) t
  have hc0 : c = 0 := by
    by_contra hne
    have h1 := hK (K + (c / (q + 1)) • (M - K))
    rw [hline] at h1
    have hqp : 0 < q + 1 := by linarith
    have h2 : 0 ≤ (-2 * (c / (q + 1))) * c + (c / (q + 1)) ^ 2 * q := by linarith
    have h3 : (-2 * (c / (q + 1))) * c + (c / (q + 1)) ^ 2 * q = -(c ^ 2 * (q + 2) / (q + 1) ^ 2) := by
      field_simp; ring
    have h4 : 0 < c ^ 2 * (q + 2) / (q + 1) ^ 2 := by positivity
    linarith
  have h1 := hline 1
  rw [one_smul, add_sub_cancel] at h1
  rw [h1, ← hc, ← hq, hc0]
  ring

/-- The identification error in terms of minimal matrices. -/
theorem minimal_error {w : List ℝ} (hw : ∀ a ∈ w, 0 ≤ a) {ps : List ((α → ℝ) × (ι → ℝ))} {K : Matrix ι α ℝ} (hK : Minimal w ps K) {s : ℝ} (hs : Excited w ps s) (M : Matrix ι α ℝ) :
    s * sqSum (K - M) ≤ totalError w ps M - totalError w ps K := by
  rw [minimal_pythagoras hw hK M]
  have e : ((w.zip ps).map (fun p => p.1 * sqLen ((M - K) *ᵥ p.2.1))).sum = ∑ i, ((w.zip ps).map (fun p => p.1 * ((M - K) i ⬝ᵥ p.2.1) ^ 2)).sum := by
    rw [← list_sum_comm]
    congr 1
    refine List.map_congr_left fun p _ => ?_
    rw [sqLen, Finset.mul_sum]
    rfl
  rw [e, add_sub_cancel_left]
  have : sqSum (K - M) = ∑ i, sqLen ((M - K) i) := by
    unfold sqSum sqLen
    refine Finset.sum_congr rfl fun i _ => Finset.sum_congr rfl fun j _ => ?_
    simp only [Matrix.sub_apply]; ring
  rw [this, Finset.mul_sum]
  exact Finset.sum_le_sum fun i _ => hs _

theorem totalError_ge_zero {w : List ℝ} (hw : ∀ a ∈ w, 0 ≤ a) (ps : List ((α → ℝ) × (ι → ℝ))) (K : Matrix ι α ℝ) : 0 ≤ totalError w ps K :=
  weighted_nonneg hw ps (fun p => stepError K p.1 p.2) (fun _ => stepError_nonneg K _ _)

theorem totalError_one (ps : List ((α → ℝ) × (ι → ℝ))) (K : Matrix ι α ℝ) : totalError (List.replicate ps.length 1) ps K = (ps.map (fun p => sqLen (p.2 - K *ᵥ p.1))).sum := by
  unfold totalError
  induction ps with
  | nil => simp
  | cons p ps ih =>
    simp only [List.length_cons, List.replicate_succ, List.zip_cons_cons, List.map_cons, List.sum_cons, one_mul, ih]
    rfl

theorem weightsOf_nonneg {w : Option (List ℝ)} {n : Nat} (hw : ∀ v, w = some v → ∀ a ∈ v, 0 ≤ a) : ∀ a ∈ weightsOf w n, 0 ≤ a := by
  intro a ha
  cases w with
  | none =>
    obtain ⟨-, rfl⟩ := List.mem_replicate.1 ha
    exact zero_le_one
  | some v => exact hw v rfl a ha

/-! ### Property theorems -/

/-- **C232 (DMD).** Whatever the matrix `M`, the squared distance of the fitted system matrix from `M` is at most the (weighted) energy of the one step errors of `M` over the data, divided by the excitation of the
data.  With data of a linear system `M` whose steps are disturbed, the identification error is bounded by the disturbances. -/
theorem C232_dmd {k : TimeKind} {c : List (Row Int (ι → ℝ))} (hc : c ≠ []) (hv : Valid c) (hs : IdsAscending c ∨ EqualLengths c) (h2 : ∀ i, HasId c i → 2 ≤ (series c i).length)
    (hk : isConstDeltaTime k c = true) (w : Option (List ℝ)) (hw : ∀ v, w = some v → v.length = (snapshotPairs c).length ∧ ∀ a ∈ v, 0 ≤ a) {K : Matrix ι ι ℝ} (hK : Fits k c w K)
    {s : ℝ} (hs0 : 0 < s) (hex : Excited (weightsOf w (snapshotPairs c).length) (snapshotPairs c) s) (M : Matrix ι ι ℝ) :
    ∑ i, ∑ j, (K i j - M i j) ^ 2 ≤ totalError (weightsOf w (snapshotPairs c).length) (snapshotPairs c) M / s := by
  have hmin := (C30_least_squares_partial hc hv hs h2 hk w hw K).1 hK
  have hw0 := weightsOf_nonneg (n := (snapshotPairs c).length) (fun v hv => (hw v hv).2)
  have h := minimal_error hw0 hmin hex M
  have h0 := totalError_ge_zero hw0 (snapshotPairs c) K
  rw [le_div_iff₀ hs0, mul_comm]
  refine le_trans (le_of_eq ?_) (h.trans (by linarith))
  rfl

/-- **C232 (consistency).** Data sets whose excitation stays above a fixed level and whose disturbances vanish identify the system: the fitted matrices converge to `M`. -/
theorem C232_consistent {k : TimeKind} {c : Nat → List (Row Int (ι → ℝ))} (hc : ∀ n, c n ≠ [] ∧ Valid (c n) ∧ (IdsAscending (c n) ∨ EqualLengths (c n)) ∧
      (∀ i, HasId (c n) i → 2 ≤ (series (c n) i).length) ∧ isConstDeltaTime k (c n) = true) {K : Nat → Matrix ι ι ℝ} (hK : ∀ n, Fits k (c n) none (K n))
    {s : ℝ} (hs0 : 0 < s) (hex : ∀ n, Excited (List.replicate (snapshotPairs (c n)).length 1) (snapshotPairs (c n)) s) (M : Matrix ι ι ℝ)
    (hd : Tendsto (fun n => ((snapshotPairs (c n)).map (fun p => sqLen (p.2 - M *ᵥ p.1))).sum) atTop (𝓝 0)) : Tendsto K atTop (𝓝 M) := by
  refine tendsto_pi_nhds.2 ?_
  intro i
  refine tendsto_pi_nhds.2 ?_
  intro j
  have hsq : Tendsto (fun n => (K n i j - M i j) ^ 2) atTop (𝓝 0) := by
    have hd' : Tendsto (fun n => ((snapshotPairs (c n)).map (fun p => sqLen (p.2 - M *ᵥ p.1))).sum / s) atTop (𝓝 0) := by
      have := hd.div_const s
      rwa [zero_div] at this
    refine squeeze_zero (fun n => sq_nonneg _) (fun n => ?_) hd'
    obtain ⟨h1, h2, h3, h4, h5⟩ := hc n
    have h := C232_dmd h1 h2 h3 h4 h5 none (by simp) (hK n) hs0 (hex n) M
    rw [show weightsOf none (snapshotPairs (c n)).length = List.replicate (snapshotPairs (c n)).length 1 from rfl, totalError_one] at h
    refine le_trans ?_ h
    refine le_trans ?_ (Finset.single_le_sum (f := fun i => ∑ j, (K n i j - M i j) ^ 2) (fun _ _ => Finset.sum_nonneg (fun _ _ => sq_nonneg _)) (Finset.mem_univ i))
    exact Finset.single_le_sum (f := fun j => (K n i j - M i j) ^ 2) (fun _ _ => sq_nonneg _) (Finset.mem_univ j)
  have habs : Tendsto (fun n => |K n i j - M i j|) atTop (𝓝 0) := by
    have := (Real.continuous_sqrt.tendsto 0).comp hsq
    rw [Real.sqrt_zero] at this
    refine this.congr (fun n => ?_)
    simp [Real.sqrt_sq_eq_abs]
  have h0 := (tendsto_zero_iff_abs_tendsto_zero _).2 habs
  have := h0.add_const (M i j)
  simpa using this

omit [Fintype ι] in
/-- **C232 (excitation).** Data whose start samples (with positive weights) span the space are excited by some level above zero, and only those. -/
theorem C232_excited (w : List ℝ) (ps : List ((α → ℝ) × (ι → ℝ))) (hl : w.length = ps.length) (hw : ∀ a ∈ w, 0 < a) :
    (∃ s, 0 < s ∧ Excited w ps s) ↔ Submodule.span ℝ {x | ∃ p ∈ ps, p.1 = x} = ⊤ := by
  have hw' : ∀ a ∈ w, 0 ≤ a := fun a ha => (hw a ha).le
  have hzero : ∀ v : α → ℝ, ((w.zip ps).map (fun p => p.1 * (v ⬝ᵥ p.2.1) ^ 2)).sum = 0 ↔ ∀ p ∈ ps, v ⬝ᵥ p.1 = 0 := by
    intro v
    constructor
    · intro h p hp
      obtain ⟨j, hj, rfl⟩ := List.getElem_of_mem hp
      have hj' : j < (w.zip ps).length := by simp [hl, hj]
      have hnn : ∀ x ∈ (w.zip ps).map (fun p => p.1 * (v ⬝ᵥ p.2.1) ^ 2), 0 ≤ x := by
        intro x hx
        obtain ⟨q, hq, rfl⟩ := List.mem_map.1 hx
        exact mul_nonneg (hw' _ (List.of_mem_zip hq).1) (sq_nonneg _)
      have hmem : (w.zip ps)[j] ∈ w.zip ps := List.getElem_mem hj'
      have h1 := List.single_le_sum hnn _ (List.mem_map_of_mem (f := fun p => p.1 * (v ⬝ᵥ p.2.1) ^ 2) hmem)
      rw [h] at h1
      have hpos : 0 < ((w.zip ps)[j]).1 := hw _ (List.of_mem_zip hmem).1
      have h2 : (v ⬝ᵥ ((w.zip ps)[j]).2.1) ^ 2 ≤ 0 := by
        by_contra hc
        push Not at hc
        have := mul_pos hpos hc
        linarith
      have h3 := pow_eq_zero_iff (n := 2) (by norm_num) |>.1 (le_antisymm h2 (sq_nonneg _))
      simpa using h3
    · intro h
      refine List.sum_eq_zero fun x hx => ?_
      obtain ⟨q, hq, rfl⟩ := List.mem_map.1 hx
      rw [h _ (List.of_mem_zip hq).2]
      ring
  have hsq0 : ∀ v : α → ℝ, sqLen v = 0 → v = 0 := by
    intro v hv
    funext i
    have := (Finset.sum_eq_zero_iff_of_nonneg (fun i _ => sq_nonneg (v i))).1 hv i (Finset.mem_univ i)
    exact pow_eq_zero_iff (n := 2) (by norm_num) |>.1 this
  constructor
  · rintro ⟨s, hs, hex⟩
    by_contra hne
    obtain ⟨f, hf0, hf⟩ := Submodule.exists_le_ker_of_lt_top _ (lt_top_iff_ne_top.2 hne)
    classical
    set v : α → ℝ := fun i => f (Pi.single i 1) with hv
    have hfv : ∀ x, v ⬝ᵥ x = f x := by
      intro x
      conv_rhs => rw [show x = ∑ i, x i • (Pi.single i 1 : α → ℝ) from by
        funext j; simp [Finset.sum_apply, Pi.single_apply]]
      rw [map_sum]
      exact Finset.sum_congr rfl (fun i _ => by rw [map_smul, smul_eq_mul, mul_comm])
    have h0 := (hzero v).2 (fun p hp => by
      rw [hfv]
      exact LinearMap.mem_ker.1 (hf (Submodule.subset_span ⟨p, hp, rfl⟩)))
    have h1 := hex v
    rw [h0] at h1
    have h2 : sqLen v = 0 := le_antisymm (by
      by_contra hc
      push Not at hc
      have := mul_pos hs hc
      linarith) (sqLen_nonneg v)
    have h3 := hsq0 v h2
    refine hf0 (LinearMap.ext fun x => ?_)
    rw [← hfv, h3, zero_dotProduct]; rfl
  · intro hspan
    set F : (α → ℝ) → ℝ := fun v => ((w.zip ps).map (fun p => p.1 * (v ⬝ᵥ p.2.1) ^ 2)).sum with hF
    have hFc : Continuous F := by
      rw [hF]
      generalize w.zip ps = l
      induction l with
      | nil => simpa using continuous_const
      | cons p l ih =>
        simp only [List.map_cons, List.sum_cons]
        exact (by unfold dotProduct; fun_prop : Continuous fun v : α → ℝ => p.1 * (v ⬝ᵥ p.2.1) ^ 2).add ih
    have hFh : ∀ (a : ℝ) v, F (a • v) = a ^ 2 * F v := by
      intro a v
      rw [hF]
      simp only
      rw [← List.sum_map_mul_left]
      congr 1
      refine List.map_congr_left fun p _ => ?_
      rw [smul_dotProduct, smul_eq_mul]; ring
    have hFpos : ∀ v, v ≠ 0 → 0 < F v := by
      intro v hv
      refine lt_of_le_of_ne (weighted_nonneg hw' ps (fun p => (v ⬝ᵥ p.1) ^ 2) (fun _ => sq_nonneg _)) (fun h => hv ?_)
      have h1 := (hzero v).1 h.symm
      have h2 : ∀ x : α → ℝ, v ⬝ᵥ x = 0 := by
        intro x
        have hx : x ∈ Submodule.span ℝ {x | ∃ p ∈ ps, p.1 = x} := by rw [hspan]; trivial
        refine Submodule.span_induction (p := fun x _ => v ⬝ᵥ x = 0) ?_ (dotProduct_zero v) (fun x y _ _ hx hy => by rw [dotProduct_add, hx, hy, add_zero])
          (fun a x _ hx => by rw [dotProduct_smul, hx, smul_zero]) hx
        rintro x ⟨p, hp, rfl⟩
        exact h1 p hp
      exact dotProduct_self_eq_zero.1 (h2 v)
    have hsm : ∀ (a : ℝ) (v : α → ℝ), sqLen (a • v) = a ^ 2 * sqLen v := by
      intro a v
      unfold sqLen
      rw [Finset.mul_sum]
      exact Finset.sum_congr rfl (fun i _ => by simp [mul_pow])
    have hcomp : IsCompact {v : α → ℝ | sqLen v = 1} := by
      refine Metric.isCompact_of_isClosed_isBounded ?_ ?_
      · exact isClosed_eq (by unfold sqLen; fun_prop) continuous_const
      · refine (Metric.isBounded_closedBall (x := (0 : α → ℝ)) (r := 1)).subset fun v hv => ?_
        rw [mem_closedBall_zero_iff, pi_norm_le_iff_of_nonneg zero_le_one]
        intro i
        have h1 : v i ^ 2 ≤ sqLen v := Finset.single_le_sum (f := fun i => v i ^ 2) (fun _ _ => sq_nonneg _) (Finset.mem_univ i)
        rw [show sqLen v = 1 from hv] at h1
        rw [Real.norm_eq_abs]
        exact abs_le_one_iff_mul_self_le_one.2 (by nlinarith)
    by_cases hne : ({v : α → ℝ | sqLen v = 1}).Nonempty
    · obtain ⟨v₀, hv₀, hmin⟩ := hcomp.exists_isMinOn hne hFc.continuousOn
      have hv1 : sqLen v₀ = 1 := hv₀
      have hv0 : v₀ ≠ 0 := by
        rintro rfl
        simp [sqLen] at hv1
      refine ⟨F v₀, hFpos v₀ hv0, fun v => ?_⟩
      by_cases hv : v = 0
      · subst hv
        simp [sqLen]
      · have hl : 0 < sqLen v := lt_of_le_of_ne (sqLen_nonneg v) (fun h => hv (hsq0 v h.symm))
        have hr : 0 < Real.sqrt (sqLen v) := Real.sqrt_pos.2 hl
        have hone : sqLen ((Real.sqrt (sqLen v))⁻¹ • v) = 1 := by
          rw [hsm, inv_pow, Real.sq_sqrt hl.le, inv_mul_cancel₀ hl.ne']
        have h1 : F v₀ ≤ F ((Real.sqrt (sqLen v))⁻¹ • v) := hmin hone
        rw [hFh, inv_pow, Real.sq_sqrt hl.le, inv_mul_eq_div, le_div_iff₀ hl] at h1
        exact h1
    · refine ⟨1, one_pos, fun v => ?_⟩
      have : v = 0 := by
        by_contra hv
        have hl : 0 < sqLen v := lt_of_le_of_ne (sqLen_nonneg v) (fun h => hv (hsq0 v h.symm))
        refine hne ⟨(Real.sqrt (sqLen v))⁻¹ • v, ?_⟩
        show sqLen _ = 1
        rw [hsm, inv_pow, Real.sq_sqrt hl.le, inv_mul_cancel₀ hl.ne']
      subst this
      simp [sqLen]

/-- **C232 (control).** The same bound for system and control matrix of a fit with control input, in terms of the disturbances `x' - (A₀ x + B₀ u)` of the steps. -/
theorem C232_control [DecidableEq ι] {k : TimeKind} {c : List (Row Int (ι → ℝ))} {u : List (Row Int (κ → ℝ))} (hc : c ≠ []) (hv : Valid c) (hs : IdsAscending c ∨ EqualLengths c)
    (h2 : ∀ i, HasId c i → 2 ≤ (series c i).length) (hk : isConstDeltaTime k c = true) (hm : controlIndexMatches c u) {A : Matrix ι ι ℝ} {B : Matrix ι κ ℝ} (h : FitsControl k c u A B)
    {s : ℝ} (hs0 : 0 < s) (hex : Excited (List.replicate (controlSteps c u).length 1) (controlSteps c u) s) (A₀ : Matrix ι ι ℝ) (B₀ : Matrix ι κ ℝ) :
    ∑ i, ∑ j, (A i j - A₀ i j) ^ 2 + ∑ i, ∑ j, (B i j - B₀ i j) ^ 2 ≤
      ((controlSteps c u).map (fun p => sqLen (p.2 - (A₀ *ᵥ (p.1 ∘ Sum.inl) + B₀ *ᵥ (p.1 ∘ Sum.inr))))).sum / s := by
  have hmin : Minimal (List.replicate (controlSteps c u).length 1) (controlSteps c u) (hcat A B) := by
    intro K'
    have := (C31_least_squares_partial hc hv hs h2 hk hm A B).1 h (Matrix.of (fun i j => K' i (Sum.inl j))) (Matrix.of (fun i j => K' i (Sum.inr j)))
    have e : hcat (Matrix.of (fun i j => K' i (Sum.inl j))) (Matrix.of (fun i j => K' i (Sum.inr j))) = K' := by
      ext i j; cases j <;> rfl
    rwa [e] at this
  have hw0 : ∀ a ∈ List.replicate (controlSteps c u).length (1 : ℝ), 0 ≤ a := fun a ha => by
    rw [List.eq_of_mem_replicate ha]; exact zero_le_one
  have h1 := minimal_error hw0 hmin hex (hcat A₀ B₀)
  have h0 := totalError_ge_zero hw0 (controlSteps c u) (hcat A B)
  rw [totalError_one (controlSteps c u) (hcat A₀ B₀)] at h1
  have e1 : ∀ p : (ι ⊕ κ → ℝ) × (ι → ℝ), hcat A₀ B₀ *ᵥ p.1 = A₀ *ᵥ (p.1 ∘ Sum.inl) + B₀ *ᵥ (p.1 ∘ Sum.inr) := by
    intro p
    rw [← hcat_mulVec]
    congr 1
    funext j
    cases j <;> rfl
  simp only [e1] at h1
  rw [le_div_iff₀ hs0, mul_comm]
  refine le_trans (le_of_eq ?_) (h1.trans (by linarith))
  rw [← Finset.sum_add_distrib]
  unfold sqSum
  congr 1
  refine Finset.sum_congr rfl fun i _ => ?_
  rw [Fintype.sum_sum_type]
  rfl

/-- non-vacuity: the disturbed data `exNoisy` of `x' = x / 2` are excited with the energy `29`, and the identified matrix `17 / 29` differs from `1 / 2` as little as the bound says: `(17/29 - 1/2)² ≤ (1 + 1/4) / 29`. -/
example : Excited (List.replicate (snapshotPairs exNoisy).length 1) (snapshotPairs exNoisy) 29 ∧
    ((snapshotPairs exNoisy).map (fun p => sqLen (p.2 - (!![1 / 2] : Matrix (Fin 1) (Fin 1) ℝ) *ᵥ p.1))).sum = 1 + 1 / 4 := by
  have hps : snapshotPairs exNoisy = [(![4], ![3]), (![3], ![1]), (![2], ![1])] := rfl
  rw [hps]
  refine ⟨fun v => ?_, ?_⟩
  · simp [sqLen, dotProduct, List.replicate_succ]
    nlinarith
  · simp [sqLen, dotProduct]
    norm_num

/-- non-vacuity of `C232_control`: the data of the controlled system `exCX` are excited. -/
example : ∃ s, 0 < s ∧ Excited (List.replicate (controlSteps exCX exCU).length 1) (controlSteps exCX exCU) s := by
  refine ⟨1 / 6, by norm_num, fun v => ?_⟩
  rw [exC_steps]
  simp [sqLen, dotProduct, List.replicate_succ, Fintype.sum_sum_type]
  nlinarith [sq_nonneg (v (Sum.inl 0) * 12 + 5 * v (Sum.inr 0)), sq_nonneg (v (Sum.inl 0)), sq_nonneg (v (Sum.inr 0))]

end Verif.Dmd

namespace Verif.Edmd

open Verif.Tsc Verif.Np Verif.Dyn Verif.Lin Verif.Dmd Matrix

variable {ι δ : Type} [Fintype ι] [Fintype δ]

/-- **C232 (EDMD).** The Koopman matrix identified by EDMD: its squared distance from any matrix `M` is at most the sum over the training data of the squared errors of one step of `M` in the dictionary, divided by
the excitation of the dictionary values. -/
theorem C232_edmd {k : TimeKind} {c : List (Row Int (ι → ℝ))} (hc : c ≠ []) (hv : Valid c) (hs : IdsAscending c ∨ EqualLengths c) (h2 : ∀ i, HasId c i → 2 ≤ (series c i).length)
    (hk : isConstDeltaTime k c = true) {g : (ι → ℝ) → (δ → ℝ)} {K : Matrix δ δ ℝ} {B : Matrix δ ι ℝ} (h : FitsEdmd k g c K B) {s : ℝ} (hs0 : 0 < s)
    (hex : ∀ v : δ → ℝ, s * sqLen v ≤ ((snapshotPairs c).map (fun p => (v ⬝ᵥ g p.1) ^ 2)).sum) (M : Matrix δ δ ℝ) :
    ∑ i, ∑ j, (K i j - M i j) ^ 2 ≤ ((snapshotPairs c).map (fun p => sqLen (g p.2 - M *ᵥ g p.1))).sum / s := by
  have hp := mapVal_snapshotPairs g c
  have h1 := C232_dmd (mapVal_ne_nil.2 hc) (mapVal_valid.2 hv) (hs.imp mapVal_idsAscending.2 mapVal_equalLengths.2) (by
      intro i hi
      rw [mapVal_series, mapVal_length]
      exact h2 i (mapVal_hasId.1 hi)) (by rw [mapVal_isConstDeltaTime]; exact hk) none (by simp) h.1 hs0 (by
      intro v
      rw [hp]
      refine (hex v).trans (le_of_eq ?_)
      rw [show ∀ n, weightsOf none n = List.replicate n 1 from fun _ => rfl, List.length_map]
      generalize snapshotPairs c = ps
      induction ps with
      | nil => simp
      | cons p ps ih => simpa [List.replicate_succ] using ih) M
  rw [show ∀ n, weightsOf none n = List.replicate n 1 from fun _ => rfl, totalError_one, hp, List.map_map] at h1
  exact h1

end Verif.Edmd
