import Verif.Dmd.StandardProps
import Verif.Dyn.StabilityProps
import Verif.Dmd.MinimalProps
import Verif.Edmd.Predict
import Verif.Tsc.MapVal
/-!
# C248: quantities conserved by the data

A linear quantity that the training data multiplies by a constant factor in every step (factor 1: conserves) is multiplied by that factor in every step of the predictions.
-/

namespace Verif.Dmd

open Verif.Tsc Verif.Np Verif.Lin Verif.Dyn Matrix

variable {ι : Type} [Fintype ι]

/-! ## Specification -/

/-- From every sample to the next one of the same time series, the quantity `q · x` is multiplied by `lam`. -/
def ScaledByData (q : ι → ℝ) (lam : ℝ) (c : List (Row Int (ι → ℝ))) : Prop := ∀ p ∈ snapshotPairs c, q ⬝ᵥ p.2 = lam * (q ⬝ᵥ p.1)

/-- The samples with a successor span the state space. -/
def Spanning (c : List (Row Int (ι → ℝ))) : Prop := Submodule.span ℝ {x | ∃ p ∈ snapshotPairs c, p.1 = x} = ⊤

/-- In every row of the prediction, the quantity is the one of the initial condition times the factor to the number of steps since then. -/
def ScaledByPrediction (q : ι → ℝ) (lam : ℝ) (dt t0 : Int) (X d : List (Row Int (ι → ℝ))) : Prop :=
  ∀ r ∈ d, ∃ x ∈ X, x.id = r.id ∧ q ⬝ᵥ r.val = lam ^ stepCount dt (r.time - t0) * (q ⬝ᵥ x.val)

/-! ## Helper lemmas -/

/-- The prediction error without its part in the direction of `q`. -/
theorem stepError_project (K : Matrix ι ι ℝ) (q : ι → ℝ) (hq : q ⬝ᵥ q ≠ 0) (lam : ℝ) (x y : ι → ℝ) (h : q ⬝ᵥ y = lam * (q ⬝ᵥ x)) :
    stepError (K - Matrix.of (fun i j => q i * ((q ᵥ* K) j - lam * q j) / (q ⬝ᵥ q))) x y = stepError K x y - (q ⬝ᵥ (K *ᵥ x) - lam * (q ⬝ᵥ x)) ^ 2 / (q ⬝ᵥ q) := by
  have hK : ∀ i, ((K - Matrix.of (fun i j => q i * ((q ᵥ* K) j - lam * q j) / (q ⬝ᵥ q))) *ᵥ x) i = (K *ᵥ x) i - q i * (q ⬝ᵥ (K *ᵥ x) - lam * (q ⬝ᵥ x)) / (q ⬝ᵥ q) := by
    intro i
    rw [Matrix.sub_mulVec, Pi.sub_apply]
    congr 1
    rw [Matrix.dotProduct_mulVec]
    simp only [Matrix.mulVec, dotProduct, Matrix.of_apply, Finset.mul_sum, ← Finset.sum_sub_distrib, Finset.sum_div]
    exact Finset.sum_congr rfl (fun j _ => by ring)
  unfold stepError
  simp only [hK]
  set ρ := q ⬝ᵥ (K *ᵥ x) - lam * (q ⬝ᵥ x) with hρ
  have hs : ∑ i, q i * (y i - (K *ᵥ x) i) = -ρ := by
    simp only [mul_sub, Finset.sum_sub_distrib]
    change q ⬝ᵥ y - q ⬝ᵥ (K *ᵥ x) = -ρ
    rw [h, hρ]
    ring
  have hQ : ∑ i, q i * q i = q ⬝ᵥ q := rfl
  have e : ∀ i, (y i - ((K *ᵥ x) i - q i * ρ / (q ⬝ᵥ q))) ^ 2 = (y i - (K *ᵥ x) i) ^ 2 + (2 * ρ / (q ⬝ᵥ q)) * (q i * (y i - (K *ᵥ x) i)) + (ρ / (q ⬝ᵥ q)) ^ 2 * (q i * q i) := by
    intro i
    ring
  simp only [e, Finset.sum_add_distrib, ← Finset.mul_sum, hs, hQ]
  field_simp
  ring

theorem scaled_pairs {ws : List ℝ} {ps : List ((ι → ℝ) × (ι → ℝ))} (hl : ws.length = ps.length) (hw : ∀ a ∈ ws, 0 < a) {q : ι → ℝ} {lam : ℝ} (hs : ∀ p ∈ ps, q ⬝ᵥ p.2 = lam * (q ⬝ᵥ p.1))
    {K : Matrix ι ι ℝ} (hK : ∀ K', totalError ws ps K ≤ totalError ws ps K') : ∀ p ∈ ps, q ⬝ᵥ (K *ᵥ p.1) = lam * (q ⬝ᵥ p.1) := by
  by_cases hq : q ⬝ᵥ q = 0
  · rw [dotProduct_self_eq_zero.1 hq]
    intro p _
    simp
  have hQ : 0 < q ⬝ᵥ q := lt_of_le_of_ne (Finset.sum_nonneg (fun i _ => mul_self_nonneg (q i))) (Ne.symm hq)
  have hz := hK (K - Matrix.of (fun i j => q i * ((q ᵥ* K) j - lam * q j) / (q ⬝ᵥ q)))
  have key : ∀ (ws : List ℝ) (ps : List ((ι → ℝ) × (ι → ℝ))), (∀ a ∈ ws, 0 < a) → (∀ p ∈ ps, q ⬝ᵥ p.2 = lam * (q ⬝ᵥ p.1)) →
      totalError ws ps (K - Matrix.of (fun i j => q i * ((q ᵥ* K) j - lam * q j) / (q ⬝ᵥ q))) =
        totalError ws ps K - ((ws.zip ps).map (fun p => p.1 * ((q ⬝ᵥ (K *ᵥ p.2.1) - lam * (q ⬝ᵥ p.2.1)) ^ 2 / (q ⬝ᵥ q)))).sum := by
    intro ws
    induction ws with
    | nil => intro ps _ _; simp [totalError]
    | cons a ws ih =>
      intro ps ha hp
      cases ps with
      | nil => simp [totalError]
      | cons p ps =>
        have := ih ps (fun b hb => ha b (List.mem_cons_of_mem _ hb)) (fun b hb => hp b (List.mem_cons_of_mem _ hb))
        unfold totalError at this ⊢
        simp only [List.zip_cons_cons, List.map_cons, List.sum_cons, this]
        rw [stepError_project K q hq lam p.1 p.2 (hp p List.mem_cons_self)]
        ring
  rw [key ws ps hw hs] at hz
  have h0 : ((ws.zip ps).map (fun p => p.1 * ((q ⬝ᵥ (K *ᵥ p.2.1) - lam * (q ⬝ᵥ p.2.1)) ^ 2 / (q ⬝ᵥ q)))).sum ≤ 0 := by linarith
  have hnn : ∀ a ∈ (ws.zip ps).map (fun p => p.1 * ((q ⬝ᵥ (K *ᵥ p.2.1) - lam * (q ⬝ᵥ p.2.1)) ^ 2 / (q ⬝ᵥ q))), 0 ≤ a := by
    intro a ha
    obtain ⟨p, hp, rfl⟩ := List.mem_map.1 ha
    exact mul_nonneg (hw _ (List.of_mem_zip hp).1).le (div_nonneg (sq_nonneg _) hQ.le)
  intro p hp
  obtain ⟨k, hk, rfl⟩ := List.getElem_of_mem hp
  have hmem : (ws[k], ps[k]) ∈ ws.zip ps := by
    have hk' : k < (ws.zip ps).length := by rw [List.length_zip, hl, min_self]; exact hk
    have := List.getElem_mem hk'
    rwa [List.getElem_zip] at this
  have h1 := List.single_le_sum hnn _ (List.mem_map.2 ⟨_, hmem, rfl⟩)
  have h2 := hnn _ (List.mem_map.2 ⟨_, hmem, rfl⟩)
  have h3 : ws[k] * ((q ⬝ᵥ (K *ᵥ ps[k].1) - lam * (q ⬝ᵥ ps[k].1)) ^ 2 / (q ⬝ᵥ q)) = 0 := le_antisymm (h1.trans h0) h2
  have h4 := (mul_eq_zero.1 h3).resolve_left (hw _ (List.getElem_mem _)).ne'
  have h5 := (div_eq_zero_iff.1 h4).resolve_right hq
  exact sub_eq_zero.1 (pow_eq_zero_iff (two_ne_zero)|>.1 h5)

theorem scaled_pow [DecidableEq ι] {q : ι → ℝ} {lam : ℝ} {K : Matrix ι ι ℝ} (h : ∀ x, q ⬝ᵥ (K *ᵥ x) = lam * (q ⬝ᵥ x)) (n : Nat) (x : ι → ℝ) : q ⬝ᵥ (K ^ n *ᵥ x) = lam ^ n * (q ⬝ᵥ x) := by
  induction n with
  | zero => simp
  | succ n ih => rw [pow_succ', ← Matrix.mulVec_mulVec, h, ih, pow_succ]; ring

/-! ## Property theorems -/

/-- **C248 (one step).** Whatever the rank of the data, the fitted matrix scales the quantity at all training samples with a successor (and so on their span). -/
theorem C248_step {k : TimeKind} {c : List (Row Int (ι → ℝ))} (hc : c ≠ []) (hv : Valid c) (ho : IdsAscending c ∨ EqualLengths c) (h2 : ∀ i, HasId c i → 2 ≤ (series c i).length)
    (w : Option (List ℝ)) (hw : ∀ v, w = some v → v.length = (snapshotPairs c).length ∧ ∀ a ∈ v, 0 < a) {q : ι → ℝ} {lam : ℝ} (hq : ScaledByData q lam c) {K : Matrix ι ι ℝ} (h : Fits k c w K) :
    ∀ x ∈ Submodule.span ℝ {x | ∃ p ∈ snapshotPairs c, p.1 = x}, q ⬝ᵥ (K *ᵥ x) = lam * (q ⬝ᵥ x) := by
  have hmin := (C30_least_squares_partial hc hv ho h2 h.1 w (fun v hv' => ⟨(hw v hv').1, fun a ha => ((hw v hv').2 a ha).le⟩) K).1 h
  have hl : (weightsOf w (snapshotPairs c).length).length = (snapshotPairs c).length := by
    cases w with
    | none => simp [weightsOf]
    | some v => exact (hw v rfl).1
  have hp : ∀ a ∈ weightsOf w (snapshotPairs c).length, 0 < a := by
    cases w with
    | none => intro a ha; rw [List.eq_of_mem_replicate ha]; exact one_pos
    | some v => exact (hw v rfl).2
  have hpairs := scaled_pairs hl hp hq hmin
  intro x hx
  induction hx using Submodule.span_induction with
  | mem x hx => obtain ⟨p, hp, rfl⟩ := hx; exact hpairs p hp
  | zero => simp
  | add x y _ _ hx hy => rw [Matrix.mulVec_add, dotProduct_add, dotProduct_add, hx, hy]; ring
  | smul a x _ hx => rw [Matrix.mulVec_smul, dotProduct_smul, dotProduct_smul, hx, smul_eq_mul, smul_eq_mul]; ring

/-- **C248 (predictions).** If the samples span the state space, all predictions from all initial conditions scale the quantity; with factor 1 they conserve it. -/
theorem C248_predict_partial [DecidableEq ι] {k : TimeKind} {c : List (Row Int (ι → ℝ))} (hc : c ≠ []) (hv : Valid c) (ho : IdsAscending c ∨ EqualLengths c)
    (h2 : ∀ i, HasId c i → 2 ≤ (series c i).length) (w : Option (List ℝ)) (hw : ∀ v, w = some v → v.length = (snapshotPairs c).length ∧ ∀ a ∈ v, 0 < a) (hsp : Spanning c) {q : ι → ℝ} {lam : ℝ}
    (hq : ScaledByData q lam c) {K : Matrix ι ι ℝ} (h : Fits k c w K) (dt : Int) {X : List (Row Int (ι → ℝ))} {t0 : Int} {times : List Int} (hX : GoodRequest X t0 times) :
    ∃ d, predictMatrix K dt X times = .ok d ∧ ScaledByPrediction q lam dt t0 X d := by
  obtain ⟨d, hd, -, hr⟩ := predictMatrix_rows K dt hX
  refine ⟨d, hd, fun r hrd => ?_⟩
  obtain ⟨-, x, hx, hi, hval⟩ := hr r hrd
  refine ⟨x, hx, hi, ?_⟩
  rw [hval]
  refine scaled_pow (fun y => C248_step hc hv ho h2 w hw hq h y ?_) _ _
  rw [hsp]
  trivial

/-- One time series of two samples: `(1, 0)` and `(0, 1)`. -/
def exTurn : List (Row Int (Fin 2 → ℝ)) := [⟨0, 0, ![1, 0]⟩, ⟨0, 1, ![0, 1]⟩]

theorem exTurn_pairs : snapshotPairs exTurn = [(![1, 0], ![0, 1])] := rfl

theorem exTurn_valid : Valid exTurn := (valid_iff _).2 ⟨by decide +kernel, by simp [Before, exTurn]⟩

theorem exTurn_fits (K : Matrix (Fin 2) (Fin 2) ℝ) : Fits .int exTurn none K ↔ K 0 0 = 0 ∧ K 1 0 = 1 := by
  rw [C30_least_squares_partial (by simp [exTurn]) exTurn_valid (Or.inl (by simp [IdsAscending, exTurn])) (by
    rintro i ⟨r, hr, rfl⟩
    simp only [exTurn, List.mem_cons, List.not_mem_nil, or_false] at hr
    rcases hr with rfl | rfl <;> simp [series, exTurn]) (by decide) none (by simp) K, exTurn_pairs]
  have e : ∀ M : Matrix (Fin 2) (Fin 2) ℝ, totalError (weightsOf none 1) [(![1, 0], ![0, 1])] M = M 0 0 ^ 2 + (1 - M 1 0) ^ 2 := by
    intro M
    simp [totalError, weightsOf, stepError, Fin.sum_univ_two, Matrix.mulVec, dotProduct]
  simp only [List.length_cons, List.length_nil, zero_add, e]
  constructor
  · intro h
    have h1 := h !![0, 0; 1, 0]
    simp at h1
    exact ⟨by nlinarith [sq_nonneg (K 0 0), sq_nonneg (1 - K 1 0)], by nlinarith [sq_nonneg (K 0 0), sq_nonneg (1 - K 1 0)]⟩
  · rintro ⟨h0, h1⟩ K'
    rw [h0, h1]
    nlinarith [sq_nonneg (K' 0 0), sq_nonneg (1 - K' 1 0)]

/-- **C248 is violated** for data that do not span the state space: the sum of the features is conserved by the data, but the model (the least squares solution of smallest norm, which the code takes)
predicts from the first sample of the data a state with sum zero at the second step. -/
theorem C248_violated : Valid exTurn ∧ ScaledByData ![1, 1] 1 exTurn ∧ FitsMin .int exTurn none !![0, 0; 1, 0] ∧
    ∃ d, predictMatrix !![0, 0; 1, 0] 1 [⟨0, 0, ![1, 0]⟩] [0, 1, 2] = .ok d ∧ ¬ ScaledByPrediction ![1, 1] 1 1 0 [⟨0, 0, ![1, 0]⟩] d := by
  refine ⟨exTurn_valid, ?_, ⟨(exTurn_fits _).2 (by simp), fun K' h => ?_⟩, ?_⟩
  · intro p hp
    rw [exTurn_pairs] at hp
    obtain rfl := List.mem_singleton.1 hp
    simp [dotProduct, Fin.sum_univ_two]
  · obtain ⟨h0, h1⟩ := (exTurn_fits K').1 h
    simp only [sqSum, Fin.sum_univ_two, h0, h1]
    simp
    nlinarith [sq_nonneg (K' 0 1), sq_nonneg (K' 1 1)]
  · obtain ⟨d, hd, h1, -⟩ := predictMatrix_rows !![0, 0; 1, 0] 1 (X := [⟨0, 0, ![1, 0]⟩]) (t0 := 0) (times := [0, 1, 2]) ⟨by simp, by simp, rfl, by decide⟩
    refine ⟨d, hd, fun h => ?_⟩
    obtain ⟨x, hx, -, he⟩ := h _ (h1 _ (List.mem_singleton_self _) 2 (by simp))
    obtain rfl := List.mem_singleton.1 hx
    have e2 : stepCount 1 ((2 : Int) - 0) = 2 := rfl
    simp only [e2, pow_two] at he
    simp [dotProduct, Fin.sum_univ_two, Matrix.mul_apply, Matrix.mulVec] at he

/-! ## Example -/

/-- Three samples of the system with the matrix `[[0, 3], [1, -2]]`, which conserves the sum of the features. -/
def exMix : List (Row Int (Fin 2 → ℝ)) := [⟨0, 0, ![1, 0]⟩, ⟨0, 1, ![0, 1]⟩, ⟨0, 2, ![3, -2]⟩]

theorem exMix_pairs : snapshotPairs exMix = [(![1, 0], ![0, 1]), (![0, 1], ![3, -2])] := rfl

theorem exMix_spanning : Spanning exMix := by
  unfold Spanning
  rw [exMix_pairs, eq_top_iff]
  intro x _
  have e : x = x 0 • (![1, 0] : Fin 2 → ℝ) + x 1 • (![0, 1] : Fin 2 → ℝ) := by
    funext i; fin_cases i <;> simp
  rw [e]
  exact Submodule.add_mem _ (Submodule.smul_mem _ _ (Submodule.subset_span ⟨_, List.mem_cons_self, rfl⟩))
    (Submodule.smul_mem _ _ (Submodule.subset_span ⟨_, List.mem_cons_of_mem _ List.mem_cons_self, rfl⟩))

theorem exMix_valid : Valid exMix := (valid_iff _).2 ⟨by decide +kernel, by simp [Before, exMix]⟩

theorem exMix_long : ∀ i, HasId exMix i → 2 ≤ (series exMix i).length := by
  rintro i ⟨r, hr, rfl⟩
  simp only [exMix, List.mem_cons, List.not_mem_nil, or_false] at hr
  rcases hr with rfl | rfl | rfl <;> simp [series, exMix]

theorem exMix_scaled : ScaledByData ![1, 1] 1 exMix := by
  intro p hp
  rw [exMix_pairs] at hp
  simp only [List.mem_cons, List.not_mem_nil, or_false] at hp
  rcases hp with rfl | rfl <;> norm_num [dotProduct, Fin.sum_univ_two]

theorem exMix_fits : Fits .int exMix none !![0, 3; 1, -2] := by
  refine (C30_least_squares_partial (by simp [exMix]) exMix_valid (Or.inl (by simp [IdsAscending, exMix])) exMix_long (by decide +kernel) none (by simp) _).2 (fun K' => ?_)
  rw [exMix_pairs]
  simp [totalError, weightsOf, stepError, Fin.sum_univ_two, Matrix.mulVec, dotProduct]
  positivity

example : exMix ≠ [] ∧ Valid exMix ∧ IdsAscending exMix ∧ (∀ i, HasId exMix i → 2 ≤ (series exMix i).length) ∧ ScaledByData ![1, 1] 1 exMix ∧ Spanning exMix ∧
    Fits .int exMix none !![0, 3; 1, -2] ∧ GoodRequest [(⟨7, 0, ![2, 5]⟩ : Row Int (Fin 2 → ℝ))] 0 [0, 1, 5] :=
  ⟨by simp [exMix], exMix_valid, by simp [IdsAscending, exMix], exMix_long, exMix_scaled, exMix_spanning, exMix_fits, by simp, by simp, rfl, by decide⟩

end Verif.Dmd

namespace Verif.Edmd

open Verif.Tsc Verif.Np Verif.Lin Verif.Dyn Verif.Dmd Matrix

variable {ι δ : Type} [Fintype ι] [Fintype δ] [DecidableEq δ]

/-- **C248 (EDMD).** The same for EDMD: a linear quantity of the states that the data scales is scaled by the predictions, if the dictionary contains the states (they are mapped back exactly) and the
dictionary values of the samples span the dictionary space. -/
theorem C248_edmd_partial {k : TimeKind} {g : (ι → ℝ) → (δ → ℝ)} {c : List (Row Int (ι → ℝ))} (hc : c ≠ []) (hv : Valid c) (ho : IdsAscending c ∨ EqualLengths c)
    (h2 : ∀ i, HasId c i → 2 ≤ (series c i).length) (hsp : Spanning (mapVal g c)) {q : ι → ℝ} {lam : ℝ} (hq : ScaledByData q lam c) {K : Matrix δ δ ℝ} {B : Matrix δ ι ℝ} (h : FitsEdmd k g c K B)
    (hB : ∀ x, g x ᵥ* B = x) (dt : Int) {X : List (Row Int (ι → ℝ))} {t0 : Int} {times : List Int} (hX : GoodRequest X t0 times) :
    ∃ d, edmdPredict g K B dt X times = .ok d ∧ ScaledByPrediction q lam dt t0 X d := by
  have hval : ∀ x, (B *ᵥ q) ⬝ᵥ g x = q ⬝ᵥ x := fun x => by
    conv_rhs => rw [← hB x]
    rw [dotProduct_comm, Matrix.dotProduct_mulVec, dotProduct_comm]
  have hq' : ScaledByData (B *ᵥ q) lam (mapVal g c) := by
    intro p hp
    rw [mapVal_snapshotPairs] at hp
    obtain ⟨p', hp', rfl⟩ := List.mem_map.1 hp
    simp only [hval]
    exact hq p' hp'
  obtain ⟨d, hd, hs⟩ := C248_predict_partial (k := k) (c := mapVal g c) (by simpa [mapVal] using hc) (mapVal_valid.2 hv) (ho.imp mapVal_idsAscending.2 mapVal_equalLengths.2)
    (fun i hi => by rw [mapVal_series, mapVal_length]; exact h2 i (mapVal_hasId.1 hi)) none (by simp) hsp hq' h.1 dt
    (X := mapVal g X) (t0 := t0) (times := times) ⟨by simpa [mapVal] using hX.nonempty, by rw [mapVal_ids]; exact hX.distinct, hX.first, hX.ascending⟩
  refine ⟨mapVal (fun z => z ᵥ* B) d, by simp [edmdPredict, hd], ?_⟩
  intro r hr
  obtain ⟨r', hr', rfl⟩ := List.mem_map.1 hr
  obtain ⟨x, hx, hi, he⟩ := hs r' hr'
  obtain ⟨x', hx', rfl⟩ := List.mem_map.1 hx
  refine ⟨x', hx', hi, ?_⟩
  rw [hval] at he
  rw [← he, dotProduct_comm (B *ᵥ q), Matrix.dotProduct_mulVec, dotProduct_comm]

example : Spanning (mapVal (fun x : Fin 2 → ℝ => x) exMix) ∧ FitsEdmd .int (fun x : Fin 2 → ℝ => x) exMix !![0, 3; 1, -2] 1 ∧ ∀ x : Fin 2 → ℝ, x ᵥ* (1 : Matrix (Fin 2) (Fin 2) ℝ) = x := by
  have e : mapVal (fun x : Fin 2 → ℝ => x) exMix = exMix := rfl
  refine ⟨e ▸ exMix_spanning, ⟨e ▸ exMix_fits, ?_⟩, fun x => Matrix.vecMul_one x⟩
  intro W
  rw [Matrix.mul_one, sub_self, sqSum_eq_zero.2 rfl]
  exact sqSum_nonneg _

end Verif.Edmd
