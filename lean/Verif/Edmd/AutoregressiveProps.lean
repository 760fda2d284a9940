import Verif.Edmd.MoreDelaysProps
/-! # Property C249: EDMD with a delay embedding is the autoregressive model fitted by least squares -/

namespace Verif.Edmd

open Verif.Tsc Verif.Np Verif.Dyn Verif.Lin Verif.Dict Verif.Takens Verif.Dmd Matrix

/-! ## Specification -/

/-- The sum of squared errors of the autoregressive model with coefficients `C` (`linearRecurrence`: the next sample is the sum over `a < m` of `C a` times the sample `a` steps before the last one), which predicts every
sample with `m` predecessors in its time series from these predecessors. -/
noncomputable def arError (m n : Nat) (X : Takens.Frame ℝ) (C : Fin m → Matrix (Fin n) (Fin n) ℝ) : ℝ :=
  ((ids X.rows).map (fun i => ∑ q ∈ Finset.range ((content X.rows i).length - m), ∑ j : Fin n,
    (toVec n (((content X.rows i).map (·.2)).getD (q + m) []) j - toVec n (linearRecurrence m n C ((((content X.rows i).map (·.2)).drop q).take m)) j) ^ 2)).sum

/-- `C` are least squares coefficients of an autoregressive model of order `m` for the data. -/
def FitsAr (m n : Nat) (X : Takens.Frame ℝ) (C : Fin m → Matrix (Fin n) (Fin n) ℝ) : Prop := ∀ C', arError m n X C ≤ arError m n X C'

/-! ## Helper lemmas -/

/-- Two least squares solutions have the same predictions for the samples. -/
theorem featureError_same {α β : Type} [Fintype α] {ps : List ((α → ℝ) × (β → ℝ))} {j : β} {u v : α → ℝ} (hu : ∀ q, featureError ps j u ≤ featureError ps j q) (hv : ∀ q, featureError ps j v ≤ featureError ps j q) :
    ∀ p ∈ ps, u ⬝ᵥ p.1 = v ⬝ᵥ p.1 := by
  have key : ∀ ps : List ((α → ℝ) × (β → ℝ)), featureError ps j ((1 / 2 : ℝ) • (u + v)) = featureError ps j u / 2 + featureError ps j v / 2 - (ps.map (fun p => (u ⬝ᵥ p.1 - v ⬝ᵥ p.1) ^ 2 / 4)).sum := by
    intro ps
    unfold featureError
    induction ps with
    | nil => simp
    | cons p ps ih =>
      simp only [List.map_cons, List.sum_cons]
      rw [ih]
      simp only [smul_dotProduct, add_dotProduct, smul_eq_mul]
      ring
  have h1 := hu ((1 / 2 : ℝ) • (u + v))
  rw [key] at h1
  have h2 := hv u
  have hnn : ∀ a ∈ ps.map (fun p => (u ⬝ᵥ p.1 - v ⬝ᵥ p.1) ^ 2 / 4), 0 ≤ a := by
    intro a ha
    obtain ⟨p, _, rfl⟩ := List.mem_map.1 ha
    positivity
  intro p hp
  have h3 := List.single_le_sum hnn _ (List.mem_map.2 ⟨p, hp, rfl⟩)
  have h4 : (u ⬝ᵥ p.1 - v ⬝ᵥ p.1) ^ 2 = 0 := le_antisymm (by linarith) (sq_nonneg _)
  exact sub_eq_zero.1 (pow_eq_zero_iff two_ne_zero |>.1 h4)

/-- The pairs of successive dictionary values are the values of successive windows. -/
theorem dict_windows {d : Int} {m : Nat} {φ : List (List ℝ) → List ℝ} {X D : Takens.Frame ℝ} (hD : Good d D) (hc : ∀ i, content D.rows i = causal m φ (content X.rows i)) (p : List ℝ × List ℝ) :
    p ∈ snapshotPairs D.rows ↔ ∃ i q, q + m < (content X.rows i).length ∧ p.1 = φ ((((content X.rows i).map (·.2)).drop q).take m) ∧
      p.2 = φ ((((content X.rows i).map (·.2)).drop (q + 1)).take m) := by
  rw [snapshotPairs_eq hD.valid, List.mem_flatMap]
  constructor
  · rintro ⟨i, -, hp⟩
    obtain ⟨q, h1, h2⟩ := mem_consecutive_iff.1 hp
    rw [dict_vals hc] at h1 h2
    split at h2
    · rename_i hq
      rw [if_pos (by omega)] at h1
      exact ⟨i, q, by omega, (Option.some.inj h1).symm, (Option.some.inj h2).symm⟩
    · simp at h2
  · rintro ⟨i, q, hq, h1, h2⟩
    have hiD : HasId D.rows i := by
      rw [hasId_content, hc, ← List.length_pos_iff, causal_length]; omega
    refine ⟨i, ?_, mem_consecutive_iff.2 ⟨q, ?_, ?_⟩⟩
    · rw [mem_newIds]
      obtain ⟨r, hr, rfl⟩ := hiD
      exact List.mem_map.2 ⟨r, hr, rfl⟩
    · rw [dict_vals hc, if_pos (by omega), h1]
    · rw [dict_vals hc, if_pos (by omega), h2]

section
variable {δ n : Nat}

/-- The rows of the companion matrix read the next sample of the autoregressive model, and the samples that stay in the window. -/
theorem companion_row (hδ : 1 ≤ δ) (C : Fin (δ + 1) → Matrix (Fin n) (Fin n) ℝ) {w : List (List ℝ)} (hw : w ∈ Windows (δ + 1) n) (a : Fin (δ + 1)) (j : Fin n) :
    companion C (finProdFinEquiv (a, j)) ⬝ᵥ toVec ((δ + 1) * n) (takensFormula ⟨0, δ, 1⟩ none w) =
      if a.val = 0 then toVec n (linearRecurrence (δ + 1) n C w) j else toVec n (w.getD (δ - (a.val - 1)) []) j := by
  have hcl := takens_closed hδ C
  have h := congrFun (hcl.step w hw) (finProdFinEquiv (a, j))
  rw [toVec_takens hδ (hcl.stays w hw)] at h
  have e := advance_getD (F := linearRecurrence (δ + 1) n C) (by omega) hw a a.2
  rw [Nat.add_sub_cancel] at e
  rw [e] at h
  refine h.symm.trans ?_
  split <;> rfl

theorem window_get {l : List (List ℝ)} {m q b : Nat} (hb : b < m) : ((l.drop q).take m).getD b [] = l.getD (q + b) [] := by
  rw [List.getD_eq_getElem?_getD, List.getD_eq_getElem?_getD, List.getElem?_take_of_lt hb, List.getElem?_drop]

/-- The errors of the companion matrix: those of the autoregressive model for the first block, none for the others. -/
theorem companion_error (hδ : 1 ≤ δ) {d : Int} {X D : Takens.Frame ℝ} (hX : Good d X) (hn : X.cols.length = n) (hl : MinLength (δ + 2) X) (hD : Valid D.rows) (hi : ∀ i, HasId D.rows i ↔ HasId X.rows i)
    (hc : ∀ i, content D.rows i = causal (δ + 1) (takensFormula ⟨0, δ, 1⟩ none) (content X.rows i)) (C : Fin (δ + 1) → Matrix (Fin n) (Fin n) ℝ) (a : Fin (δ + 1)) (j : Fin n) :
    featureError (snapshotPairs (mapVal (toVec ((δ + 1) * n)) D.rows)) (finProdFinEquiv (a, j)) (companion C (finProdFinEquiv (a, j))) =
      if a.val = 0 then ((ids X.rows).map (fun i => ∑ q ∈ Finset.range ((content X.rows i).length - (δ + 1)),
        (toVec n (((content X.rows i).map (·.2)).getD (q + (δ + 1)) []) j - toVec n (linearRecurrence (δ + 1) n C ((((content X.rows i).map (·.2)).drop q).take (δ + 1))) j) ^ 2)).sum else 0 := by
  unfold featureError
  rw [mapVal_snapshotPairs, List.map_map, sum_windows hD (fun i h => by have := hl i h; omega) hi hc]
  have ha := a.2
  have hterm : ∀ i ∈ ids X.rows, ∀ q ∈ Finset.range ((content X.rows i).length - (δ + 1)),
      toVec ((δ + 1) * n) (takensFormula ⟨0, δ, 1⟩ none ((((content X.rows i).map (·.2)).drop (q + 1)).take (δ + 1))) (finProdFinEquiv (a, j)) =
        toVec n (((content X.rows i).map (·.2)).getD (q + 1 + (δ - a)) []) j ∧
      companion C (finProdFinEquiv (a, j)) ⬝ᵥ toVec ((δ + 1) * n) (takensFormula ⟨0, δ, 1⟩ none ((((content X.rows i).map (·.2)).drop q).take (δ + 1))) =
        if a.val = 0 then toVec n (linearRecurrence (δ + 1) n C ((((content X.rows i).map (·.2)).drop q).take (δ + 1))) j else toVec n (((content X.rows i).map (·.2)).getD (q + (δ - (a.val - 1))) []) j := by
    intro i _ q hq
    have hq := Finset.mem_range.1 hq
    rw [toVec_takens hδ (good_windows hX hn _ i (q + 1) (by omega)), window_get (by omega), companion_row hδ C (good_windows hX hn _ i q (by omega)), window_get (by omega)]
    exact ⟨rfl, rfl⟩
  split
  · rename_i h0
    congr 1
    refine List.map_congr_left (fun i hi => Finset.sum_congr rfl (fun q hq => ?_))
    obtain ⟨e1, e2⟩ := hterm i hi q hq
    simp only [Function.comp_apply]
    rw [e1, e2, if_pos h0, h0, show q + 1 + (δ - 0) = q + (δ + 1) by omega]
  · rename_i h0
    refine List.sum_eq_zero (fun x hx => ?_)
    obtain ⟨i, hi, rfl⟩ := List.mem_map.1 hx
    refine Finset.sum_eq_zero (fun q hq => ?_)
    obtain ⟨e1, e2⟩ := hterm i hi q hq
    simp only [Function.comp_apply]
    rw [e1, e2, if_neg h0, show q + 1 + (δ - a.val) = q + (δ - (a.val - 1)) by omega]
    simp

theorem sum_list_finset {β γ : Type} (s : Finset γ) (f : γ → β → ℝ) : ∀ l : List β, ∑ j ∈ s, (l.map (f j)).sum = (l.map (fun i => ∑ j ∈ s, f j i)).sum
  | [] => by simp
  | b :: l => by simp only [List.map_cons, List.sum_cons, Finset.sum_add_distrib, sum_list_finset s f l]

theorem arError_eq (hδ : 1 ≤ δ) {d : Int} {X D : Takens.Frame ℝ} (hX : Good d X) (hn : X.cols.length = n) (hl : MinLength (δ + 2) X) (hD : Valid D.rows) (hi : ∀ i, HasId D.rows i ↔ HasId X.rows i)
    (hc : ∀ i, content D.rows i = causal (δ + 1) (takensFormula ⟨0, δ, 1⟩ none) (content X.rows i)) (C : Fin (δ + 1) → Matrix (Fin n) (Fin n) ℝ) :
    arError (δ + 1) n X C = ∑ j : Fin n, featureError (snapshotPairs (mapVal (toVec ((δ + 1) * n)) D.rows)) (finProdFinEquiv (0, j)) (companion C (finProdFinEquiv (0, j))) := by
  simp only [companion_error hδ hX hn hl hD hi hc C, Fin.val_zero, if_true]
  rw [sum_list_finset]
  unfold arError
  congr 1
  refine List.map_congr_left (fun i _ => ?_)
  rw [Finset.sum_comm]

/-- The coefficients in the first block row of a system matrix. -/
def firstRow (K : Matrix (Fin ((δ + 1) * n)) (Fin ((δ + 1) * n)) ℝ) (a : Fin (δ + 1)) : Matrix (Fin n) (Fin n) ℝ :=
  Matrix.of (fun j l => K (finProdFinEquiv (0, j)) (finProdFinEquiv (a, l)))

theorem firstRow_companion (K : Matrix (Fin ((δ + 1) * n)) (Fin ((δ + 1) * n)) ℝ) (j : Fin n) : companion (firstRow K) (finProdFinEquiv (0, j)) = K (finProdFinEquiv (0, j)) := by
  funext s
  obtain ⟨⟨b, l⟩, rfl⟩ := finProdFinEquiv.surjective s
  simp only [companion, firstRow, Matrix.of_apply, Equiv.symm_apply_apply, Fin.val_zero, if_true]

/-- What is known about the dictionary data. -/
theorem embedded (hδ : 1 ≤ δ) {d : Int} {b : Bool} {X D : Takens.Frame ℝ} {f : Fit ℝ} (hX : Good d X) (hl : MinLength (δ + 2) X) (hfit : fitDict [takensStep ⟨0, δ, 1⟩ none] b none X = .ok (f, D)) :
    ∃ cols, Causal d (δ + 1) X.cols cols (takensFormula ⟨0, δ, 1⟩ none) (Dict.transform f b) ∧ Good d D ∧ IdsAscending D.rows ∧ (∀ i, HasId D.rows i ↔ HasId X.rows i) ∧ MinLength 2 D ∧
      ∀ i, content D.rows i = causal (δ + 1) (takensFormula ⟨0, δ, 1⟩ none) (content X.rows i) := by
  have hlost : lost ⟨0, δ, 1⟩ = δ := by unfold lost largestDelay delay; simp; omega
  obtain ⟨cols, hc, hD, ha⟩ := takens_fit hX (by rw [hlost]; exact fun i hi => by have := hl i hi; omega) hfit
  rw [hlost] at hc
  obtain ⟨Y, hY, hg, -, hi, hcon⟩ := hc X hX rfl (fun i hi => by have := hl i hi; omega)
  rw [hD] at hY; cases hY
  refine ⟨cols, hc, hg, ha _ _ hX hD, hi, ?_, hcon⟩
  intro i h
  rw [← Dict.content_length, hcon, causal_length, Dict.content_length]
  have := hl i ((hi i).1 h)
  omega

end

/-! ## Property theorems -/

section
variable {k : TimeKind} {d : Int} {δ n : Nat} {includeId : Bool} {X D : Takens.Frame ℝ} {f : Fit ℝ} {K : Matrix (Fin ((δ + 1) * n)) (Fin ((δ + 1) * n)) ℝ} {B : Matrix (Fin ((δ + 1) * n)) (Fin n) ℝ}

/-- **C249 (coefficients).** The first block row of the fitted system matrix holds least squares coefficients of an autoregressive model of order `δ + 1`, whether or not the windows span the space. -/
theorem C249_coefficients (hδ : 1 ≤ δ) (hX : Good d X) (hn : X.cols.length = n) (hl : MinLength (δ + 2) X) (hfit : fitDict [takensStep ⟨0, δ, 1⟩ none] includeId none X = .ok (f, D)) (h : FitsDict k X D K B) :
    FitsAr (δ + 1) n X (fun a => Matrix.of (fun j l => K (finProdFinEquiv (0, j)) (finProdFinEquiv (a, l)))) := by
  obtain ⟨cols, -, hg, ha, hi, h2, hc⟩ := embedded hδ hX hl hfit
  intro C'
  change arError (δ + 1) n X (firstRow K) ≤ _
  rw [arError_eq hδ hX hn hl hg.valid hi hc, arError_eq hδ hX hn hl hg.valid hi hc]
  refine Finset.sum_le_sum (fun j _ => ?_)
  rw [firstRow_companion]
  exact (fits_features (mapVal_ne_nil.2 hg.ne) (mapVal_valid.2 hg.valid) (Or.inl (mapVal_idsAscending.2 ha)) (fun i hi => by rw [mapVal_series, mapVal_length]; exact h2 i (mapVal_hasId.1 hi)) h.1.1 K).1 h.1 _ _

/-- **C249 (model).** If the windows with a successor span the space of all windows, then the model is that of the autoregressive fit: for all least squares coefficients of the autoregressive model (so they are unique), the
system matrix is their companion matrix and the state is read from the first block. -/
theorem C249_model (hδ : 1 ≤ δ) (hX : Good d X) (hn : X.cols.length = n) (hl : MinLength (δ + 2) X) (hfit : fitDict [takensStep ⟨0, δ, 1⟩ none] includeId none X = .ok (f, D))
    (hspan : WindowsSpan (δ + 1) n X) (h : FitsDict k X D K B) {C : Fin (δ + 1) → Matrix (Fin n) (Fin n) ℝ} (hC : FitsAr (δ + 1) n X C) : K = companion C ∧ B = firstBlock (δ + 1) n := by
  obtain ⟨cols, -, hg, ha, hi, h2, hc⟩ := embedded hδ hX hl hfit
  have hset : {x | ∃ p ∈ snapshotPairs (mapVal (toVec ((δ + 1) * n)) D.rows), p.1 = x} =
      {z | ∃ i q, q + (δ + 1) < (content X.rows i).length ∧ toVec ((δ + 1) * n) (takensFormula ⟨0, δ, 1⟩ none ((((content X.rows i).map (·.2)).drop q).take (δ + 1))) = z} := by
    rw [mapVal_snapshotPairs]
    ext z
    simp only [List.mem_map, Set.mem_ofPred_eq]
    constructor
    · rintro ⟨_, ⟨p, hp, rfl⟩, rfl⟩
      obtain ⟨i, q, hq, h1, -⟩ := (dict_windows hg hc p).1 hp
      exact ⟨i, q, hq, by rw [h1]⟩
    · rintro ⟨i, q, hq, rfl⟩
      exact ⟨_, ⟨(_, _), (dict_windows hg hc _).2 ⟨i, q, hq, rfl, rfl⟩, rfl⟩, rfl⟩
  have hsp := takens_span hδ hX hn hspan
  rw [← hset] at hsp
  have hff := fits_features (k := k) (mapVal_ne_nil.2 hg.ne) (mapVal_valid.2 hg.valid) (Or.inl (mapVal_idsAscending.2 ha)) (fun i hi => by rw [mapVal_series, mapVal_length]; exact h2 i (mapVal_hasId.1 hi)) h.1.1
  have hK := (hff K).1 h.1
  have hCo : ∀ r q, featureError (snapshotPairs (mapVal (toVec ((δ + 1) * n)) D.rows)) r (companion C r) ≤ featureError (snapshotPairs (mapVal (toVec ((δ + 1) * n)) D.rows)) r q := by
    rw [← decouple]
    intro K'
    rw [sum_errors, sum_errors, ← finProdFinEquiv.sum_comp, ← finProdFinEquiv.sum_comp, Fintype.sum_prod_type, Fintype.sum_prod_type,
      ← Finset.add_sum_erase _ _ (Finset.mem_univ (0 : Fin (δ + 1))), ← Finset.add_sum_erase _ _ (Finset.mem_univ (0 : Fin (δ + 1)))]
    refine add_le_add ?_ ?_
    · have := hC (firstRow K')
      rw [arError_eq hδ hX hn hl hg.valid hi hc, arError_eq hδ hX hn hl hg.valid hi hc] at this
      simpa only [firstRow_companion] using this
    · refine Finset.sum_le_sum (fun a haa => Finset.sum_le_sum (fun j _ => ?_))
      rw [companion_error hδ hX hn hl hg.valid hi hc, if_neg (show ¬ a.val = 0 from fun h => Finset.ne_of_mem_erase haa (Fin.ext h))]
      exact featureError_nonneg _ _ _
  have hKC : K = companion C := by
    apply Matrix.mulVec_injective
    funext z
    refine LinearMap.congr_fun (f := K.mulVecLin) (g := (companion C).mulVecLin) (LinearMap.ext_on hsp ?_) z
    rintro z ⟨p, hp, rfl⟩
    funext r
    exact featureError_same (hK r) (hCo r) p hp
  refine ⟨hKC, ?_⟩
  have hrow : ∀ r ∈ D.rows, toVec ((δ + 1) * n) r.val ᵥ* firstBlock (δ + 1) n = stateAt n X r.key := by
    intro r hr
    obtain ⟨q, hq, h1, h2⟩ := dict_row (n := n) (by omega) hX hc hr
    rw [h1, h2]
    exact (takens_closed hδ C).decode _ (good_windows hX hn _ _ q hq)
  have h0 : (Matrix.of (fun (r : Fin D.rows.length) => toVec ((δ + 1) * n) D.rows[r].val)) * firstBlock (δ + 1) n = Matrix.of (fun (r : Fin D.rows.length) => stateAt n X D.rows[r].key) := by
    ext r j
    exact congrFun (hrow D.rows[r] (List.getElem_mem _)) j
  have h1 := h.2.solves h0
  have hrowB : ∀ r ∈ D.rows, toVec ((δ + 1) * n) r.val ᵥ* B = stateAt n X r.key := by
    intro r hr
    obtain ⟨i, hi, rfl⟩ := List.getElem_of_mem hr
    funext j
    exact congrFun (congrFun h1 ⟨i, hi⟩) j
  apply Matrix.transpose_injective
  apply Matrix.mulVec_injective
  funext z
  refine LinearMap.congr_fun (f := Bᵀ.mulVecLin) (g := (firstBlock (δ + 1) n)ᵀ.mulVecLin) (LinearMap.ext_on hsp ?_) z
  rintro z ⟨p, hp, rfl⟩
  obtain ⟨r, hr, hrp⟩ := fst_mem_of_snapshotPairs hp
  obtain ⟨r', hr', rfl⟩ := List.mem_map.1 hr
  simp only [Matrix.mulVecLin_apply, Matrix.mulVec_transpose]
  rw [← hrp]
  simp only
  rw [hrowB r' hr', hrow r' hr']

/-- **C249 (predictions).** All predictions are those of the autoregressive model: from any initial windows and for any number of steps, the predicted samples are those of the recurrence with the least squares coefficients. -/
theorem C249_predict (hδ : 1 ≤ δ) (hX : Good d X) (hn : X.cols.length = n) (hl : MinLength (δ + 2) X) (hfit : fitDict [takensStep ⟨0, δ, 1⟩ none] includeId none X = .ok (f, D))
    (hspan : WindowsSpan (δ + 1) n X) (h : FitsDict k X D K B) {C : Fin (δ + 1) → Matrix (Fin n) (Fin n) ℝ} (hC : FitsAr (δ + 1) n X C)
    {V : Takens.Frame ℝ} (hV : Good d V) (hVc : V.cols = X.cols) (hVl : ∀ i, HasId V.rows i → (series V.rows i).length = δ + 1)
    (dt t0 : Int) (hdt : 0 < dt) (ks : List Nat) (hks : (0 :: ks).Pairwise (· < ·)) :
    ∃ P, predictDict (Dict.transform f includeId) K B dt V (timesAt t0 dt (0 :: ks)) = .ok P ∧ Valid P ∧ (∀ i, HasId P i ↔ HasId V.rows i) ∧
      ∀ i, HasId V.rows i → content P i = (0 :: ks).map (fun (s : Nat) =>
        (t0 + s * dt, toVec n (((advance (linearRecurrence (δ + 1) n C))^[s] ((content V.rows i).map (·.2))).getLastD []))) := by
  obtain ⟨rfl, rfl⟩ := C249_model hδ hX hn hl hfit hspan h hC
  obtain ⟨cols, hT, -⟩ := embedded hδ hX hl hfit
  have hcl := takens_closed hδ C
  obtain ⟨E, hE, hEg, -, hEi, hc⟩ := hT V hV hVc (fun i hi => (hVl i hi).ge)
  have hlen : ∀ i, HasId V.rows i → (content V.rows i).length = δ + 1 := fun i hi => by rw [Dict.content_length]; exact hVl i hi
  have hser : ∀ i, (series E.rows i).length ≤ 1 := by
    intro i
    rw [← Dict.content_length, hc, causal_length]
    by_cases hi : HasId V.rows i
    · rw [hlen i hi]; omega
    · have : content V.rows i = [] := by
        by_contra h'
        exact hi (hasId_content.2 h')
      rw [this]; simp
  obtain ⟨P, hP, hvP, -, hid, hcon⟩ := C26_flowmap (companion C) dt t0 hdt (mapVal (toVec ((δ + 1) * n)) E.rows) (mapVal_ne_nil.2 hEg.ne) (by rw [mapVal_ids]; exact nodup_ids_of_single hser) ks hks
  refine ⟨mapVal (fun z => z ᵥ* firstBlock (δ + 1) n) P, by simp only [predictDict, hE, hP], mapVal_valid.2 hvP, fun i => ?_, ?_⟩
  · rw [mapVal_hasId, hid, mapVal_hasId, hEi]
  · intro i hi
    obtain ⟨r, hr, rfl⟩ := (hEi i).2 hi
    obtain ⟨q, hq, h1, -⟩ := dict_row (n := n) (by omega) hV hc hr
    have hq0 : q = 0 := by rw [hlen _ hi] at hq; omega
    subst hq0
    have hw := good_windows hV (by rw [hVc, hn]) (δ + 1) r.id 0 (by rw [hlen _ hi]; omega)
    rw [List.drop_zero, List.take_of_length_le (by simp [hlen _ hi])] at h1 hw
    have := hcon ⟨r.id, r.time, toVec _ r.val⟩ (List.mem_map.2 ⟨r, hr, rfl⟩)
    simp only at this
    rw [mapVal_content, this, List.map_map]
    apply List.map_congr_left
    intro s _
    obtain ⟨h3, h4⟩ := closedMemory_iterate hcl s _ hw
    simp only [Function.comp, h1, h4, hcl.decode _ h3]

end

/-! ## Example -/

theorem exMore_span : WindowsSpan 2 1 exMore := by
  have exMore_three : (content exMore.rows 3) = [(0, [1]), (1, [1]), (2, [2]), (3, [3]), (4, [4])] := by simp [content, series, exMore]
  unfold WindowsSpan
  rw [eq_top_iff]
  intro z _
  set W := {z : Fin 2 × Fin 1 → ℝ | ∃ i q, q + 2 < (content exMore.rows i).length ∧ z = fun p => toVec 1 (((content exMore.rows i).map (·.2)).getD (q + (2 - 1 - p.1)) []) p.2} with hW
  have m1 : (fun p : Fin 2 × Fin 1 => (1 : ℝ)) ∈ Submodule.span ℝ W := by
    refine Submodule.subset_span ⟨3, 0, by rw [exMore_three]; decide, ?_⟩
    rw [exMore_three]
    funext ⟨a, j⟩
    fin_cases a <;> fin_cases j <;> simp [toVec]
  have m2 : (fun p : Fin 2 × Fin 1 => if p.1 = 0 then (2 : ℝ) else 1) ∈ Submodule.span ℝ W := by
    refine Submodule.subset_span ⟨3, 1, by rw [exMore_three]; decide, ?_⟩
    rw [exMore_three]
    funext ⟨a, j⟩
    fin_cases a <;> fin_cases j <;> simp [toVec]
  have : z = (2 * z (1, 0) - z (0, 0)) • (fun p : Fin 2 × Fin 1 => (1 : ℝ)) + (z (0, 0) - z (1, 0)) • (fun p : Fin 2 × Fin 1 => if p.1 = 0 then (2 : ℝ) else 1) := by
    funext ⟨a, j⟩
    fin_cases a <;> fin_cases j <;> simp <;> ring
  rw [this]
  exact Submodule.add_mem _ (Submodule.smul_mem _ _ m1) (Submodule.smul_mem _ _ m2)

/-- non-vacuity of `C249_coefficients`, `C249_model` and `C249_predict`: the data (which follow no recurrence of order two) are accepted, their windows span the plane, a fitted model and with it least squares coefficients exist -/
example : Good 1 exMore ∧ exMore.cols.length = 1 ∧ MinLength 3 exMore ∧ WindowsSpan 2 1 exMore ∧
    ∃ f D, fitDict [takensStep ⟨0, (1 : Nat), 1⟩ none] false none exMore = .ok (f, D) ∧
      ∃ (K : Matrix (Fin (2 * 1)) (Fin (2 * 1)) ℝ) (B : Matrix (Fin (2 * 1)) (Fin 1) ℝ), FitsDict .int exMore D K B ∧ ∃ C, FitsAr 2 1 exMore C := by
  have hl : MinLength 3 exMore := by
    rintro i ⟨r, hr, rfl⟩
    simp only [exMore, List.mem_cons, List.not_mem_nil, or_false] at hr
    rcases hr with rfl | rfl | rfl | rfl | rfl | rfl | rfl | rfl | rfl <;> decide +kernel
  obtain ⟨⟨f, D⟩, hf, -⟩ := ok_of_any (e := fitDict [takensStep ⟨0, (1 : Nat), 1⟩ none] false none exMore) (P := fun p => decide (p.1.nIc = 2)) (by decide +kernel)
  have h1 : lost ⟨0, (1 : Nat), 1⟩ = 1 := by unfold lost largestDelay delay; simp
  obtain ⟨cols, hc, hD, -⟩ := takens_fit exMore_good (by rw [h1]; exact fun i hi => by have := hl i hi; omega) hf
  obtain ⟨K, B, hK⟩ := C190_exists (m := 2) (N := 2 * 1) (n := 1) exMore_good hl (by rw [h1] at hc; exact hc) hD
  exact ⟨exMore_good, rfl, hl, exMore_span, f, D, hf, K, B, hK, _, C249_coefficients (δ := 1) (n := 1) le_rfl exMore_good rfl hl hf hK⟩

end Verif.Edmd
