import Verif.Edmd.DelayProps
import Verif.Dmd.NestedProps
/-! # Property C237: more memory fits the training data at least as well -/

namespace Verif.Edmd

open Verif.Tsc Verif.Np Verif.Dyn Verif.Lin Verif.Dict Verif.Takens Verif.Dmd Matrix

/-! ### Lemmas -/

theorem consecutive_range {β : Type} (g : Nat → β) (k : Nat) : consecutive ((List.range (k + 1)).map g) = (List.range k).map (fun r => (g r, g (r + 1))) := by
  rw [← zip_dropLast_tail]
  apply List.ext_getElem
  · simp
  · intro i h1 h2
    simp

/-- The sum over the snapshot pairs of dictionary data, series by series and window by window. -/
theorem sum_windows {m : Nat} {φ : List (List ℝ) → List ℝ} {X D : List (Row Int (List ℝ))} (hD : Valid D) (hl : ∀ i, HasId X i → m ≤ (series X i).length)
    (hi : ∀ i, HasId D i ↔ HasId X i) (hc : ∀ i, content D i = causal m φ (content X i)) (G : List ℝ × List ℝ → ℝ) :
    ((snapshotPairs D).map G).sum = ((ids X).map (fun i => ∑ r ∈ Finset.range ((content X i).length - m),
      G (φ ((((content X i).map (·.2)).drop r).take m), φ ((((content X i).map (·.2)).drop (r + 1)).take m)))).sum := by
  rw [snapshotPairs_eq hD, List.map_flatMap, List.flatMap_def, List.sum_flatten, List.map_map]
  have hperm : (newIds (D.map (·.id))).Perm (ids X) := by
    rw [List.perm_ext_iff_of_nodup hD.nodup (ids_sorted X).nodup]
    intro i
    rw [mem_newIds, mem_ids, ← hi]
    simp only [List.mem_map, HasId]
  rw [(hperm.map _).sum_eq]
  congr 1
  apply List.map_congr_left
  intro i hiX
  have h1 : m ≤ (content X i).length := by rw [Dict.content_length]; exact hl i (mem_ids.1 hiX)
  simp only [Function.comp_def]
  rw [hc i, causal, List.map_map, show (content X i).length + 1 - m = ((content X i).length - m) + 1 by omega]
  simp only [Function.comp_def]
  rw [consecutive_range, List.map_map]
  rw [← List.sum_toFinset _ (List.nodup_range), List.toFinset_range]
  rfl

/-! ### Property theorems -/

/-- **C237 (dictionaries with memory).** Two dictionaries map the samples of the last `m` and of the last `k + m` time steps to features; feature `p` of the first is feature `e p` of the second. Then the model fitted with
the second dictionary predicts this feature, one step ahead over all its training data, at least as well as every linear model of the first dictionary does over its training data, in particular the model fitted with the
first dictionary. -/
theorem C237_memory {tk : TimeKind} {d : Int} {k m n N N' : Nat} {φ φ' : List (List ℝ) → List ℝ} {cols cols' : List String} {T T' : Transformer ℝ} {X D D' : Takens.Frame ℝ} (hX : Good d X)
    (hn : X.cols.length = n) (hl : MinLength (k + m + 1) X) (hT : Causal d m X.cols cols φ T) (hD : T X = .ok D) (hT' : Causal d (k + m) X.cols cols' φ' T') (hD' : T' X = .ok D')
    (hs : IdsAscending D'.rows ∨ EqualLengths D'.rows) (e : Fin N → Fin N') (he : ∀ w ∈ Windows (k + m) n, ∀ p, toVec N' (φ' w) (e p) = toVec N (φ (w.drop k)) p)
    (K : Matrix (Fin N) (Fin N) ℝ) {K' : Matrix (Fin N') (Fin N') ℝ} (h : Fits tk (mapVal (toVec N') D'.rows) none K') (p : Fin N) :
    featureError (snapshotPairs (mapVal (toVec N') D'.rows)) (e p) (K' (e p)) ≤ featureError (snapshotPairs (mapVal (toVec N) D.rows)) p (K p) := by
  classical
  obtain ⟨Y, hY, hg, -, hi, hc⟩ := hT X hX rfl (fun i hi => by have := hl i hi; omega)
  rw [hD] at hY; cases hY
  obtain ⟨Y, hY, hg', -, hi', hc'⟩ := hT' X hX rfl (fun i hi => by have := hl i hi; omega)
  rw [hD'] at hY; cases hY
  have h2 : ∀ i, HasId (mapVal (toVec N') D'.rows) i → 2 ≤ (series (mapVal (toVec N') D'.rows) i).length := by
    intro i h
    rw [mapVal_series, mapVal_length, ← Dict.content_length, hc', causal_length, Dict.content_length]
    have := hl i ((hi' i).1 (mapVal_hasId.1 h))
    omega
  refine ((fits_features (mapVal_ne_nil.2 hg'.ne) (mapVal_valid.2 hg'.valid) (hs.imp mapVal_idsAscending.2 mapVal_equalLengths.2) h2 h.1 K').1 h (e p)
    (fun x => ∑ q ∈ Finset.univ.filter (fun q => e q = x), K p q)).trans ?_
  unfold featureError
  rw [mapVal_snapshotPairs, mapVal_snapshotPairs, List.map_map, List.map_map,
    sum_windows hg'.valid (fun i h => by have := hl i h; omega) hi' hc', sum_windows hg.valid (fun i h => by have := hl i h; omega) hi hc]
  refine List.sum_le_sum ?_
  intro i hiX
  have hlen : k + m + 1 ≤ (content X.rows i).length := by rw [Dict.content_length]; exact hl i (mem_ids.1 hiX)
  rw [show (content X.rows i).length - m = k + ((content X.rows i).length - (k + m)) by omega, Finset.sum_range_add]
  refine le_trans ?_ (le_add_of_nonneg_left (Finset.sum_nonneg (fun _ _ => sq_nonneg _)))
  refine le_of_eq (Finset.sum_congr rfl ?_)
  intro r hr
  have hr := Finset.mem_range.1 hr
  have e1 : ∀ q, (List.take (k + m) (List.drop q ((content X.rows i).map (·.2)))).drop k = List.take m (List.drop (k + q) ((content X.rows i).map (·.2))) := by
    intro q
    rw [List.drop_take, List.drop_drop, Nat.add_sub_cancel_left, Nat.add_comm q k]
  have e2 : ∀ q, q + (k + m) ≤ (content X.rows i).length → ∀ p, toVec N' (φ' (List.take (k + m) (List.drop q ((content X.rows i).map (·.2))))) (e p) =
      toVec N (φ (List.take m (List.drop (k + q) ((content X.rows i).map (·.2))))) p := by
    intro q hq p
    rw [he _ (good_windows hX hn _ i q hq), e1]
  simp only [Function.comp_apply]
  rw [e2 (r + 1) (by omega), show k + r + 1 = k + (r + 1) by omega]
  congr 2
  simp only [dotProduct, Finset.sum_mul]
  rw [← Finset.sum_fiberwise (s := Finset.univ) (g := e) (f := fun q => K p q * toVec N (φ (List.take m (List.drop (k + r) ((content X.rows i).map (·.2))))) q)]
  refine Finset.sum_congr rfl (fun x _ => Finset.sum_congr rfl (fun q hq => ?_))
  rw [← (Finset.mem_filter.1 hq).2, e2 r (by omega)]

/-- **C237 (delays).** With more delays, the model predicts every feature that the embedding with fewer delays has as well (feature `j` of the sample `a` time steps ago), one step ahead over the training data, at least as
well as every linear model with fewer delays. -/
theorem C237_takens {tk : TimeKind} {d : Int} {δ δ' n : Nat} (hδ : 1 ≤ δ) (hδ' : δ ≤ δ') {b b' : Bool} {X D D' : Takens.Frame ℝ} {f f' : Fit ℝ} (hX : Good d X)
    (hn : X.cols.length = n) (hl : MinLength (δ' + 2) X) (hfit : fitDict [takensStep ⟨0, δ, 1⟩ none] b none X = .ok (f, D)) (hfit' : fitDict [takensStep ⟨0, δ', 1⟩ none] b' none X = .ok (f', D'))
    (K : Matrix (Fin ((δ + 1) * n)) (Fin ((δ + 1) * n)) ℝ) {K' : Matrix (Fin ((δ' + 1) * n)) (Fin ((δ' + 1) * n)) ℝ} {B' : Matrix (Fin ((δ' + 1) * n)) (Fin n) ℝ} (h : FitsDict tk X D' K' B')
    (a : Fin (δ + 1)) (j : Fin n) :
    featureError (snapshotPairs (mapVal (toVec ((δ' + 1) * n)) D'.rows)) (finProdFinEquiv (a.castLE (by omega), j)) (K' (finProdFinEquiv (a.castLE (by omega), j))) ≤
      featureError (snapshotPairs (mapVal (toVec ((δ + 1) * n)) D.rows)) (finProdFinEquiv (a, j)) (K (finProdFinEquiv (a, j))) := by
  obtain ⟨k, rfl⟩ : ∃ k, δ' = k + δ := ⟨δ' - δ, by omega⟩
  have hlost : ∀ x : Nat, 1 ≤ x → lost ⟨0, x, 1⟩ = x := by intro x hx; unfold lost largestDelay delay; simp; omega
  obtain ⟨cols, hc, hD, -⟩ := takens_fit hX (by rw [hlost δ hδ]; exact fun i hi => by have := hl i hi; omega) hfit
  obtain ⟨cols', hc', hD', ha⟩ := takens_fit hX (by rw [hlost (k + δ) (by omega)]; exact fun i hi => by have := hl i hi; omega) hfit'
  rw [hlost δ hδ] at hc
  rw [hlost (k + δ) (by omega), Nat.add_assoc] at hc'
  have := C237_memory (k := k) (m := δ + 1) (N := (δ + 1) * n) (N' := (k + δ + 1) * n) hX hn (by rw [show k + (δ + 1) + 1 = k + δ + 2 by omega]; exact hl) hc hD hc' hD' (Or.inl (ha _ _ hX hD')) (fun p => finProdFinEquiv ((finProdFinEquiv.symm p).1.castLE (by omega), (finProdFinEquiv.symm p).2)) (by
    intro w hw p
    obtain ⟨⟨a, j⟩, rfl⟩ := finProdFinEquiv.surjective p
    rw [Equiv.symm_apply_apply, toVec_takens (δ := k + δ) (by omega) (by rw [Nat.add_assoc]; exact hw), toVec_takens hδ ⟨by rw [List.length_drop, hw.1]; omega, fun v hv => hw.2 v (List.mem_of_mem_drop hv)⟩]
    have := a.2
    rw [List.getD_eq_getElem?_getD, List.getD_eq_getElem?_getD, List.getElem?_drop]
    simp only [Fin.val_castLE]
    rw [show k + (δ - a.val) = k + δ - a.val by omega]) K h.1 (finProdFinEquiv (a, j))
  simpa using this

/-- **C237 (no delays).** A model with delays predicts the features of the data themselves, one step ahead over its training data, at least as well as every linear model without dictionary (dynamic mode decomposition). -/
theorem C237_plain {tk : TimeKind} {d : Int} {δ n : Nat} (hδ : 1 ≤ δ) {b : Bool} {X D : Takens.Frame ℝ} {f : Fit ℝ} (hX : Good d X) (hn : X.cols.length = n) (hl : MinLength (δ + 2) X)
    (hfit : fitDict [takensStep ⟨0, δ, 1⟩ none] b none X = .ok (f, D)) (K₀ : Matrix (Fin n) (Fin n) ℝ) {K : Matrix (Fin ((δ + 1) * n)) (Fin ((δ + 1) * n)) ℝ} {B : Matrix (Fin ((δ + 1) * n)) (Fin n) ℝ}
    (h : FitsDict tk X D K B) (j : Fin n) :
    featureError (snapshotPairs (mapVal (toVec ((δ + 1) * n)) D.rows)) (finProdFinEquiv (0, j)) (K (finProdFinEquiv (0, j))) ≤ featureError (snapshotPairs (mapVal (toVec n) X.rows)) j (K₀ j) := by
  have hlost : lost ⟨0, δ, 1⟩ = δ := by unfold lost largestDelay delay; simp; omega
  obtain ⟨cols, hc, hD, ha⟩ := takens_fit hX (by rw [hlost]; exact fun i hi => by have := hl i hi; omega) hfit
  rw [hlost] at hc
  have hid : Causal (α := ℝ) d 1 X.cols X.cols (fun w => w.headD []) (fun Y => .ok Y) := by
    intro Y hY hcols _
    refine ⟨Y, rfl, hY, hcols, fun _ => Iff.rfl, fun i => ?_⟩
    unfold causal
    apply List.ext_getElem
    · simp
    · intro q h1 h2
      simp [h1, List.head?_take, List.head?_drop]
  refine C237_memory (k := δ) (m := 1) (N := n) (N' := (δ + 1) * n) hX hn hl hid rfl hc hD (Or.inl (ha _ _ hX hD)) (fun p => finProdFinEquiv (0, p)) (by
    intro w hw p
    rw [toVec_takens hδ hw]
    simp [List.headD_eq_head?_getD, List.head?_drop, List.getD_eq_getElem?_getD]) K₀ h.1 j

/-! ### Example -/

/-- Two series with 5 and 4 samples; the IDs descend. -/
def exMore : Takens.Frame ℝ := ⟨["y"], [⟨3, 0, [1]⟩, ⟨3, 1, [1]⟩, ⟨3, 2, [2]⟩, ⟨3, 3, [3]⟩, ⟨3, 4, [4]⟩, ⟨1, 5, [0]⟩, ⟨1, 6, [1]⟩, ⟨1, 7, [1]⟩, ⟨1, 8, [3]⟩]⟩

theorem exMore_good : Good 1 exMore := by
  refine ⟨by simp [exMore], ?_, ?_, ?_, by norm_num⟩
  · exact (valid_iff _).2 ⟨by decide +kernel, by simp [Before, exMore]⟩
  · unfold Rect; decide +kernel
  · intro i
    by_cases h0 : i = 3
    · subst h0; decide +kernel
    by_cases h1 : i = 1
    · subst h1; decide +kernel
    · have : timesOf exMore.rows i = [] := by simp [timesOf, series, exMore, Ne.symm h0, Ne.symm h1]
      simp [this, consecutive]

/-- non-vacuity of `C237_takens`, `C237_plain` and `C237_memory`: one and two delays -/
example : Good 1 exMore ∧ exMore.cols.length = 1 ∧ MinLength 4 exMore ∧
    ∃ f D f' D', fitDict [takensStep ⟨0, (1 : Nat), 1⟩ none] false none exMore = .ok (f, D) ∧ fitDict [takensStep ⟨0, (2 : Nat), 1⟩ none] true none exMore = .ok (f', D') ∧
      (∃ (K : Matrix (Fin (2 * 1)) (Fin (2 * 1)) ℝ) (B : Matrix (Fin (2 * 1)) (Fin 1) ℝ), FitsDict .int exMore D K B) ∧
      ∃ (K : Matrix (Fin (3 * 1)) (Fin (3 * 1)) ℝ) (B : Matrix (Fin (3 * 1)) (Fin 1) ℝ), FitsDict .int exMore D' K B := by
  have hl : MinLength 4 exMore := by
    rintro i ⟨r, hr, rfl⟩
    simp only [exMore, List.mem_cons, List.not_mem_nil, or_false] at hr
    rcases hr with rfl | rfl | rfl | rfl | rfl | rfl | rfl | rfl | rfl <;> decide +kernel
  obtain ⟨⟨f, D⟩, hf, -⟩ := ok_of_any (e := fitDict [takensStep ⟨0, (1 : Nat), 1⟩ none] false none exMore) (P := fun p => decide (p.1.nIc = 2)) (by decide +kernel)
  obtain ⟨⟨f', D'⟩, hf', -⟩ := ok_of_any (e := fitDict [takensStep ⟨0, (2 : Nat), 1⟩ none] true none exMore) (P := fun p => decide (p.1.nIc = 3)) (by decide +kernel)
  have h1 : lost ⟨0, (1 : Nat), 1⟩ = 1 := by unfold lost largestDelay delay; simp
  have h2 : lost ⟨0, (2 : Nat), 1⟩ = 2 := by unfold lost largestDelay delay; simp
  obtain ⟨cols, hc, hD, -⟩ := takens_fit exMore_good (by rw [h1]; exact fun i hi => by have := hl i hi; omega) hf
  obtain ⟨cols', hc', hD', -⟩ := takens_fit exMore_good (by rw [h2]; exact fun i hi => by have := hl i hi; omega) hf'
  exact ⟨exMore_good, rfl, hl, f, D, f', D', hf, hf', C190_exists (m := 2) exMore_good (fun i hi => by have := hl i hi; omega) (by rw [h1] at hc; exact hc) hD,
    C190_exists exMore_good hl (by rw [h2] at hc'; exact hc') hD'⟩

end Verif.Edmd
