import Verif.Tsc.MetricProps
import Verif.Tsc.MapVal
import Mathlib.Analysis.SpecialFunctions.Pow.Real
import Mathlib.Tactic.Linarith
/-!
# C244: errors are distances

Without scaling, the errors `rmse`, `mae`, `max`, `l2` and `linf` of two collections are symmetric and fulfil the triangle inequality, in every mode and for every value of the result.
-/

namespace Verif.Tsc

open Verif.Np

variable {τ : Type} [LinearOrder τ] {d : Nat}

/-! ## Specification -/

/-- The lists have the same length, and the entries at the same places are related. -/
inductive Entrywise {α : Type} (R : α → α → α → Prop) : List α → List α → List α → Prop
  | nil : Entrywise R [] [] []
  | cons {c a b : α} {C A B : List α} : R c a b → Entrywise R C A B → Entrywise R (c :: C) (a :: A) (b :: B)

/-- All values of the result `C` are at most the sums of those of `A` and `B`. -/
abbrev AtMostSum (C A B : List (List ℝ)) : Prop := Entrywise (Entrywise (fun c a b => c ≤ a + b)) C A B

/-- Errors which do not refer to the size of the true values. -/
def absoluteError : Metric → Bool
  | .rrmse | .mape => false
  | _ => true

/-- Errors with the triangle inequality. -/
def distanceError : Metric → Bool
  | .rmse | .mae | .max | .l2 | .linf => true
  | _ => false

/-! ## Helper lemmas -/

/-- Weights and rows. -/
def attach {R : Type} (w : Option (List ℝ)) (rows : List R) : Except MetricErr (List (ℝ × R)) :=
  match w with
  | none => .ok (rows.map (fun r => (1, r)))
  | some w => if w.length = rows.length then .ok (w.zip rows) else .error .nWeights

/-- Sample made of two parts of a row. -/
def mkSample {R : Type} (f g : R → (Fin d → ℝ)) (x : ℝ × R) : Sample d := ⟨x.1, f x.2, g x.2⟩

theorem withWeights_attach {R : Type} (w : Option (List ℝ)) (f g : R → (Fin d → ℝ)) (rows : List R) :
    withWeights w (rows.map (fun r => (f r, g r))) = (attach w rows).map (List.map (mkSample f g)) := by
  cases w with
  | none => simp only [withWeights, attach, Except.map, List.map_map]; rfl
  | some w =>
    simp only [withWeights, attach, List.length_map]
    by_cases h : w.length = rows.length
    · rw [if_pos h, if_pos h]
      simp only [Except.map, List.zipWith_map_right, List.zip, List.map_zipWith]
      rfl
    · rw [if_neg h, if_neg h]; rfl

theorem attach_nonneg {R : Type} {w : Option (List ℝ)} (hw : ∀ l, w = some l → ∀ x ∈ l, 0 ≤ x) {rows : List R} {L : List (ℝ × R)} (h : attach w rows = .ok L) :
    ∀ x ∈ L, 0 ≤ x.1 := by
  cases w with
  | none =>
    cases h
    intro x hx
    obtain ⟨r, -, rfl⟩ := List.mem_map.1 hx
    exact zero_le_one
  | some w =>
    simp only [attach] at h
    split at h
    · cases h
      rintro ⟨a, r⟩ hx
      exact hw w rfl _ (List.of_mem_zip hx).1
    · cases h

theorem blocks_mapVal {V W : Type} (mode : MetricMode) (f : V → W) (c : List (Row τ V)) :
    metricBlocks mode (mapVal f c) = (metricBlocks mode c).map (mapVal f) := by
  cases mode with
  | timeseries =>
    simp only [metricBlocks, mapVal_ids', List.map_map]
    refine List.map_congr_left fun i _ => ?_
    simp only [mapVal, List.filter_map, Function.comp_apply]
    rfl
  | timestep =>
    simp only [metricBlocks, mapVal_timeValues, List.map_map]
    refine List.map_congr_left fun i _ => ?_
    simp only [mapVal, List.filter_map, Function.comp_apply]
    rfl
  | feature => rfl

theorem pairRows_joint {R : Type} (f g : R → (Fin d → ℝ)) (r : List (Row τ R)) :
    pairRows (mapVal f r) (mapVal g r) = .ok (mapVal (fun v => (f v, g v)) r) := by
  unfold pairRows
  rw [mapVal_keys, mapVal_keys, if_pos rfl]
  congr 1
  induction r with
  | nil => rfl
  | cons x r ih => simp only [mapVal_cons, List.zipWith_cons_cons, ih]

/-- What is computed on one block of rows with two parts. -/
noncomputable def jointBlock {R : Type} (m : Metric) (w : Option (List ℝ)) (mo : MultiOutput d) (f g : R → (Fin d → ℝ)) (b : List (Row τ R)) : Except MetricErr (List ℝ) :=
  match attach w (b.map (·.val)) with
  | .error e => .error e
  | .ok L => blockMetric m w.isSome mo (L.map (mkSample f g))

theorem metricCall_joint {R : Type} (m : Metric) (mode : MetricMode) (w : Option (List ℝ)) (mo : MultiOutput d) (f g : R → (Fin d → ℝ)) (r : List (Row τ R)) :
    metricCall m mode .id w mo (mapVal f r) (mapVal g r) =
      if mode ≠ .feature ∧ w.isSome = true ∧ isEqualLength r = false then .error .sameLength
      else (metricBlocks mode r).mapM (jointBlock m w (if mode = .feature then MultiOutput.raw else mo) f g) := by
  unfold metricCall
  rw [pairRows_joint]
  have heq : isEqualLength (mapVal f r) = isEqualLength r := by
    unfold isEqualLength; rw [mapVal_nTimesteps]
  simp only [scaleRow, heq, List.map_id']
  split
  · rfl
  rw [blocks_mapVal, List.mapM_map]
  congr 1
  funext b
  simp only [Function.comp_apply, jointBlock]
  have : (mapVal (fun v => (f v, g v)) b).map (·.val) = (b.map (·.val)).map (fun r => (f r, g r)) := by
    simp [mapVal]
  rw [this, withWeights_attach]
  cases attach w (b.map (·.val)) <;> rfl

omit [LinearOrder τ] in
theorem joint_two (y z : List (Row τ (Fin d → ℝ))) (h : y.map (·.key) = z.map (·.key)) :
    ∃ r : List (Row τ ((Fin d → ℝ) × (Fin d → ℝ))), y = mapVal (·.1) r ∧ z = mapVal (·.2) r := by
  induction y generalizing z with
  | nil =>
    cases z with
    | nil => exact ⟨[], rfl, rfl⟩
    | cons => simp at h
  | cons a y ih =>
    cases z with
    | nil => simp at h
    | cons b z =>
      simp only [List.map_cons, List.cons.injEq] at h
      obtain ⟨r, rfl, rfl⟩ := ih z h.2
      refine ⟨⟨a.id, a.time, (a.val, b.val)⟩ :: r, rfl, ?_⟩
      obtain ⟨i, t, v⟩ := b
      have h1 := h.1
      simp only [Row.key, Key.mk.injEq] at h1
      simp only [mapVal_cons, h1.1, h1.2]

omit [LinearOrder τ] in
theorem joint_three (x y z : List (Row τ (Fin d → ℝ))) (h : x.map (·.key) = y.map (·.key)) (h' : y.map (·.key) = z.map (·.key)) :
    ∃ r : List (Row τ ((Fin d → ℝ) × (Fin d → ℝ) × (Fin d → ℝ))), x = mapVal (·.1) r ∧ y = mapVal (·.2.1) r ∧ z = mapVal (·.2.2) r := by
  induction x generalizing y z with
  | nil =>
    cases y with
    | nil =>
      cases z with
      | nil => exact ⟨[], rfl, rfl, rfl⟩
      | cons => simp at h'
    | cons => simp at h
  | cons a x ih =>
    cases y with
    | nil => simp at h
    | cons b y =>
      cases z with
      | nil => simp at h'
      | cons c z =>
        simp only [List.map_cons, List.cons.injEq] at h h'
        obtain ⟨r, rfl, rfl, rfl⟩ := ih y z h.2 h'.2
        refine ⟨⟨a.id, a.time, (a.val, b.val, c.val)⟩ :: r, rfl, ?_, ?_⟩
        · obtain ⟨i, t, v⟩ := b
          have h1 := h.1
          simp only [Row.key, Key.mk.injEq] at h1
          simp only [mapVal_cons, h1.1, h1.2]
        · obtain ⟨i, t, v⟩ := c
          have h1 := h.1.trans h'.1
          simp only [Row.key, Key.mk.injEq] at h1
          simp only [mapVal_cons, h1.1, h1.2]

theorem keys_of_call {m : Metric} {mode : MetricMode} {s : MetricScaling} {w : Option (List ℝ)} {mo : MultiOutput d} {y z : List (Row τ (Fin d → ℝ))} {A : List (List ℝ)}
    (h : metricCall m mode s w mo y z = .ok A) : y.map (·.key) = z.map (·.key) := by
  by_contra hne
  unfold metricCall pairRows at h
  rw [if_neg hne] at h
  cases h

/-! ### Symmetry -/

theorem colMetric_symm {R : Type} {m : Metric} (hm : absoluteError m = true) (f g : R → (Fin d → ℝ)) (L : List (ℝ × R)) :
    colMetric m (L.map (mkSample g f)) = colMetric m (L.map (mkSample f g)) := by
  funext j
  have h1 : ∀ x : ℝ × R, |g x.2 j - f x.2 j| = |f x.2 j - g x.2 j| := fun x => abs_sub_comm _ _
  have h2 : ∀ x : ℝ × R, (g x.2 j - f x.2 j) ^ 2 = (f x.2 j - g x.2 j) ^ 2 := fun x => by ring
  have h3 : ∀ x : ℝ × R, (x.1 * (g x.2 j - f x.2 j)) ^ 2 = (x.1 * (f x.2 j - g x.2 j)) ^ 2 := fun x => by ring
  have h4 : ∀ x : ℝ × R, |x.1 * (g x.2 j - f x.2 j)| = |x.1 * (f x.2 j - g x.2 j)| := fun x => by rw [abs_mul, abs_mul, h1]
  cases m <;> simp only [absoluteError, reduceCtorEq] at hm
  all_goals simp only [colMetric, mseCol, List.map_map, Function.comp_def, mkSample, h1, h2, h3, h4]

theorem blockMetric_symm {R : Type} {m : Metric} (hm : absoluteError m = true) (weighted : Bool) (mo : MultiOutput d) (f g : R → (Fin d → ℝ)) (L : List (ℝ × R)) :
    blockMetric m weighted mo (L.map (mkSample g f)) = blockMetric m weighted mo (L.map (mkSample f g)) := by
  have h := colMetric_symm hm f g L
  cases m <;> simp only [absoluteError, reduceCtorEq] at hm
  all_goals simp only [blockMetric, h]

/-! ### Triangle inequality -/

theorem mink_two (x y p q : ℝ) : √((x + y) ^ 2 + (p + q) ^ 2) ≤ √(x ^ 2 + p ^ 2) + √(y ^ 2 + q ^ 2) := by
  have h1 : 0 ≤ x ^ 2 + p ^ 2 := by positivity
  have h2 : 0 ≤ y ^ 2 + q ^ 2 := by positivity
  refine Real.sqrt_le_iff.2 ⟨by positivity, ?_⟩
  have h : x * y + p * q ≤ √(x ^ 2 + p ^ 2) * √(y ^ 2 + q ^ 2) := by
    rw [← Real.sqrt_mul h1]
    refine Real.le_sqrt_of_sq_le ?_
    nlinarith [sq_nonneg (x * q - p * y)]
  rw [add_sq (√(x ^ 2 + p ^ 2)), Real.sq_sqrt h1, Real.sq_sqrt h2]
  nlinarith

theorem sum_sq_nonneg {α : Type} (f : α → ℝ) (L : List α) : 0 ≤ (L.map (fun x => f x ^ 2)).sum :=
  List.sum_nonneg fun y hy => by
    obtain ⟨x, -, rfl⟩ := List.mem_map.1 hy
    exact sq_nonneg _

theorem mink_list {α : Type} (f g : α → ℝ) (L : List α) :
    √((L.map (fun x => (f x + g x) ^ 2)).sum) ≤ √((L.map (fun x => f x ^ 2)).sum) + √((L.map (fun x => g x ^ 2)).sum) := by
  induction L with
  | nil => simp
  | cons x L ih =>
    simp only [List.map_cons, List.sum_cons]
    have hf := sum_sq_nonneg f L
    have hg := sum_sq_nonneg g L
    have hs := sum_sq_nonneg (fun x => f x + g x) L
    have h := mink_two (f x) (g x) (√((L.map (fun x => f x ^ 2)).sum)) (√((L.map (fun x => g x ^ 2)).sum))
    rw [Real.sq_sqrt hf, Real.sq_sqrt hg] at h
    refine le_trans (Real.sqrt_le_sqrt ?_) h
    have := Real.sqrt_le_left (x := (L.map (fun x => (f x + g x) ^ 2)).sum) (y := √((L.map (fun x => f x ^ 2)).sum) + √((L.map (fun x => g x ^ 2)).sum)) (by positivity) |>.1 ih
    linarith

theorem sum_le_add {α : Type} (h f g : α → ℝ) (L : List α) (hl : ∀ x ∈ L, h x ≤ f x + g x) : (L.map h).sum ≤ (L.map f).sum + (L.map g).sum := by
  induction L with
  | nil => simp
  | cons x L ih =>
    simp only [List.map_cons, List.sum_cons]
    have h1 := hl x List.mem_cons_self
    have h2 := ih fun y hy => hl y (List.mem_cons_of_mem _ hy)
    linarith

theorem maxList_le_add {α : Type} (h f g : α → ℝ) (L : List α) (hl : ∀ x ∈ L, h x ≤ f x + g x) : maxList (L.map h) ≤ maxList (L.map f) + maxList (L.map g) := by
  induction L with
  | nil => simp [maxList]
  | cons x L ih =>
    have h1 := hl x List.mem_cons_self
    have h2 := ih fun y hy => hl y (List.mem_cons_of_mem _ hy)
    simp only [maxList, List.map_cons, List.foldr_cons] at h2 ⊢
    refine max_le (h1.trans (add_le_add (le_max_left _ _) (le_max_left _ _))) (h2.trans (add_le_add (le_max_right _ _) (le_max_right _ _)))

theorem wAverage_le_add {α : Type} (w h f g : α → ℝ) (L : List α) (hw : ∀ x ∈ L, 0 ≤ w x) (hl : ∀ x ∈ L, h x ≤ f x + g x) :
    wAverage (L.map (fun x => (w x, h x))) ≤ wAverage (L.map (fun x => (w x, f x))) + wAverage (L.map (fun x => (w x, g x))) := by
  simp only [wAverage, List.map_map, Function.comp_def]
  rw [← add_div]
  refine div_le_div_of_nonneg_right (sum_le_add _ _ _ L fun x hx => ?_) (List.sum_nonneg fun y hy => ?_)
  · have h1 := hl x hx
    have h2 := hw x hx
    nlinarith
  · obtain ⟨x, hx, rfl⟩ := List.mem_map.1 hy
    exact hw x hx

theorem rms_le_add {α : Type} (w f g : α → ℝ) (L : List α) (hw : ∀ x ∈ L, 0 ≤ w x) :
    √(wAverage (L.map (fun x => (w x, (f x + g x) ^ 2)))) ≤ √(wAverage (L.map (fun x => (w x, f x ^ 2)))) + √(wAverage (L.map (fun x => (w x, g x ^ 2)))) := by
  have key : ∀ h : α → ℝ, √(wAverage (L.map (fun x => (w x, h x ^ 2)))) = √((L.map (fun x => (√(w x) * h x) ^ 2)).sum) / √((L.map w).sum) := by
    intro h
    simp only [wAverage, List.map_map, Function.comp_def]
    have : L.map (fun x => (√(w x) * h x) ^ 2) = L.map (fun x => w x * h x ^ 2) :=
      List.map_congr_left fun x hx => by rw [mul_pow, Real.sq_sqrt (hw x hx)]
    rw [← this, Real.sqrt_div (sum_sq_nonneg _ L)]
  rw [key, key, key, ← add_div]
  refine div_le_div_of_nonneg_right ?_ (Real.sqrt_nonneg _)
  have := mink_list (fun x => √(w x) * f x) (fun x => √(w x) * g x) L
  simpa only [mul_add] using this

theorem colMetric_le_add {R : Type} {m : Metric} (hm : distanceError m = true) (f g h : R → (Fin d → ℝ)) (L : List (ℝ × R)) (hL : ∀ x ∈ L, 0 ≤ x.1) (j : Fin d) :
    colMetric m (L.map (mkSample f h)) j ≤ colMetric m (L.map (mkSample f g)) j + colMetric m (L.map (mkSample g h)) j := by
  have e : ∀ x : ℝ × R, f x.2 j - h x.2 j = (f x.2 j - g x.2 j) + (g x.2 j - h x.2 j) := fun x => by ring
  have ha : ∀ x ∈ L, |f x.2 j - h x.2 j| ≤ |f x.2 j - g x.2 j| + |g x.2 j - h x.2 j| := fun x _ => by rw [e]; exact abs_add_le _ _
  cases m <;> simp only [distanceError, reduceCtorEq] at hm
  · simp only [colMetric, mseCol, List.map_map, Function.comp_def, mkSample, e]
    exact rms_le_add (fun x => x.1) (fun x => f x.2 j - g x.2 j) (fun x => g x.2 j - h x.2 j) L hL
  · simp only [colMetric, List.map_map, Function.comp_def, mkSample]
    exact wAverage_le_add (fun x => x.1) _ _ _ L hL ha
  · simp only [colMetric, List.map_map, Function.comp_def, mkSample]
    exact maxList_le_add _ _ _ L ha
  · simp only [colMetric, List.map_map, Function.comp_def, mkSample, e, mul_add]
    exact mink_list (fun x => x.1 * (f x.2 j - g x.2 j)) (fun x => x.1 * (g x.2 j - h x.2 j)) L
  · simp only [colMetric, List.map_map, Function.comp_def, mkSample]
    refine maxList_le_add _ _ _ L fun x hx => ?_
    rw [abs_mul, abs_mul, abs_mul, ← mul_add]
    exact mul_le_mul_of_nonneg_left (ha x hx) (abs_nonneg _)

theorem entrywise_map {α β : Type} {R : β → β → β → Prop} (f g h : α → β) (L : List α) (hl : ∀ x ∈ L, R (f x) (g x) (h x)) : Entrywise R (L.map f) (L.map g) (L.map h) := by
  induction L with
  | nil => exact .nil
  | cons x L ih => exact .cons (hl x List.mem_cons_self) (ih fun y hy => hl y (List.mem_cons_of_mem _ hy))

theorem entrywise_ofFn {f g h : Fin d → ℝ} (hl : ∀ j, f j ≤ g j + h j) : Entrywise (fun c a b => c ≤ a + b) (List.ofFn f) (List.ofFn g) (List.ofFn h) := by
  simp only [List.ofFn_eq_map]
  exact entrywise_map _ _ _ _ fun j _ => hl j

theorem meanList_le_add {C A B : List ℝ} (h : Entrywise (fun c a b => c ≤ a + b) C A B) : meanList C ≤ meanList A + meanList B := by
  have : C.length = A.length ∧ C.length = B.length ∧ C.sum ≤ A.sum + B.sum := by
    induction h with
    | nil => simp
    | cons h1 _ ih =>
      simp only [List.length_cons, List.sum_cons]
      exact ⟨by rw [ih.1], by rw [ih.2.1], by linarith [ih.2.2]⟩
  unfold meanList
  rw [← this.1, ← this.2.1, ← add_div]
  exact div_le_div_of_nonneg_right this.2.2 (Nat.cast_nonneg _)

theorem blockMetric_le_add {R : Type} {m : Metric} (hm : distanceError m = true) (weighted : Bool) (mo : MultiOutput d) (hmo : ∀ v, mo = .weights v → ∀ j, 0 ≤ v j)
    (f g h : R → (Fin d → ℝ)) (L : List (ℝ × R)) (hL : ∀ x ∈ L, 0 ≤ x.1) {A B : List ℝ}
    (hA : blockMetric m weighted mo (L.map (mkSample f g)) = .ok A) (hB : blockMetric m weighted mo (L.map (mkSample g h)) = .ok B) :
    ∃ C, blockMetric m weighted mo (L.map (mkSample f h)) = .ok C ∧ Entrywise (fun c a b => c ≤ a + b) C A B := by
  have hc := colMetric_le_add hm f g h L hL
  have hmean : meanList (List.ofFn (colMetric m (L.map (mkSample f h)))) ≤
      meanList (List.ofFn (colMetric m (L.map (mkSample f g)))) + meanList (List.ofFn (colMetric m (L.map (mkSample g h)))) := meanList_le_add (entrywise_ofFn hc)
  have hwav : ∀ v : Fin d → ℝ, (∀ j, 0 ≤ v j) → wAverage (List.ofFn (fun j => (v j, colMetric m (L.map (mkSample f h)) j))) ≤
      wAverage (List.ofFn (fun j => (v j, colMetric m (L.map (mkSample f g)) j))) + wAverage (List.ofFn (fun j => (v j, colMetric m (L.map (mkSample g h)) j))) := by
    intro v hv
    simp only [List.ofFn_eq_map]
    exact wAverage_le_add v _ _ _ _ (fun j _ => hv j) fun j _ => hc j
  cases m <;> simp only [distanceError, reduceCtorEq] at hm
  all_goals cases mo <;> simp only [blockMetric] at hA hB ⊢
  all_goals try simp only [reduceCtorEq, or_false, or_true, if_true, if_false] at hA hB ⊢
  all_goals try (by_cases hd : d ≠ 1 <;> simp only [hd, if_true, if_false, not_false_eq_true, reduceCtorEq, ne_eq] at hA hB ⊢)
  all_goals try cases hA
  all_goals try cases hB
  all_goals refine ⟨_, rfl, ?_⟩
  all_goals first
    | exact entrywise_ofFn hc
    | exact .cons hmean .nil
    | exact .cons (hwav _ (hmo _ rfl)) .nil

theorem mapM_le_add {α β : Type} {R : β → β → β → Prop} (F G H : α → Except MetricErr β) (l : List α)
    (hl : ∀ x ∈ l, ∀ a b, F x = .ok a → G x = .ok b → ∃ c, H x = .ok c ∧ R c a b) {A B : List β} (hA : l.mapM F = .ok A) (hB : l.mapM G = .ok B) :
    ∃ C, l.mapM H = .ok C ∧ Entrywise R C A B := by
  induction l generalizing A B with
  | nil => cases hA; cases hB; exact ⟨[], rfl, .nil⟩
  | cons x l ih =>
    rw [List.mapM_cons] at hA hB ⊢
    cases hF : F x with
    | error e => rw [hF] at hA; cases hA
    | ok a =>
      cases hG : G x with
      | error e => rw [hG] at hB; cases hB
      | ok b =>
        rw [hF] at hA; rw [hG] at hB
        cases hF' : l.mapM F with
        | error e => rw [hF'] at hA; cases hA
        | ok A' =>
          cases hG' : l.mapM G with
          | error e => rw [hG'] at hB; cases hB
          | ok B' =>
            rw [hF'] at hA; rw [hG'] at hB
            cases hA; cases hB
            obtain ⟨c, h1, h2⟩ := hl x List.mem_cons_self a b hF hG
            obtain ⟨C, h3, h4⟩ := ih (fun y hy => hl y (List.mem_cons_of_mem _ hy)) hF' hG'
            exact ⟨c :: C, by rw [h1, h3]; rfl, .cons h2 h4⟩

theorem entrywise_flatten {α : Type} {R : α → α → α → Prop} {C A B : List (List α)} (h : Entrywise (Entrywise R) C A B) : Entrywise R C.flatten A.flatten B.flatten := by
  have happ : ∀ {c a b C A B : List α}, Entrywise R c a b → Entrywise R C A B → Entrywise R (c ++ C) (a ++ A) (b ++ B) := by
    intro c a b C A B h1 h2
    induction h1 with
    | nil => exact h2
    | cons h _ ih => exact .cons h ih
  induction h with
  | nil => exact .nil
  | cons h1 _ ih => exact happ h1 ih

theorem entrywise_length {α : Type} {R : α → α → α → Prop} {C A B : List α} (h : Entrywise R C A B) : C.length = A.length := by
  induction h with
  | nil => rfl
  | cons _ _ ih => simp [ih]

theorem entrywise_any {α : Type} {R : α → α → α → Prop} {C A B : List (List α)} (h : Entrywise (Entrywise R) C A B) :
    C.any (fun v => v.length != 1) = A.any (fun v => v.length != 1) := by
  induction h with
  | nil => rfl
  | cons h1 _ ih => simp only [List.any_cons, ih, entrywise_length h1]

theorem entrywise_headD {α : Type} {R : α → α → α → Prop} {C A B : List (List α)} (h : Entrywise (Entrywise R) C A B) : Entrywise R (C.headD []) (A.headD []) (B.headD []) := by
  cases h with
  | nil => exact .nil
  | cons h1 _ => exact h1

/-! ## Property theorems -/

/-- **C244 (symmetry).** Without scaling, exchanging the two collections does not change the result of an absolute error: neither values nor refusals, in every mode, for all sample weights and
all treatments of several features. -/
theorem C244_symmetric_partial {m : Metric} (hm : absoluteError m = true) (mode : MetricMode) (w : Option (List ℝ)) (mo : MultiOutput d) (y z : List (Row τ (Fin d → ℝ))) :
    metricCall m mode .id w mo y z = metricCall m mode .id w mo z y := by
  by_cases h : y.map (·.key) = z.map (·.key)
  · obtain ⟨r, rfl, rfl⟩ := joint_two y z h
    rw [metricCall_joint, metricCall_joint]
    split
    · rfl
    congr 1
    funext b
    unfold jointBlock
    cases attach w (b.map (·.val)) with
    | error e => rfl
    | ok L => exact (blockMetric_symm hm _ _ _ _ L).symm
  · have h' : ¬ z.map (·.key) = y.map (·.key) := fun e => h e.symm
    unfold metricCall pairRows
    rw [if_neg h, if_neg h']

/-- **C244 (triangle inequality).** If the error between `x` and `y` and the error between `y` and `z` are computed, the error between `x` and `z` is computed, and each of its values is at most
the sum of the two others. Weights are not negative. -/
theorem C244_triangle_partial {m : Metric} (hm : distanceError m = true) (mode : MetricMode) {w : Option (List ℝ)} (hw : ∀ l, w = some l → ∀ x ∈ l, 0 ≤ x)
    {mo : MultiOutput d} (hmo : ∀ v, mo = .weights v → ∀ j, 0 ≤ v j) {x y z : List (Row τ (Fin d → ℝ))} {A B : List (List ℝ)}
    (hA : metricCall m mode .id w mo x y = .ok A) (hB : metricCall m mode .id w mo y z = .ok B) :
    ∃ C, metricCall m mode .id w mo x z = .ok C ∧ AtMostSum C A B := by
  obtain ⟨r, rfl, rfl, rfl⟩ := joint_three x y z (keys_of_call hA) (keys_of_call hB)
  rw [metricCall_joint] at hA hB ⊢
  by_cases hc : mode ≠ .feature ∧ w.isSome = true ∧ isEqualLength r = false
  · rw [if_pos hc] at hA; cases hA
  rw [if_neg hc] at hA hB ⊢
  refine mapM_le_add _ _ _ _ (fun b _ a a' ha ha' => ?_) hA hB
  unfold jointBlock at ha ha' ⊢
  cases hL : attach w (b.map (·.val)) with
  | error e => rw [hL] at ha; cases ha
  | ok L =>
    rw [hL] at ha ha'
    refine blockMetric_le_add hm _ _ (fun v hv => ?_) _ _ _ L (attach_nonneg hw hL) ha ha'
    split at hv
    · cases hv
    · exact hmo v hv

/-- **C244 (scores).** The score of one prediction `p` of `y` differs from the score of another prediction `q` by at most the error between the two predictions (its negative score): if two models
predict almost the same, their scores are almost the same. -/
theorem C244_scores_partial {m : Metric} (hm : distanceError m = true) (mode : MetricMode) {w : Option (List ℝ)} (hw : ∀ l, w = some l → ∀ x ∈ l, 0 ≤ x)
    {mo : MultiOutput d} (hmo : ∀ v, mo = .weights v → ∀ j, 0 ≤ v j) {y p q : List (Row τ (Fin d → ℝ))} {sp sq : ℝ}
    (hp : scoreCall m mode .id w mo false y p = .ok sp) (hq : scoreCall m mode .id w mo false y q = .ok sq) :
    ∃ e, scoreCall m mode .id w mo false p q = .ok (-e) ∧ |sp - sq| ≤ e := by
  have habs : absoluteError m = true := by cases m <;> first | rfl | exact hm
  unfold scoreCall at hp hq ⊢
  cases hA : metricCall m mode .id w mo y p with
  | error e => rw [hA] at hp; cases hp
  | ok A =>
    cases hB : metricCall m mode .id w mo y q with
    | error e => rw [hB] at hq; cases hq
    | ok B =>
      have hA' := (C244_symmetric_partial habs mode w mo p y).trans hA
      have hB' := (C244_symmetric_partial habs mode w mo q y).trans hB
      obtain ⟨C, hC, h1⟩ := C244_triangle_partial hm mode hw hmo hA' hB
      obtain ⟨B₂, hB₂, h2⟩ := C244_triangle_partial hm mode hw hmo hA hC
      obtain ⟨A₂, hA₂, h3⟩ := C244_triangle_partial hm mode hw hmo hB ((C244_symmetric_partial habs mode w mo q p).trans hC)
      rw [hB] at hB₂; cases hB₂
      rw [hA] at hA₂; cases hA₂
      rw [hA] at hp; rw [hB] at hq; rw [hC]
      simp only at hp hq ⊢
      have hany := entrywise_any h1
      by_cases hs : mode ≠ .feature ∧ A.any (fun v => v.length != 1) = true
      · rw [if_pos hs] at hp; cases hp
      rw [if_neg hs] at hp
      rw [hany, if_neg hs]
      by_cases hs' : mode ≠ .feature ∧ B.any (fun v => v.length != 1) = true
      · rw [if_pos hs'] at hq; cases hq
      rw [if_neg hs'] at hq
      cases hp; cases hq
      simp only [Bool.false_eq_true, if_false, neg_mul, one_mul]
      refine ⟨_, rfl, ?_⟩
      by_cases hmode : mode = .feature
      · simp only [hmode, if_true]
        have := meanList_le_add (entrywise_headD h2)
        have := meanList_le_add (entrywise_headD h3)
        rw [abs_le]; constructor <;> linarith
      · simp only [hmode, if_false]
        have := meanList_le_add (entrywise_flatten h2)
        have := meanList_le_add (entrywise_flatten h3)
        rw [abs_le]; constructor <;> linarith

/-! ### Counterexamples and non-vacuity -/

/-- A collection with one feature and the given values at the time values 0, 1, 2. -/
def threeRows (a b c : ℝ) : List (Row Int (Fin 1 → ℝ)) := [⟨0, 0, ![a]⟩, ⟨0, 1, ![b]⟩, ⟨0, 2, ![c]⟩]

theorem threeRows_pair (a b c a' b' c' : ℝ) : pairRows (threeRows a b c) (threeRows a' b' c') = .ok [⟨0, 0, (![a], ![a'])⟩, ⟨0, 1, (![b], ![b'])⟩, ⟨0, 2, (![c], ![c'])⟩] := rfl

theorem threeRows_mse (a b c a' b' c' : ℝ) : metricCall .mse .feature .id none .raw (threeRows a b c) (threeRows a' b' c') =
    .ok [[((a - a') ^ 2 + (b - b') ^ 2 + (c - c') ^ 2) / 3]] := by
  unfold metricCall
  rw [threeRows_pair]
  simp [metricBlocks, withWeights, blockMetric, colMetric, mseCol, wAverage, scaleRow, List.ofFn_succ]
  norm_num [add_assoc]

theorem threeRows_mae (a b c a' b' c' : ℝ) : metricCall .mae .feature .id none .raw (threeRows a b c) (threeRows a' b' c') =
    .ok [[(|a - a'| + |b - b'| + |c - c'|) / 3]] := by
  unfold metricCall
  rw [threeRows_pair]
  simp [metricBlocks, withWeights, blockMetric, colMetric, wAverage, scaleRow, List.ofFn_succ]
  norm_num [add_assoc]

theorem threeRows_medae (a b c a' b' c' : ℝ) : metricCall .medae .feature .id none .raw (threeRows a b c) (threeRows a' b' c') =
    .ok [[median [|a - a'|, |b - b'|, |c - c'|]]] := by
  unfold metricCall
  rw [threeRows_pair]
  simp [metricBlocks, withWeights, blockMetric, colMetric, scaleRow, List.ofFn_succ]

theorem median_three {l : List ℝ} {x y z : ℝ} (hp : List.Perm l [x, y, z]) (h1 : x ≤ y) (h2 : y ≤ z) : median l = y := by
  classical
  have hs : l.mergeSort (fun a b => decide (a ≤ b)) = [x, y, z] := by
    refine List.Perm.eq_of_pairwise (le := (· ≤ ·)) (fun a b _ _ h1 h2 => le_antisymm h1 h2) ?_ ?_ ((List.mergeSort_perm l _).trans hp)
    · have := List.pairwise_mergeSort (le := fun a b : ℝ => decide (a ≤ b)) (fun a b c h1 h2 => by simp only [decide_eq_true_eq] at *; exact h1.trans h2)
        (fun a b => by simp only [Bool.or_eq_true, decide_eq_true_eq]; exact le_total a b) l
      simpa using this
    · simp [h1, h2, h1.trans h2]
  unfold median
  simp [hs]

/-- **C244 (violated).** The mean squared error has no triangle inequality. -/
theorem C244_squares_violated : ∃ (x y z : List (Row Int (Fin 1 → ℝ))) (A B C : List (List ℝ)), metricCall .mse .feature .id none .raw x y = .ok A ∧
    metricCall .mse .feature .id none .raw y z = .ok B ∧ metricCall .mse .feature .id none .raw x z = .ok C ∧ ¬ AtMostSum C A B := by
  refine ⟨threeRows 0 0 0, threeRows 1 1 1, threeRows 2 2 2, _, _, _, threeRows_mse .., threeRows_mse .., threeRows_mse .., ?_⟩
  intro h
  cases h with
  | cons h _ =>
    cases h with
    | cons h _ => norm_num at h

/-- **C244 (violated).** Nor has the median absolute error: two errors in single, different samples are not seen, but together they are. -/
theorem C244_median_violated : ∃ (x y z : List (Row Int (Fin 1 → ℝ))) (A B C : List (List ℝ)), metricCall .medae .feature .id none .raw x y = .ok A ∧
    metricCall .medae .feature .id none .raw y z = .ok B ∧ metricCall .medae .feature .id none .raw x z = .ok C ∧ ¬ AtMostSum C A B := by
  refine ⟨threeRows 0 0 0, threeRows 1 0 0, threeRows 1 1 0, _, _, _, threeRows_medae .., threeRows_medae .., threeRows_medae .., ?_⟩
  intro h
  cases h with
  | cons h _ =>
    cases h with
    | cons h _ =>
      norm_num at h
      rw [median_three (x := 0) (y := 1) (z := 1) (by
          have : List.Perm ([1] ++ [1] ++ [0] : List ℝ) ([0] ++ ([1] ++ [1])) := List.perm_append_comm
          simpa using this) (by norm_num) le_rfl,
        median_three (x := 0) (y := 0) (z := 1) (by
          have : List.Perm ([1] ++ [0, 0] : List ℝ) ([0, 0] ++ [1]) := List.perm_append_comm
          simpa using this) le_rfl (by norm_num),
        median_three (x := 0) (y := 0) (z := 1) (List.Perm.cons _ (List.Perm.swap _ _ _)) le_rfl (by norm_num)] at h
      norm_num at h

/-- **C244 (violated).** With a scaling, which is learned from the first collection only, the error is not symmetric. -/
theorem C244_scaled_violated : ∃ y z : List (Row Int (Fin 1 → ℝ)), metricCall .mae .feature .minMax none .raw y z ≠ metricCall .mae .feature .minMax none .raw z y := by
  refine ⟨threeRows 0 1 1, threeRows 0 2 2, ?_⟩
  unfold metricCall
  rw [threeRows_pair, threeRows_pair]
  simp [metricBlocks, withWeights, blockMetric, colMetric, wAverage, scaleRow, threeRows, listMin, listMax, noZero, List.ofFn_succ]
  norm_num

/-- **C244 (violated).** The percentage error is relative to the first collection and not symmetric. -/
theorem C244_relative_violated : ∃ y z : List (Row Int (Fin 1 → ℝ)), metricCall .mape .feature .id none .raw y z ≠ metricCall .mape .feature .id none .raw z y := by
  refine ⟨threeRows 1 1 1, threeRows 2 2 2, ?_⟩
  have e1 : max (1 : ℝ) mapeEps = 1 := max_eq_left (by unfold mapeEps; norm_num)
  have e2 : max (2 : ℝ) mapeEps = 2 := max_eq_left (by unfold mapeEps; norm_num)
  unfold metricCall
  rw [threeRows_pair, threeRows_pair]
  simp [metricBlocks, withWeights, blockMetric, colMetric, wAverage, scaleRow, threeRows, e1, e2, List.ofFn_succ]
  norm_num

/-- Non-vacuity of the triangle inequality and of the theorem about scores: the errors are computed and the inequality is strict. -/
example : metricCall .mae .feature .id none .raw (threeRows 0 0 0) (threeRows 3 0 0) = .ok [[1]] ∧
    metricCall .mae .feature .id none .raw (threeRows 3 0 0) (threeRows 1 0 3) = .ok [[5 / 3]] ∧
    metricCall .mae .feature .id none .raw (threeRows 0 0 0) (threeRows 1 0 3) = .ok [[4 / 3]] ∧
    scoreCall .mae .feature .id none .raw false (threeRows 0 0 0) (threeRows 3 0 0) = .ok (-1) := by
  refine ⟨?_, ?_, ?_, ?_⟩
  · rw [threeRows_mae]; norm_num
  · rw [threeRows_mae]; norm_num
  · rw [threeRows_mae]; norm_num
  · unfold scoreCall
    rw [threeRows_mae]
    norm_num [meanList]

end Verif.Tsc
