import Verif.Tsc.MetricProps
import Verif.Tsc.MapVal
import Mathlib.Tactic.Ring
/-!
# C241: metrics and the units of the features

A change of units replaces every value `x` of feature `j` by `a j * x + b j` in both collections.
-/

namespace Verif.Tsc

open Verif.Np

variable {τ : Type} [LinearOrder τ] {d : Nat}

/-! ## Specification -/

/-- A row in other units: factor `a j` and offset `b j` for feature `j`. -/
def inUnits (a b : Fin d → ℝ) (x : Fin d → ℝ) : Fin d → ℝ := fun j => a j * x j + b j

/-- Every feature takes two different values in the collection. -/
def Varies (c : List (Row τ (Fin d → ℝ))) : Prop := ∀ j, ∃ r ∈ c, ∃ r' ∈ c, r.val j ≠ r'.val j

/-- The power of the unit in which a metric is measured. -/
def unitPower : Metric → Option Nat
  | .rmse | .mae | .medae | .max | .l2 | .linf => some 1
  | .mse => some 2
  | .rrmse | .mape => none

/-! ## Helper lemmas -/

/-- Both sides of a sample in other units. -/
def Sample.trans (G : (Fin d → ℝ) → (Fin d → ℝ)) (s : Sample d) : Sample d := ⟨s.w, G s.y, G s.p⟩

/-- What is computed on one block. -/
noncomputable def blockEval (m : Metric) (w : Option (List ℝ)) (mo : MultiOutput d) (G : (Fin d → ℝ) → (Fin d → ℝ))
    (b : List (Row τ ((Fin d → ℝ) × (Fin d → ℝ)))) : Except MetricErr (List ℝ) :=
  match withWeights w (b.map (·.val)) with
  | .error e => .error e
  | .ok samples => blockMetric m w.isSome mo (samples.map (Sample.trans G))

theorem withWeights_trans (w : Option (List ℝ)) (G : (Fin d → ℝ) → (Fin d → ℝ)) (rows : List ((Fin d → ℝ) × (Fin d → ℝ))) :
    withWeights w (rows.map (fun r => (G r.1, G r.2))) = (withWeights w rows).map (List.map (Sample.trans G)) := by
  cases w with
  | none => simp only [withWeights, Except.map, List.map_map]; rfl
  | some w =>
    simp only [withWeights, List.length_map]
    by_cases h : w.length = rows.length
    · rw [if_pos h, if_pos h]
      simp only [Except.map, List.zipWith_map_right, List.map_zipWith]
      rfl
    · rw [if_neg h, if_neg h]; rfl

theorem metricBlocks_mapVal {V W : Type} (mode : MetricMode) (f : V → W) (c : List (Row τ V)) :
    metricBlocks mode (mapVal f c) = (metricBlocks mode c).map (mapVal f) := by
  cases mode with
  | timeseries =>
    simp only [metricBlocks, mapVal_ids', List.map_map]
    refine List.map_congr_left fun i _ => ?_
    simp only [mapVal, List.filter_map, Function.comp_apply]
    rfl
  | timestep =>
    simp only [metricBlocks, mapVal_timeValues, List.map_map]
    refine List.map_congr_left fun i _ => ?_
    simp only [mapVal, List.filter_map, Function.comp_apply]
    rfl
  | feature => rfl

theorem pairRows_mapVal (F : (Fin d → ℝ) → (Fin d → ℝ)) (yt yp : List (Row τ (Fin d → ℝ))) :
    pairRows (mapVal F yt) (mapVal F yp) = (pairRows yt yp).map (mapVal (fun v => (F v.1, F v.2))) := by
  unfold pairRows
  rw [mapVal_keys, mapVal_keys]
  by_cases h : yt.map (·.key) = yp.map (·.key)
  · rw [if_pos h, if_pos h]
    simp only [Except.map, mapVal, List.zipWith_map, List.map_zipWith]
  · rw [if_neg h, if_neg h]; rfl

/-- The whole call in terms of its blocks. -/
noncomputable def callOn (m : Metric) (mode : MetricMode) (w : Option (List ℝ)) (mo : MultiOutput d) (G : (Fin d → ℝ) → (Fin d → ℝ))
    (sc : (Fin d → ℝ) → (Fin d → ℝ)) (yt yp : List (Row τ (Fin d → ℝ))) : Except MetricErr (List (List ℝ)) :=
  match pairRows yt yp with
  | .error e => .error e
  | .ok rows =>
    if mode ≠ .feature ∧ w.isSome = true ∧ isEqualLength yt = false then .error .sameLength
    else (metricBlocks mode (mapVal (fun v => (sc v.1, sc v.2)) rows)).mapM (blockEval m w (if mode = .feature then MultiOutput.raw else mo) G)

theorem metricCall_units (m : Metric) (mode : MetricMode) (s : MetricScaling) (w : Option (List ℝ)) (mo : MultiOutput d)
    (F G : (Fin d → ℝ) → (Fin d → ℝ)) (yt yp : List (Row τ (Fin d → ℝ)))
    (h : ∀ x, scaleRow s ((mapVal F yt).map (·.val)) (F x) = G (scaleRow s (yt.map (·.val)) x)) :
    metricCall m mode s w mo (mapVal F yt) (mapVal F yp) = callOn m mode w mo G (scaleRow s (yt.map (·.val))) yt yp := by
  unfold metricCall callOn
  rw [pairRows_mapVal]
  have heq : isEqualLength (mapVal F yt) = isEqualLength yt := by
    unfold isEqualLength; rw [mapVal_nTimesteps]
  cases hp : pairRows yt yp with
  | error e => rfl
  | ok rows =>
    simp only [Except.map, heq]
    by_cases hc : mode ≠ .feature ∧ w.isSome = true ∧ isEqualLength yt = false
    · rw [if_pos hc, if_pos hc]
    rw [if_neg hc, if_neg hc]
    set sc := scaleRow s (yt.map (·.val)) with hsc
    have hr : (mapVal (fun v : (Fin d → ℝ) × (Fin d → ℝ) => (F v.1, F v.2)) rows).map
        (fun r => (⟨r.id, r.time, (scaleRow s ((mapVal F yt).map (·.val)) r.val.1, scaleRow s ((mapVal F yt).map (·.val)) r.val.2)⟩ :
          Row τ ((Fin d → ℝ) × (Fin d → ℝ))))
        = mapVal (fun v => (G v.1, G v.2)) (mapVal (fun v => (sc v.1, sc v.2)) rows) := by
      unfold mapVal
      simp only [List.map_map]
      refine List.map_congr_left fun r _ => ?_
      have h1 := h r.val.1
      have h2 := h r.val.2
      unfold mapVal at h1 h2
      simp only [List.map_map] at h1 h2
      simp only [Function.comp_apply, h1, h2]
    rw [hr, metricBlocks_mapVal, List.mapM_map]
    congr 1
    funext b
    simp only [Function.comp_apply, blockEval]
    rw [mapVal_vals, withWeights_trans w G (b.map (·.val))]
    cases withWeights w (b.map (·.val)) <;> rfl

theorem trans_id (l : List (Sample d)) : l.map (Sample.trans (fun x => x)) = l := by
  have : (Sample.trans (fun x => x) : Sample d → Sample d) = id := rfl
  rw [this, List.map_id]

theorem metricCall_self (m : Metric) (mode : MetricMode) (s : MetricScaling) (w : Option (List ℝ)) (mo : MultiOutput d) (yt yp : List (Row τ (Fin d → ℝ))) :
    metricCall m mode s w mo yt yp = callOn m mode w mo (fun x => x) (scaleRow s (yt.map (·.val))) yt yp := by
  have h := metricCall_units m mode s w mo (fun x => x) (fun x => x) yt yp
  have hm : ∀ c : List (Row τ (Fin d → ℝ)), mapVal (fun x => x) c = c := fun c => by simp [mapVal]
  rw [hm, hm] at h
  exact h fun x => rfl

theorem mapM_except_map {α β ε : Type} (f g : α → Except ε β) (φ : β → β) (h : ∀ a, g a = (f a).map φ) (l : List α) :
    l.mapM g = (l.mapM f).map (List.map φ) := by
  induction l with
  | nil => rfl
  | cons a l ih =>
    rw [List.mapM_cons, List.mapM_cons, ih, h a]
    cases f a with
    | error e => rfl
    | ok x => cases l.mapM f <;> rfl

/-! ### Sums, means and maxima -/

theorem sum_map_mul_left' {α : Type} (l : List α) (f : α → ℝ) (a : ℝ) : (l.map (fun x => a * f x)).sum = a * (l.map f).sum := by
  induction l with
  | nil => simp
  | cons x l ih => simp only [List.map_cons, List.sum_cons, ih]; ring

theorem wAverage_scale {α : Type} (l : List α) (w f : α → ℝ) (a : ℝ) : wAverage (l.map (fun x => (w x, a * f x))) = a * wAverage (l.map (fun x => (w x, f x))) := by
  simp only [wAverage, List.map_map, Function.comp_def]
  have : (fun x => w x * (a * f x)) = (fun x => a * (w x * f x)) := by funext x; ring
  rw [this, sum_map_mul_left', mul_div_assoc]

theorem meanList_scale {α : Type} (l : List α) (f : α → ℝ) (a : ℝ) : meanList (l.map (fun x => a * f x)) = a * meanList (l.map f) := by
  simp only [meanList, sum_map_mul_left', List.length_map, mul_div_assoc]

theorem maxList_scale {α : Type} (l : List α) (f : α → ℝ) (a : ℝ) (ha : 0 ≤ a) : maxList (l.map (fun x => a * f x)) = a * maxList (l.map f) := by
  induction l with
  | nil => simp [maxList]
  | cons x l ih =>
    simp only [maxList, List.map_cons, List.foldr_cons] at ih ⊢
    rw [ih, mul_max_of_nonneg _ _ ha]

theorem getD_map_scale (l : List ℝ) (a : ℝ) (n : Nat) : (l.map (fun x => a * x)).getD n 0 = a * l.getD n 0 := by
  simp only [List.getD_eq_getElem?_getD, List.getElem?_map]
  cases l[n]? <;> simp

theorem median_scale (l : List ℝ) (a : ℝ) (ha : 0 < a) : median (l.map (fun x => a * x)) = a * median l := by
  classical
  unfold median
  have h : (l.map (fun x => a * x)).mergeSort (fun x y => decide (x ≤ y)) = (l.mergeSort (fun x y => decide (x ≤ y))).map (fun x => a * x) := by
    refine (List.map_mergeSort fun x _ y _ => ?_).symm
    simp only [decide_eq_decide]
    exact (mul_le_mul_iff_right₀ ha).symm
  simp only [h, List.length_map, getD_map_scale]
  split
  · rfl
  · ring

theorem trans_diff (a b : Fin d → ℝ) (s : Sample d) (j : Fin d) :
    (s.trans (inUnits a b)).y j - (s.trans (inUnits a b)).p j = a j * (s.y j - s.p j) := by
  simp only [Sample.trans, inUnits]; ring

theorem mseCol_units (a b : Fin d → ℝ) (l : List (Sample d)) (j : Fin d) : mseCol (l.map (Sample.trans (inUnits a b))) j = a j ^ 2 * mseCol l j := by
  have h : (fun s : Sample d => ((s.trans (inUnits a b)).w, ((s.trans (inUnits a b)).y j - (s.trans (inUnits a b)).p j) ^ 2))
      = fun s => (s.w, a j ^ 2 * (s.y j - s.p j) ^ 2) := by
    funext s; rw [trans_diff, mul_pow]; rfl
  simp only [mseCol, List.map_map, Function.comp_def, h]
  exact wAverage_scale l (fun s : Sample d => s.w) (fun s => (s.y j - s.p j) ^ 2) _

theorem colMetric_units (m : Metric) (k : Nat) (hm : unitPower m = some k) (a b : Fin d → ℝ) (ha : ∀ j, 0 < a j) (l : List (Sample d)) (j : Fin d) :
    colMetric m (l.map (Sample.trans (inUnits a b))) j = a j ^ k * colMetric m l j := by
  have hd : ∀ s : Sample d, |(s.trans (inUnits a b)).y j - (s.trans (inUnits a b)).p j| = a j * |s.y j - s.p j| := by
    intro s; rw [trans_diff, abs_mul, abs_of_pos (ha j)]
  cases m <;> simp only [unitPower, Option.some.injEq, reduceCtorEq] at hm
  all_goals subst hm
  all_goals simp only [colMetric, pow_one]
  · rw [mseCol_units, Real.sqrt_mul (sq_nonneg _), Real.sqrt_sq (ha j).le]
  · exact mseCol_units a b l j
  · simp only [List.map_map, Function.comp_def, hd]
    exact wAverage_scale l (fun s : Sample d => s.w) (fun s => |s.y j - s.p j|) _
  · simp only [List.map_map, Function.comp_def, hd]
    have := median_scale (l.map (fun s => |s.y j - s.p j|)) (a j) (ha j)
    simpa only [List.map_map, Function.comp_def] using this
  · simp only [List.map_map, Function.comp_def, hd]
    exact maxList_scale l (fun s : Sample d => |s.y j - s.p j|) _ (ha j).le
  · have h : (fun s : Sample d => ((s.trans (inUnits a b)).w * ((s.trans (inUnits a b)).y j - (s.trans (inUnits a b)).p j)) ^ 2)
        = fun s => a j ^ 2 * (s.w * (s.y j - s.p j)) ^ 2 := by
      funext s; rw [trans_diff]; simp only [Sample.trans]; ring
    simp only [List.map_map, Function.comp_def, h]
    rw [sum_map_mul_left', Real.sqrt_mul (sq_nonneg _), Real.sqrt_sq (ha j).le]
  · have h : (fun s : Sample d => |(s.trans (inUnits a b)).w * ((s.trans (inUnits a b)).y j - (s.trans (inUnits a b)).p j)|)
        = fun s => a j * |s.w * (s.y j - s.p j)| := by
      funext s; rw [trans_diff]; simp only [Sample.trans]
      rw [mul_left_comm, abs_mul, abs_of_pos (ha j)]
    simp only [List.map_map, Function.comp_def, h]
    exact maxList_scale l (fun s : Sample d => |s.w * (s.y j - s.p j)|) _ (ha j).le

theorem ofFn_scale (f : Fin d → ℝ) (a : ℝ) : List.ofFn (fun j => a * f j) = (List.ofFn f).map (fun x => a * x) := by
  rw [List.map_ofFn]; rfl

theorem meanList_ofFn_scale (f : Fin d → ℝ) (a : ℝ) : meanList (List.ofFn (fun j => a * f j)) = a * meanList (List.ofFn f) := by
  rw [ofFn_scale]
  have := meanList_scale (List.ofFn f) (fun x => x) a
  rwa [List.map_id'] at this

theorem wAverage_ofFn_scale (w f : Fin d → ℝ) (a : ℝ) : wAverage (List.ofFn (fun j => (w j, a * f j))) = a * wAverage (List.ofFn (fun j => (w j, f j))) := by
  have h1 : List.ofFn (fun j => (w j, a * f j)) = (List.finRange d).map (fun j => (w j, a * f j)) := by rw [List.ofFn_eq_map]
  have h2 : List.ofFn (fun j => (w j, f j)) = (List.finRange d).map (fun j => (w j, f j)) := by rw [List.ofFn_eq_map]
  rw [h1, h2]
  exact wAverage_scale _ w f a

theorem blockMetric_units (m : Metric) (k : Nat) (hm : unitPower m = some k) (weighted : Bool) (mo : MultiOutput d) (a : ℝ) (ha : 0 < a) (b : Fin d → ℝ)
    (l : List (Sample d)) :
    blockMetric m weighted mo (l.map (Sample.trans (inUnits (fun _ => a) b))) = (blockMetric m weighted mo l).map (List.map (fun x => a ^ k * x)) := by
  have hc : ∀ m' : Metric, unitPower m' = some k → colMetric m' (l.map (Sample.trans (inUnits (fun _ => a) b))) = fun j => a ^ k * colMetric m' l j := by
    intro m' hm'; funext j; exact colMetric_units m' k hm' (fun _ => a) b (fun _ => ha) l j
  have h3 := hc m hm
  cases m <;> simp only [unitPower, Option.some.injEq, reduceCtorEq] at hm
  all_goals cases mo <;> simp only [blockMetric, h3, meanList_ofFn_scale, wAverage_ofFn_scale]
  all_goals try rw [ofFn_scale]
  all_goals repeat' split
  all_goals rfl

/-! ### Learned scalings -/

theorem foldr_max_affine (l : List ℝ) (x a b : ℝ) (ha : 0 ≤ a) : (l.map (fun y => a * y + b)).foldr max (a * x + b) = a * l.foldr max x + b := by
  induction l with
  | nil => rfl
  | cons y l ih => rw [List.map_cons, List.foldr_cons, List.foldr_cons, ih, mul_max_of_nonneg _ _ ha, max_add_add_right]

theorem foldr_min_affine (l : List ℝ) (x a b : ℝ) (ha : 0 ≤ a) : (l.map (fun y => a * y + b)).foldr min (a * x + b) = a * l.foldr min x + b := by
  induction l with
  | nil => rfl
  | cons y l ih => rw [List.map_cons, List.foldr_cons, List.foldr_cons, ih, mul_min_of_nonneg _ _ ha, min_add_add_right]

theorem listMax_affine (l : List ℝ) (hl : l ≠ []) (a b : ℝ) (ha : 0 ≤ a) : listMax (l.map (fun y => a * y + b)) = a * listMax l + b := by
  cases l with
  | nil => exact absurd rfl hl
  | cons x l => exact foldr_max_affine l x a b ha

theorem listMin_affine (l : List ℝ) (hl : l ≠ []) (a b : ℝ) (ha : 0 ≤ a) : listMin (l.map (fun y => a * y + b)) = a * listMin l + b := by
  cases l with
  | nil => exact absurd rfl hl
  | cons x l => exact foldr_min_affine l x a b ha

theorem le_foldr_max (l : List ℝ) (x : ℝ) : x ≤ l.foldr max x ∧ ∀ y ∈ l, y ≤ l.foldr max x := by
  induction l with
  | nil => simp
  | cons z l ih =>
    simp only [List.foldr_cons, List.mem_cons, le_max_iff, forall_eq_or_imp, le_refl, true_or, true_and]
    exact ⟨Or.inr ih.1, fun y hy => Or.inr (ih.2 y hy)⟩

theorem foldr_min_le (l : List ℝ) (x : ℝ) : l.foldr min x ≤ x ∧ ∀ y ∈ l, l.foldr min x ≤ y := by
  induction l with
  | nil => simp
  | cons z l ih =>
    simp only [List.foldr_cons, List.mem_cons, min_le_iff, forall_eq_or_imp, le_refl, true_or, true_and]
    exact ⟨Or.inr ih.1, fun y hy => Or.inr (ih.2 y hy)⟩

theorem le_listMax (l : List ℝ) (y : ℝ) (hy : y ∈ l) : y ≤ listMax l := by
  cases l with
  | nil => cases hy
  | cons x l =>
    rcases List.mem_cons.1 hy with rfl | hy
    · exact (le_foldr_max l y).1
    · exact (le_foldr_max l x).2 y hy

theorem listMin_le (l : List ℝ) (y : ℝ) (hy : y ∈ l) : listMin l ≤ y := by
  cases l with
  | nil => cases hy
  | cons x l =>
    rcases List.mem_cons.1 hy with rfl | hy
    · exact (foldr_min_le l y).1
    · exact (foldr_min_le l x).2 y hy

theorem spread_pos (l : List ℝ) (x y : ℝ) (hx : x ∈ l) (hy : y ∈ l) (hne : x ≠ y) : 0 < listMax l - listMin l := by
  have h1 := le_listMax l x hx
  have h2 := le_listMax l y hy
  have h3 := listMin_le l x hx
  have h4 := listMin_le l y hy
  rcases lt_or_gt_of_ne hne with h | h <;> linarith

theorem meanList_affine (l : List ℝ) (hl : l ≠ []) (a b : ℝ) : meanList (l.map (fun y => a * y + b)) = a * meanList l + b := by
  have h : ∀ l : List ℝ, (l.map (fun y => a * y + b)).sum = a * l.sum + l.length * b := by
    intro l
    induction l with
    | nil => simp
    | cons x l ih => simp only [List.map_cons, List.sum_cons, ih, List.length_cons, Nat.cast_add, Nat.cast_one]; ring
  have hpos : (l.length : ℝ) ≠ 0 := by simpa using hl
  simp only [meanList, h, List.length_map]
  field_simp

theorem variance_pos (l : List ℝ) (x y c : ℝ) (hx : x ∈ l) (hy : y ∈ l) (hne : x ≠ y) : 0 < meanList (l.map (fun z => (z - c) ^ 2)) := by
  have h := meanList_errorOf (l.map (fun z => (z - c) ^ 2)) (by
    intro z hz
    obtain ⟨u, -, rfl⟩ := List.mem_map.1 hz
    exact sq_nonneg _)
  refine lt_of_le_of_ne h.1 fun h0 => hne ?_
  have h1 := h.2.1 h0.symm
  have hx' := h1 _ (List.mem_map.2 ⟨x, hx, rfl⟩)
  have hy' := h1 _ (List.mem_map.2 ⟨y, hy, rfl⟩)
  have := pow_eq_zero_iff (n := 2) (by norm_num) |>.1 hx'
  have := pow_eq_zero_iff (n := 2) (by norm_num) |>.1 hy'
  linarith

theorem noZero_of_ne (x : ℝ) (h : x ≠ 0) : noZero x = x := if_neg h

omit [LinearOrder τ] in
theorem scaleRow_units (s : MetricScaling) (hs : s = .minMax ∨ s = .standard) (a b : Fin d → ℝ) (ha : ∀ j, 0 < a j) (c : List (Row τ (Fin d → ℝ)))
    (hc : Varies c) (x : Fin d → ℝ) :
    scaleRow s ((mapVal (inUnits a b) c).map (·.val)) (inUnits a b x) = scaleRow s (c.map (·.val)) x := by
  funext j
  obtain ⟨r, hr, r', hr', hne⟩ := hc j
  set l := (c.map (·.val)).map (· j) with hl
  have hm1 : r.val j ∈ l := List.mem_map.2 ⟨r.val, List.mem_map.2 ⟨r, hr, rfl⟩, rfl⟩
  have hm2 : r'.val j ∈ l := List.mem_map.2 ⟨r'.val, List.mem_map.2 ⟨r', hr', rfl⟩, rfl⟩
  have hl0 : l ≠ [] := List.ne_nil_of_mem hm1
  have hcol : ((mapVal (inUnits a b) c).map (·.val)).map (· j) = l.map (fun y => a j * y + b j) := by
    rw [hl, mapVal_vals]; simp only [List.map_map]; rfl
  have haj := (ha j).ne'
  rcases hs with rfl | rfl
  · simp only [scaleRow]
    rw [hcol, listMax_affine l hl0 _ _ (ha j).le, listMin_affine l hl0 _ _ (ha j).le]
    have hp := spread_pos l _ _ hm1 hm2 hne
    have e1 : a j * listMax l + b j - (a j * listMin l + b j) = a j * (listMax l - listMin l) := by ring
    rw [e1, noZero_of_ne _ (mul_pos (ha j) hp).ne', noZero_of_ne _ hp.ne', inUnits]
    have e2 : a j * x j + b j - (a j * listMin l + b j) = a j * (x j - listMin l) := by ring
    rw [e2, mul_div_mul_left _ _ haj]
  · simp only [scaleRow]
    have hsq : ∀ (μ : ℝ) (ys : List (Fin d → ℝ)), ys.map (fun y => (y j - μ) ^ 2) = (ys.map (· j)).map (fun z => (z - μ) ^ 2) := by
      intro μ ys; simp only [List.map_map]; rfl
    rw [hsq, hsq, hcol, meanList_affine l hl0]
    set μ := meanList l
    have e1 : (l.map (fun y => a j * y + b j)).map (fun z => (z - (a j * μ + b j)) ^ 2) = l.map (fun z => a j ^ 2 * (z - μ) ^ 2) := by
      simp only [List.map_map]
      refine List.map_congr_left fun z _ => ?_
      simp only [Function.comp_apply]; ring
    rw [e1, meanList_scale, Real.sqrt_mul (sq_nonneg _), Real.sqrt_sq (ha j).le]
    have hp := Real.sqrt_pos.2 (variance_pos l _ _ μ hm1 hm2 hne)
    rw [noZero_of_ne _ (mul_pos (ha j) hp).ne', noZero_of_ne _ hp.ne', inUnits]
    have e2 : a j * x j + b j - (a j * μ + b j) = a j * (x j - μ) := by ring
    rw [e2, mul_div_mul_left _ _ haj]

/-! ### `rrmse` -/

theorem rrmseNorm_units (a : ℝ) (l : List (Sample d)) (j : Fin d) : rrmseNorm (l.map (Sample.trans (inUnits (fun _ => a) 0))) j = a ^ 2 * rrmseNorm l j := by
  have h : (fun s : Sample d => (s.trans (inUnits (fun _ => a) 0)).y j ^ 2) = fun s => a ^ 2 * s.y j ^ 2 := by
    funext s; simp only [Sample.trans, inUnits, Pi.zero_apply]; ring
  simp only [rrmseNorm, List.map_map, Function.comp_def, h, sum_map_mul_left']

theorem rrmse_units (mo : MultiOutput d) (a : ℝ) (ha : 0 < a) (l : List (Sample d)) (v v' : List ℝ) (h : rrmseMetric mo l = .ok v)
    (h' : rrmseMetric mo (l.map (Sample.trans (inUnits (fun _ => a) 0))) = .ok v') : v' = v := by
  have hn : rrmseNorm (l.map (Sample.trans (inUnits (fun _ => a) 0))) = fun j => a ^ 2 * rrmseNorm l j := funext (rrmseNorm_units a l)
  have he : mseCol (l.map (Sample.trans (inUnits (fun _ => a) 0))) = fun j => a ^ 2 * mseCol l j := funext (mseCol_units (fun _ => a) 0 l)
  have ha2 : a ^ 2 ≠ 0 := (pow_pos ha 2).ne'
  unfold rrmseMetric at h h'
  rw [hn, he] at h'
  cases mo with
  | raw =>
    simp only [mul_div_mul_left _ _ ha2] at h h'
    split at h
    · cases h
    split at h'
    · cases h'
    cases h; cases h'; rfl
  | uniform =>
    have hs : (List.ofFn (fun j => a ^ 2 * rrmseNorm l j)).sum = a ^ 2 * (List.ofFn (rrmseNorm l)).sum := by
      rw [ofFn_scale]
      have := sum_map_mul_left' (List.ofFn (rrmseNorm l)) (fun x => x) (a ^ 2)
      rwa [List.map_id'] at this
    simp only [meanList_ofFn_scale, hs, mul_div_mul_left _ _ ha2] at h h'
    split at h
    · cases h
    split at h'
    · cases h'
    cases h; cases h'; rfl
  | weights w =>
    simp only [wAverage_ofFn_scale, mul_div_mul_left _ _ ha2] at h h'
    split at h
    · cases h
    split at h
    · cases h
    split at h'
    · cases h'
    cases h; cases h'; rfl

/-! ## The theorems -/

/-- **C241 (learned scaling; partial).** With the scalings `min-max` and `standard`, every metric, mode, kind of output and weights: the result (values or refusal) is the
same in all units (positive factors and offsets for every feature), if every feature varies in the true values. Missing: constant features
(`C241_constant_violated`). -/
theorem C241_scaled_partial (m : Metric) (mode : MetricMode) (s : MetricScaling) (hs : s = .minMax ∨ s = .standard) (w : Option (List ℝ)) (mo : MultiOutput d)
    (a b : Fin d → ℝ) (ha : ∀ j, 0 < a j) (yt yp : List (Row τ (Fin d → ℝ))) (hv : Varies yt) :
    metricCall m mode s w mo (mapVal (inUnits a b) yt) (mapVal (inUnits a b) yp) = metricCall m mode s w mo yt yp := by
  rw [metricCall_units m mode s w mo (inUnits a b) (fun x => x) yt yp (scaleRow_units s hs a b ha yt hv), ← metricCall_self]

/-- **C241 (absolute metrics).** Without scaling, when all features change to a unit with the common factor `a` (and any offsets), every value of `rmse`, `mae`, `medae`,
`max`, `l2` and `linf` is multiplied by `a`, and every value of `mse` by `a²`; what was refused is refused for the same reason. -/
theorem C241_plain (m : Metric) (k : Nat) (hm : unitPower m = some k) (mode : MetricMode) (w : Option (List ℝ)) (mo : MultiOutput d)
    (a : ℝ) (ha : 0 < a) (b : Fin d → ℝ) (yt yp : List (Row τ (Fin d → ℝ))) :
    metricCall m mode .id w mo (mapVal (inUnits (fun _ => a) b) yt) (mapVal (inUnits (fun _ => a) b) yp)
      = (metricCall m mode .id w mo yt yp).map (List.map (List.map (fun x => a ^ k * x))) := by
  rw [metricCall_units m mode .id w mo (inUnits (fun _ => a) b) (inUnits (fun _ => a) b) yt yp (fun x => rfl), metricCall_self m mode .id w mo yt yp]
  unfold callOn
  cases pairRows yt yp with
  | error e => rfl
  | ok rows =>
    simp only
    split
    · rfl
    · refine mapM_except_map _ _ _ (fun bl => ?_) _
      unfold blockEval
      cases withWeights w (bl.map (·.val)) with
      | error e => rfl
      | ok samples => simp only [trans_id]; exact blockMetric_units m k hm _ _ a ha b samples

/-- **C241 (relative error; partial).** `rrmse` has the same values in all units (common factor) in which it is returned. Missing: it is refused in units in which
the values are small (`C241_refused_violated`). -/
theorem C241_relative_partial (mode : MetricMode) (w : Option (List ℝ)) (mo : MultiOutput d) (a : ℝ) (ha : 0 < a) (yt yp : List (Row τ (Fin d → ℝ)))
    (v v' : List (List ℝ)) (h : metricCall .rrmse mode .id w mo yt yp = .ok v)
    (h' : metricCall .rrmse mode .id w mo (mapVal (inUnits (fun _ => a) 0) yt) (mapVal (inUnits (fun _ => a) 0) yp) = .ok v') : v' = v := by
  rw [metricCall_units .rrmse mode .id w mo (inUnits (fun _ => a) 0) (inUnits (fun _ => a) 0) yt yp (fun x => rfl)] at h'
  rw [metricCall_self .rrmse mode .id w mo yt yp] at h
  unfold callOn at h h'
  cases hp : pairRows yt yp with
  | error e => rw [hp] at h; cases h
  | ok rows =>
    rw [hp] at h h'
    simp only at h h'
    split at h
    · cases h
    rename_i hc
    rw [if_neg hc] at h'
    obtain ⟨h1, h2⟩ := mapM_ok_get _ _ _ h
    obtain ⟨h1', h2'⟩ := mapM_ok_get _ _ _ h'
    refine List.ext_getElem? fun n => ?_
    set B := metricBlocks mode (mapVal (fun v => (scaleRow .id (yt.map (·.val)) v.1, scaleRow .id (yt.map (·.val)) v.2)) rows) with hB
    by_cases hn : n < B.length
    · obtain ⟨x, hx, hf⟩ := h2 n _ (List.getElem?_eq_getElem hn)
      obtain ⟨x', hx', hf'⟩ := h2' n _ (List.getElem?_eq_getElem hn)
      rw [hx, hx']
      unfold blockEval at hf hf'
      cases hw : withWeights w ((B[n]).map (·.val)) with
      | error e => rw [hw] at hf; cases hf
      | ok samples =>
        rw [hw] at hf hf'
        simp only [trans_id] at hf
        rw [rrmse_units _ a ha samples x x' hf hf']
    · rw [List.getElem?_eq_none (by omega), List.getElem?_eq_none (by omega)]

/-- **C241 (score; partial).** The score with learned scaling is the same in all units (every feature varies in the true values). -/
theorem C241_score_partial (m : Metric) (mode : MetricMode) (s : MetricScaling) (hs : s = .minMax ∨ s = .standard) (w : Option (List ℝ)) (mo : MultiOutput d)
    (g : Bool) (a b : Fin d → ℝ) (ha : ∀ j, 0 < a j) (yt yp : List (Row τ (Fin d → ℝ))) (hv : Varies yt) :
    scoreCall m mode s w mo g (mapVal (inUnits a b) yt) (mapVal (inUnits a b) yp) = scoreCall m mode s w mo g yt yp := by
  unfold scoreCall
  rw [C241_scaled_partial m mode s hs w mo a b ha yt yp hv]

/-- **C241 (score).** Without scaling the score is multiplied by the same power of the common factor; what was refused is refused for the same reason. So the order of
two predictions by their scores does not depend on the unit. -/
theorem C241_score_plain (m : Metric) (k : Nat) (hm : unitPower m = some k) (mode : MetricMode) (w : Option (List ℝ)) (mo : MultiOutput d) (g : Bool)
    (a : ℝ) (ha : 0 < a) (b : Fin d → ℝ) (yt yp : List (Row τ (Fin d → ℝ))) :
    scoreCall m mode .id w mo g (mapVal (inUnits (fun _ => a) b) yt) (mapVal (inUnits (fun _ => a) b) yp)
      = (scoreCall m mode .id w mo g yt yp).map (fun x => a ^ k * x) := by
  unfold scoreCall
  rw [C241_plain m k hm mode w mo a ha b yt yp]
  cases metricCall m mode .id w mo yt yp with
  | error e => rfl
  | ok vals =>
    simp only [Except.map]
    have h1 : (vals.map (List.map (fun x => a ^ k * x))).any (fun v => v.length != 1) = vals.any (fun v => v.length != 1) := by
      rw [List.any_map]
      congr 1
      funext v
      simp only [Function.comp_apply, List.length_map]
    have h2 : (if mode = .feature then (vals.map (List.map (fun x => a ^ k * x))).headD [] else (vals.map (List.map (fun x => a ^ k * x))).flatten)
        = (if mode = .feature then vals.headD [] else vals.flatten).map (fun x => a ^ k * x) := by
      split
      · cases vals <;> rfl
      · rw [List.map_flatten]
    have h3 : ∀ l : List ℝ, meanList (l.map (fun x => a ^ k * x)) = a ^ k * meanList l := by
      intro l
      have := meanList_scale l (fun x => x) (a ^ k)
      rwa [List.map_id'] at this
    rw [h1, h2, h3]
    by_cases hc : mode ≠ .feature ∧ vals.any (fun v => v.length != 1) = true
    · rw [if_pos hc, if_pos hc]
    · rw [if_neg hc, if_neg hc, mul_left_comm]

/-- One series with one feature. -/
noncomputable def unitTruth : List (Row Int (Fin 1 → ℝ)) := [⟨0, 0, fun _ => 1⟩]
/-- Its prediction. -/
noncomputable def unitPred : List (Row Int (Fin 1 → ℝ)) := [⟨0, 0, fun _ => 2⟩]

theorem units_pair (F : (Fin 1 → ℝ) → (Fin 1 → ℝ)) : pairRows (mapVal F unitTruth) (mapVal F unitPred) = .ok [⟨0, 0, (F fun _ => 1, F fun _ => 2)⟩] := by
  unfold pairRows unitTruth unitPred
  simp [Row.key]

theorem mapVal_one (c : List (Row Int (Fin 1 → ℝ))) : mapVal (inUnits (fun _ => (1 : ℝ)) 0) c = c := by
  have : (inUnits (fun _ => (1 : ℝ)) 0 : (Fin 1 → ℝ) → (Fin 1 → ℝ)) = id := by
    funext x j; simp [inUnits]
  rw [this]; simp [mapVal]

/-- **C241 (violated).** A feature that is constant in the true values is not scaled at all, so `mse` with the scaling `min-max` depends on its unit. -/
theorem C241_constant_violated : ∃ (a : Fin 1 → ℝ), (∀ j, 0 < a j) ∧
    metricCall .mse .feature .minMax none .raw (mapVal (inUnits a 0) unitTruth) (mapVal (inUnits a 0) unitPred)
      ≠ metricCall .mse .feature .minMax none .raw unitTruth unitPred := by
  refine ⟨fun _ => 10, fun _ => by norm_num, ?_⟩
  have key : ∀ x : ℝ, metricCall .mse .feature .minMax none .raw (mapVal (inUnits (fun _ => x) 0) unitTruth) (mapVal (inUnits (fun _ => x) 0) unitPred) = .ok [[x ^ 2]] := by
    intro x
    unfold metricCall
    rw [units_pair]
    simp [metricBlocks, withWeights, blockMetric, colMetric, mseCol, wAverage, scaleRow, unitTruth, mapVal, listMin, listMax, noZero, inUnits, List.ofFn_succ]
    ring
  have h1 := key 1
  rw [mapVal_one, mapVal_one] at h1
  rw [key 10, h1]
  intro h
  norm_num at h

/-- **C241 (violated).** The relative error of data is returned in one unit and refused in another. -/
theorem C241_refused_violated : ∃ (a : ℝ), 0 < a ∧ (∃ v, metricCall .rrmse .feature .id none .raw unitTruth unitPred = .ok v) ∧
    metricCall .rrmse .feature .id none .raw (mapVal (inUnits (fun _ => a) 0) unitTruth) (mapVal (inUnits (fun _ => a) 0) unitPred) = .error .smallNorm := by
  have key : ∀ x : ℝ, metricCall .rrmse .feature .id none .raw (mapVal (inUnits (fun _ => x) 0) unitTruth) (mapVal (inUnits (fun _ => x) 0) unitPred)
      = if x ^ 2 ≤ 1e-14 then .error .smallNorm else .ok [[Real.sqrt (x ^ 2 / x ^ 2)]] := by
    intro x
    unfold metricCall
    rw [units_pair]
    simp only [ne_eq, not_true_eq_false, false_and, if_false, metricBlocks, List.map_cons, List.map_nil, withWeights, scaleRow, blockMetric, rrmseMetric, if_true,
      Option.isSome_none, List.mapM_cons, List.mapM_nil, Fin.exists_fin_one, rrmseNorm, mseCol, wAverage, inUnits, List.ofFn_succ, List.ofFn_zero]
    have e : (x - x * 2) ^ 2 = x ^ 2 := by ring
    by_cases hx : x ^ 2 ≤ 1e-14
    · simp [hx]
    · simp [hx, e]
  refine ⟨1e-8, by norm_num, ?_, ?_⟩
  · have h1 := key 1
    rw [mapVal_one, mapVal_one, if_neg (by norm_num)] at h1
    exact ⟨_, h1⟩
  · rw [key, if_pos (by norm_num)]

/-- The hypotheses are met: a series whose feature varies. -/
example : Varies ([⟨0, 0, fun _ => 1⟩, ⟨0, 1, fun _ => 2⟩] : List (Row Int (Fin 1 → ℝ))) :=
  fun j => ⟨_, List.mem_cons_self, _, List.mem_cons_of_mem _ List.mem_cons_self, by norm_num⟩

end Verif.Tsc
