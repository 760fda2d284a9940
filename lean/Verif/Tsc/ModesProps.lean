import Verif.Tsc.UnitsProps
import Verif.Tsc.CollLemmas
import Mathlib.Algebra.BigOperators.Field
/-!
# C243: the modes of a score

`TSCScoring.__call__` (datafold/pcfold/timeseries/metric.py 533-575) averages the metric of every time series, every time step or every feature.
-/

namespace Verif.Tsc

open Verif.Np

variable {τ : Type} [LinearOrder τ] {d : Nat}

/-! ## Specification -/

/-- All time series have the same time values. -/
def SameTimes {V : Type} (c : List (Row τ V)) : Prop := ∀ i j, HasId c i → HasId c j → (series c i).map (·.time) = (series c j).map (·.time)

/-- Metrics that are means over the samples. -/
def IsMean (m : Metric) : Prop := m = .mse ∨ m = .mae ∨ m = .mape

/-! ## Helper lemmas -/

/-- The error of one sample in feature `j`. -/
noncomputable def sampleErr (m : Metric) (v : (Fin d → ℝ) × (Fin d → ℝ)) (j : Fin d) : ℝ :=
  match m with
  | .mae => |v.1 j - v.2 j|
  | .mape => |v.1 j - v.2 j| / Max.max |v.1 j| mapeEps
  | _ => (v.1 j - v.2 j) ^ 2

theorem wAverage_one {α : Type} (l : List α) (f : α → ℝ) : wAverage (l.map (fun x => ((1 : ℝ), f x))) = meanList (l.map f) := by
  simp only [wAverage, meanList, List.map_map, Function.comp_def, one_mul, List.length_map, List.map_const', List.sum_replicate, nsmul_eq_mul, mul_one]

theorem colMetric_mean (m : Metric) (hm : IsMean m) (l : List ((Fin d → ℝ) × (Fin d → ℝ))) (j : Fin d) :
    colMetric m (l.map (fun r => (⟨1, r.1, r.2⟩ : Sample d))) j = meanList (l.map (fun v => sampleErr m v j)) := by
  rcases hm with rfl | rfl | rfl <;>
  · simp only [colMetric, mseCol, List.map_map, Function.comp_def, sampleErr]
    exact wAverage_one l _

theorem mapM_ok_all {α β ε : Type} (f : α → Except ε β) (g : α → β) (h : ∀ a, f a = .ok (g a)) (l : List α) : l.mapM f = .ok (l.map g) := by
  induction l with
  | nil => rfl
  | cons a l ih => rw [List.mapM_cons, h a, ih]; rfl

/-- Mean over the features of the mean over the samples. -/
noncomputable def blockMean (m : Metric) (b : List (Row τ ((Fin d → ℝ) × (Fin d → ℝ)))) : ℝ :=
  meanList (List.ofFn (fun j => meanList (b.map (fun r => sampleErr m r.val j))))

omit [LinearOrder τ] in
theorem blockEval_mean (m : Metric) (hm : IsMean m) (b : List (Row τ ((Fin d → ℝ) × (Fin d → ℝ)))) :
    blockEval m none .uniform (fun x => x) b = .ok [blockMean m b] ∧
      blockEval m none .raw (fun x => x) b = .ok (List.ofFn (fun j => meanList (b.map (fun r => sampleErr m r.val j)))) := by
  have hc : colMetric m ((b.map (·.val)).map (fun r => (⟨1, r.1, r.2⟩ : Sample d))) = fun j => meanList (b.map (fun r => sampleErr m r.val j)) := by
    funext j
    rw [colMetric_mean m hm, List.map_map]; rfl
  unfold blockEval
  simp only [withWeights, trans_id]
  rcases hm with rfl | rfl | rfl <;> simp only [blockMetric, hc, blockMean, and_self]

/-- The score with averaged features, in all modes. -/
theorem scoreCall_mean (m : Metric) (hm : IsMean m) (mode : MetricMode) (s : MetricScaling) (g : Bool) (yt yp : List (Row τ (Fin d → ℝ))) :
    scoreCall m mode s none .uniform g yt yp = match pairRows yt yp with
      | .error e => .error e
      | .ok rows => .ok ((if g then 1 else -1) * (if mode = .feature then blockMean m (mapVal (fun v => (scaleRow s (yt.map (·.val)) v.1, scaleRow s (yt.map (·.val)) v.2)) rows)
          else meanList ((metricBlocks mode (mapVal (fun v => (scaleRow s (yt.map (·.val)) v.1, scaleRow s (yt.map (·.val)) v.2)) rows)).map (blockMean m)))) := by
  unfold scoreCall
  rw [metricCall_self]
  unfold callOn
  cases pairRows yt yp with
  | error e => rfl
  | ok rows =>
    simp only [Option.isSome_none, Bool.false_eq_true, false_and, and_false, if_false]
    set R := mapVal (fun v => (scaleRow s (yt.map (·.val)) v.1, scaleRow s (yt.map (·.val)) v.2)) rows
    by_cases hf : mode = .feature
    · subst hf
      simp only [if_true, metricBlocks]
      rw [mapM_ok_all _ _ (fun b => (blockEval_mean m hm b).2)]
      simp only [ne_eq, not_true_eq_false, false_and, if_false, List.map_cons, List.map_nil, List.headD_cons, blockMean]
    · simp only [if_neg hf]
      rw [mapM_ok_all _ _ (fun b => (blockEval_mean m hm b).1)]
      have h1 : ((metricBlocks mode R).map (fun b => [blockMean m b])).any (fun v => v.length != 1) = false := by
        rw [List.any_map]; simp [Function.comp_def]
      have h2 : ((metricBlocks mode R).map (fun b => [blockMean m b])).flatten = (metricBlocks mode R).map (blockMean m) := by
        generalize metricBlocks mode R = L
        induction L with
        | nil => rfl
        | cons b L ih => simp only [List.map_cons, List.flatten_cons, ih]; rfl
      simp only [h1, h2, Bool.false_eq_true, and_false, if_false]

/-! ### Means of blocks -/

theorem sum_indicator {κ : Type} [DecidableEq κ] (a : κ) (v : ℝ) (K : List κ) (hK : K.Nodup) (hx : a ∈ K) : (K.map (fun k => if a = k then v else 0)).sum = v := by
  induction K with
  | nil => cases hx
  | cons k K ih =>
    rw [List.nodup_cons] at hK
    rw [List.map_cons, List.sum_cons]
    by_cases h : a = k
    · subst h
      rw [if_pos rfl]
      have : (K.map (fun k => if a = k then v else 0)).sum = 0 := by
        refine List.sum_eq_zero fun y hy => ?_
        obtain ⟨k, hk, rfl⟩ := List.mem_map.1 hy
        rw [if_neg]
        rintro rfl
        exact hK.1 hk
      rw [this, add_zero]
    · rw [if_neg h, zero_add]
      exact ih hK.2 ((List.mem_cons.1 hx).resolve_left fun e => h e)

theorem sum_filter_keys {α κ : Type} [DecidableEq κ] (key : α → κ) (f : α → ℝ) (K : List κ) (hK : K.Nodup) (l : List α) (hl : ∀ x ∈ l, key x ∈ K) :
    (K.map (fun k => ((l.filter (fun x => decide (key x = k))).map f).sum)).sum = (l.map f).sum := by
  induction l with
  | nil => simp
  | cons x l ih =>
    have ih := ih fun y hy => hl y (List.mem_cons_of_mem _ hy)
    have hx := hl x List.mem_cons_self
    have h1 : ∀ k, (((x :: l).filter (fun y => decide (key y = k))).map f).sum = (if key x = k then f x else 0) + ((l.filter (fun y => decide (key y = k))).map f).sum := by
      intro k
      by_cases h : key x = k
      · rw [List.filter_cons_of_pos (by simpa using h), if_pos h]; rfl
      · rw [List.filter_cons_of_neg (by simpa using h), if_neg h, zero_add]
    simp only [h1, List.sum_map_add, ih, List.map_cons, List.sum_cons]
    congr 1
    exact sum_indicator (key x) (f x) K hK hx

theorem mean_blocks {α κ : Type} [DecidableEq κ] (key : α → κ) (f : α → ℝ) (K : List κ) (hK : K.Nodup) (l : List α) (hl : ∀ x ∈ l, key x ∈ K) (n : Nat) (hn : 0 < n)
    (hlen : ∀ k ∈ K, (l.filter (fun x => decide (key x = k))).length = n) :
    meanList (K.map (fun k => meanList ((l.filter (fun x => decide (key x = k))).map f))) = meanList (l.map f) := by
  have h1 : (l.length : ℝ) = K.length * n := by
    have := sum_filter_keys key (fun _ => 1) K hK l hl
    simp only [List.map_const', List.sum_replicate, nsmul_eq_mul, mul_one] at this
    rw [← this]
    have h2 : K.map (fun k => ((l.filter (fun x => decide (key x = k))).length : ℝ)) = K.map (fun _ => (n : ℝ)) := List.map_congr_left fun k hk => by rw [hlen k hk]
    rw [h2]; simp
  have h2 : K.map (fun k => meanList ((l.filter (fun x => decide (key x = k))).map f)) = K.map (fun k => (n : ℝ)⁻¹ * ((l.filter (fun x => decide (key x = k))).map f).sum) := by
    refine List.map_congr_left fun k hk => ?_
    rw [meanList, List.length_map, hlen k hk, div_eq_inv_mul]
  rw [h2]
  unfold meanList
  rw [sum_map_mul_left', sum_filter_keys key f K hK l hl, List.length_map, List.length_map, h1]
  have hn' : (n : ℝ) ≠ 0 := by exact_mod_cast hn.ne'
  by_cases hk : (K.length : ℝ) = 0
  · simp [hk]
  · field_simp

theorem meanList_swap {α : Type} (L : List α) (f : α → Fin d → ℝ) :
    meanList (L.map (fun b => meanList (List.ofFn (f b)))) = meanList (List.ofFn (fun j => meanList (L.map (fun b => f b j)))) := by
  simp only [meanList, List.length_map, List.length_ofFn, List.sum_ofFn]
  have h : ∀ L : List α, (L.map (fun b => (∑ j, f b j) / (d : ℝ))).sum = (∑ j, (L.map (fun b => f b j)).sum) / d := by
    intro L
    induction L with
    | nil => simp
    | cons b L ih => simp only [List.map_cons, List.sum_cons, ih, Finset.sum_add_distrib, add_div]
  rw [h, ← Finset.sum_div, div_right_comm]

omit [LinearOrder τ] in
theorem blockMean_blocks {κ : Type} [DecidableEq κ] (m : Metric) (key : Row τ ((Fin d → ℝ) × (Fin d → ℝ)) → κ) (K : List κ) (hK : K.Nodup) (R : List (Row τ ((Fin d → ℝ) × (Fin d → ℝ))))
    (hl : ∀ x ∈ R, key x ∈ K) (n : Nat) (hn : 0 < n) (hlen : ∀ k ∈ K, (R.filter (fun x => decide (key x = k))).length = n) :
    meanList ((K.map (fun k => R.filter (fun x => decide (key x = k)))).map (blockMean m)) = blockMean m R := by
  unfold blockMean
  rw [List.map_map]
  have := meanList_swap K (fun k j => meanList ((R.filter (fun x => decide (key x = k))).map (fun r => sampleErr m r.val j)))
  rw [show (fun b : List (Row τ ((Fin d → ℝ) × (Fin d → ℝ))) => meanList (List.ofFn fun j => meanList (b.map fun r => sampleErr m r.val j))) ∘ (fun k => R.filter (fun x => decide (key x = k)))
    = fun k => meanList (List.ofFn (fun j => meanList ((R.filter (fun x => decide (key x = k))).map (fun r => sampleErr m r.val j)))) from rfl, this]
  congr 2
  funext j
  exact mean_blocks key _ K hK R hl n hn hlen

theorem pairRows_index {yt yp : List (Row τ (Fin d → ℝ))} {rows : List (Row τ ((Fin d → ℝ) × (Fin d → ℝ)))} (h : pairRows yt yp = .ok rows) : rows.map (·.key) = yt.map (·.key) := by
  unfold pairRows at h
  split at h
  · rename_i hk
    cases h
    have hlen : yt.length = yp.length := by simpa using congrArg List.length hk
    refine List.ext_getElem (by simp [hlen]) fun i h1 h2 => ?_
    simp [Row.key]
  · cases h

omit [LinearOrder τ] in
theorem filter_length_of_key {V W : Type} {c : List (Row τ V)} {c' : List (Row τ W)} (h : c'.map (·.key) = c.map (·.key)) (p : Key τ → Bool) :
    (c'.filter (fun r => p r.key)).length = (c.filter (fun r => p r.key)).length := by
  have h1 : ∀ {U : Type} (c : List (Row τ U)), (c.filter (fun r => p r.key)).length = ((c.map (·.key)).filter p).length := by
    intro U c
    rw [List.filter_map, List.length_map]; rfl
  rw [h1, h1, h]

omit [LinearOrder τ] in
theorem ids_of_key {V W : Type} {c : List (Row τ V)} {c' : List (Row τ W)} (h : c'.map (·.key) = c.map (·.key)) : ids c' = ids c := by
  have h1 : ∀ {U : Type} (c : List (Row τ U)), ids c = unique ((c.map (·.key)).map (·.id)) := by
    intro U c; unfold ids; rw [List.map_map]; rfl
  rw [h1, h1, h]

theorem timeValues_of_key {V W : Type} {c : List (Row τ V)} {c' : List (Row τ W)} (h : c'.map (·.key) = c.map (·.key)) : timeValues c' = timeValues c := by
  have h1 : ∀ {U : Type} (c : List (Row τ U)), timeValues c = unique ((c.map (·.key)).map (·.time)) := by
    intro U c; unfold timeValues; rw [List.map_map]; rfl
  rw [h1, h1, h]

/-- In a valid collection no time value is repeated within a series. -/
theorem series_times_count {V : Type} {c : List (Row τ V)} (hv : (c.map (·.key)).Nodup) (i : Nat) (t : τ) (ht : t ∈ (series c i).map (·.time)) :
    ((series c i).filter (fun r => decide (r.time = t))).length = 1 := by
  have hnd : ((series c i).map (·.time)).Nodup := by
    have h1 : ((series c i).map (·.key)).Nodup := (List.filter_sublist.map _).nodup hv
    have h2 : (series c i).map (·.key) = ((series c i).map (·.time)).map (fun t => (⟨i, t⟩ : Key τ)) := by
      rw [List.map_map]
      refine List.map_congr_left fun r hr => ?_
      have := (List.mem_filter.1 hr).2
      simp only [beq_iff_eq] at this
      simp [Row.key, this]
    rw [h2] at h1
    exact List.Nodup.of_map _ h1
  have h3 : ((series c i).filter (fun r => decide (r.time = t))).length = ((series c i).map (·.time)).count t := by
    rw [List.count_eq_length_filter, List.filter_map, List.length_map]
    congr 1
  rw [h3]
  exact List.count_eq_one_of_mem hnd ht

/-! ## The theorems -/

/-- **C243 (time series).** If all time series have the same length, then the score of a mean error (`mse`, `mae`, `mape`), with every scaling, is the same by time series and by feature
(and refused in the same cases). The assumption is needed: `C243_lengths_matter`. -/
theorem C243_timeseries (m : Metric) (hm : IsMean m) (s : MetricScaling) (g : Bool) (yt yp : List (Row τ (Fin d → ℝ))) (hl : EqualLengths yt) :
    scoreCall m .timeseries s none .uniform g yt yp = scoreCall m .feature s none .uniform g yt yp := by
  rw [scoreCall_mean m hm, scoreCall_mean m hm]
  cases hp : pairRows yt yp with
  | error e => rfl
  | ok rows =>
    simp only [if_true, reduceCtorEq, if_false]
    congr 2
    set R := mapVal (fun v => (scaleRow s (yt.map (·.val)) v.1, scaleRow s (yt.map (·.val)) v.2)) rows with hR
    have hkey : R.map (·.key) = yt.map (·.key) := by rw [hR, mapVal_keys, pairRows_index hp]
    have hb : metricBlocks .timeseries R = (ids R).map (fun i => R.filter (fun x => decide (x.id = i))) := by
      refine List.map_congr_left fun i _ => List.filter_congr fun x _ => ?_
      exact Bool.eq_iff_iff.2 (by simp)
    rw [hb]
    cases hR0 : R with
    | nil => simp [ids, unique, meanList, blockMean]
    | cons r0 R0 =>
      rw [← hR0]
      have hr0 : r0 ∈ R := by rw [hR0]; exact List.mem_cons_self
      refine blockMean_blocks m (fun r : Row τ ((Fin d → ℝ) × (Fin d → ℝ)) => r.id) (ids R) (ids_nodup R) R (fun x hx => mem_ids.2 ⟨x, hx, rfl⟩) (series R r0.id).length
        (List.length_pos_of_mem (List.mem_filter.2 ⟨hr0, by simp⟩)) fun i hi => ?_
      have hlen : ∀ i, (R.filter (fun x => decide (x.id = i))).length = (series yt i).length := by
        intro i
        have := filter_length_of_key hkey (fun p => decide (p.id = i))
        unfold series
        rw [show (fun r : Row τ (Fin d → ℝ) => r.id == i) = fun r => decide (r.key.id = i) from by funext r; exact Bool.eq_iff_iff.2 (by rw [beq_iff_eq, decide_eq_true_iff]; rfl)]
        exact this
      have hs : (series R r0.id).length = (series yt r0.id).length := by
        rw [← hlen]; unfold series
        congr 1
      have hid : ∀ i, i ∈ ids R → HasId yt i := fun i hi => mem_ids.1 (by rw [← ids_of_key hkey]; exact hi)
      rw [hlen, hs]
      exact hl _ _ (hid _ hi) (hid _ (mem_ids.2 ⟨r0, hr0, rfl⟩))

/-- **C243 (time steps).** If all time series have the same time values, then the score of a mean error is the same by time step and by feature. -/
theorem C243_timestep (m : Metric) (hm : IsMean m) (s : MetricScaling) (g : Bool) (yt yp : List (Row τ (Fin d → ℝ))) (hv : (yt.map (·.key)).Nodup) (hl : SameTimes yt) :
    scoreCall m .timestep s none .uniform g yt yp = scoreCall m .feature s none .uniform g yt yp := by
  rw [scoreCall_mean m hm, scoreCall_mean m hm]
  cases hp : pairRows yt yp with
  | error e => rfl
  | ok rows =>
    simp only [if_true, reduceCtorEq, if_false]
    congr 2
    set R := mapVal (fun v => (scaleRow s (yt.map (·.val)) v.1, scaleRow s (yt.map (·.val)) v.2)) rows with hR
    have hkey : R.map (·.key) = yt.map (·.key) := by rw [hR, mapVal_keys, pairRows_index hp]
    have hcount : ∀ t ∈ timeValues R, (R.filter (fun x => decide (x.time = t))).length = (ids yt).length := by
      intro t ht
      have h1 := filter_length_of_key hkey (fun p => decide (p.time = t))
      have h2 : (R.filter (fun x => decide (x.time = t))).length = (yt.filter (fun x => decide (x.time = t))).length := h1
      rw [h2]
      have h3 := sum_filter_keys (fun r : Row τ (Fin d → ℝ) => r.id) (fun r => if r.time = t then (1 : ℝ) else 0) (ids yt) (ids_nodup yt) yt (fun x hx => mem_ids.2 ⟨x, hx, rfl⟩)
      have h4 : ∀ l : List (Row τ (Fin d → ℝ)), (l.map (fun r => if r.time = t then (1 : ℝ) else 0)).sum = ((l.filter (fun x => decide (x.time = t))).length : ℝ) := by
        intro l
        induction l with
        | nil => simp
        | cons r l ih =>
          by_cases h : r.time = t
          · rw [List.filter_cons_of_pos (by simpa using h), List.map_cons, List.sum_cons, ih, if_pos h, List.length_cons]; push_cast; ring
          · rw [List.filter_cons_of_neg (by simpa using h), List.map_cons, List.sum_cons, ih, if_neg h, zero_add]
      simp only [h4] at h3
      have h5 : (ids yt).map (fun i => (((yt.filter (fun x => decide (x.id = i))).filter (fun x => decide (x.time = t))).length : ℝ)) = (ids yt).map (fun _ => (1 : ℝ)) := by
        refine List.map_congr_left fun i hi => ?_
        have hser : yt.filter (fun x => decide (x.id = i)) = series yt i := List.filter_congr fun x _ => Bool.eq_iff_iff.2 (by simp)
        rw [hser, series_times_count hv i t, Nat.cast_one]
        rw [timeValues_of_key hkey, timeValues, mem_unique] at ht
        obtain ⟨r, hr, rfl⟩ := List.mem_map.1 ht
        rw [hl i r.id (mem_ids.1 hi) ⟨r, hr, rfl⟩]
        exact List.mem_map.2 ⟨r, List.mem_filter.2 ⟨hr, by simp⟩, rfl⟩
      rw [h5] at h3
      simp only [List.map_const', List.sum_replicate, nsmul_eq_mul, mul_one] at h3
      exact_mod_cast h3.symm
    cases hR0 : R with
    | nil => simp [metricBlocks, timeValues, unique, meanList, blockMean]
    | cons r0 R0 =>
      rw [← hR0]
      have hr0 : r0 ∈ R := by rw [hR0]; exact List.mem_cons_self
      have hpos : 0 < (ids yt).length := by
        rw [← ids_of_key hkey]
        exact List.length_pos_of_mem (mem_ids.2 ⟨r0, hr0, rfl⟩)
      exact blockMean_blocks m (fun r : Row τ ((Fin d → ℝ) × (Fin d → ℝ)) => r.time) (timeValues R) (unique_nodup _) R
        (fun x hx => (mem_unique _ _).2 (List.mem_map.2 ⟨x, hx, rfl⟩)) _ hpos hcount

/-- A series with one sample and a series with two samples. -/
noncomputable def modeTruth : List (Row Int (Fin 1 → ℝ)) := [⟨0, 0, fun _ => 0⟩, ⟨1, 0, fun _ => 0⟩, ⟨1, 1, fun _ => 0⟩]
/-- A prediction that is wrong for the first series only. -/
noncomputable def modePred : List (Row Int (Fin 1 → ℝ)) := [⟨0, 0, fun _ => 1⟩, ⟨1, 0, fun _ => 0⟩, ⟨1, 1, fun _ => 0⟩]

/-- **C243 (the assumption is needed).** For time series of different lengths the scores by time series, by time step and by feature are all different: -1/2, -1/4 and -1/3. -/
theorem C243_lengths_matter : scoreCall .mse .timeseries .id none .uniform false modeTruth modePred = .ok (-(1 / 2)) ∧
    scoreCall .mse .timestep .id none .uniform false modeTruth modePred = .ok (-(1 / 4)) ∧
    scoreCall .mse .feature .id none .uniform false modeTruth modePred = .ok (-(1 / 3)) := by
  have hp : pairRows modeTruth modePred = .ok [⟨0, 0, (fun _ => 0, fun _ => 1)⟩, ⟨1, 0, (fun _ => 0, fun _ => 0)⟩, ⟨1, 1, (fun _ => 0, fun _ => 0)⟩] := by
    unfold pairRows modeTruth modePred
    simp [Row.key]
  refine ⟨?_, ?_, ?_⟩ <;>
  · rw [scoreCall_mean _ (Or.inl rfl), hp]
    simp [metricBlocks, ids, timeValues, unique, insertU, blockMean, sampleErr, meanList, mapVal, scaleRow, List.filter]
    try norm_num

/-- The hypotheses are met: two series with the same time values. -/
example : EqualLengths ([⟨0, 0, fun _ => 0⟩, ⟨0, 1, fun _ => 3⟩, ⟨4, 0, fun _ => 2⟩, ⟨4, 1, fun _ => 0⟩] : List (Row Int (Fin 1 → ℝ))) ∧
    SameTimes ([⟨0, 0, fun _ => 0⟩, ⟨0, 1, fun _ => 3⟩, ⟨4, 0, fun _ => 2⟩, ⟨4, 1, fun _ => 0⟩] : List (Row Int (Fin 1 → ℝ))) := by
  constructor <;>
  · intro i j hi hj
    simp only [HasId, List.mem_cons, List.not_mem_nil, or_false, exists_eq_or_imp, exists_eq_left] at hi hj
    rcases hi with rfl | rfl | rfl | rfl <;> rcases hj with rfl | rfl | rfl | rfl <;> rfl

end Verif.Tsc
