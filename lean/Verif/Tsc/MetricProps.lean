import Verif.Tsc.Metric
import Verif.Tsc.CountLemmas
import Mathlib.Tactic.Linarith
import Mathlib.Tactic.NormNum
import Mathlib.Tactic.Positivity
import Mathlib.Tactic.FieldSimp
/-!
# C63, C117, C118: metrics and scores
-/

namespace Verif.Tsc

open Verif.Np

variable {τ : Type} [LinearOrder τ] {d : Nat}

/-! ## Specification -/

/-- Row `r` of a collection `c` belongs to the `k`-th evaluated block: the time series with the `k`-th smallest ID, the `k`-th time value, or the
whole collection. -/
def InBlock {W : Type} (mode : MetricMode) (c : List (Row τ W)) (k : Nat) (r : Row τ W) : Prop :=
  match mode with
  | .timeseries => (ids c)[k]? = some r.id
  | .timestep => (timeValues c)[k]? = some r.time
  | .feature => k = 0

/-- Truth and prediction agree in feature `j` on the `k`-th block. -/
def AgreeOn (mode : MetricMode) (yt yp : List (Row τ (Fin d → ℝ))) (k : Nat) (j : Fin d) : Prop :=
  ∀ (n : Nat) (a b : Row τ (Fin d → ℝ)), yt[n]? = some a → yp[n]? = some b → InBlock mode yt k a → a.val j = b.val j

/-- The value is non-negative and zero exactly if `P` holds. -/
def ErrorOf (x : ℝ) (P : Prop) : Prop := 0 ≤ x ∧ (x = 0 ↔ P)

/-! ## Helper lemmas -/

theorem sum_nonneg' (l : List ℝ) (h : ∀ x ∈ l, 0 ≤ x) : 0 ≤ l.sum := by
  induction l with
  | nil => simp
  | cons a l ih =>
    rw [List.sum_cons]
    exact add_nonneg (h a (by simp)) (ih fun x hx => h x (by simp [hx]))

theorem sum_eq_zero_iff' (l : List ℝ) (h : ∀ x ∈ l, 0 ≤ x) : l.sum = 0 ↔ ∀ x ∈ l, x = 0 := by
  induction l with
  | nil => simp
  | cons a l ih =>
    have h1 := h a (by simp)
    have h2 := sum_nonneg' l fun x hx => h x (by simp [hx])
    rw [List.sum_cons, List.forall_mem_cons, ← ih fun x hx => h x (by simp [hx])]
    constructor
    · intro h3
      constructor <;> linarith
    · rintro ⟨h3, h4⟩
      rw [h3, h4, add_zero]

theorem sum_pos' (l : List ℝ) (hne : l ≠ []) (h : ∀ x ∈ l, 0 < x) : 0 < l.sum := by
  obtain ⟨a, t, rfl⟩ := List.ne_nil_iff_exists_cons.1 hne
  rw [List.sum_cons]
  have := sum_nonneg' t fun x hx => (h x (by simp [hx])).le
  have := h a (by simp)
  linarith

theorem wAverage_errorOf (l : List (ℝ × ℝ)) (hw : ∀ x ∈ l, 0 < x.1) (hx : ∀ x ∈ l, 0 ≤ x.2) : ErrorOf (wAverage l) (∀ x ∈ l, x.2 = 0) := by
  unfold wAverage
  by_cases hl : l = []
  · subst hl
    simp [ErrorOf]
  have hprod : ∀ x ∈ l.map (fun x => x.1 * x.2), 0 ≤ x := by
    intro x hx'
    obtain ⟨y, hy, rfl⟩ := List.mem_map.1 hx'
    exact mul_nonneg (hw y hy).le (hx y hy)
  have hden : 0 < (l.map (·.1)).sum := sum_pos' _ (by simpa using hl) (by
    intro x hx'
    obtain ⟨y, hy, rfl⟩ := List.mem_map.1 hx'
    exact hw y hy)
  refine ⟨div_nonneg (sum_nonneg' _ hprod) hden.le, ?_⟩
  rw [div_eq_zero_iff, or_iff_left hden.ne', sum_eq_zero_iff' _ hprod]
  simp only [List.mem_map, forall_exists_index, and_imp, forall_apply_eq_imp_iff₂, mul_eq_zero]
  exact ⟨fun h x hx => (h x hx).resolve_left (hw x hx).ne', fun h x hx => Or.inr (h x hx)⟩

theorem meanList_errorOf (l : List ℝ) (h : ∀ x ∈ l, 0 ≤ x) : ErrorOf (meanList l) (∀ x ∈ l, x = 0) := by
  unfold meanList
  by_cases hl : l = []
  · subst hl
    simp [ErrorOf]
  have hlen : (l.length : ℝ) ≠ 0 := by
    rw [Nat.cast_ne_zero]
    simpa using hl
  refine ⟨div_nonneg (sum_nonneg' _ h) (Nat.cast_nonneg _), ?_⟩
  rw [div_eq_zero_iff, or_iff_left hlen, sum_eq_zero_iff' _ h]

theorem maxList_errorOf (l : List ℝ) (h : ∀ x ∈ l, 0 ≤ x) : ErrorOf (maxList l) (∀ x ∈ l, x = 0) := by
  unfold maxList
  induction l with
  | nil => simp [ErrorOf]
  | cons a l ih =>
    obtain ⟨h1, h2⟩ := ih fun x hx => h x (by simp [hx])
    have ha := h a (by simp)
    rw [List.foldr_cons, List.forall_mem_cons, ← h2]
    refine ⟨le_max_of_le_left ha, ?_⟩
    constructor
    · intro h3
      have h5 := le_max_left a (l.foldr max 0)
      have h6 := le_max_right a (l.foldr max 0)
      rw [h3] at h5 h6
      exact ⟨le_antisymm h5 ha, le_antisymm h6 h1⟩
    · rintro ⟨h3, h4⟩
      rw [h3, h4, max_self]

theorem ErrorOf.sqrt {x : ℝ} {P : Prop} (h : ErrorOf x P) : ErrorOf (Real.sqrt x) P :=
  ⟨Real.sqrt_nonneg _, by rw [Real.sqrt_eq_zero h.1, h.2]⟩

theorem ErrorOf.div {x c : ℝ} {P : Prop} (h : ErrorOf x P) (hc : 0 < c) : ErrorOf (x / c) P :=
  ⟨div_nonneg h.1 hc.le, by rw [div_eq_zero_iff, or_iff_left hc.ne', h.2]⟩

theorem ErrorOf.congr {x : ℝ} {P Q : Prop} (h : ErrorOf x P) (hpq : P ↔ Q) : ErrorOf x Q := ⟨h.1, by rw [h.2, hpq]⟩

theorem mseCol_errorOf (b : List (Sample d)) (hw : ∀ s ∈ b, 0 < s.w) (j : Fin d) : ErrorOf (mseCol b j) (∀ s ∈ b, s.y j = s.p j) := by
  refine (wAverage_errorOf _ ?_ ?_).congr ?_
  · simpa using hw
  · simp only [List.mem_map, forall_exists_index, and_imp, forall_apply_eq_imp_iff₂]
    exact fun s _ => sq_nonneg _
  · simp [sub_eq_zero]

/-- All metrics but the median are errors of their column. -/
theorem colMetric_errorOf (m : Metric) (hm : m ≠ .medae) (b : List (Sample d)) (hw : ∀ s ∈ b, 0 < s.w) (j : Fin d) :
    ErrorOf (colMetric m b j) (∀ s ∈ b, s.y j = s.p j) := by
  have hmape : ∀ s : Sample d, 0 < max |s.y j| mapeEps := fun s => lt_max_of_lt_right (by unfold mapeEps; positivity)
  cases m with
  | mse => exact mseCol_errorOf b hw j
  | rrmse => exact mseCol_errorOf b hw j
  | rmse => exact (mseCol_errorOf b hw j).sqrt
  | mae =>
    refine (wAverage_errorOf _ (by simpa using hw) ?_).congr ?_
    · simp
    · simp [sub_eq_zero]
  | mape =>
    refine (wAverage_errorOf _ (by simpa using hw) ?_).congr ?_
    · simp only [List.mem_map, forall_exists_index, and_imp, forall_apply_eq_imp_iff₂]
      exact fun s _ => div_nonneg (abs_nonneg _) (hmape s).le
    · simp only [List.mem_map, forall_exists_index, and_imp, forall_apply_eq_imp_iff₂, div_eq_zero_iff, (hmape _).ne', or_false, abs_eq_zero, sub_eq_zero]
  | medae => exact absurd rfl hm
  | max =>
    refine (maxList_errorOf _ ?_).congr ?_
    · simp
    · simp [sub_eq_zero]
  | l2 =>
    refine ErrorOf.sqrt ?_
    have h0 : ∀ x ∈ b.map (fun s => (s.w * (s.y j - s.p j)) ^ 2), 0 ≤ x := by
      simp only [List.mem_map, forall_exists_index, and_imp, forall_apply_eq_imp_iff₂]
      exact fun s _ => sq_nonneg _
    refine ⟨sum_nonneg' _ h0, ?_⟩
    rw [sum_eq_zero_iff' _ h0]
    simp only [List.mem_map, forall_exists_index, and_imp, forall_apply_eq_imp_iff₂, ne_eq, OfNat.ofNat_ne_zero, not_false_eq_true, pow_eq_zero_iff,
      mul_eq_zero, sub_eq_zero]
    exact ⟨fun h s hs => (h s hs).resolve_left (hw s hs).ne', fun h s hs => Or.inr (h s hs)⟩
  | linf =>
    refine (maxList_errorOf _ ?_).congr ?_
    · simp only [List.mem_map, forall_exists_index, and_imp, forall_apply_eq_imp_iff₂]
      exact fun s _ => abs_nonneg _
    · simp only [List.mem_map, forall_exists_index, and_imp, forall_apply_eq_imp_iff₂, abs_eq_zero, mul_eq_zero, sub_eq_zero]
      exact ⟨fun h s hs => (h s hs).resolve_left (hw s hs).ne', fun h s hs => Or.inr (h s hs)⟩

theorem forall_mem_ofFn {f : Fin d → ℝ} : (∀ x ∈ List.ofFn f, x = 0) ↔ ∀ j, f j = 0 := by
  simp [List.mem_ofFn]

/-- The output of a metric on a block: one error per feature, or one error for all features. -/
def OutputOf (mo : MultiOutput d) (v : List ℝ) (P : Fin d → Prop) : Prop :=
  match mo with
  | .raw => v.length = d ∧ ∀ j : Fin d, ∃ x, v[j.val]? = some x ∧ ErrorOf x (P j)
  | _ => ∃ x, v = [x] ∧ ErrorOf x (∀ j, P j)

theorem outputOf_raw (f : Fin d → ℝ) (P : Fin d → Prop) (h : ∀ j, ErrorOf (f j) (P j)) : OutputOf .raw (List.ofFn f) P := by
  refine ⟨List.length_ofFn, fun j => ⟨f j, ?_, h j⟩⟩
  rw [List.getElem?_eq_getElem (by simp), List.getElem_ofFn]

theorem outputOf_mean (f : Fin d → ℝ) (P : Fin d → Prop) (h : ∀ j, ErrorOf (f j) (P j)) : ErrorOf (meanList (List.ofFn f)) (∀ j, P j) := by
  refine (meanList_errorOf _ ?_).congr ?_
  · intro x hx
    obtain ⟨j, rfl⟩ := (List.mem_ofFn' _ _).1 hx
    exact (h j).1
  · rw [forall_mem_ofFn]
    exact forall_congr' fun j => (h j).2

theorem outputOf_weights (w f : Fin d → ℝ) (hw : ∀ j, 0 < w j) (P : Fin d → Prop) (h : ∀ j, ErrorOf (f j) (P j)) :
    ErrorOf (wAverage (List.ofFn (fun j => (w j, f j)))) (∀ j, P j) := by
  refine (wAverage_errorOf _ ?_ ?_).congr ?_
  · intro x hx
    obtain ⟨j, rfl⟩ := (List.mem_ofFn' _ _).1 hx
    exact hw j
  · intro x hx
    obtain ⟨j, rfl⟩ := (List.mem_ofFn' _ _).1 hx
    exact (h j).1
  · constructor
    · intro h1 j
      exact (h j).2.1 (h1 (w j, f j) ((List.mem_ofFn' _ _).2 ⟨j, rfl⟩))
    · intro h1 x hx
      obtain ⟨j, rfl⟩ := (List.mem_ofFn' _ _).1 hx
      exact (h j).2.2 (h1 j)

theorem outputOf_one (hd : d = 1) (mo : MultiOutput d) (f : Fin d → ℝ) (P : Fin d → Prop) (h : ∀ j, ErrorOf (f j) (P j)) :
    OutputOf mo (List.ofFn f) P := by
  subst hd
  have hs : OutputOf (d := 1) (.uniform) (List.ofFn f) P := ⟨f 0, by simp, (h 0).congr (by simp)⟩
  cases mo with
  | raw => exact outputOf_raw f P h
  | uniform => exact hs
  | weights w => exact hs

theorem rrmse_outputOf (mo : MultiOutput d) (hmo : ∀ w, mo = .weights w → ∀ j, 0 < w j) (b : List (Sample d)) (hw : ∀ s ∈ b, 0 < s.w) (v : List ℝ)
    (h : rrmseMetric mo b = .ok v) : OutputOf mo v (fun j => ∀ s ∈ b, s.y j = s.p j) := by
  have hc := mseCol_errorOf b hw
  unfold rrmseMetric at h
  cases mo with
  | uniform =>
    dsimp only at h
    split at h
    · cases h
    · rename_i hn
      cases h
      refine ⟨_, rfl, ((outputOf_mean _ _ hc).div ?_).sqrt⟩
      push Not at hn
      exact lt_trans (by norm_num) hn
  | raw =>
    dsimp only at h
    split at h
    · cases h
    · rename_i hn
      cases h
      push Not at hn
      exact outputOf_raw _ _ fun j => ((hc j).div (lt_trans (by norm_num) (hn j))).sqrt
  | weights w =>
    dsimp only at h
    split at h
    · cases h
    · rename_i hn
      split at h
      · cases h
      · rename_i hd
        cases h
        push Not at hn
        have hd1 : d = 1 := not_not.1 hd
        refine outputOf_one hd1 _ _ _ fun j => ?_
        refine (((outputOf_weights w _ (hmo w rfl) _ hc).div (lt_trans (by norm_num) (hn j))).sqrt).congr ?_
        subst hd1
        constructor
        · exact fun h => h j
        · intro h i
          rw [Subsingleton.elim i j]
          exact h

theorem blockMetric_outputOf (m : Metric) (hm : m ≠ .medae) (weighted : Bool) (mo : MultiOutput d) (hmo : ∀ w, mo = .weights w → ∀ j, 0 < w j)
    (b : List (Sample d)) (hw : ∀ s ∈ b, 0 < s.w) (v : List ℝ) (h : blockMetric m weighted mo b = .ok v) :
    OutputOf mo v (fun j => ∀ s ∈ b, s.y j = s.p j) := by
  have hc := colMetric_errorOf m hm b hw
  unfold blockMetric at h
  split at h
  · exact rrmse_outputOf mo hmo b hw v h
  · split at h
    · cases h
    · rename_i hd
      cases h
      exact outputOf_one (not_not.1 hd) _ _ _ hc
  · exact absurd rfl hm
  · split at h
    · cases h
      exact outputOf_raw _ _ hc
    · cases h
      exact ⟨_, rfl, outputOf_mean _ _ hc⟩
    · rename_i w
      split at h
      · split at h
        · cases h
        · rename_i hd
          cases h
          exact outputOf_one (not_not.1 hd) _ _ _ hc
      · cases h
        exact ⟨_, rfl, outputOf_weights w _ (hmo w rfl) _ hc⟩

theorem noZero_ne (x : ℝ) : noZero x ≠ 0 := by
  unfold noZero
  split
  · exact one_ne_zero
  · assumption

theorem scaleRow_inj (s : MetricScaling) (hs : s ≠ .l2Normalize) (ys : List (Fin d → ℝ)) (x y : Fin d → ℝ) (j : Fin d) :
    scaleRow s ys x j = scaleRow s ys y j ↔ x j = y j := by
  cases s with
  | id => exact Iff.rfl
  | minMax => simp only [scaleRow, div_left_inj' (noZero_ne _), sub_left_inj]
  | standard => simp only [scaleRow, div_left_inj' (noZero_ne _), sub_left_inj]
  | l2Normalize => exact absurd rfl hs

theorem mapM_ok_get {α β ε : Type} (f : α → Except ε β) (l : List α) (r : List β) (h : l.mapM f = .ok r) :
    r.length = l.length ∧ ∀ (k : Nat) (a : α), l[k]? = some a → ∃ v, r[k]? = some v ∧ f a = .ok v := by
  induction l generalizing r with
  | nil =>
    rw [List.mapM_nil] at h
    cases h
    exact ⟨rfl, fun k a hk => by simp at hk⟩
  | cons a l ih =>
    rw [List.mapM_cons] at h
    cases hf : f a with
    | error e =>
      rw [hf] at h
      cases h
    | ok v =>
      rw [hf] at h
      cases hl : l.mapM f with
      | error e =>
        change (do let rs ← l.mapM f; pure (v :: rs)) = _ at h
        rw [hl] at h
        cases h
      | ok rs =>
        change (do let rs ← l.mapM f; pure (v :: rs)) = _ at h
        rw [hl] at h
        cases h
        obtain ⟨h1, h2⟩ := ih rs hl
        refine ⟨by simp [h1], fun k b hk => ?_⟩
        cases k with
        | zero =>
          simp only [List.getElem?_cons_zero, Option.some.injEq] at hk
          subst hk
          exact ⟨v, rfl, hf⟩
        | succ k =>
          simp only [List.getElem?_cons_succ] at hk ⊢
          exact h2 k b hk

/-- Membership in the `k`-th block. -/
theorem mem_metricBlocks {W : Type} (mode : MetricMode) (c : List (Row τ W)) (k : Nat) (b : List (Row τ W)) (h : (metricBlocks mode c)[k]? = some b)
    (r : Row τ W) : r ∈ b ↔ r ∈ c ∧ InBlock mode c k r := by
  cases mode with
  | timeseries =>
    simp only [metricBlocks, List.getElem?_map, Option.map_eq_some_iff] at h
    obtain ⟨i, hi, rfl⟩ := h
    rw [List.mem_filter, InBlock, hi, Option.some.injEq, beq_iff_eq, eq_comm (a := i)]
  | timestep =>
    simp only [metricBlocks, List.getElem?_map, Option.map_eq_some_iff] at h
    obtain ⟨t, ht, rfl⟩ := h
    rw [List.mem_filter, InBlock, ht, Option.some.injEq, decide_eq_true_eq, eq_comm (a := t)]
  | feature =>
    simp only [metricBlocks] at h
    cases k with
    | zero =>
      simp at h
      subst h
      simp [InBlock]
    | succ k => simp at h

theorem withWeights_mem (w : Option (List ℝ)) (hw : ∀ l, w = some l → ∀ x ∈ l, 0 < x) (rows : List ((Fin d → ℝ) × (Fin d → ℝ))) (b : List (Sample d))
    (h : withWeights w rows = .ok b) : (∀ s ∈ b, 0 < s.w) ∧ ∀ j, (∀ s ∈ b, s.y j = s.p j) ↔ ∀ r ∈ rows, r.1 j = r.2 j := by
  unfold withWeights at h
  split at h
  · cases h
    simp only [List.mem_map, forall_exists_index, and_imp, forall_apply_eq_imp_iff₂]
    exact ⟨fun _ _ => one_pos, fun _ => trivial⟩
  · rename_i l
    split at h
    · rename_i hlen
      cases h
      constructor
      · intro s hs
        obtain ⟨i, hi, rfl⟩ := List.mem_iff_getElem.1 hs
        simp only [List.getElem_zipWith]
        exact hw l rfl _ (List.getElem_mem _)
      · intro j
        constructor
        · intro h r hr
          obtain ⟨i, hi, rfl⟩ := List.mem_iff_getElem.1 hr
          have := h _ (List.getElem_mem (l := List.zipWith (fun a r => (⟨a, r.1, r.2⟩ : Sample d)) l rows) (n := i) (by simp; omega))
          simpa using this
        · intro h s hs
          obtain ⟨i, hi, rfl⟩ := List.mem_iff_getElem.1 hs
          simp only [List.getElem_zipWith]
          exact h _ (List.getElem_mem _)
    · cases h

/-! ## Property theorems -/

/-- **C63 (sample weights).** A metric with sample weights is only returned if the number of weights is the number of samples in every block. -/
theorem C63_weights (m : Metric) (mode : MetricMode) (s : MetricScaling) (l : List ℝ) (mo : MultiOutput d) (yt yp : List (Row τ (Fin d → ℝ))) (vals : List (List ℝ))
    (h : metricCall m mode s (some l) mo yt yp = .ok vals) : ∀ b ∈ metricBlocks mode yt, b.length = l.length := by
  unfold metricCall pairRows at h
  split at h
  · cases h
  rename_i rows hrows
  split at hrows
  swap
  · cases hrows
  rename_i hkey
  have hlen : yt.length = yp.length := by simpa using congrArg List.length hkey
  cases hrows
  dsimp only at h
  split at h
  · cases h
  set sc := scaleRow s (yt.map (·.val)) with hsc
  set R := (List.zipWith (fun a b => (⟨a.id, a.time, (a.val, b.val)⟩ : Row τ ((Fin d → ℝ) × (Fin d → ℝ)))) yt yp).map
    (fun r => (⟨r.id, r.time, (sc r.val.1, sc r.val.2)⟩ : Row τ ((Fin d → ℝ) × (Fin d → ℝ)))) with hR
  have hid : R.map (·.id) = yt.map (·.id) := by
    refine List.ext_getElem (by simp [hR, hlen]) fun i h1 h2 => by simp [hR]
  have htime : R.map (·.time) = yt.map (·.time) := by
    refine List.ext_getElem (by simp [hR, hlen]) fun i h1 h2 => by simp [hR]
  have hbl : (metricBlocks mode R).map List.length = (metricBlocks mode yt).map List.length := by
    cases mode
    · simp only [metricBlocks, ids, hid, List.map_map]
      refine List.map_congr_left fun i _ => ?_
      simp only [Function.comp, ← List.countP_eq_length_filter]
      have := congrArg (List.countP (fun x => x == i)) hid
      simpa only [List.countP_map, Function.comp_def] using this
    · simp only [metricBlocks, timeValues, htime, List.map_map]
      refine List.map_congr_left fun i _ => ?_
      simp only [Function.comp, ← List.countP_eq_length_filter]
      have := congrArg (List.countP (fun x => decide (x = i))) htime
      simpa only [List.countP_map, Function.comp_def] using this
    · simp [metricBlocks, hR, hlen]
  obtain ⟨h1, h2⟩ := mapM_ok_get _ _ _ h
  intro b hb
  have hbm : b.length ∈ (metricBlocks mode R).map List.length := by rw [hbl]; exact List.mem_map.2 ⟨b, hb, rfl⟩
  obtain ⟨b', hb', hbb⟩ := List.mem_map.1 hbm
  obtain ⟨k, hk⟩ := List.mem_iff_getElem?.1 hb'
  obtain ⟨v, -, hf⟩ := h2 k _ hk
  unfold withWeights at hf
  by_cases hl : l.length = (b'.map (·.val)).length
  · rw [List.length_map] at hl; omega
  · simp only [if_neg hl] at hf
    cases hf

/-- **C63 (metric; partial).** For every metric but `medae`, every scaling but `l2_normalize`, every mode, positive sample and feature weights: whenever the
metric is returned, there is one entry per block, and each value is non-negative and zero iff truth and prediction agree on this block, in the feature of the column or (with
averaged features) in all features. Missing: `medae` and `l2_normalize`, where this is false (`C63_medae_violated`, `C63_l2_normalize_violated`). -/
theorem C63_metric_partial (m : Metric) (hm : m ≠ .medae) (mode : MetricMode) (s : MetricScaling) (hs : s ≠ .l2Normalize) (w : Option (List ℝ))
    (hw : ∀ l, w = some l → ∀ x ∈ l, 0 < x) (mo : MultiOutput d) (hmo : ∀ u, mo = .weights u → ∀ j, 0 < u j) (yt yp : List (Row τ (Fin d → ℝ)))
    (vals : List (List ℝ)) (h : metricCall m mode s w mo yt yp = .ok vals) :
    yt.map (·.key) = yp.map (·.key) ∧ vals.length = (metricBlocks mode yt).length ∧
      ∀ k < vals.length, ∃ v, vals[k]? = some v ∧ OutputOf (if mode = .feature then .raw else mo) v (AgreeOn mode yt yp k) := by
  unfold metricCall pairRows at h
  split at h
  · cases h
  rename_i rows hrows
  split at hrows
  swap
  · cases hrows
  rename_i hkey
  refine ⟨hkey, ?_⟩
  have hlen : yt.length = yp.length := by simpa using congrArg List.length hkey
  cases hrows
  dsimp only at h
  split at h
  · cases h
  set sc := scaleRow s (yt.map (·.val)) with hsc
  set R := (List.zipWith (fun a b => (⟨a.id, a.time, (a.val, b.val)⟩ : Row τ ((Fin d → ℝ) × (Fin d → ℝ)))) yt yp).map
    (fun r => (⟨r.id, r.time, (sc r.val.1, sc r.val.2)⟩ : Row τ ((Fin d → ℝ) × (Fin d → ℝ)))) with hR
  have hget : ∀ n : Nat, R[n]? = (yt[n]?).bind (fun a => (yp[n]?).map (fun b => ⟨a.id, a.time, (sc a.val, sc b.val)⟩)) := by
    intro n
    rw [hR, List.getElem?_map, List.getElem?_zipWith]
    cases yt[n]? <;> cases yp[n]? <;> rfl
  have hid : R.map (·.id) = yt.map (·.id) := by
    refine List.ext_getElem (by simp [hR, hlen]) fun i h1 h2 => by simp [hR]
  have htime : R.map (·.time) = yt.map (·.time) := by
    refine List.ext_getElem (by simp [hR, hlen]) fun i h1 h2 => by simp [hR]
  have hblen : (metricBlocks mode R).length = (metricBlocks mode yt).length := by
    cases mode
    · simp [metricBlocks, ids, hid]
    · simp [metricBlocks, timeValues, htime]
    · rfl
  obtain ⟨h1, h2⟩ := mapM_ok_get _ _ _ h
  refine ⟨h1.trans hblen, fun k hk => ?_⟩
  have hkb : k < (metricBlocks mode R).length := by omega
  obtain ⟨v, hv, hf⟩ := h2 k _ (List.getElem?_eq_getElem hkb)
  refine ⟨v, hv, ?_⟩
  split at hf
  · cases hf
  rename_i samples hsamples
  obtain ⟨hpos, hagree⟩ := withWeights_mem w hw _ _ hsamples
  have hmo' : ∀ u, (if mode = .feature then MultiOutput.raw else mo) = .weights u → ∀ j, 0 < u j := by
    intro u hu
    split at hu
    · cases hu
    · exact hmo u hu
  have hout := blockMetric_outputOf m hm _ _ hmo' _ hpos _ hf
  have hiff : (fun j => ∀ s ∈ samples, s.y j = s.p j) = AgreeOn mode yt yp k := by
    funext j
    rw [eq_iff_iff, hagree]
    have hmem := mem_metricBlocks mode R k _ (List.getElem?_eq_getElem hkb)
    have hval : (∀ r ∈ ((metricBlocks mode R)[k]).map (·.val), r.1 j = r.2 j) ↔ ∀ r, r ∈ R → InBlock mode R k r → r.val.1 j = r.val.2 j := by
      constructor
      · intro h3 r hr hb
        exact h3 r.val (List.mem_map.2 ⟨r, (hmem r).2 ⟨hr, hb⟩, rfl⟩)
      · intro h3 x hx
        obtain ⟨r, hr, rfl⟩ := List.mem_map.1 hx
        exact h3 r ((hmem r).1 hr).1 ((hmem r).1 hr).2
    rw [hval]
    have hin : ∀ (a b : Row τ (Fin d → ℝ)), InBlock mode R k ⟨a.id, a.time, (sc a.val, sc b.val)⟩ ↔ InBlock mode yt k a := by
      intro a b
      cases mode
      · simp [InBlock, ids, hid]
      · simp [InBlock, timeValues, htime]
      · simp [InBlock]
    constructor
    · intro h3 n a b ha hb hab
      have h4 : R[n]? = some ⟨a.id, a.time, (sc a.val, sc b.val)⟩ := by rw [hget, ha, hb]; rfl
      have := h3 _ (List.mem_of_getElem? h4) ((hin a b).2 hab)
      exact (scaleRow_inj s hs _ _ _ j).1 this
    · intro h3 r hr hin'
      obtain ⟨n, hn⟩ := List.mem_iff_getElem?.1 hr
      rw [hget] at hn
      cases ha : yt[n]? with
      | none => simp [ha] at hn
      | some a =>
        cases hb : yp[n]? with
        | none => simp [ha, hb] at hn
        | some b =>
          simp only [ha, hb, Option.bind_some, Option.map_some, Option.some.injEq] at hn
          subst hn
          exact (scaleRow_inj s hs _ _ _ j).2 (h3 n a b ha hb ((hin a b).1 hin'))
  rw [hiff] at hout
  exact hout

/-- Every row lies in some block. -/
theorem inBlock_exists {W : Type} (mode : MetricMode) (c : List (Row τ W)) (r : Row τ W) (hr : r ∈ c) : ∃ k < (metricBlocks mode c).length, InBlock mode c k r := by
  cases mode with
  | timeseries =>
    have : r.id ∈ ids c := mem_ids.2 ⟨r, hr, rfl⟩
    obtain ⟨k, hk, he⟩ := List.mem_iff_getElem.1 this
    exact ⟨k, by simpa [metricBlocks] using hk, by simp [InBlock, ← he]⟩
  | timestep =>
    have : r.time ∈ timeValues c := by
      rw [timeValues, mem_unique]
      exact List.mem_map.2 ⟨r, hr, rfl⟩
    obtain ⟨k, hk, he⟩ := List.mem_iff_getElem.1 this
    exact ⟨k, by simpa [metricBlocks] using hk, by simp [InBlock, ← he]⟩
  | feature => exact ⟨0, by simp [metricBlocks], rfl⟩

/-- **C63 (score; partial).** With the default `greater_is_better=False`, for the metrics and scalings of `C63_metric_partial`: the score is at most 0, and it is 0, the
highest possible score, iff the prediction equals the truth. -/
theorem C63_score_partial (m : Metric) (hm : m ≠ .medae) (mode : MetricMode) (s : MetricScaling) (hs : s ≠ .l2Normalize) (w : Option (List ℝ))
    (hw : ∀ l, w = some l → ∀ x ∈ l, 0 < x) (mo : MultiOutput d) (hmo : ∀ u, mo = .weights u → ∀ j, 0 < u j) (yt yp : List (Row τ (Fin d → ℝ)))
    (x : ℝ) (h : scoreCall m mode s w mo false yt yp = .ok x) : x ≤ 0 ∧ (x = 0 ↔ yp = yt) := by
  unfold scoreCall at h
  split at h
  · cases h
  rename_i vals hvals
  obtain ⟨hkey, hlen, hall⟩ := C63_metric_partial m hm mode s hs w hw mo hmo yt yp vals hvals
  have hl : yt.length = yp.length := by simpa using congrArg List.length hkey
  dsimp only at h
  split at h
  · cases h
  rename_i hone
  have heq : (∀ k < vals.length, ∀ j, AgreeOn mode yt yp k j) ↔ yp = yt := by
    constructor
    · intro hag
      refine List.ext_getElem hl.symm fun n h1 h2 => ?_
      have hk := congrArg (fun l => l[n]?) hkey
      simp only [List.getElem?_map, List.getElem?_eq_getElem h1, List.getElem?_eq_getElem h2, Option.map_some, Option.some.injEq] at hk
      obtain ⟨k, hk1, hk2⟩ := inBlock_exists mode yt yt[n] (List.getElem_mem _)
      have hv : (yt[n]).val = (yp[n]).val := funext fun j =>
        hag k (by omega) j n _ _ (List.getElem?_eq_getElem h2) (List.getElem?_eq_getElem h1) hk2
      cases ha : yt[n]
      cases hb : yp[n]
      simp [ha, hb, Row.key] at hk hv ⊢
      exact ⟨hk.1.symm, hk.2.symm, hv.symm⟩
    · rintro rfl k _ j n a b ha hb _
      rw [ha] at hb
      cases hb
      rfl
  have key : ErrorOf (meanList (if mode = .feature then vals.headD [] else vals.flatten)) (yp = yt) := by
    by_cases hf : mode = .feature
    · subst hf
      simp only [if_true] at hall ⊢
      have hvl : vals.length = 1 := hlen
      obtain ⟨v, rfl⟩ := List.length_eq_one_iff.1 hvl
      obtain ⟨v', hv', hvlen, hout⟩ := hall 0 (by simp)
      simp only [List.getElem?_cons_zero, Option.some.injEq] at hv'
      subst hv'
      simp only [List.headD_cons]
      have hval : ∀ x ∈ v, ∃ j : Fin d, v[j.val]? = some x ∧ ErrorOf x (AgreeOn .feature yt yp 0 j) := by
        intro x hx
        obtain ⟨i, hi, rfl⟩ := List.mem_iff_getElem.1 hx
        obtain ⟨x, h3, h4⟩ := hout ⟨i, by omega⟩
        simp only [List.getElem?_eq_getElem hi, Option.some.injEq] at h3
        subst h3
        exact ⟨⟨i, by omega⟩, List.getElem?_eq_getElem hi, h4⟩
      refine (meanList_errorOf v fun x hx => ?_).congr ?_
      · obtain ⟨j, -, h4⟩ := hval x hx
        exact h4.1
      · rw [← heq]
        constructor
        · intro hz k hk j
          obtain rfl : k = 0 := by simpa using hk
          obtain ⟨x, h3, h4⟩ := hout j
          exact h4.2.1 (hz x (List.mem_of_getElem? h3))
        · intro hz x hx
          obtain ⟨j, -, h4⟩ := hval x hx
          exact h4.2.2 (hz 0 (by simp) j)
    · simp only [hf, if_false] at hall ⊢
      have hone' : ∀ v ∈ vals, v.length = 1 := by
        have : ¬ (vals.any (fun v => v.length != 1) = true) := fun hh => hone ⟨hf, hh⟩
        simpa using this
      have hout : ∀ k < vals.length, ∃ x, vals[k]? = some [x] ∧ ErrorOf x (∀ j, AgreeOn mode yt yp k j) := by
        intro k hk
        obtain ⟨v, hv, ho⟩ := hall k hk
        have hv1 := hone' v (List.mem_of_getElem? hv)
        cases mo with
        | raw =>
          obtain ⟨hd, ho⟩ := ho
          obtain ⟨x, rfl⟩ := List.length_eq_one_iff.1 hv1
          refine ⟨x, hv, ?_⟩
          have hd1 : d = 1 := by simpa using hd.symm
          subst hd1
          obtain ⟨x', hx', he⟩ := ho 0
          simp at hx'
          subst hx'
          exact he.congr (by simp)
        | uniform =>
          obtain ⟨x, rfl, he⟩ := ho
          exact ⟨x, hv, he⟩
        | weights u =>
          obtain ⟨x, rfl, he⟩ := ho
          exact ⟨x, hv, he⟩
      have hval : ∀ x ∈ vals.flatten, ∃ k < vals.length, vals[k]? = some [x] ∧ ErrorOf x (∀ j, AgreeOn mode yt yp k j) := by
        intro x hx
        obtain ⟨v, hv, hxv⟩ := List.mem_flatten.1 hx
        obtain ⟨k, hk⟩ := List.mem_iff_getElem?.1 hv
        have hkl := (List.getElem?_eq_some_iff.1 hk).1
        obtain ⟨x', h3, h4⟩ := hout k hkl
        rw [hk] at h3
        simp only [Option.some.injEq] at h3
        subst h3
        obtain rfl : x = x' := by simpa using hxv
        exact ⟨k, hkl, hk, h4⟩
      refine (meanList_errorOf _ fun x hx => ?_).congr ?_
      · obtain ⟨k, -, -, h4⟩ := hval x hx
        exact h4.1
      · rw [← heq]
        constructor
        · intro hz k hk
          obtain ⟨x, h3, h4⟩ := hout k hk
          exact h4.2.1 (hz x (List.mem_flatten.2 ⟨[x], List.mem_of_getElem? h3, by simp⟩))
        · intro hz x hx
          obtain ⟨k, hk, -, h4⟩ := hval x hx
          exact h4.2.2 (hz k hk)
  cases h
  simp only [Bool.false_eq_true, if_false]
  refine ⟨by linarith [key.1], ?_⟩
  rw [← key.2, mul_eq_zero]
  simp

/-- **C63 is false for `medae`.** Three samples of which one is predicted wrongly have a median absolute error of zero. -/
theorem C63_medae_violated : ∃ (yt yp : List (Row Int (Fin 1 → ℝ))), yt ≠ yp ∧ metricCall .medae .timeseries .id none .uniform yt yp = .ok [[0]] := by
  refine ⟨[⟨0, 0, fun _ => 0⟩, ⟨0, 1, fun _ => 0⟩, ⟨0, 2, fun _ => 0⟩], [⟨0, 0, fun _ => 0⟩, ⟨0, 1, fun _ => 0⟩, ⟨0, 2, fun _ => 1⟩], ?_, ?_⟩
  · intro h
    simp at h
    exact absurd (congrFun h 0) (by norm_num)
  · have hmed : median [0, 0, 1] = 0 := by
      unfold median
      rw [List.mergeSort_of_pairwise (by simp)]
      simp
    have hids : ids [⟨0, 0, ((fun _ => 0), fun _ => 0)⟩, ⟨0, 1, ((fun _ => 0), fun _ => 0)⟩, (⟨0, 2, ((fun _ => 0), fun _ => 1)⟩ : Row Int ((Fin 1 → ℝ) × (Fin 1 → ℝ)))] = [0] := by
      simp [ids, unique, insertU]
    simp [metricCall, pairRows, Row.key, scaleRow, metricBlocks, hids, withWeights, blockMetric, colMetric, hmed, meanList, pure, Except.pure]
    rfl

/-- **C63 is false for `l2_normalize`.** The prediction is divided by its own norm, so a prediction that is twice the truth has no error. -/
theorem C63_l2_normalize_violated : ∃ (yt yp : List (Row Int (Fin 1 → ℝ))), yt ≠ yp ∧ metricCall .mse .timeseries .l2Normalize none .uniform yt yp = .ok [[0]] := by
  refine ⟨[⟨0, 0, fun _ => 1⟩], [⟨0, 0, fun _ => 2⟩], ?_, ?_⟩
  · intro h
    simp at h
    exact absurd (congrFun h 0) (by norm_num)
  · simp [metricCall, pairRows, Row.key, scaleRow, metricBlocks, ids, unique, insertU, withWeights, blockMetric, colMetric, mseCol, wAverage, meanList, noZero, pure, Except.pure]
    rfl

/-- Non-vacuity of `C63_metric_partial` and `C63_score_partial`. -/
example : scoreCall .mse .timeseries .id none .uniform false ([⟨0, 0, fun _ => 1⟩] : List (Row Int (Fin 1 → ℝ))) [⟨0, 0, fun _ => 3⟩] = .ok (-4) := by
  simp [scoreCall, metricCall, pairRows, Row.key, scaleRow, metricBlocks, ids, unique, insertU, withWeights, blockMetric, colMetric, mseCol, wAverage, meanList, pure, Except.pure, Bind.bind, Except.bind]
  norm_num

/-! ## C117: combinations of metric and feature weights -/

/-- **C117 is false.** The documented array of feature weights is not accepted for two or more features by the metrics `l2`, `linf` and `rrmse`, whatever the data, and `max` is not
accepted for two or more features at all. -/
theorem C117_violated (hd : 2 ≤ d) (weighted : Bool) (w : Fin d → ℝ) (b : List (Sample d)) (mo : MultiOutput d) :
    (∃ e, blockMetric .l2 weighted (.weights w) b = .error e) ∧ (∃ e, blockMetric .linf weighted (.weights w) b = .error e) ∧
      (∃ e, blockMetric .rrmse weighted (.weights w) b = .error e) ∧ (∃ e, blockMetric .max weighted mo b = .error e) := by
  have h1 : d ≠ 1 := by omega
  refine ⟨⟨.shape, ?_⟩, ⟨.shape, ?_⟩, ?_, ⟨.multiOutput, ?_⟩⟩
  · simp [blockMetric, h1]
  · simp [blockMetric, h1]
  · unfold blockMetric rrmseMetric
    dsimp only
    split
    · exact ⟨_, rfl⟩
    · exact ⟨_, rfl⟩
  · simp [blockMetric, h1]

/-- **C117, the part that holds:** `mse`, `rmse`, `mae`, `mape` are returned for every block and every `multioutput`, with one value per column of the result. -/
theorem C117_accepts_partial (m : Metric) (hm : m = .mse ∨ m = .rmse ∨ m = .mae ∨ m = .mape) (weighted : Bool) (mo : MultiOutput d) (b : List (Sample d)) :
    ∃ v, blockMetric m weighted mo b = .ok v ∧ v.length = (match mo with | .raw => d | _ => 1) := by
  rcases hm with rfl | rfl | rfl | rfl <;> cases mo <;> simp [blockMetric]

/-! ## C118: the relative error of the zero prediction -/

/-- **C118, what is computed:** for the zero prediction without weights, the `rrmse` of a feature over `n` samples is `1 / sqrt n`. -/
theorem C118_rrmse_partial (b : List (Sample d)) (hw : ∀ s ∈ b, s.w = 1) (hp : ∀ s ∈ b, ∀ j, s.p j = 0) (v : List ℝ) (h : rrmseMetric .raw b = .ok v) (j : Fin d) :
    v[j.val]? = some (1 / Real.sqrt b.length) := by
  unfold rrmseMetric at h
  dsimp only at h
  split at h
  · cases h
  rename_i hn
  cases h
  push Not at hn
  rw [List.getElem?_eq_getElem (by simp), List.getElem_ofFn]
  have h1 : mseCol b j = rrmseNorm b j / b.length := by
    unfold mseCol wAverage rrmseNorm
    have e1 : ((b.map (fun s => (s.w, (s.y j - s.p j) ^ 2))).map (fun x => x.1 * x.2)) = b.map (fun s => s.y j ^ 2) := by
      rw [List.map_map]
      refine List.map_congr_left fun s hs => ?_
      simp [hw s hs, hp s hs j]
    have e2 : ((b.map (fun s => (s.w, (s.y j - s.p j) ^ 2))).map (·.1)) = b.map (fun _ => (1 : ℝ)) := by
      rw [List.map_map]
      refine List.map_congr_left fun s hs => ?_
      simp [hw s hs]
    rw [e1, e2]
    simp
  have hpos : 0 < rrmseNorm b j := lt_trans (by norm_num) (hn j)
  rw [h1, div_right_comm, div_self hpos.ne', Real.sqrt_div zero_le_one, Real.sqrt_one]

/-- **C118 is false:** with two or more samples the relative error of the zero prediction is not 1. -/
theorem C118_violated (b : List (Sample d)) (hw : ∀ s ∈ b, s.w = 1) (hp : ∀ s ∈ b, ∀ j, s.p j = 0) (hb : 2 ≤ b.length) (v : List ℝ)
    (h : rrmseMetric .raw b = .ok v) (j : Fin d) : v[j.val]? ≠ some 1 := by
  rw [C118_rrmse_partial b hw hp v h j]
  intro he
  simp only [one_div, Option.some.injEq, Real.sqrt_eq_one, inv_eq_one] at he
  have : b.length = 1 := by exact_mod_cast he
  omega

/-- Non-vacuity of C118: two samples with value 1. -/
example : ∃ v, rrmseMetric (d := 1) .raw [⟨1, fun _ => 1, fun _ => 0⟩, ⟨1, fun _ => 1, fun _ => 0⟩] = .ok v := by
  unfold rrmseMetric
  dsimp only
  rw [if_neg]
  · exact ⟨_, rfl⟩
  · simp [rrmseNorm]
    norm_num

end Verif.Tsc
