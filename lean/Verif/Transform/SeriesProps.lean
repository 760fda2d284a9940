import Verif.Transform.TakensProps
import Verif.Transform.MovingAverageProps
import Verif.Transform.FiniteDifferenceProps
import Verif.Tsc.StatesProps
/-!
# C225: every time series is processed on its own

Leaving time series out of a collection leaves the results for the other time series as they are.
-/

namespace Verif.Transform

open Verif.Tsc Verif.Np Verif.Takens

/-- The time series of a collection whose IDs are selected (`X.loc[ids]`, in the order of the collection). -/
def pick {τ V : Type} (S : Nat → Bool) (c : List (Row τ V)) : List (Row τ V) := c.filter (fun r => S r.id)

section lemmas

variable {τ V : Type} [LinearOrder τ] (S : Nat → Bool)

omit [LinearOrder τ] in
theorem pick_cons_pos {S : Nat → Bool} {r : Row τ V} (c : List (Row τ V)) (h : S r.id = true) : pick S (r :: c) = r :: pick S c := by
  unfold pick
  rw [List.filter_cons, if_pos h]

omit [LinearOrder τ] in
theorem pick_cons_neg {S : Nat → Bool} {r : Row τ V} (c : List (Row τ V)) (h : ¬ S r.id = true) : pick S (r :: c) = pick S c := by
  unfold pick
  rw [List.filter_cons, if_neg h]

omit [LinearOrder τ] in
theorem series_pick (c : List (Row τ V)) (i : Nat) : series (pick S c) i = if S i then series c i else [] := by
  unfold series pick
  rw [List.filter_filter]
  by_cases h : S i = true
  · rw [if_pos h]
    refine List.filter_congr (fun r _ => ?_)
    by_cases hr : r.id = i
    · simp [hr, h]
    · simp [hr]
  · rw [if_neg h]
    refine List.filter_eq_nil_iff.2 (fun r _ => ?_)
    by_cases hr : r.id = i
    · simp [hr, h]
    · simp [hr]

omit [LinearOrder τ] in
theorem hasId_pick (c : List (Row τ V)) (i : Nat) : HasId (pick S c) i ↔ HasId c i ∧ S i := by
  unfold HasId pick
  constructor
  · rintro ⟨r, hr, rfl⟩
    rw [List.mem_filter] at hr
    exact ⟨⟨r, hr.1, rfl⟩, hr.2⟩
  · rintro ⟨⟨r, hr, rfl⟩, h⟩
    exact ⟨r, List.mem_filter.2 ⟨hr, h⟩, rfl⟩

theorem ids_pick (c : List (Row τ V)) : ids (pick S c) = (ids c).filter S := by
  refine eq_of_pairwise_lt (ids_sorted _) ((ids_sorted c).sublist List.filter_sublist) (fun i => ?_)
  rw [mem_ids, hasId_pick, List.mem_filter, mem_ids]

theorem valid_pick {c : List (Row τ V)} (hv : Valid c) : Valid (pick S c) := hv.sublist List.filter_sublist

omit [LinearOrder τ] in
theorem pick_flatMap (is : List Nat) (f : Nat → List (Row τ V)) (hf : ∀ i ∈ is, ∀ r ∈ f i, r.id = i) : pick S (is.flatMap f) = (is.filter S).flatMap f := by
  induction is with
  | nil => rfl
  | cons i is ih =>
    unfold pick at ih ⊢
    rw [List.flatMap_cons, List.filter_append, ih (fun j hj => hf j (by simp [hj])), List.filter_cons]
    by_cases h : S i = true
    · rw [if_pos h, List.flatMap_cons, List.filter_eq_self.2 (fun r hr => by rw [hf i (by simp) r hr, h])]
    · rw [if_neg h, List.filter_eq_nil_iff.2 (fun r hr => by rw [hf i (by simp) r hr]; exact h), List.nil_append]

omit [LinearOrder τ] in
theorem pick_ne_nil {c : List (Row τ V)} (h : pick S c ≠ []) : c ≠ [] := by
  rintro rfl
  exact h rfl

theorem minTimesteps_pick {c : List (Row τ V)} (hne : pick S c ≠ []) {n : Int} (h : checkMinTimesteps c n = true) : checkMinTimesteps (pick S c) n = true := by
  rw [checkMinTimesteps_iff hne]
  rw [checkMinTimesteps_iff (pick_ne_nil S hne)] at h
  intro i hi
  obtain ⟨h1, h2⟩ := (hasId_pick S c i).1 hi
  rw [series_pick, if_pos h2]
  exact h i h1

omit [LinearOrder τ] in
theorem groupHead_pick (n : Nat) (c : List (Row τ V)) : ∀ seen seen' : List Nat, (∀ i, S i = true → seen.count i = seen'.count i) → pick S (groupHead n seen c) = groupHead n seen' (pick S c) := by
  induction c with
  | nil => intros; rfl
  | cons r c ih =>
    intro seen seen' hs
    have hs' : ∀ i, S i = true → (r.id :: seen).count i = (if S r.id then r.id :: seen' else seen').count i := fun i hi => by
      by_cases h : S r.id = true
      · rw [if_pos h, List.count_cons, List.count_cons, hs i hi]
      · rw [if_neg h, List.count_cons, hs i hi, if_neg]
        · rfl
        · intro e
          rw [beq_iff_eq] at e
          exact h (e ▸ hi)
    have := ih _ _ hs'
    have e1 : ∀ sn : List Nat, ∀ l : List (Row τ V), groupHead n sn (r :: l) = if sn.count r.id < n then r :: groupHead n (r.id :: sn) l else groupHead n (r.id :: sn) l := fun _ _ => rfl
    by_cases h : S r.id = true
    · rw [if_pos h] at this
      rw [e1, pick_cons_pos _ h, e1, ← hs _ h]
      by_cases hk : seen.count r.id < n
      · rw [if_pos hk, if_pos hk, pick_cons_pos _ h, this]
      · rw [if_neg hk, if_neg hk, this]
    · rw [if_neg h] at this
      rw [e1, pick_cons_neg _ h, ← this]
      split
      · rw [pick_cons_neg _ h]
      · rfl

theorem count_pick (c : List (Row τ V)) {i : Nat} (h : S i = true) : ((pick S c).map (·.id)).count i = (c.map (·.id)).count i := by
  rw [count_eq_length_series, count_eq_length_series, series_pick, if_pos h]

theorem groupTail_pick (n : Nat) (c : List (Row τ V)) : pick S (groupTail n c) = groupTail n (pick S c) := by
  induction c with
  | nil => rfl
  | cons r c ih =>
    have e1 : ∀ l : List (Row τ V), groupTail n (r :: l) = if (l.map (·.id)).count r.id < n then r :: groupTail n l else groupTail n l := fun _ => rfl
    by_cases h : S r.id = true
    · rw [e1, pick_cons_pos _ h, e1, count_pick S c h]
      split
      · rw [pick_cons_pos _ h, ih]
      · exact ih
    · rw [e1, pick_cons_neg _ h, ← ih]
      split
      · rw [pick_cons_neg _ h]
      · rfl

theorem regular_pick {c : List (Row Int V)} {d : Int} (h : ∀ i, HasId c i → Regular (timesOf c i) d) : ∀ i, HasId (pick S c) i → Regular (timesOf (pick S c) i) d := by
  intro i hi
  obtain ⟨h1, h2⟩ := (hasId_pick S c i).1 hi
  have := h i h1
  unfold timesOf at this ⊢
  rwa [series_pick, if_pos h2]

theorem deltaTime_pick {c : List (Row Int V)} (hv : Valid c) (hm : ModerateSteps c) (hne : pick S c ≠ []) {d : Int} (h : deltaTime .int c = .one (some d)) : deltaTime .int (pick S c) = .one (some d) :=
  C11_regular hne (valid_pick S hv) .int (regular_pick S ((C11_int_partial (pick_ne_nil S hne) hv hm d).1 h))

theorem constDelta_pick {c : List (Row Int V)} (hv : Valid c) (hm : ModerateSteps c) (hne : pick S c ≠ []) (h : isConstDeltaTime .int c = true) : isConstDeltaTime .int (pick S c) = true := by
  unfold isConstDeltaTime at h ⊢
  match hd : deltaTime .int c with
  | .per l => rw [hd] at h; exact Bool.noConfusion h
  | .one none => rw [hd] at h; exact Bool.noConfusion h
  | .one (some d) => rw [deltaTime_pick S hv hm hne hd]; rfl

omit [LinearOrder τ] in
theorem content_pick (c : List (Row τ V)) {i : Nat} (h : S i = true) : content (pick S c) i = content c i := by
  unfold content
  rw [series_pick, if_pos h]

end lemmas

variable {τ V : Type} [LinearOrder τ] {α : Type}

/-- C225 for `initial_states`. -/
theorem C225_initial (S : Nat → Bool) {c d : List (Row τ V)} {n : Int} (h : initialStates c n = .ok d) (hne : pick S c ≠ []) : initialStates (pick S c) n = .ok (pick S d) := by
  unfold initialStates at h ⊢
  by_cases h1 : n < 1
  · rw [if_pos h1] at h; exact nomatch h
  rw [if_neg h1] at h ⊢
  cases hm : checkMinTimesteps c n with
  | false => rw [hm] at h; exact nomatch h
  | true =>
    rw [hm] at h
    rw [minTimesteps_pick S hne hm]
    obtain ⟨rfl, -, hv⟩ := build_ok_iff.1 h
    change build _ = _
    rw [← groupHead_pick S n.toNat c [] [] (fun _ _ => rfl)]
    refine build_ok_of_valid (valid_pick S hv) (fun he => ?_)
    rw [groupHead_pick S n.toNat c [] [] (fun _ _ => rfl)] at he
    obtain ⟨r, l, hr⟩ := List.ne_nil_iff_exists_cons.1 hne
    rw [hr] at he
    unfold groupHead at he
    rw [if_pos (by rw [List.count_nil]; omega)] at he
    exact nomatch he

/-- C225 for `final_states`. -/
theorem C225_final (S : Nat → Bool) {c d : List (Row τ V)} {n : Int} (h : finalStates c n = .ok d) (hne : pick S c ≠ []) : finalStates (pick S c) n = .ok (pick S d) := by
  unfold finalStates at h ⊢
  by_cases h1 : n < 1
  · rw [if_pos h1] at h; exact nomatch h
  rw [if_neg h1] at h ⊢
  cases hm : checkMinTimesteps c n with
  | false => rw [hm] at h; exact nomatch h
  | true =>
    rw [hm] at h
    rw [minTimesteps_pick S hne hm]
    obtain ⟨rfl, -, hv⟩ := build_ok_iff.1 h
    change build _ = _
    rw [← groupTail_pick S n.toNat c]
    refine build_ok_of_valid (valid_pick S hv) (fun he => ?_)
    obtain ⟨r, hr⟩ := List.exists_mem_of_ne_nil _ hne
    have h2 := congrArg (fun l => (series l r.id).length) he
    rw [groupTail_pick] at h2
    simp only [series_groupTail] at h2
    have h3 : 0 < (series (pick S c) r.id).length := List.length_pos_of_mem (mem_series.2 ⟨hr, rfl⟩)
    rw [List.length_drop] at h2
    change _ = 0 at h2
    omega

/-- C225 for `drop_last_n_samples` (as long as samples are left). -/
theorem C225_drop_last (S : Nat → Bool) {c d : List (Row τ V)} {n : Nat} (h : dropLastN c n = .ok d) (hne : pick S d ≠ []) : dropLastN (pick S c) n = .ok (pick S d) := by
  unfold dropLastN at h ⊢
  cases hm : checkMinTimesteps c n with
  | false => rw [hm] at h; exact nomatch h
  | true =>
    rw [hm] at h
    obtain ⟨rfl, -, hv'⟩ := build_ok_iff.1 h
    have hne' : pick S c ≠ [] := by
      intro e
      refine hne (List.filter_eq_nil_iff.2 (fun r hr => ?_))
      exact List.filter_eq_nil_iff.1 e r (List.mem_filter.1 hr).1
    rw [minTimesteps_pick S hne' hm]
    change build _ = _
    have e : dropKeys (pick S c) ((groupTail n (pick S c)).map (·.key)) = pick S (dropKeys c ((groupTail n c).map (·.key))) := by
      rw [← groupTail_pick]
      unfold dropKeys pick
      rw [List.filter_filter, List.filter_filter]
      refine List.filter_congr (fun r hr => ?_)
      by_cases hS : S r.id = true
      · rw [hS, Bool.and_true, Bool.true_and]
        congr 1
        rw [Bool.eq_iff_iff, List.contains_iff_mem, List.contains_iff_mem, List.mem_map, List.mem_map]
        constructor
        · rintro ⟨q, hq, e⟩
          exact ⟨q, (List.mem_filter.1 hq).1, e⟩
        · rintro ⟨q, hq, e⟩
          exact ⟨q, List.mem_filter.2 ⟨hq, by rw [show q.id = r.id from congrArg Key.id e]; exact hS⟩, e⟩
      · rw [Bool.not_eq_true] at hS
        rw [hS, Bool.and_false, Bool.false_and]
    rw [e]
    exact build_ok_of_valid (valid_pick S hv') hne

/-- A collection sampled with one interval. -/
def Sampled {V : Type} (δ : Int) (c : List (Row Int V)) : Prop := ∀ i, HasId c i → Regular (timesOf c i) δ

/-- C225 for `TSCTakensEmbedding.transform`. -/
theorem C225_takens [Mul α] (S : Nat → Bool) (f : Fitted) (w : Option (Nat → α)) (k : TimeKind) {X Y : Frame α} {δ : Int} (hv : Valid X.rows) (hδ : Sampled δ X.rows)
    (h : transform f w k X = .ok Y) (hne : pick S Y.rows ≠ []) : transform f w k ⟨X.cols, pick S X.rows⟩ = .ok ⟨Y.cols, pick S Y.rows⟩ := by
  obtain ⟨h1, h2, h3, h4, h5, h6⟩ := (transform_eq f w k X Y).1 h
  obtain ⟨e, -, hvY⟩ := build_ok_iff.1 h5
  have hid : ∀ i ∈ ids X.rows, ∀ r ∈ takensSeries f.delays (kappaVec w f.delays.length f.cols.length) ((content X.rows i).map (fun q => (⟨i, q.1, q.2⟩ : Row Int (List α)))), r.id = i := by
    intro i _ r hr
    unfold takensSeries at hr
    simp only at hr
    obtain ⟨n, hn, rfl⟩ := List.mem_iff_getElem.1 hr
    rw [List.getElem_zipWith]
    simp
  have hpick : pick S Y.rows = outRows f w ⟨X.cols, pick S X.rows⟩ := by
    rw [← e]
    unfold outRows
    rw [pick_flatMap S _ _ hid, ids_pick]
    refine List.flatMap_congr (fun i hi => ?_)
    rw [content_pick S _ (List.mem_filter.1 hi).2]
  have hneX : pick S X.rows ≠ [] := by
    intro e'
    rw [hpick] at hne
    unfold outRows at hne
    simp only [e'] at hne
    exact hne rfl
  rw [transform_eq]
  refine ⟨?_, minTimesteps_pick S hneX h2, h3, h4, ?_, h6⟩
  · rw [C11_regular hneX (valid_pick S hv) k (regular_pick S hδ), ← C11_regular (pick_ne_nil S hneX) hv k hδ, h1]
  · rw [← hpick]
    exact build_ok_of_valid (valid_pick S (e ▸ hvY)) hne

/-- C225 for `TSCMovingAverage` (as long as one of the selected time series has as many samples as the window). -/
theorem C225_moving_average [Add α] [Div α] [NatCast α] (S : Nat → Bool) (w : Int) (k : TimeKind) {X Y : Frame α} {δ : Int} (hv : Valid X.rows) (hδ : Sampled δ X.rows)
    (h : movingAverage w k X = .ok Y) (hne : pick S Y.rows ≠ []) : movingAverage w k ⟨X.cols, pick S X.rows⟩ = .ok ⟨Y.cols, pick S Y.rows⟩ := by
  unfold movingAverage at h ⊢
  by_cases h1 : w < 1
  · rw [if_pos h1] at h; exact nomatch h
  rw [if_neg h1] at h ⊢
  by_cases h2 : X.rows.length < w.toNat
  · rw [if_pos h2] at h; exact nomatch h
  rw [if_neg h2] at h
  cases hc : isConstDeltaTime k X.rows with
  | false => rw [hc] at h; exact nomatch h
  | true =>
    rw [hc] at h
    simp only [Bool.not_true, Bool.false_eq_true, if_false] at h
    have hiter : ∀ c : List (Row Int (List α)), (itertimeseries c).flatMap (fun p => (rollingMean w.toNat p.2).map (fun q => (⟨p.1, q.1, q.2⟩ : Row Int (List α)))) =
        (ids c).flatMap (fun i => (rollingMean w.toNat (content c i)).map (fun q => ⟨i, q.1, q.2⟩)) := fun c => by
      unfold itertimeseries
      rw [List.flatMap_map]
      rfl
    rw [hiter] at h
    cases hb : build ((ids X.rows).flatMap (fun i => (rollingMean w.toNat (content X.rows i)).map (fun q => (⟨i, q.1, q.2⟩ : Row Int (List α))))) with
    | error e => rw [hb] at h; exact nomatch h
    | ok rows =>
      rw [hb] at h
      injection h with h
      subst h
      obtain ⟨rfl, -, hvY⟩ := build_ok_iff.1 hb
      have hpick : ∀ c : List (Row Int (List α)), pick S ((ids c).flatMap (fun i => (rollingMean w.toNat (content c i)).map (fun q => (⟨i, q.1, q.2⟩ : Row Int (List α))))) =
          (ids (pick S c)).flatMap (fun i => (rollingMean w.toNat (content (pick S c) i)).map (fun q => ⟨i, q.1, q.2⟩)) := by
        intro c
        rw [pick_flatMap S _ _ (by
          intro i _ r hr
          obtain ⟨q, -, rfl⟩ := List.mem_map.1 hr
          rfl), ids_pick]
        refine List.flatMap_congr (fun i hi => ?_)
        rw [content_pick S _ (List.mem_filter.1 hi).2]
      have hlen : ¬ (pick S X.rows).length < w.toNat := by
        intro hlt
        refine hne ?_
        rw [hpick, List.flatMap_eq_nil_iff]
        intro i _
        have : (content (pick S X.rows) i).length ≤ (pick S X.rows).length := by
          unfold content series
          rw [List.length_map]
          exact List.length_filter_le _ _
        unfold rollingMean
        rw [show (content (pick S X.rows) i).length + 1 - w.toNat = 0 by omega]
        rfl
      have hneX : pick S X.rows ≠ [] := by
        intro e
        rw [e] at hlen
        simp at hlen
        omega
      have hcd : isConstDeltaTime k (pick S X.rows) = true := by
        unfold isConstDeltaTime
        rw [C11_regular hneX (valid_pick S hv) k (regular_pick S hδ)]
        rfl
      rw [if_neg hlen, hcd]
      simp only [Bool.not_true, Bool.false_eq_true, if_false]
      rw [hiter, ← hpick, build_ok_of_valid (valid_pick S hvY) hne]

/-- C225 for `time_derivative`. -/
theorem C225_derivative {ι : Type} (S : Nat → Bool) (scheme : Scheme) (st : Stencil) (q : Nat) (shift : Bool) {c d : List (Row Int (ι → ℝ))} {δ : Int} (hv : Valid c) (hδ : Sampled δ c)
    (h : timeDerivative scheme st q shift c = .ok d) (hne : pick S c ≠ []) : timeDerivative scheme st q shift (pick S c) = .ok (pick S d) := by
  have hc := pick_ne_nil S hne
  have hv' := valid_pick S hv
  rw [derivative_regular hc hv scheme st q shift hδ] at h
  rw [derivative_regular hne hv' scheme st q shift (regular_pick S hδ)]
  obtain ⟨h1, h2⟩ := fdFrames_ok hc hv scheme st q shift (δ : ℝ)
  obtain ⟨h3, h4⟩ := fdFrames_ok hne hv' scheme st q shift (δ : ℝ)
  obtain ⟨d', hd'⟩ := h3.2 (fun i hi => by
    obtain ⟨a, b⟩ := (hasId_pick S c i).1 hi
    rw [series_pick, if_pos b]
    exact h1.1 ⟨d, h⟩ i a)
  obtain ⟨a1, a2, -, a4, -⟩ := h2 d h
  obtain ⟨b1, b2, -, b4, -⟩ := h4 d' hd'
  rw [hd']
  congr 1
  rw [← b1.eq_flatMap, b2]
  conv_rhs => rw [← a1.eq_flatMap, a2]
  rw [pick_flatMap S _ _ (fun i _ r hr => (mem_series.1 hr).2), ids_pick]
  refine List.flatMap_congr (fun i hi => ?_)
  rw [List.mem_filter, mem_ids] at hi
  rw [series_eq_content, series_eq_content, b4 i ((hasId_pick S c i).2 hi), a4 i hi.1, content_pick S _ hi.2]

/-- C225 for `TSCFiniteDifference.transform`. -/
theorem C225_finite_difference {ι : Type} (S : Nat → Bool) (coef : Nat → Nat → Scheme → Stencil) (p : FdParams) (f : FdFit) {cols : List String} (hcols : cols ≠ [])
    {c : List (Row Int (ι → ℝ))} {r : List String × List (Row Int (ι → ℝ))} (hv : Valid c) (hm : ModerateSteps c) (hf : f.spacing.natAbs < 10 ^ 12 - 1)
    (h : fdTransform coef p f cols c = .ok r) (hne : pick S c ≠ []) : fdTransform coef p f cols (pick S c) = .ok (r.1, pick S r.2) := by
  have hc := pick_ne_nil S hne
  have hm' : ModerateSteps (pick S c) := by
    intro i
    by_cases hi : S i = true
    · have := hm i
      unfold timesOf at this ⊢
      rwa [series_pick, if_pos hi]
    · unfold timesOf
      rw [series_pick, if_neg hi]
      simp [consecutive]
  obtain ⟨h1, h2⟩ := C186_transform hc hv hm hcols p f hf coef rfl
  obtain ⟨h3, h4⟩ := C186_transform hne (valid_pick S hv) hm' hcols p f hf coef rfl
  obtain ⟨e1, e2, e3⟩ := h1.1 ⟨r, h⟩
  obtain ⟨r', hr'⟩ := h3.2 ⟨e1, regular_pick S e2, fun i hi => by
    obtain ⟨a, b⟩ := (hasId_pick S c i).1 hi
    rw [series_pick, if_pos b]
    exact e3 i a⟩
  rw [hr']
  have g1 := h2 r h
  have g2 := h4 r' hr'
  have g3 := C225_derivative S p.scheme _ p.order.toNat true hv e2 g1.2 hne
  rw [g2.2] at g3
  injection g3 with g3
  rw [← g3, g1.1, ← g2.1]

/-- C225 for `TSCApplyLambdas` with functions of single values. -/
theorem C225_lambdas [Inhabited α] (S : Nat → Bool) (gs : List (α → α)) {X Y : Frame α} (h : applyLambdas (gs.map List.map) X = .ok Y) :
    applyLambdas (gs.map List.map) ⟨X.cols, pick S X.rows⟩ = .ok ⟨Y.cols, pick S Y.rows⟩ := by
  have key : ∀ Z : Frame α, Z.cols = X.cols → applyLambdas (gs.map List.map) Z = .ok ⟨lambdaCols X.cols gs.length,
      Z.rows.map (fun r => { r with val := gs.flatMap (fun g => X.cols.map (fun c => g (r.val.getD (X.cols.idxOf c) default))) })⟩ := by
    intro Z hZ
    unfold applyLambdas at h ⊢
    rw [List.length_map] at h ⊢
    rw [hZ]
    by_cases hn : (lambdaCols X.cols gs.length).Nodup
    · rw [if_neg (not_not.2 hn)]
      simp only
      congr 2
      refine List.ext_getElem (by simp) (fun q h1 h2 => ?_)
      have hq : q < Z.rows.length := by simpa using h2
      simp only [List.getElem_map, List.getElem_zipIdx, Nat.zero_add]
      congr 1
      rw [List.flatMap_map, List.map_flatMap]
      refine List.flatMap_congr (fun g _ => ?_)
      rw [List.map_map]
      refine List.map_congr_left (fun c _ => ?_)
      simp only [Function.comp, column]
      rw [List.getD_eq_getElem?_getD, List.getElem?_eq_getElem (by simpa using hq), Option.getD_some, List.getElem_map, List.getElem_map, hZ]
    · rw [if_pos hn] at h
      exact nomatch h
  rw [key X rfl] at h
  injection h with h
  subst h
  rw [key ⟨X.cols, pick S X.rows⟩ rfl]
  congr 2
  unfold pick
  rw [List.filter_map]
  rfl

/-- A function that needs the whole column sees the other time series: the running sum of the second time series starts with the sum of the first. -/
example : (applyLambdas [fun l => (l.foldl (fun p x => (p.1 + x, p.2 ++ [p.1 + x])) ((0 : Int), [])).2] ⟨["a"], [⟨0, 0, [1]⟩, ⟨0, 1, [2]⟩, ⟨1, 0, [5]⟩]⟩ : Except ColErr (Frame Int)) =
    .ok ⟨["a_lambda0"], [⟨0, 0, [1]⟩, ⟨0, 1, [3]⟩, ⟨1, 0, [8]⟩]⟩ := by decide +kernel

/-! ## Examples -/

/-- Two time series. -/
def exPick : Frame Rat := ⟨["x"], [⟨4, 0, [1]⟩, ⟨4, 1, [2]⟩, ⟨4, 2, [6]⟩, ⟨1, 3, [1]⟩, ⟨1, 4, [1]⟩]⟩

example : Valid exPick.rows ∧ Sampled 1 exPick.rows ∧ pick (· == 4) exPick.rows = exPick.rows.take 3 := by
  refine ⟨?_, ?_, by decide +kernel⟩
  · rw [valid_iff]
    exact ⟨by decide, by unfold Before; decide +kernel⟩
  · rintro i ⟨r, hr, rfl⟩
    simp only [exPick, List.mem_cons, List.not_mem_nil, or_false] at hr
    rcases hr with rfl | rfl | rfl | rfl | rfl <;> simp [Regular, timesOf, series, exPick, consecutive]

example : ∃ f Y, fit ⟨0, 1, 1⟩ .int exPick = .ok f ∧ transform f none .int exPick = .ok Y ∧ pick (· == 4) Y.rows ≠ [] :=
  ⟨⟨[1], ["x"], .one (some 1)⟩, ⟨["x", "x:d1"], [⟨1, 4, [1, 1]⟩, ⟨4, 1, [2, 1]⟩, ⟨4, 2, [6, 2]⟩]⟩, by decide +kernel, by decide +kernel, by decide +kernel⟩

example : ∃ Y, movingAverage 2 .int exPick = .ok Y ∧ pick (· == 4) Y.rows ≠ [] :=
  ⟨⟨["x_ma2"], [⟨1, 4, [1]⟩, ⟨4, 1, [3 / 2]⟩, ⟨4, 2, [4]⟩]⟩, by decide +kernel, by decide +kernel⟩

/-- The window does not fit into the selected time series alone, although it fits into the collection: refused. -/
example : ∃ Y, movingAverage 3 .int exPick = .ok Y ∧ pick (· == 1) Y.rows = [] ∧ movingAverage 3 .int ⟨["x"], pick (· == 1) exPick.rows⟩ = .error .minSamples :=
  ⟨⟨["x_ma3"], [⟨4, 2, [3]⟩]⟩, by decide +kernel, by decide +kernel, by decide +kernel⟩

example : ∃ d e g, initialStates exPick.rows 2 = .ok d ∧ finalStates exPick.rows 2 = .ok e ∧ dropLastN exPick.rows 1 = .ok g ∧ pick (· == 4) g ≠ [] :=
  ⟨[⟨4, 0, [1]⟩, ⟨4, 1, [2]⟩, ⟨1, 3, [1]⟩, ⟨1, 4, [1]⟩], [⟨4, 1, [2]⟩, ⟨4, 2, [6]⟩, ⟨1, 3, [1]⟩, ⟨1, 4, [1]⟩], [⟨4, 0, [1]⟩, ⟨4, 1, [2]⟩, ⟨1, 3, [1]⟩], by decide +kernel, by decide +kernel, by decide +kernel, by decide +kernel⟩

example : (∃ r, fdTransform (fun _ _ _ => [(0, -1), (1, 1)]) ⟨.dt, .forward, 1, 1⟩ ⟨2, ["x"]⟩ ["x"] fdData = .ok r) ∧ pick (· == 1) fdData ≠ [] := by
  have hne : fdData ≠ [] := by simp [fdData]
  refine ⟨(C186_transform hne fdData_valid fdData_moderate (by simp) _ _ (by decide) _ rfl).1.2 ⟨rfl, fdData_regular, ?_⟩, by simp [pick, fdData]⟩
  rintro i ⟨r, hr, rfl⟩
  simp only [fdData, List.mem_cons, List.not_mem_nil, or_false] at hr
  rcases hr with rfl | rfl | rfl | rfl | rfl <;> simp [startSample, endSamples, series, fdData]

end Verif.Transform
