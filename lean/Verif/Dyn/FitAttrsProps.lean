import Verif.Dyn.FitAttrs
import Verif.Tsc.CheckProps
/-!
# C137: what a model accepts in `fit`, and what it remembers
-/

namespace Verif.Dyn

open Verif.Tsc

variable {N V W : Type} [DecidableEq N]

/-! ### Specification -/

/-- Every series is sampled with interval `d`. -/
def SampledWith (c : List (Row Int V)) (d : Int) : Prop := ∀ i, HasId c i → Regular (timesOf c i) d

/-- All time values of the collection are on a common grid with interval `d`. -/
def CommonGrid (c : List (Row Int V)) (d : Int) : Prop := ∀ r ∈ c, ∀ s ∈ c, d ∣ r.time - s.time

/-- A control row for every state but the last of each series (every state if `reqLast`). -/
def ControlMatches (reqLast : Bool) (c : List (Row Int V)) (u : List (Row Int W)) : Prop :=
  if reqLast then c.map (·.key) = u.map (·.key) else ∃ d, dropLastN c 1 = .ok d ∧ d.map (·.key) = u.map (·.key)

/-! ### Lemmas -/

theorem maxTime_mem {c : List (Row Int V)} (hc : c ≠ []) : ∃ r ∈ c, r.time = (timeValues c).getLastD 0 := by
  have hmem : ∀ t, t ∈ timeValues c ↔ ∃ r ∈ c, r.time = t := by intro t; simp [timeValues, Verif.Np.mem_unique]
  obtain ⟨r0, l, rfl⟩ := List.ne_nil_iff_exists_cons.1 hc
  have hne : timeValues (r0 :: l) ≠ [] := List.ne_nil_of_mem ((hmem r0.time).2 ⟨r0, by simp, rfl⟩)
  refine (hmem _).1 ?_
  rw [List.getLastD_eq_getLast?, List.getLast?_eq_some_getLast hne]
  exact List.getLast_mem hne

theorem onGrid_of_dvd {c : List (Row Int V)} {d : Int} (h0 : d ≠ 0) (h : d ∣ (timeValues c).getLastD 0 - minTime c) : onGrid c d = true := by
  obtain ⟨m, hm⟩ := h
  unfold onGrid
  have hd : (d : Rat) ≠ 0 := by exact_mod_cast h0
  simp only [hm, Int.cast_mul, mul_div_cancel_left₀ _ hd, round_intCast, sub_self, abs_zero, decide_eq_true_eq]
  norm_num

theorem onGrid_iff {c : List (Row Int V)} {d : Int} (h0 : 0 < d) (hd : d < 200000) : onGrid c d = true ↔ d ∣ (timeValues c).getLastD 0 - minTime c := by
  refine ⟨fun h => ?_, onGrid_of_dvd h0.ne'⟩
  unfold onGrid at h
  rw [decide_eq_true_eq] at h
  generalize (timeValues c).getLastD 0 - minTime c = m at h ⊢
  generalize round ((m : Rat) / (d : Rat)) = z at h
  have hd0 : (0 : Rat) < d := by exact_mod_cast h0
  have h1 : |(m : Rat) - z * d| ≤ d / 200000 := by
    have e : (m : Rat) - z * d = (m / d - z) * d := by field_simp
    rw [e, abs_mul, abs_of_pos hd0]
    calc |(m : Rat) / d - z| * d ≤ 1 / 200000 * d := mul_le_mul_of_nonneg_right h hd0.le
      _ = d / 200000 := by ring
  have h2 : |(m : Rat) - z * d| < 1 := by
    refine lt_of_le_of_lt h1 ?_
    rw [div_lt_one (by norm_num)]
    exact_mod_cast hd
  have h3 : |m - z * d| < 1 := by exact_mod_cast h2
  have h4 : m - z * d = 0 := Int.abs_lt_one_iff.1 h3
  exact ⟨z, by linarith⟩

theorem controlFits_iff (reqLast : Bool) (t : TrainData N V W) : controlFits reqLast t = true ↔ ∀ u, t.control = some u → ControlMatches reqLast t.X u.2 := by
  unfold controlFits ControlMatches
  cases t.control with
  | none => simp
  | some u =>
    cases reqLast with
    | true => simp
    | false => cases dropLastN t.X 1 <;> simp

theorem setupAttrs_ok {k : TimeKind} {reqLast : Bool} {a : FitAttrs N} {t : TrainData N V W} {u : Unit} {b : FitAttrs N} :
    setupAttrs k reqLast a t = (.ok u, b) ↔ controlFits reqLast t = true ∧ (∃ d, deltaTime k t.X = .one (some d) ∧ onGrid t.X d = true) ∧
      b = ⟨some t.cols, (t.control.map (·.1)).or a.control, some (deltaTime k t.X)⟩ := by
  unfold setupAttrs
  cases h1 : controlFits reqLast t with
  | false => simp
  | true =>
    cases h2 : deltaTime k t.X with
    | per l => simp
    | one o =>
      cases o with
      | none => simp
      | some d =>
        have e : (∃ d', (PerId.one (some d) : PerId (Option Int)) = .one (some d') ∧ onGrid t.X d' = true) ↔ onGrid t.X d = true := by
          constructor
          · rintro ⟨d', h, h'⟩
            injection h with h; injection h with h
            rw [h]; exact h'
          · intro h; exact ⟨d, rfl, h⟩
        rw [e]
        cases h3 : onGrid t.X d with
        | false => simp [h3]
        | true =>
          simp only [Bool.true_eq_false, if_false, h3, if_true, Prod.mk.injEq, true_and]
          exact eq_comm

theorem fitModel_ok {k : TimeKind} {reqLast later : Bool} {m m' : FitModel N V W} {t : TrainData N V W} {u : Unit} :
    fitModel k reqLast later m t = (.ok u, m') ↔ later = true ∧ controlFits reqLast t = true ∧ (∃ d, deltaTime k t.X = .one (some d) ∧ onGrid t.X d = true) ∧
      m' = ⟨⟨some t.cols, (t.control.map (·.1)).or m.attrs.control, some (deltaTime k t.X)⟩, some t⟩ := by
  unfold fitModel
  cases h0 : isConstDeltaTime k t.X with
  | false =>
    simp only [if_true, Prod.mk.injEq, reduceCtorEq, false_and, false_iff]
    rintro ⟨-, -, ⟨d, hd, -⟩, -⟩
    rw [isConstDeltaTime, hd] at h0
    simp at h0
  | true =>
    rw [if_neg (by simp)]
    cases h1 : setupAttrs k reqLast m.attrs t with
    | mk r a =>
      cases r with
      | error e =>
        simp only [Prod.mk.injEq, reduceCtorEq, false_and, false_iff]
        rintro ⟨-, h2, h3, -⟩
        have := (setupAttrs_ok (u := ()) (a := m.attrs) (k := k)).2 ⟨h2, h3, rfl⟩
        rw [h1] at this
        cases this
      | ok v =>
        have h2 := setupAttrs_ok.1 h1
        cases later with
        | false => simp
        | true =>
          simp only [if_true, Prod.mk.injEq, true_and]
          rw [h2.2.2]
          constructor
          · intro h; exact ⟨h2.1, h2.2.1, h.symm⟩
          · intro h; exact h.2.2.symm

/-! ### C137 -/

/-- **C137 (partial).** For integer time values with moderate intervals `fit` accepts training data if all time values are on the grid of the sampling interval and each state has its control; it
accepts no data with varying intervals or missing or surplus control.  Missing: series that do not lie on a common grid (`C137_offset_violated`). -/
theorem C137_fit_partial {t : TrainData N V W} (hc : t.X ≠ []) (hv : Valid t.X) (hm : ModerateSteps t.X) (reqLast : Bool) (m : FitModel N V W) :
    ((∃ d, SampledWith t.X d ∧ CommonGrid t.X d) ∧ (∀ u, t.control = some u → ControlMatches reqLast t.X u.2) → (fitModel .int reqLast true m t).1 = .ok ()) ∧
      ((fitModel .int reqLast true m t).1 = .ok () → (∃ d, SampledWith t.X d) ∧ ∀ u, t.control = some u → ControlMatches reqLast t.X u.2) := by
  constructor
  · rintro ⟨⟨d, hs, hg⟩, hu⟩
    have hd : deltaTime .int t.X = .one (some d) := C11_regular hc hv .int hs
    obtain ⟨r, hr, er⟩ := maxTime_mem hc
    obtain ⟨-, s, hsm, es⟩ := minTime_spec hc
    have hpos : 0 < d := regular_pos hv (hs s.id ⟨s, hsm, rfl⟩)
    have h := (fitModel_ok (u := ()) (m := m) (reqLast := reqLast) (later := true) (k := .int) (t := t)).2
      ⟨rfl, (controlFits_iff reqLast t).2 hu, ⟨d, hd, onGrid_of_dvd hpos.ne' (by rw [← er, ← es]; exact hg r hr s hsm)⟩, rfl⟩
    rw [h]
  · intro h
    have h' := (fitModel_ok (m := m)).1 (Prod.ext h rfl : fitModel .int reqLast true m t = (.ok (), (fitModel .int reqLast true m t).2))
    obtain ⟨-, h1, ⟨d, hd, -⟩, -⟩ := h'
    exact ⟨⟨d, (C11_int_partial hc hv hm d).1 hd⟩, (controlFits_iff reqLast t).1 h1⟩

/-- **C137, exact condition.** Without control and for intervals below 200000 the data must be constantly sampled with an interval that divides the difference between the last and the
first time value of the whole collection. -/
theorem C137_fit_condition {t : TrainData N V W} (hc : t.X ≠ []) (hv : Valid t.X) (hb : ∀ i, ∀ p ∈ consecutive (timesOf t.X i), p.2 - p.1 < 200000) (hu : t.control = none) (m : FitModel N V W) :
    (fitModel .int false true m t).1 = .ok () ↔
      ∃ d, SampledWith t.X d ∧ ∀ r ∈ t.X, ∀ s ∈ t.X, (∀ q ∈ t.X, q.time ≤ r.time ∧ s.time ≤ q.time) → d ∣ r.time - s.time := by
  have hm : ModerateSteps t.X := fun i p hp => lt_trans (hb i p hp) (by norm_num)
  obtain ⟨r, hr, er⟩ := maxTime_mem hc
  obtain ⟨hmin, s, hsm, es⟩ := minTime_spec hc
  have hmax : ∀ q ∈ t.X, q.time ≤ r.time := by
    intro q hq
    have hmem : ∀ x, x ∈ timeValues t.X ↔ ∃ r ∈ t.X, r.time = x := by intro x; simp [timeValues, Verif.Np.mem_unique]
    have hs : (timeValues t.X).Pairwise (· < ·) := Verif.Np.unique_pairwise _
    have hq' := (hmem q.time).2 ⟨q, hq, rfl⟩
    have hne := List.ne_nil_of_mem hq'
    rw [List.getLastD_eq_getLast?, List.getLast?_eq_some_getLast hne, Option.getD_some] at er
    rw [er]
    rcases List.mem_iff_getElem.1 hq' with ⟨i, hi, e⟩
    rw [← e, List.getLast_eq_getElem]
    by_cases h : i = (timeValues t.X).length - 1
    · subst h; exact le_rfl
    · exact ((List.pairwise_iff_getElem.1 hs) i _ hi (by omega) (by omega)).le
  have hlt : ∀ d, SampledWith t.X d → 0 < d ∧ d < 200000 := by
    intro d hd
    have h1 := hd s.id ⟨s, hsm, rfl⟩
    refine ⟨regular_pos hv h1, ?_⟩
    obtain ⟨h2, h3⟩ := h1
    match hl : timesOf t.X s.id with
    | [] => rw [hl] at h2; simp at h2
    | [_] => rw [hl] at h2; simp at h2
    | a :: b :: l =>
      have hmem : (a, b) ∈ consecutive (timesOf t.X s.id) := by rw [hl]; simp [consecutive]
      have := h3 _ hmem
      rw [← this]
      exact hb _ _ hmem
  constructor
  · intro h
    have h' := (fitModel_ok (m := m)).1 (Prod.ext h rfl : fitModel .int false true m t = (.ok (), (fitModel .int false true m t).2))
    obtain ⟨-, -, ⟨d, hd, hg⟩, -⟩ := h'
    have hs := (C11_int_partial hc hv hm d).1 hd
    refine ⟨d, hs, ?_⟩
    intro r' hr' s' hs' hall
    have := (onGrid_iff (hlt d hs).1 (hlt d hs).2).1 hg
    have e1 : r'.time = r.time := le_antisymm (hmax r' hr') (hall r hr).1
    have e2 : s'.time = s.time := le_antisymm (hall s hsm).2 (by rw [es]; exact hmin s' hs')
    rw [e1, e2, er, es]
    exact this
  · rintro ⟨d, hs, hg⟩
    have hd : deltaTime .int t.X = .one (some d) := C11_regular hc hv .int hs
    have hdv := hg r hr s hsm (fun q hq => ⟨hmax q hq, by rw [es]; exact hmin q hq⟩)
    rw [er, es] at hdv
    have h := (fitModel_ok (u := ()) (m := m) (reqLast := false) (later := true) (k := .int) (t := t)).2
      ⟨rfl, (controlFits_iff false t).2 (fun u h => by rw [hu] at h; cases h), ⟨d, hd, onGrid_of_dvd (hlt d hs).1.ne' hdv⟩, rfl⟩
    rw [h]

/-- **C137 is violated for series with different offsets**: constantly sampled series are rejected with an assertion or accepted, depending on which of them ends last. -/
theorem C137_offset_violated :
    let rejected : List (Row Int Nat) := [⟨0, 0, 0⟩, ⟨0, 2, 0⟩, ⟨1, 1, 0⟩, ⟨1, 3, 0⟩]
    let accepted : List (Row Int Nat) := [⟨0, 0, 0⟩, ⟨0, 2, 0⟩, ⟨0, 4, 0⟩, ⟨1, 1, 0⟩, ⟨1, 3, 0⟩]
    (Valid rejected ∧ SampledWith rejected 2 ∧ (fitModel .int false true (FitModel.new (N := Nat) (W := Nat)) ⟨[7], rejected, none⟩).1 = .error .notOnGrid) ∧
      (Valid accepted ∧ SampledWith accepted 2 ∧ ¬ CommonGrid accepted 2 ∧ (fitModel .int false true (FitModel.new (N := Nat) (W := Nat)) ⟨[7], accepted, none⟩).1 = .ok ()) := by
  intro rejected accepted
  have v1 : Valid rejected := by rw [valid_iff]; exact ⟨by decide, by unfold Before; decide⟩
  have v2 : Valid accepted := by rw [valid_iff]; exact ⟨by decide, by unfold Before; decide⟩
  have reg : ∀ c : List (Row Int Nat), (∀ i ∈ c.map (·.id), 2 ≤ (timesOf c i).length ∧ ∀ p ∈ consecutive (timesOf c i), p.2 - p.1 = 2) → SampledWith c 2 := by
    rintro c h i ⟨r, hr, e⟩
    exact h i (List.mem_map.2 ⟨r, hr, e⟩)
  refine ⟨⟨v1, reg _ (by decide), by decide +kernel⟩, v2, reg _ (by decide), ?_, by decide +kernel⟩
  intro h
  exact absurd (h ⟨1, 1, 0⟩ (by decide) ⟨0, 0, 0⟩ (by decide)) (by decide)

/-- Fit data of two features without control. -/
def namesTrain (cols : List Nat) (c : List (Row Int Nat)) : TrainData Nat Nat Nat := ⟨cols, c, none⟩

/-- **C137, histories (partial).** If all calls of `fit` in a history succeeded, then the names and the sampling interval are those of the data the model was last trained with, and so are the control names if the data had
control.  `predict` then accepts exactly initial conditions with the feature names of the training data.  Missing: histories with failed calls (`C137_failed_fit_violated`). -/
theorem C137_history_partial (k : TimeKind) (reqLast : Bool) (l : List (Bool × TrainData N V W)) (later : Bool) (t : TrainData N V W) (m : FitModel N V W)
    (hok : ∀ r ∈ (fitHistory k reqLast m (l ++ [(later, t)])).1, r = .ok ()) :
    let s := (fitHistory k reqLast m (l ++ [(later, t)])).2
    s.trained = some t ∧ s.attrs.names = some t.cols ∧ s.attrs.dt = some (deltaTime k t.X) ∧ (∀ u, t.control = some u → s.attrs.control = some u.1) ∧
      (∀ cols, namesAccepted s.attrs cols none = true ↔ cols = t.cols) ∧
      (∀ u, t.control = some u → ∀ cols ucols, namesAccepted s.attrs cols (some ucols) = true ↔ cols = t.cols ∧ ucols = u.1) := by
  induction l generalizing m with
  | nil =>
    intro s
    have h1 : (fitModel k reqLast later m t).1 = .ok () := hok _ (by simp [fitHistory])
    have h2 := (fitModel_ok (m := m)).1 (Prod.ext h1 rfl : fitModel k reqLast later m t = (.ok (), (fitModel k reqLast later m t).2))
    have hs : s = (fitModel k reqLast later m t).2 := rfl
    rw [hs, h2.2.2.2]
    refine ⟨rfl, rfl, rfl, ?_, ?_, ?_⟩
    · intro u hu; rw [hu]; rfl
    · intro cols
      simp only [namesAccepted, Bool.and_true, decide_eq_true_eq, Option.some.injEq]
      exact eq_comm
    · intro u hu cols ucols
      rw [namesAccepted, hu]
      simp only [Option.map_some, Option.some_or, Bool.and_eq_true, decide_eq_true_eq, Option.some.injEq]
      exact and_congr eq_comm eq_comm
  | cons x l ih =>
    obtain ⟨la, ta⟩ := x
    intro s
    exact ih (fitModel k reqLast la m ta).2 (fun r hr => hok r (by simp only [List.cons_append, fitHistory]; exact List.mem_cons_of_mem _ hr))

/-- **C137 is violated by failed calls of `fit`**: a model trained with features `(1, 2)` whose second `fit` with the features in the order `(2, 1)` was rejected still has the old system matrices, but rejects the features it was
trained with and accepts those of the rejected data. -/
theorem C137_failed_fit_violated :
    let good : List (Row Int Nat) := [⟨0, 0, 0⟩, ⟨0, 2, 0⟩]
    let bad : List (Row Int Nat) := [⟨0, 0, 0⟩, ⟨0, 2, 0⟩, ⟨1, 1, 0⟩, ⟨1, 3, 0⟩]
    let r := fitHistory .int false FitModel.new [(true, namesTrain [1, 2] good), (true, namesTrain [2, 1] bad)]
    r.1 = [.ok (), .error .notOnGrid] ∧ r.2.trained = some (namesTrain [1, 2] good) ∧ namesAccepted r.2.attrs [1, 2] none = false ∧ namesAccepted r.2.attrs [2, 1] none = true := by
  refine ⟨?_, ?_, ?_, ?_⟩
  · decide +kernel
  · decide +kernel
  · decide +kernel
  · decide +kernel

/-- **C137 is violated by every failed `fit` with constantly sampled data**: for whatever reason it failed, the system matrices are the old ones, and the names are those of the rejected data. -/
theorem C137_failed_names_violated (k : TimeKind) (reqLast later : Bool) (m m' : FitModel N V W) (t : TrainData N V W) (e : FitErr) (hc : isConstDeltaTime k t.X = true)
    (h : fitModel k reqLast later m t = (.error e, m')) : m'.trained = m.trained ∧ m'.attrs.names = some t.cols ∧ ∀ u, t.control = some u → m'.attrs.control = some u.1 := by
  unfold fitModel at h
  rw [if_neg (by simp [hc])] at h
  have hs : (setupAttrs k reqLast m.attrs t).2.names = some t.cols ∧ ∀ u, t.control = some u → (setupAttrs k reqLast m.attrs t).2.control = some u.1 := by
    unfold setupAttrs
    refine ⟨?_, fun u hu => ?_⟩
    · split
      · rfl
      · split
        · split <;> rfl
        · rfl
    · split
      · simp [hu]
      · split
        · split <;> simp [hu]
        · simp [hu]
  cases hr : setupAttrs k reqLast m.attrs t with
  | mk r a =>
    rw [hr] at h hs
    cases r with
    | error e' => simp only [Prod.mk.injEq] at h; rw [← h.2]; exact ⟨rfl, hs⟩
    | ok _ =>
      simp only at h
      split at h
      · simp at h
      · simp only [Prod.mk.injEq] at h; rw [← h.2]; exact ⟨rfl, hs⟩

/-- **C137, `partial_fit` (partial).** Of constantly sampled collections `partial_fit` accepts exactly those with the interval of the first fit.  Missing: collections without a constant interval (`C137_partial_fit_violated`). -/
theorem C137_partial_fit_partial {c : List (Row Int V)} (hc : c ≠ []) (hv : Valid c) {d : Int} (h : SampledWith c d) (d0 : Int) :
    deltaAccepted d0 (deltaTime .int c) = true ↔ SampledWith c d0 := by
  rw [C11_regular hc hv .int h]
  unfold deltaAccepted
  rw [decide_eq_true_eq]
  constructor
  · rintro rfl; exact h
  · intro h'
    have h1 := C11_regular hc hv .int h
    rw [C11_regular hc hv .int h'] at h1
    injection h1 with h1
    injection h1 with h1
    exact h1.symm

/-- **C137 is violated in `partial_fit`**: an irregularly sampled series is accepted, whatever the interval of the first fit was. -/
theorem C137_partial_fit_violated : ∃ c : List (Row Int Nat), Valid c ∧ (¬ ∃ d, SampledWith c d) ∧ ∀ d0, deltaAccepted d0 (deltaTime .int c) = true := by
  refine ⟨[⟨0, 0, 0⟩, ⟨0, 1, 0⟩, ⟨0, 5, 0⟩], by rw [valid_iff]; exact ⟨by decide, by unfold Before; decide⟩, ?_, ?_⟩
  · rintro ⟨d, h⟩
    obtain ⟨-, h⟩ := h 0 ⟨⟨0, 0, 0⟩, by simp, rfl⟩
    have h1 := h (0, 1) (by decide)
    have h2 := h (1, 5) (by decide)
    simp only at h1 h2
    omega
  · intro d0
    rw [show deltaTime .int ([⟨0, 0, 0⟩, ⟨0, 1, 0⟩, ⟨0, 5, 0⟩] : List (Row Int Nat)) = .one none by decide]
    rfl

/-- non-vacuity: two fits with control, both accepted -/
example :
    let X : List (Row Int Nat) := [⟨0, 4, 0⟩, ⟨0, 6, 0⟩, ⟨0, 8, 0⟩, ⟨1, 0, 0⟩, ⟨1, 2, 0⟩]
    let U : List (Row Int Nat) := [⟨0, 4, 0⟩, ⟨0, 6, 0⟩, ⟨1, 0, 0⟩]
    let t : TrainData Nat Nat Nat := ⟨[1, 2], X, some ([3], U)⟩
    (fitHistory .int false FitModel.new [(true, t), (true, { t with cols := [5] })]).1 = [.ok (), .ok ()] ∧ SampledWith X 2 ∧ CommonGrid X 2 := by
  refine ⟨by decide +kernel, ?_, by unfold CommonGrid; decide⟩
  rintro i ⟨r, hr, rfl⟩
  revert r
  unfold Regular
  decide

end Verif.Dyn
