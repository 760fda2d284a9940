import Verif.Tsc.Fixed
import Verif.Tsc.TimeOpsProps
import Mathlib.Tactic.FieldSimp
import Mathlib.Tactic.Linarith
import Mathlib.Tactic.NormNum
/-!
# Property of collections with a fixed sampling interval

C172: a collection with `fixed_delta = δ` behaves like a collection whose samples lie at the times `δ·k`, `k` the integers of the index.
-/

namespace Verif.Tsc

open Verif.Np

variable {V : Type}

/-! ### Specification -/

/-- The times a user means: index times the fixed interval. -/
def actualTimes (X : Fixed V) (c : List (Row Int V)) : List ℚ := c.map (fun r => (r.time : ℚ) * X.delta.getD 1)

/-- Equally spaced with interval `q`, at least two samples. -/
def RegularQ (l : List ℚ) (q : ℚ) : Prop := 2 ≤ l.length ∧ ∀ p ∈ consecutive l, p.2 - p.1 = q

/-- `a` is the smallest and `b` the largest element. -/
def IsRange (l : List ℚ) (a b : ℚ) : Prop := a ∈ l ∧ b ∈ l ∧ ∀ x ∈ l, a ≤ x ∧ x ≤ b

/-! ### Helper lemmas -/

theorem regularQ_scale (l : List Int) {q : ℚ} (hq : 0 < q) (d : Int) :
    RegularQ (l.map (fun t : Int => (t : ℚ) * q)) (d * q) ↔ Regular l d := by
  unfold RegularQ Regular
  rw [List.length_map, consecutive_map]
  refine and_congr Iff.rfl ⟨fun h p hp => ?_, fun h p hp => ?_⟩
  · have := h _ (List.mem_map.2 ⟨p, hp, rfl⟩)
    simp only [Prod.map] at this
    rw [← sub_mul] at this
    exact_mod_cast mul_right_cancel₀ hq.ne' this
  · obtain ⟨x, hx, rfl⟩ := List.mem_map.1 hp
    simp only [Prod.map]
    rw [← sub_mul, ← h x hx]; push_cast; ring

theorem exists_int_step (l : List Int) {q x : ℚ} (h : RegularQ (l.map (fun t : Int => (t : ℚ) * q)) x) : ∃ d : Int, x = d * q := by
  obtain ⟨h2, h⟩ := h
  match l, h2 with
  | a :: b :: l, _ =>
    have := h (a * q, b * q) (by simp [consecutive])
    refine ⟨b - a, ?_⟩
    rw [← this]; push_cast; ring

/-- `fixed_delta` is a positive number (what the constructor accepts). -/
def Fixed.Positive (X : Fixed V) : Prop := ∀ q, X.delta = some q → 0 < q

theorem factor_pos {X : Fixed V} (h : X.Positive) : 0 < X.factor := by
  unfold Fixed.factor
  cases hd : X.delta with
  | none => simp
  | some q => simpa using h q hd

theorem timeValues_range {c : List (Row Int V)} (hc : c ≠ []) : ((timeValues c).headD 0) ∈ timeValues c ∧ ((timeValues c).getLastD 0) ∈ timeValues c := by
  have hne : timeValues c ≠ [] := by
    obtain ⟨r, l, rfl⟩ := List.ne_nil_iff_exists_cons.1 hc
    exact List.ne_nil_of_mem (show r.time ∈ timeValues (r :: l) by simp [timeValues, mem_unique])
  obtain ⟨m, t, hm⟩ := List.ne_nil_iff_exists_cons.1 hne
  rw [hm]
  refine ⟨by simp, ?_⟩
  rw [List.getLastD_cons, List.getLastD_eq_getLast?]
  cases t with
  | nil => simp
  | cons b t =>
    rw [List.getLast?_cons]
    simp only [Option.getD_some]
    cases hl : t.getLast? with
    | none => simp
    | some y => simp [List.mem_of_getLast? hl]

theorem unique_range {l : List Int} (hl : l ≠ []) : (∀ t ∈ l, (unique l).headD 0 ≤ t ∧ t ≤ (unique l).getLastD 0) ∧
    (unique l).headD 0 ∈ l ∧ (unique l).getLastD 0 ∈ l := by
  have hc : l.map (fun t => (⟨0, t, ()⟩ : Row Int Unit)) ≠ [] := by simpa using hl
  have hu : timeValues (l.map (fun t => (⟨0, t, ()⟩ : Row Int Unit))) = unique l := by simp [timeValues, Function.comp_def]
  have h1 := timeValues_range hc
  have h2 := (timeValues_bounds hc).1
  rw [hu, mem_unique, mem_unique] at h1
  refine ⟨fun t ht => ?_, h1.1, h1.2⟩
  have := h2 ⟨0, t, ()⟩ (List.mem_map.2 ⟨t, ht, rfl⟩)
  rw [hu, minTime, hu] at this
  exact this

theorem headD_map {α β : Type} (f : α → β) (l : List α) (a : α) (b : β) (h : l ≠ []) : (l.map f).headD b = f (l.headD a) := by
  cases l <;> simp_all

theorem getLastD_map {α β : Type} (f : α → β) (l : List α) (a : α) (b : β) (h : l ≠ []) : (l.map f).getLastD b = f (l.getLastD a) := by
  simp only [List.getLastD_eq_getLast?, List.getLast?_map]
  cases hl : l.getLast? with
  | none => simp_all
  | some y => simp

theorem timeValues_ne {c : List (Row Int V)} (hc : c ≠ []) : timeValues c ≠ [] := List.ne_nil_of_mem (timeValues_range hc).1

theorem interval_eq (X : Fixed V) (hc : X.rows ≠ []) :
    X.interval = ((minTime X.rows : ℚ) * X.factor, (((timeValues X.rows).getLastD 0 : Int) : ℚ) * X.factor) := by
  unfold Fixed.interval Fixed.timeValues minTime
  rw [headD_map _ _ 0 _ (timeValues_ne hc), getLastD_map _ _ 0 _ (timeValues_ne hc)]
  simp

/-! ### C172 -/

/-- **C172 (what the collection reports; partial).** For every collection with a fixed interval, `time_values` are the actual times, once each and ascending;
`time_interval()` is their range; and `delta_time` is the number `x` if the actual times of every series are spaced by `x`, and (moderate steps, as in C11) only then.
Missing: `time_interval(id)`, derived frames, `normalize_time`, the display. -/
theorem C172_reports_partial (X : Fixed V) (hp : X.Positive) (hc : X.rows ≠ []) (hv : Valid X.rows) :
    (∀ t, t ∈ X.timeValues ↔ t ∈ actualTimes X X.rows) ∧ X.timeValues.Pairwise (· < ·) ∧
    IsRange (actualTimes X X.rows) X.interval.1 X.interval.2 ∧
    ∀ x, ((∀ i, HasId X.rows i → RegularQ (actualTimes X (series X.rows i)) x) → X.deltaTime = .one (some x)) ∧
      (ModerateSteps X.rows → X.deltaTime = .one (some x) → ∀ i, HasId X.rows i → RegularQ (actualTimes X (series X.rows i)) x) := by
  have hq := factor_pos hp
  have hmem : ∀ t, t ∈ X.timeValues ↔ t ∈ actualTimes X X.rows := by
    intro t
    simp only [Fixed.timeValues, if_true, actualTimes, List.mem_map, timeValues, mem_unique]
    constructor
    · rintro ⟨a, ⟨r, hr, rfl⟩, rfl⟩; exact ⟨r, hr, rfl⟩
    · rintro ⟨r, hr, rfl⟩; exact ⟨r.time, ⟨r, hr, rfl⟩, rfl⟩
  refine ⟨hmem, ?_, ?_, ?_⟩
  · simp only [Fixed.timeValues, if_true, List.pairwise_map]
    refine (unique_pairwise _).imp ?_
    intro a b hab
    exact mul_lt_mul_of_pos_right (by exact_mod_cast hab) hq
  · rw [interval_eq X hc]
    obtain ⟨h1, h2⟩ := timeValues_range hc
    refine ⟨(hmem _).1 ?_, (hmem _).1 ?_, ?_⟩
    · simp only [Fixed.timeValues, if_true, List.mem_map]; exact ⟨_, h1, rfl⟩
    · simp only [Fixed.timeValues, if_true, List.mem_map]; exact ⟨_, h2, rfl⟩
    · intro x hx
      obtain ⟨r, hr, rfl⟩ := List.mem_map.1 hx
      obtain ⟨ha, hb⟩ := (timeValues_bounds hc).1 r hr
      exact ⟨mul_le_mul_of_nonneg_right (by exact_mod_cast ha) hq.le, mul_le_mul_of_nonneg_right (by exact_mod_cast hb) hq.le⟩
  · intro x
    have hser : ∀ i, actualTimes X (series X.rows i) = (timesOf X.rows i).map (fun t : Int => (t : ℚ) * X.factor) := by
      intro i; simp [actualTimes, timesOf, Fixed.factor, Function.comp_def]
    have hdelta : ∀ x, X.deltaTime = .one (some x) ↔ ∃ d : Int, deltaTime .int X.rows = .one (some d) ∧ x = d * X.factor := by
      intro x
      unfold Fixed.deltaTime
      cases deltaTime .int X.rows with
      | per l => simp [PerId.mapVals]
      | one o =>
        cases o with
        | none => simp [PerId.mapVals]
        | some d => simp [PerId.mapVals, eq_comm]
    rw [hdelta]
    refine ⟨?_, ?_⟩
    rotate_left
    · rintro hm ⟨d, hd, rfl⟩ i hi
      rw [hser, regularQ_scale _ hq]
      exact (C11_int_partial hc hv hm d).1 hd i hi
    · intro h
      obtain ⟨r, hr⟩ := List.exists_mem_of_ne_nil _ hc
      obtain ⟨d, rfl⟩ := exists_int_step _ (hser r.id ▸ h r.id ⟨r, hr, rfl⟩)
      refine ⟨d, C11_regular hc hv .int (fun i hi => ?_), rfl⟩
      have := h i hi
      rwa [hser, regularQ_scale _ hq] at this

/-- **C172 (one series; violated).** `time_interval(id)` is the range of the *index*; it is the range of the actual times only if the interval is 1 or the series consists of time zero. -/
theorem C172_interval_violated (X : Fixed V) (hp : X.Positive) {i : Nat} (hi : HasId X.rows i) :
    IsRange (actualTimes X (series X.rows i)) (X.intervalOf i).1 (X.intervalOf i).2 ↔ X.delta.getD 1 = 1 ∨ ∀ r ∈ X.rows, r.id = i → r.time = 0 := by
  have hq : 0 < X.delta.getD 1 := factor_pos hp
  set q := X.delta.getD 1 with hqd
  have hne : (X.rows.filter (fun r => r.id == i)).map (·.time) ≠ [] := by
    obtain ⟨r, hr, rfl⟩ := hi
    exact List.ne_nil_of_mem (List.mem_map.2 ⟨r, List.mem_filter.2 ⟨hr, by simp⟩, rfl⟩)
  obtain ⟨hb, h1, h2⟩ := unique_range hne
  unfold Fixed.intervalOf IsRange actualTimes series
  set l := X.rows.filter (fun r => r.id == i) with hl
  set a := (unique (l.map (·.time))).headD 0 with ha
  set b := (unique (l.map (·.time))).getLastD 0 with hbd
  simp only [← hqd]
  obtain ⟨ra, hra, hrat⟩ := List.mem_map.1 h1
  obtain ⟨rb, hrb, hrbt⟩ := List.mem_map.1 h2
  constructor
  · rintro ⟨hin1, hin2, hx⟩
    by_contra hcon
    push Not at hcon
    obtain ⟨hq1, r, hr, hri, hrt⟩ := hcon
    have hA := (hx _ (List.mem_map.2 ⟨ra, hra, rfl⟩)).1
    have hB := (hx _ (List.mem_map.2 ⟨rb, hrb, rfl⟩)).2
    have hA2 := (hx _ (List.mem_map.2 ⟨ra, hra, rfl⟩)).2
    have hB2 := (hx _ (List.mem_map.2 ⟨rb, hrb, rfl⟩)).1
    rw [hrat] at hA hA2; rw [hrbt] at hB hB2
    have hrl : r.time ∈ l.map (·.time) := List.mem_map.2 ⟨r, by rw [hl]; exact List.mem_filter.2 ⟨hr, by simp [hri]⟩, rfl⟩
    have hab := hb _ hrl
    rcases lt_or_gt_of_ne hq1 with hlt | hgt
    · obtain ⟨s, hs, hsa⟩ := List.mem_map.1 hin1
      obtain ⟨u, hu, hub⟩ := List.mem_map.1 hin2
      have hs1 := (hb _ (List.mem_map.2 ⟨s, hs, rfl⟩)).1
      have hu1 := (hb _ (List.mem_map.2 ⟨u, hu, rfl⟩)).2
      have hs1' : (a : ℚ) ≤ s.time := by exact_mod_cast hs1
      have hu1' : (u.time : ℚ) ≤ b := by exact_mod_cast hu1
      have ha0 : (0 : ℚ) ≤ a := by
        by_contra h
        push Not at h
        nlinarith
      have hb0 : (b : ℚ) ≤ 0 := by
        by_contra h
        push Not at h
        nlinarith
      have ha0' : 0 ≤ a := by exact_mod_cast ha0
      have hb0' : b ≤ 0 := by exact_mod_cast hb0
      omega
    · have ha0 : (0 : ℚ) ≤ a := by nlinarith
      have hb0 : (b : ℚ) ≤ 0 := by nlinarith
      have ha0' : 0 ≤ a := by exact_mod_cast ha0
      have hb0' : b ≤ 0 := by exact_mod_cast hb0
      omega
  · intro h
    have hmul : ∀ r ∈ l, (r.time : ℚ) * q = r.time := by
      intro r hr
      rcases h with h | h
      · rw [h, mul_one]
      · have hr' := List.mem_filter.1 hr
        rw [h r hr'.1 (by simpa using hr'.2)]; simp
    refine ⟨List.mem_map.2 ⟨ra, hra, by rw [hmul ra hra, hrat]⟩, List.mem_map.2 ⟨rb, hrb, by rw [hmul rb hrb, hrbt]⟩, ?_⟩
    intro x hx
    obtain ⟨r, hr, rfl⟩ := List.mem_map.1 hx
    have := hb _ (List.mem_map.2 ⟨r, hr, rfl⟩)
    rw [hmul r hr]
    exact ⟨by exact_mod_cast this.1, by exact_mod_cast this.2⟩

/-- non-vacuity: three samples every 0.1 time units; the collection covers 0.1 to 0.3, its only series 1 to 3 -/
example : let X : Fixed Unit := ⟨[⟨0, 1, ()⟩, ⟨0, 2, ()⟩, ⟨0, 3, ()⟩], some (1 / 10)⟩
    fixInit X.rows (.float (1 / 10)) = .ok X ∧ X.timeValues = [1 / 10, 2 / 10, 3 / 10] ∧ X.deltaTime = .one (some (1 / 10)) ∧ X.interval = (1 / 10, 3 / 10) ∧
      X.intervalOf 0 = (1, 3) := by decide +kernel

/-- **C172 (derived frames; violated).** Every frame that pandas derives from the collection by selecting rows has lost the interval: if it was not 1, and the selection
holds a sample that is not at time zero, then the frame reports other times for its samples than the collection did. -/
theorem C172_derived_violated (X Y : Fixed V) {q : ℚ} (hd : X.delta = some q) (h1 : q ≠ 1) (p : Row Int V → Bool) (h : X.select p = .ok Y) :
    Y.delta = none ∧ Y.rows = X.rows.filter p ∧ ∀ r ∈ Y.rows, r.time ≠ 0 → actualTimes Y [r] ≠ actualTimes X [r] := by
  simp only [Fixed.select, fixInit, buildInt] at h
  split at h
  · rename_i e he; simp at h
  · rename_i c' hc'
    simp only [Except.ok.injEq] at h
    subst h
    refine ⟨rfl, ?_, ?_⟩
    · split at hc'
      · simp at hc'
      · exact ((build_ok_iff).1 hc').1.symm
    · intro r hr ht he
      simp [actualTimes, hd] at he
      have : (r.time : ℚ) ≠ 0 := by exact_mod_cast ht
      exact h1 (by field_simp at he; linarith)

/-- the collection whose times are `(t·p - m)/d`, rounded down -/
theorem trunc_eq {p d m t : Int} (hp : 0 < p) (hd : 0 < d) (h : 0 ≤ t * p - m) :
    truncQ (((t : ℚ) - m * (1 / p)) / (d * (1 / p))) = (t * p - m) / d := by
  have hp' : (0 : ℚ) < p := by exact_mod_cast hp
  have hd' : (0 : ℚ) < d := by exact_mod_cast hd
  have e : ((t : ℚ) - m * (1 / p)) / (d * (1 / p)) = ((t * p - m : Int) : ℚ) / (d : Int) := by
    push_cast; field_simp
  rw [e, truncQ, if_pos (div_nonneg (by exact_mod_cast h) hd'.le)]
  obtain ⟨k, rfl⟩ := Int.eq_ofNat_of_zero_le hd.le
  exact_mod_cast Rat.floor_intCast_div_natCast (t * p - m) k

/-- The rows `normalize_time` produces for the interval `1/p`. -/
def normRows (c : List (Row Int V)) (p d : Int) : List (Row Int V) := c.map (fun r => { r with time := (r.time * p - minTime c) / d })

theorem regular_norm {l : List Int} {d m p : Int} (hd : 0 < d) (h : Regular l d) : Regular (l.map (fun t => (t * p - m) / d)) p := by
  obtain ⟨h1, h2⟩ := h
  refine ⟨by simpa using h1, ?_⟩
  rw [consecutive_map]
  intro x hx
  obtain ⟨q, hq, rfl⟩ := List.mem_map.1 hx
  have := h2 q hq
  simp only [Prod.map]
  have e : q.2 * p - m = (q.1 * p - m) + d * p := by rw [← this]; ring
  rw [e, Int.add_ediv_of_dvd_right (Dvd.intro _ rfl), Int.mul_ediv_cancel_left _ (by omega)]; omega

theorem norm_spec {c : List (Row Int V)} (hc : c ≠ []) (hv : Valid c) (hnn : ∀ r ∈ c, 0 ≤ r.time) {p d : Int} (hp : 0 < p)
    (h : ∀ i, HasId c i → Regular (timesOf c i) d) :
    buildInt .int (normRows c p d) = .ok (normRows c p d) ∧ Valid (normRows c p d) ∧ normRows c p d ≠ [] ∧ deltaTime .int (normRows c p d) = .one (some p) ∧
      minTime (normRows c p d) = minTime c * (p - 1) / d ∧ ∀ i, HasId c i → Regular (timesOf (normRows c p d) i) p := by
  obtain ⟨hmin, r0, hr0, hr0t⟩ := minTime_spec hc
  have hd : 0 < d := regular_pos hv (h r0.id ⟨r0, hr0, rfl⟩)
  have hempty : ∀ i, ¬ HasId c i → timesOf c i = [] := by
    intro i hi
    have : series c i = [] := by rw [← not_ne_iff, ← hasId_iff_series]; exact hi
    simp [timesOf, this]
  have hpw : ∀ i, ((timesOf c i).map (fun t => (t * p - minTime c) / d)).Pairwise (· < ·) := by
    intro i
    by_cases hi : HasId c i
    · exact regular_pairwise hp (regular_norm (m := minTime c) hd (h i hi)).2
    · rw [hempty i hi]; simp
  obtain ⟨hval, htimes⟩ := map_time_valid hv (fun t => (t * p - minTime c) / d) hpw
  change Valid (normRows c p d) at hval
  change ∀ i, timesOf (normRows c p d) i = _ at htimes
  have hne : normRows c p d ≠ [] := by simpa [normRows] using hc
  have hreg : ∀ i, HasId c i → Regular (timesOf (normRows c p d) i) p := by
    intro i hi; rw [htimes i]; exact regular_norm hd (h i hi)
  have hhas : ∀ i, HasId (normRows c p d) i ↔ HasId c i := by intro i; simp [HasId, normRows]
  have hm0 : 0 ≤ minTime c := hr0t ▸ hnn r0 hr0
  have hpos : ∀ r ∈ c, 0 ≤ r.time * p - minTime c := by
    intro r hr
    have := hmin r hr
    nlinarith [hnn r hr]
  have hpos' : ∀ r ∈ normRows c p d, 0 ≤ r.time := by
    intro r hr
    obtain ⟨x, hx, rfl⟩ := List.mem_map.1 hr
    exact Int.ediv_nonneg (hpos x hx) hd.le
  have hdt : deltaTime .int (normRows c p d) = .one (some p) :=
    C11_regular hne hval .int (fun i hi => hreg i ((hhas i).1 hi))
  have hmn : minTime (normRows c p d) = minTime c * (p - 1) / d := by
    obtain ⟨h1, r, hr, hrt⟩ := minTime_spec hne
    obtain ⟨x, hx, rfl⟩ := List.mem_map.1 hr
    simp only at hrt
    have h2 := h1 _ (List.mem_map.2 ⟨r0, hr0, rfl⟩)
    simp only [hr0t] at h2
    have h3 : (minTime c * p - minTime c) / d ≤ (x.time * p - minTime c) / d :=
      Int.ediv_le_ediv hd (by have := hmin x hx; nlinarith)
    have e : minTime c * (p - 1) = minTime c * p - minTime c := by ring
    rw [e]; omega
  refine ⟨?_, hval, hne, hdt, hmn, hreg⟩
  unfold buildInt
  rw [if_neg, build_ok_of_valid hval hne]
  rintro ⟨-, hany⟩
  obtain ⟨r, hr, hneg⟩ := List.any_eq_true.1 hany
  have := hpos' r hr
  simp at hneg; omega

theorem normalize_eq {X : Fixed V} {p d : Int} (hX : X.delta = some (1 / (p : ℚ))) (hc : X.rows ≠ []) (hv : Valid X.rows)
    (hnn : ∀ r ∈ X.rows, 0 ≤ r.time) (hp : 0 < p) (h : ∀ i, HasId X.rows i → Regular (timesOf X.rows i) d) :
    X.normalize = if minTime X.rows * (p - 1) < d then .ok ⟨normRows X.rows p d, X.delta⟩ else .error .notNormalized := by
  obtain ⟨hb, hval, hne, hdt, hmn, -⟩ := norm_spec hc hv hnn hp h
  obtain ⟨hmin, r0, hr0, hr0t⟩ := minTime_spec hc
  have hd : 0 < d := regular_pos hv (h r0.id ⟨r0, hr0, rfl⟩)
  have hp' : (0 : ℚ) < p := by exact_mod_cast hp
  have hf : X.factor = 1 / (p : ℚ) := by simp [Fixed.factor, hX]
  have hrows : X.rows.map (fun r => ({ r with time := truncQ (((r.time : ℚ) - X.interval.1) / (d * X.factor)) } : Row Int V)) = normRows X.rows p d := by
    apply List.map_congr_left
    intro r hr
    rw [interval_eq X hc, hf]
    simp only
    rw [trunc_eq hp hd]
    have := hmin r hr
    nlinarith [hnn r hr]
  have hdX : X.deltaTime = .one (some (d * X.factor)) := by
    simp [Fixed.deltaTime, C11_regular hc hv .int h, PerId.mapVals]
  unfold Fixed.normalize
  rw [hdX]
  simp only
  rw [hrows, hb]
  simp only
  have hnorm : Fixed.isNormalized ⟨normRows X.rows p d, X.delta⟩ = decide (minTime X.rows * (p - 1) < d) := by
    have h1 : (Fixed.deltaTime ⟨normRows X.rows p d, X.delta⟩) = .one (some 1) := by
      simp [Fixed.deltaTime, hdt, PerId.mapVals, Fixed.factor, hX, hp'.ne']
    have h2 : (Fixed.interval ⟨normRows X.rows p d, X.delta⟩).1 = ((minTime X.rows * (p - 1) / d : Int) : ℚ) * (1 / p) := by
      rw [interval_eq _ hne]; simp [Fixed.factor, hX, hmn]
    have hz : 0 ≤ minTime X.rows * (p - 1) := mul_nonneg (hr0t ▸ hnn r0 hr0) (by omega)
    rw [Fixed.isNormalized, h1, h2]
    simp only [decide_true, Bool.true_and, decide_eq_decide]
    constructor
    · intro h0
      have h0' : ((minTime X.rows * (p - 1) / d : Int) : ℚ) = 0 := by
        rcases mul_eq_zero.1 h0 with h | h
        · exact h
        · exact absurd h (by positivity)
      have h0'' : minTime X.rows * (p - 1) / d = 0 := by exact_mod_cast h0'
      by_contra hcon
      have := Int.ediv_le_ediv hd (not_lt.1 hcon)
      rw [Int.ediv_self (by omega)] at this
      omega
    · intro h0
      rw [Int.ediv_eq_zero_of_lt hz h0]; simp
  rw [hnorm]
  by_cases h0 : minTime X.rows * (p - 1) < d <;> simp [h0]

/-- **C172 (`normalize_time`; partial).** For an interval `1/p` with an integer `p`, regularly sampled series and a start `m` (in index units) that is zero, or so small that
`m·(p-1)` stays below one step: `normalize_time` succeeds, keeps IDs, values and order, and the actual times of the result start at zero and are spaced by one. -/
theorem C172_normalize_partial {X : Fixed V} {p d : Int} (hX : X.delta = some (1 / (p : ℚ))) (hc : X.rows ≠ []) (hv : Valid X.rows)
    (hnn : ∀ r ∈ X.rows, 0 ≤ r.time) (hp : 0 < p) (h : ∀ i, HasId X.rows i → Regular (timesOf X.rows i) d)
    (h0 : minTime X.rows * (p - 1) < d) :
    ∃ Y, X.normalize = .ok Y ∧ Y.rows.map (fun r => (r.id, r.val)) = X.rows.map (fun r => (r.id, r.val)) ∧
      (∃ b, IsRange (actualTimes Y Y.rows) 0 b) ∧ ∀ i, HasId Y.rows i → RegularQ (actualTimes Y (series Y.rows i)) 1 := by
  have hp' : (0 : ℚ) < p := by exact_mod_cast hp
  obtain ⟨hb, hval, hne, hdt, hmn, hreg⟩ := norm_spec hc hv hnn hp h
  obtain ⟨hmin, r0, hr0, hr0t⟩ := minTime_spec hc
  have hz : 0 ≤ minTime X.rows * (p - 1) := mul_nonneg (hr0t ▸ hnn r0 hr0) (by omega)
  refine ⟨⟨normRows X.rows p d, X.delta⟩, by rw [normalize_eq hX hc hv hnn hp h, if_pos h0], by simp [normRows, Function.comp_def], ?_, ?_⟩
  · have hpos : Fixed.Positive (⟨normRows X.rows p d, X.delta⟩ : Fixed V) := by
      intro q hq; rw [hX] at hq; cases hq; positivity
    have := (C172_reports_partial ⟨normRows X.rows p d, X.delta⟩ hpos hne hval).2.2.1
    rw [interval_eq _ hne] at this
    simp only [hmn, Int.ediv_eq_zero_of_lt hz h0, Int.cast_zero, zero_mul] at this
    exact ⟨_, this⟩
  · intro i hi
    have hi' : HasId X.rows i := by simpa [HasId, normRows] using hi
    have := (regularQ_scale (timesOf (normRows X.rows p d) i) (q := 1 / (p : ℚ)) (by positivity) p).2 (hreg i hi')
    rw [mul_one_div_cancel hp'.ne'] at this
    simpa [actualTimes, timesOf, hX, Function.comp_def] using this

/-- non-vacuity: every half time unit from zero -/
example : (⟨[⟨0, 0, 'a'⟩, ⟨0, 1, 'b'⟩, ⟨0, 2, 'c'⟩], some (1 / 2)⟩ : Fixed Char).normalize = .ok ⟨[⟨0, 0, 'a'⟩, ⟨0, 2, 'b'⟩, ⟨0, 4, 'c'⟩], some (1 / 2)⟩ := by
  decide +kernel

/-- **C172 (`normalize_time`; violated).** If `m·(p-1)` is one step or more, the assertion at the end of `normalize_time` fails, although the collection is regularly sampled: the
start and the interval are scaled, the index is not. -/
theorem C172_normalize_violated {X : Fixed V} {p d : Int} (hX : X.delta = some (1 / (p : ℚ))) (hc : X.rows ≠ []) (hv : Valid X.rows)
    (hnn : ∀ r ∈ X.rows, 0 ≤ r.time) (hp : 0 < p) (h : ∀ i, HasId X.rows i → Regular (timesOf X.rows i) d)
    (h0 : d ≤ minTime X.rows * (p - 1)) : X.normalize = .error .notNormalized := by
  rw [normalize_eq hX hc hv hnn hp h, if_neg (by omega)]

/-- non-vacuity: the collection of the docstring of the tests, 0.1, 0.2, 0.3 -/
example : (⟨[⟨0, 1, ()⟩, ⟨0, 2, ()⟩, ⟨0, 3, ()⟩], some (1 / 10)⟩ : Fixed Unit).normalize = .error .notNormalized ∧
    (⟨[⟨0, 1, ()⟩, ⟨0, 2, ()⟩, ⟨0, 3, ()⟩], none⟩ : Fixed Unit).normalize = .ok ⟨[⟨0, 0, ()⟩, ⟨0, 1, ()⟩, ⟨0, 2, ()⟩], none⟩ := by decide +kernel

/-- **C172 (display; violated).** The flag of the display is inverted: with `with_fixed_delta=True` (the default) the integers are printed.  And with `False`, where the scaled times are
meant, the times of one series can be printed for another one. -/
theorem C172_display_violated : (∀ X : Fixed V, X.display = X.rows.map (fun r => (r.time : ℚ))) ∧
    ∃ X : Fixed Unit, Valid X.rows ∧ X.delta = some (1 / 10) ∧ actualTimes X X.rows = [5 / 10, 6 / 10, 1 / 10, 2 / 10] ∧ X.display false = [1 / 10, 2 / 10, 5 / 10, 6 / 10] := by
  refine ⟨fun X => by simp [Fixed.display], ⟨[⟨0, 5, ()⟩, ⟨0, 6, ()⟩, ⟨1, 1, ()⟩, ⟨1, 2, ()⟩], some (1 / 10)⟩, ?_, rfl, by decide +kernel, by decide +kernel⟩
  rw [valid_iff]; exact ⟨by decide, by unfold Before; decide⟩

/-- **C172 (display; partial).** For one series the scaled display is right. -/
theorem C172_display_partial (X : Fixed V) {q : ℚ} (hX : X.delta = some q) (hv : Valid X.rows) {i : Nat} (hi : ∀ r ∈ X.rows, r.id = i) :
    X.display false = actualTimes X X.rows := by
  have hpw := (valid_single hi).1 hv
  have hu : timeValues X.rows = X.rows.map (·.time) := by
    apply unique_of_pairwise
    rw [List.pairwise_map]; exact hpw
  simp only [Fixed.display, hX, Option.isSome_some, and_self, if_true, actualTimes, hu]
  apply List.ext_getElem (by simp)
  intro n h1 h2
  simp only [List.length_map] at h1 h2
  have hidx : (X.rows.map (·.time)).idxOf (X.rows[n].time) = n := by
    have hnd : (X.rows.map (·.time)).Nodup := by
      rw [List.nodup_iff_pairwise_ne, List.pairwise_map]
      exact hpw.imp (fun h => ne_of_lt h)
    have := hnd.idxOf_getElem n (by simpa using h1)
    simpa using this
  simp only [List.getElem_map]
  rw [hidx]
  simp [Fixed.factor, hX, h1]

end Verif.Tsc
