import Verif.Tsc.DeltaLemmas
import Mathlib.Tactic.Linarith
/-!
# C11, C12: sampling interval and normalised time
-/

namespace Verif.Tsc

open Verif.Np

variable {V : Type}

/-! ### Specification -/

/-- The series with time values `l` is regularly sampled with interval `d`. -/
def Regular (l : List Int) (d : Int) : Prop := 2 ≤ l.length ∧ ∀ p ∈ consecutive l, p.2 - p.1 = d

/-- Time values of series `i`. -/
def timesOf (c : List (Row Int V)) (i : Nat) : List Int := (series c i).map (·.time)

/-- All sampling intervals of the collection are below `3·10¹¹`, where the relative tolerance `3e-12` of the code is smaller than one. -/
def ModerateSteps (c : List (Row Int V)) : Prop := ∀ i, ∀ p ∈ consecutive (timesOf c i), p.2 - p.1 < 3 * 10 ^ 11

/-! ### Lemmas -/

theorem rowDelta_iff (l : List Int) (d : Int) : rowDelta (npDiff l) = some d ↔ Regular l d := by
  unfold Regular
  have hlen : (npDiff l).length = l.length - 1 := npDiff_length l
  have hm : (∀ p ∈ consecutive l, p.2 - p.1 = d) ↔ ∀ x ∈ npDiff l, x = d := by
    rw [npDiff_eq]; simp only [List.mem_map, forall_exists_index, and_imp, forall_apply_eq_imp_iff₂]
  rw [hm]
  match hd : npDiff l with
  | [] =>
    rw [hd] at hlen
    simp [rowDelta] at hlen ⊢; omega
  | x :: t =>
    rw [hd] at hlen
    simp only [List.length_cons] at hlen
    unfold rowDelta
    simp only
    constructor
    · intro h
      split at h
      · rename_i hall
        simp only [Option.some.injEq] at h; subst h
        simp only [List.all_eq_true, beq_iff_eq] at hall
        refine ⟨by omega, ?_⟩
        intro y hy
        rcases List.mem_cons.1 hy with rfl | hy
        · rfl
        · exact hall y hy
      · simp at h
    · rintro ⟨_, h⟩
      have hx := h x (by simp)
      rw [if_pos, hx]
      simp only [List.all_eq_true, beq_iff_eq]
      intro y hy; rw [h y (by simp [hy]), hx]

theorem foldl_min_spec (l : List Int) (a : Int) : l.foldl min a ≤ a ∧ (∀ x ∈ l, l.foldl min a ≤ x) ∧ (l.foldl min a = a ∨ l.foldl min a ∈ l) := by
  induction l generalizing a with
  | nil => simp
  | cons y l ih =>
    obtain ⟨h1, h2, h3⟩ := ih (min a y)
    simp only [List.foldl_cons]
    refine ⟨by omega, ?_, ?_⟩
    · intro x hx
      rcases List.mem_cons.1 hx with rfl | hx
      · omega
      · exact h2 x hx
    · rcases h3 with h3 | h3
      · rcases le_total a y with h | h
        · left; rw [h3]; omega
        · right; rw [h3]; simp [h]
      · right; simp [h3]

theorem allClose_iff (l : List (Option Int)) (hne : l ≠ []) (hb : ∀ x, some x ∈ l → 0 < x ∧ x < 3 * 10 ^ 11) :
    allClose l = true ↔ ∃ d, ∀ x ∈ l, x = some d := by
  unfold allClose
  set vals := l.filterMap id with hvals
  have hmem : ∀ x, x ∈ vals ↔ some x ∈ l := by intro x; simp [hvals]
  set m := vals.foldl min (vals.headD 0) with hmdef
  obtain ⟨_, h2, h3⟩ := foldl_min_spec vals (vals.headD 0)
  simp only [List.all_eq_true]
  constructor
  · intro h
    refine ⟨m, ?_⟩
    intro x hx
    have hxc := h x hx
    match x, hx, hxc with
    | none, _, hxc => simp at hxc
    | some x, hx, hxc =>
      simp only [decide_eq_true_eq] at hxc
      have hxb := hb x hx
      have : x.natAbs < 3 * 10 ^ 11 := by omega
      have hz : (m - x).natAbs = 0 := by
        by_contra hnz
        have h1 : 1 ≤ (m - x).natAbs := by omega
        omega
      congr 1; omega
  · rintro ⟨d, h⟩ x hx
    have hx' := h x hx
    subst hx'
    simp only [decide_eq_true_eq]
    have hmv : ∀ y ∈ vals, y = d := by
      intro y hy
      have := h _ ((hmem y).1 hy)
      simpa using this
    have hdv : d ∈ vals := (hmem d).2 hx
    have hm : m = d := by
      rcases h3 with h3 | h3
      · obtain ⟨v, t, hvt⟩ := List.ne_nil_iff_exists_cons.1 (List.ne_nil_of_mem hdv)
        rw [hmdef, h3, hvt]
        simpa using hmv v (by rw [hvt]; simp)
      · exact hmv _ h3
    rw [← hmdef, hm]; simp

/-- The list of per-series values, in the order in which the code produces them. -/
theorem dts_eq {c : List (Row Int V)} (hc : c ≠ []) (hv : Valid c) :
    ∃ order : List Nat, order.Perm (ids c) ∧ ((IdsAscending c ∨ ¬ EqualLengths c) → order = ids c) ∧
      deltaList c = order.map (fun i => rowDelta (npDiff (timesOf c i))) := by
  unfold deltaList
  match h : nTimesteps c with
  | .one n =>
    refine ⟨newIds (c.map (·.id)), newIds_perm_ids hv.nodup, ?_, ?_⟩
    swap
    · exact deltaEqualLength_eq hc hv h
    rintro (h' | h')
    · exact newIds_eq_ids h'
    · exfalso; apply h'
      have := (nTimesteps_one hc n).1 h
      intro i j hi hj
      rw [this i (mem_ids.2 hi), this j (mem_ids.2 hj)]
  | .per l => exact ⟨ids c, List.Perm.refl _, fun _ => rfl, deltaUnequalLength_eq hv⟩

theorem regular_pos {c : List (Row Int V)} (hv : Valid c) {i : Nat} {d : Int} (h : Regular (timesOf c i) d) : 0 < d := by
  have hs := hv.series_sorted i
  obtain ⟨h1, h2⟩ := h
  unfold timesOf at h1 h2
  match hS : series c i with
  | [] => rw [hS] at h1; simp at h1
  | [a] => rw [hS] at h1; simp at h1
  | a :: b :: l =>
    rw [hS] at h2 hs
    have e := h2 (a.time, b.time) (by simp [consecutive])
    have := (List.pairwise_cons.1 hs).1 b (by simp)
    simp at e; omega

theorem regular_lt {c : List (Row Int V)} (hm : ModerateSteps c) {i : Nat} {d : Int} (h : Regular (timesOf c i) d) : d < 3 * 10 ^ 11 := by
  obtain ⟨h1, h2⟩ := h
  match hS : timesOf c i with
  | [] => rw [hS] at h1; simp at h1
  | [a] => rw [hS] at h1; simp at h1
  | a :: b :: l =>
    have e := h2 (a, b) (by rw [hS]; simp [consecutive])
    have := hm i (a, b) (by rw [hS]; simp [consecutive])
    simp at e this; omega

/-! ### C11 -/

/-- **C11 (integer time, single value; partial).** For integer time values with all intervals below `3·10¹¹`, `delta_time` is the single
number `d` iff every series has at least two samples and every consecutive difference in every series is `d`.
Missing: larger intervals, where different intervals may be reported as equal (`C11_tolerance_violated`), and datetimes
(`C11_datetime_violated`). -/
theorem C11_int_partial {c : List (Row Int V)} (hc : c ≠ []) (hv : Valid c) (hm : ModerateSteps c) (d : Int) :
    deltaTime .int c = .one (some d) ↔ ∀ i, HasId c i → Regular (timesOf c i) d := by
  obtain ⟨order, hperm, -, hdts⟩ := dts_eq hc hv
  have hone : order ≠ [] := by
    intro e; rw [e] at hperm
    exact ids_ne_nil hc hperm.nil_eq.symm
  have hmem : ∀ i, i ∈ order ↔ HasId c i := by intro i; rw [hperm.mem_iff, mem_ids]
  unfold deltaTime
  rw [hdts]
  unfold globalUnique
  set dts := order.map (fun i => rowDelta (npDiff (timesOf c i))) with hd
  have hdne : dts ≠ [] := by simpa [hd] using hone
  have hb : ∀ x, some x ∈ dts → 0 < x ∧ x < 3 * 10 ^ 11 := by
    intro x hx
    obtain ⟨i, hi, he⟩ := List.mem_map.1 hx
    have hr := (rowDelta_iff _ _).1 he
    exact ⟨regular_pos hv hr, regular_lt hm hr⟩
  obtain ⟨i0, t, hi0⟩ := List.ne_nil_iff_exists_cons.1 hone
  have hhead : dts.headD none = rowDelta (npDiff (timesOf c i0)) := by rw [hd, hi0]; simp
  constructor
  · intro h
    by_cases hcond : nTimeseries c = 1 ∨ (if dts.all (·.isNone) = true then true else allClose dts) = true
    · rw [if_pos hcond] at h
      simp only [PerId.one.injEq] at h
      rw [hhead] at h
      rcases hcond with h1 | hg
      · have : (ids c).length = 1 := h1
        rw [← hperm.length_eq, hi0] at this
        simp at this; subst this
        intro i hi
        have := (hmem i).2 hi
        rw [hi0] at this; simp at this; subst this
        exact (rowDelta_iff _ _).1 h
      · split at hg
        · rename_i hall
          rw [List.all_eq_true] at hall
          have := hall (rowDelta (npDiff (timesOf c i0))) (by rw [hd, hi0]; simp)
          rw [h] at this; simp at this
        · obtain ⟨d', h'⟩ := (allClose_iff dts hdne hb).1 hg
          have e0 := h' _ (by rw [hd, hi0]; simp : rowDelta (npDiff (timesOf c i0)) ∈ dts)
          rw [h] at e0; simp at e0; subst e0
          intro i hi
          have := h' (rowDelta (npDiff (timesOf c i))) (List.mem_map.2 ⟨i, (hmem i).2 hi, rfl⟩)
          exact (rowDelta_iff _ _).1 this
    · rw [if_neg hcond] at h; simp at h
  · intro h
    have hall : ∀ x ∈ dts, x = some d := by
      intro x hx
      obtain ⟨i, hi, rfl⟩ := List.mem_map.1 hx
      exact (rowDelta_iff _ _).2 (h i ((hmem i).1 hi))
    have hac := (allClose_iff dts hdne hb).2 ⟨d, hall⟩
    have hg : (if dts.all (·.isNone) = true then true else allClose dts) = true := by
      split
      · rfl
      · exact hac
    rw [if_pos (Or.inr hg), hhead]
    congr 1
    exact (rowDelta_iff _ _).2 (h i0 ((hmem i0).1 (by rw [hi0]; simp)))

/-- **C11 (regular collections).** If every series is sampled with the same interval `d`, then `delta_time` is the single value `d`, for integers of any size and for datetimes. -/
theorem C11_regular {c : List (Row Int V)} (hc : c ≠ []) (hv : Valid c) (k : TimeKind) {d : Int} (h : ∀ i, HasId c i → Regular (timesOf c i) d) : deltaTime k c = .one (some d) := by
  obtain ⟨order, hperm, -, hdts⟩ := dts_eq hc hv
  have hone : order ≠ [] := by
    intro e; rw [e] at hperm
    exact ids_ne_nil hc hperm.nil_eq.symm
  have hall : ∀ x ∈ deltaList c, x = some d := by
    intro x hx
    rw [hdts] at hx
    obtain ⟨i, hi, rfl⟩ := List.mem_map.1 hx
    exact (rowDelta_iff _ _).2 (h i (by rw [← mem_ids, ← hperm.mem_iff]; exact hi))
  have hne : deltaList c ≠ [] := by rw [hdts]; simpa using hone
  have hrep : deltaList c = List.replicate (deltaList c).length (some d) := List.eq_replicate_iff.2 ⟨rfl, hall⟩
  have hg : globalUnique k (deltaList c) = true := by
    unfold globalUnique
    split
    · rfl
    · cases k with
      | datetime => rfl
      | int =>
        have hvals : (deltaList c).filterMap id = List.replicate (deltaList c).length d := by
          conv_lhs => rw [hrep]
          simp
        have hmin : ∀ n : Nat, (List.replicate n d).foldl min d = d := by
          intro n; induction n with
          | zero => rfl
          | succ n ih => rw [List.replicate_succ, List.foldl_cons, min_self, ih]
        have hpos : 0 < (deltaList c).length := List.length_pos_iff.2 hne
        have hhead : (List.replicate (deltaList c).length d).headD 0 = d := by
          obtain ⟨m, hm⟩ := Nat.exists_eq_succ_of_ne_zero hpos.ne'
          rw [hm]; rfl
        unfold allClose
        simp only [hvals, hhead, hmin]
        rw [List.all_eq_true]
        intro x hx
        rw [hall x hx]
        simp
  unfold deltaTime
  rw [if_pos (Or.inr hg)]
  congr 1
  obtain ⟨x, t, hx⟩ := List.ne_nil_iff_exists_cons.1 hne
  rw [hx, List.headD_cons]
  exact hall x (by rw [hx]; simp)

/-- **C11 (per-ID values; partial).** If a `pd.Series` is returned then, provided the IDs ascend in the index or the lengths differ, the entry of
each ID is the sampling interval of that series, or NaN (`none`) if that series is irregular or has one sample. Missing: unsorted IDs with equal lengths
(`C11_labels_violated`). -/
theorem C11_per_id_partial {c : List (Row Int V)} (hc : c ≠ []) (hv : Valid c) (k : TimeKind) {l : List (Nat × Option Int)}
    (h : deltaTime k c = .per l) (hs : IdsAscending c ∨ ¬ EqualLengths c) :
    l.map (·.1) = ids c ∧ ∀ i x, (i, x) ∈ l → ∀ d, x = some d ↔ Regular (timesOf c i) d := by
  obtain ⟨order, hperm, hord, hdts⟩ := dts_eq hc hv
  rw [hord hs] at hdts
  unfold deltaTime at h
  rw [hdts] at h
  split at h
  · simp at h
  · simp only [PerId.per.injEq] at h
    subst h
    have hz : ∀ (l : List Nat) (f : Nat → Option Int), l.zip (l.map f) = l.map (fun i => (i, f i)) := by
      intro l f; induction l with
      | nil => rfl
      | cons a l ih => simp_all
    rw [hz]
    refine ⟨by simp [Function.comp_def], ?_⟩
    intro i x hx d
    obtain ⟨j, _, he⟩ := List.mem_map.1 hx
    simp only [Prod.mk.injEq] at he
    obtain ⟨rfl, rfl⟩ := he
    exact rowDelta_iff _ _

/-- **C11 (NaN).** If no series is regularly sampled, the single value NaN is returned. -/
theorem C11_all_irregular {c : List (Row Int V)} (hc : c ≠ []) (hv : Valid c) (k : TimeKind)
    (h : ∀ i d, HasId c i → ¬ Regular (timesOf c i) d) : deltaTime k c = .one none := by
  obtain ⟨order, hperm, -, hdts⟩ := dts_eq hc hv
  have hnone : ∀ x ∈ order.map (fun i => rowDelta (npDiff (timesOf c i))), x = none := by
    intro x hx
    obtain ⟨i, hi, rfl⟩ := List.mem_map.1 hx
    rw [hperm.mem_iff, mem_ids] at hi
    match hr : rowDelta (npDiff (timesOf c i)) with
    | none => rfl
    | some d => exact absurd ((rowDelta_iff _ _).1 hr) (h i d hi)
  unfold deltaTime
  rw [hdts]
  unfold globalUnique
  have hall : (order.map (fun i => rowDelta (npDiff (timesOf c i)))).all (·.isNone) = true := by
    rw [List.all_eq_true]; intro x hx; simp [hnone x hx]
  rw [hall]
  simp only [if_true, or_true]
  congr 1
  match hl : order.map (fun i => rowDelta (npDiff (timesOf c i))) with
  | [] => rfl
  | x :: t => simpa using hnone x (by rw [hl]; simp)

/-- Two daily/hourly datetime series: intervals 1 and 2. -/
def dtWitness : List (Row Int Nat) := [⟨0, 0, 0⟩, ⟨0, 1, 0⟩, ⟨1, 0, 0⟩, ⟨1, 2, 0⟩]

theorem dtWitness_valid : Valid dtWitness := by
  rw [valid_iff]; constructor
  · decide
  · unfold Before; decide

/-- **C11 is violated for datetimes**: series with different sampling intervals are reported as having one common interval. -/
theorem C11_datetime_violated : ∃ (c : List (Row Int Nat)) (d : Int), Valid c ∧ deltaTime .datetime c = .one (some d) ∧
    isConstDeltaTime .datetime c = true ∧ ∃ i, HasId c i ∧ ¬ Regular (timesOf c i) d := by
  refine ⟨dtWitness, 1, dtWitness_valid, by decide, by decide, 1, ⟨⟨1, 0, 0⟩, by simp [dtWitness], rfl⟩, ?_⟩
  rintro ⟨_, h⟩
  have := h (0, 2) (by decide)
  omega

/-- The same rows with integer times are reported per ID. -/
example : deltaTime .int dtWitness = .per [(0, some 1), (1, some 2)] := by decide

/-- **C11 is violated by the tolerance**: two integer time series with intervals `10¹²` and `10¹² + 1` are reported as equal. -/
theorem C11_tolerance_violated : ∃ (c : List (Row Int Nat)) (d : Int), Valid c ∧ deltaTime .int c = .one (some d) ∧
    ∃ i, HasId c i ∧ ¬ Regular (timesOf c i) d := by
  refine ⟨[⟨0, 0, 0⟩, ⟨0, 1000000000000, 0⟩, ⟨1, 0, 0⟩, ⟨1, 1000000000001, 0⟩], 1000000000000, ?_, by decide +kernel, 1,
    ⟨⟨1, 0, 0⟩, by simp, rfl⟩, ?_⟩
  · rw [valid_iff]; constructor
    · decide
    · unfold Before; decide +kernel
  · rintro ⟨_, h⟩
    have := h (0, 1000000000001) (by decide +kernel)
    omega

/-- **C11 labels are violated** for equally long series stored in descending ID order: the interval of each series is reported under the
ID of the other. -/
theorem C11_labels_violated : ∃ (c : List (Row Int Nat)) (l : List (Nat × Option Int)), Valid c ∧ deltaTime .int c = .per l ∧
    ∃ i d, (i, some d) ∈ l ∧ ¬ Regular (timesOf c i) d := by
  refine ⟨[⟨1, 0, 0⟩, ⟨1, 1, 0⟩, ⟨0, 0, 0⟩, ⟨0, 2, 0⟩], [(0, some 1), (1, some 2)], ?_, by decide, 0, 1, by simp, ?_⟩
  · rw [valid_iff]; constructor
    · decide
    · unfold Before; decide
  · rintro ⟨_, h⟩
    have := h (0, 2) (by decide)
    omega

/-- **C11 (datetime, true direction).** A regularly sampled datetime collection reports its interval. -/
theorem C11_datetime_partial {c : List (Row Int V)} (hc : c ≠ []) (hv : Valid c) (d : Int)
    (h : ∀ i, HasId c i → Regular (timesOf c i) d) : deltaTime .datetime c = .one (some d) := by
  obtain ⟨order, hperm, -, hdts⟩ := dts_eq hc hv
  unfold deltaTime
  have hg : globalUnique .datetime (deltaList c) = true := by unfold globalUnique; split <;> rfl
  rw [if_pos (Or.inr hg), hdts]
  congr 1
  obtain ⟨i0, t, hi0⟩ := List.ne_nil_iff_exists_cons.1 (by
    intro e; rw [e] at hperm; exact ids_ne_nil hc hperm.nil_eq.symm : order ≠ [])
  rw [hi0]
  simp only [List.map_cons, List.headD_cons]
  exact (rowDelta_iff _ _).2 (h i0 (by rw [← mem_ids, ← hperm.mem_iff, hi0]; simp))

/-- non-vacuity of `C11_int_partial`: three series of lengths 3, 2, 2 with interval 5 -/
example : deltaTime .int ([⟨2, 0, ()⟩, ⟨2, 5, ()⟩, ⟨2, 10, ()⟩, ⟨0, 7, ()⟩, ⟨0, 12, ()⟩, ⟨1, 0, ()⟩, ⟨1, 5, ()⟩] : List (Row Int Unit)) =
    .one (some 5) := by decide

/-! ### C12 -/

theorem minTime_spec {c : List (Row Int V)} (hc : c ≠ []) : (∀ r ∈ c, minTime c ≤ r.time) ∧ ∃ r ∈ c, r.time = minTime c := by
  have hmem : ∀ t, t ∈ timeValues c ↔ ∃ r ∈ c, r.time = t := by intro t; simp [timeValues, mem_unique]
  have hs : (timeValues c).Pairwise (· < ·) := unique_pairwise _
  obtain ⟨r0, l, rfl⟩ := List.ne_nil_iff_exists_cons.1 hc
  have hne : timeValues (r0 :: l) ≠ [] := List.ne_nil_of_mem ((hmem r0.time).2 ⟨r0, by simp, rfl⟩)
  obtain ⟨m, t, hm⟩ := List.ne_nil_iff_exists_cons.1 hne
  have hmin : minTime (r0 :: l) = m := by simp [minTime, hm]
  rw [hmin]
  refine ⟨?_, (hmem m).1 (by rw [hm]; simp)⟩
  intro r hr
  have := (hmem r.time).2 ⟨r, hr, rfl⟩
  rw [hm] at this hs
  rcases List.mem_cons.1 this with h | h
  · omega
  · exact le_of_lt ((List.pairwise_cons.1 hs).1 _ h)

theorem map_time_valid {c : List (Row Int V)} (hv : Valid c) (f : Int → Int)
    (hf : ∀ i, ((timesOf c i).map f).Pairwise (· < ·)) : Valid (c.map (fun r => { r with time := f r.time })) ∧
    ∀ i, timesOf (c.map (fun r => { r with time := f r.time })) i = (timesOf c i).map f := by
  have hser : ∀ i, series (c.map (fun r => ({ r with time := f r.time } : Row Int V))) i =
      (series c i).map (fun r => ({ r with time := f r.time } : Row Int V)) := by
    intro i; rw [series, List.filter_map]; rfl
  constructor
  · have hids : (c.map (fun r => ({ r with time := f r.time } : Row Int V))).map (·.id) = c.map (·.id) := by simp [Function.comp_def]
    have := hv.map_series (fun i => (series c i).map (fun r => ({ r with time := f r.time } : Row Int V)))
      (by intro i r hr; obtain ⟨x, hx, rfl⟩ := List.mem_map.1 hr; exact (series_id hx : x.id = i))
      (by intro i; have := hf i; simp only [timesOf, List.map_map, List.pairwise_map] at this; rw [List.pairwise_map]; exact this)
    have he : (newIds (c.map (·.id))).flatMap (fun i => (series c i).map (fun r => ({ r with time := f r.time } : Row Int V))) =
        c.map (fun r => ({ r with time := f r.time } : Row Int V)) := by
      conv => rhs; rw [← hv.eq_flatMap]
      rw [List.map_flatMap]
    rwa [he] at this
  · intro i
    simp only [timesOf, hser, List.map_map]; rfl

theorem regular_map {l : List Int} {d m : Int} (hd : 0 < d) (h : Regular l d) : Regular (l.map (fun t => (t - m) / d)) 1 := by
  obtain ⟨h1, h2⟩ := h
  refine ⟨by simpa using h1, ?_⟩
  rw [consecutive_map]
  intro p hp
  obtain ⟨q, hq, rfl⟩ := List.mem_map.1 hp
  have := h2 q hq
  simp only [Prod.map]
  have e : q.2 - m = (q.1 - m) + d := by omega
  rw [e, Int.add_ediv_of_dvd_right (Int.dvd_refl d), Int.ediv_self (by omega)]; omega

theorem regular_pairwise : ∀ {l : List Int} {d : Int}, 0 < d → (∀ p ∈ consecutive l, p.2 - p.1 = d) → l.Pairwise (· < ·)
  | [], _, _, _ => by simp
  | [a], _, _, _ => by simp
  | a :: b :: l, d, hd, h => by
    have ih := regular_pairwise (l := b :: l) hd (fun p hp => h p (by simp [consecutive, hp]))
    have hab := h (a, b) (by simp [consecutive])
    simp only at hab
    rw [List.pairwise_cons]
    refine ⟨?_, ih⟩
    intro x hx
    rcases List.mem_cons.1 hx with rfl | hx
    · omega
    · have := (List.pairwise_cons.1 ih).1 x hx; omega

/-- **C12.** For an integer-time collection in which every series is regularly sampled with the same interval `d`,
`normalize_time` succeeds with a valid collection: values, IDs and row order unchanged, earliest time 0, every series sampled with interval 1.
If moreover all time values differ from the earliest by multiples of `d`, the old times are recovered as `t_min + d · t`. -/
theorem C12_normalize {c : List (Row Int V)} (hc : c ≠ []) (hv : Valid c) {d : Int}
    (h : ∀ i, HasId c i → Regular (timesOf c i) d) :
    ∃ n, normalizeTime .int c = .ok n ∧ Valid n ∧
      n.map (fun r => (r.id, r.val)) = c.map (fun r => (r.id, r.val)) ∧
      (∀ r ∈ n, 0 ≤ r.time) ∧ (∃ r ∈ n, r.time = 0) ∧
      (∀ i, HasId c i → Regular (timesOf n i) 1) ∧
      ((∀ r ∈ c, d ∣ r.time - minTime c) → n.map (fun r => minTime c + d * r.time) = c.map (·.time)) := by
  have hdt := C11_regular hc hv .int h
  obtain ⟨hmin, r0, hr0, hr0t⟩ := minTime_spec hc
  have hd : 0 < d := regular_pos hv (h r0.id ⟨r0, hr0, rfl⟩)
  have hempty : ∀ i, ¬ HasId c i → timesOf c i = [] := by
    intro i hi
    have : series c i = [] := by rw [← not_ne_iff, ← hasId_iff_series]; exact hi
    simp [timesOf, this]
  have hpw : ∀ i, ((timesOf c i).map (fun t => (t - minTime c) / d)).Pairwise (· < ·) := by
    intro i
    by_cases hi : HasId c i
    · exact regular_pairwise (by omega) (regular_map (m := minTime c) hd (h i hi)).2
    · rw [hempty i hi]; simp
  obtain ⟨hval, htimes⟩ := map_time_valid hv (fun t => (t - minTime c) / d) hpw
  set n := c.map (fun r => ({ r with time := (r.time - minTime c) / d } : Row Int V)) with hn
  have hnne : n ≠ [] := by simpa [hn] using hc
  have hreg : ∀ i, HasId c i → Regular (timesOf n i) 1 := by
    intro i hi; rw [htimes i]; exact regular_map hd (h i hi)
  have hhas : ∀ i, HasId n i ↔ HasId c i := by
    intro i; simp [HasId, hn]
  have hnn : ∀ r ∈ n, 0 ≤ r.time := by
    intro r hr
    obtain ⟨x, hx, rfl⟩ := List.mem_map.1 hr
    exact Int.ediv_nonneg (by have := hmin x hx; omega) (by omega)
  have hzero : ∃ r ∈ n, r.time = 0 := ⟨_, List.mem_map.2 ⟨r0, hr0, rfl⟩, by simp [hr0t]⟩
  have hdt1 : deltaTime .int n = .one (some 1) :=
    C11_regular hnne hval .int (fun i hi => hreg i ((hhas i).1 hi))
  have hmin0 : minTime n = 0 := by
    obtain ⟨h1, r, hr, hrt⟩ := minTime_spec hnne
    obtain ⟨r', hr', hr't⟩ := hzero
    have := h1 r' hr'; have := hnn r hr; omega
  refine ⟨n, ?_, hval, by simp [hn, Function.comp_def], hnn, hzero, hreg, ?_⟩
  · unfold normalizeTime
    rw [hdt]
    simp only
    rw [← hn, build_ok_of_valid hval hnne]
    simp [isNormalizedTime, isConstDeltaTime, hdt1, hmin0]
  · intro hdvd
    rw [hn, List.map_map]
    apply List.map_congr_left
    intro r hr
    simp only [Function.comp_apply]
    rw [Int.mul_ediv_cancel' (hdvd r hr)]; omega

/-- **C12 (`is_normalized_time`).** The answer is yes exactly if the earliest time value is 0 and every series is sampled with interval 1. -/
theorem C12_is_normalized {c : List (Row Int V)} (hc : c ≠ []) (hv : Valid c) (hm : ModerateSteps c) :
    isNormalizedTime .int c = true ↔ (∀ r ∈ c, 0 ≤ r.time) ∧ (∃ r ∈ c, r.time = 0) ∧ ∀ i, HasId c i → Regular (timesOf c i) 1 := by
  obtain ⟨h1, r, hr, hrt⟩ := minTime_spec hc
  rw [← C11_int_partial hc hv hm 1]
  unfold isNormalizedTime
  simp only [Bool.and_eq_true, beq_iff_eq, decide_eq_true_eq]
  constructor
  · rintro ⟨⟨-, h0⟩, hd⟩
    exact ⟨fun x hx => h0 ▸ h1 x hx, ⟨r, hr, hrt.trans h0⟩, hd⟩
  · rintro ⟨hn, ⟨x, hx, hx0⟩, hd⟩
    refine ⟨⟨by simp [isConstDeltaTime, hd], ?_⟩, hd⟩
    have := h1 x hx; have := hn r hr; omega

/-- non-vacuity: both answers occur -/
example : isNormalizedTime .int ([⟨2, 3, 'a'⟩, ⟨2, 4, 'b'⟩, ⟨0, 0, 'c'⟩, ⟨0, 1, 'd'⟩] : List (Row Int Char)) = true ∧
    isNormalizedTime .int ([⟨2, 3, 'a'⟩, ⟨2, 4, 'b'⟩, ⟨0, 1, 'c'⟩, ⟨0, 2, 'd'⟩] : List (Row Int Char)) = false := by decide

/-- **C12 (rejection).** A collection that is not constantly sampled is rejected. -/
theorem C12_rejects {c : List (Row Int V)} (hc : c ≠ []) (hv : Valid c) (hm : ModerateSteps c)
    (h : ¬ ∃ d, ∀ i, HasId c i → Regular (timesOf c i) d) : normalizeTime .int c = .error .notConstDelta := by
  unfold normalizeTime
  match hd : deltaTime .int c with
  | .one (some d) => exact absurd ⟨d, (C11_int_partial hc hv hm d).1 hd⟩ h
  | .one none => rfl
  | .per l => rfl

example : normalizeTime .int ([⟨2, 10, 'a'⟩, ⟨2, 15, 'b'⟩, ⟨0, 5, 'c'⟩, ⟨0, 10, 'd'⟩] : List (Row Int Char)) =
    .ok [⟨2, 1, 'a'⟩, ⟨2, 2, 'b'⟩, ⟨0, 0, 'c'⟩, ⟨0, 1, 'd'⟩] := by decide

end Verif.Tsc
