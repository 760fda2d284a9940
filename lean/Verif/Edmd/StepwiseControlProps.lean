import Verif.Edmd.StepwiseControl
import Verif.Edmd.StepwiseProps
import Verif.Dmd.SeriesPredictProps
/-! # C236: stepwise predictions with control input -/

namespace Verif.Edmd

open Verif.Tsc Verif.Np Verif.Dyn Matrix

/-! ### Specification -/

/-- The time series that starts with the state `v` at the first time value; the next state is computed by `f` from the state and the control at the time of the state. -/
def steeredSeries {V W : Type} (f : V → W → V) (u : Int → W) : V → List Int → List (Int × V)
  | _, [] => []
  | v, a :: ts => (a, v) :: steeredSeries f u (f v (u a)) ts

/-! ### One sample per initial condition -/

variable {V W : Type}

/-- The uncontrolled step that looks up the control at the first of its two time values. -/
def withControl (U : List (Row Int W)) (step : List (Row Int V) → List (Row Int W) → List Int → Except StepErr (List (Row Int V))) (cur : List (Row Int V)) (ts : List Int) :
    Except StepErr (List (Row Int V)) :=
  match build (selectTimes U (ts.take 1)) with
  | .error e => .error (.tsc e)
  | .ok u => step cur u ts

theorem stepLoopControl_one (step : List (Row Int V) → List (Row Int W) → List Int → Except StepErr (List (Row Int V))) (times all : List Int) (U : List (Row Int W))
    (k i : Nat) (c : List (Row Int V)) :
    stepLoopControl step 1 times all U k i c =
      stepLoop (withControl U step) 1 times all k i c := by
  induction k generalizing i c with
  | zero => rfl
  | succ k ih =>
    simp only [stepLoopControl, stepLoop]
    have hbody : stepBodyControl step 1 times all U c i = stepBody (withControl U step) 1 times all c i := by
      simp only [stepBodyControl, stepBody, withControl]
      have h1 : ((all.drop (i - 1)).take 2).take 1 = (all.drop (i - 1)).take 1 := by rw [List.take_take]; rfl
      rw [h1]
      split_ifs
      · rfl
      · cases build (selectTimes c ((all.drop (i - 1)).take 1)) with
        | error e => rfl
        | ok cur =>
          simp only
          cases build (selectTimes U ((all.drop (i - 1)).take 1)) with
          | error e => rfl
          | ok u => rfl
    rw [hbody]
    cases stepBody _ 1 times all c i with
    | error e => rfl
    | ok c' => exact ih (i + 1) c'

theorem series_selectTimes (c : List (Row Int V)) (ts : List Int) (i : Nat) : series (selectTimes c ts) i = (series c i).filter (fun r => decide (r.time ∈ ts)) := by
  simp only [series, selectTimes, List.filter_filter]
  congr 1
  funext r
  rw [Bool.and_comm]

/-- The control states at one time value. -/
theorem select_one {U : List (Row Int W)} (hU : Valid U) {a : Int} {i : Nat} {w : W} (h : (⟨i, a, w⟩ : Row Int W) ∈ U) : series (selectTimes U [a]) i = [⟨i, a, w⟩] := by
  have hp : ((series U i)).Pairwise (fun x y => x.time < y.time) := by
    have h1 := (((valid_iff U).1 hU).2).filter (fun r => r.id == i)
    refine h1.imp_of_mem ?_
    intro x y hx hy hb
    exact hb ((mem_series.1 hx).2.trans (mem_series.1 hy).2.symm)
  have hm : (⟨i, a, w⟩ : Row Int W) ∈ series U i := mem_series.2 ⟨h, rfl⟩
  rw [series_selectTimes]
  generalize series U i = L at hp hm
  induction L with
  | nil => simp at hm
  | cons x L ih =>
    rw [List.pairwise_cons] at hp
    rcases List.mem_cons.1 hm with rfl | hm
    · have : L.filter (fun r => decide (r.time ∈ [a])) = [] := by
        rw [List.filter_eq_nil_iff]
        intro y hy
        have := hp.1 y hy
        simp at this ⊢
        omega
      rw [List.filter_cons_of_pos (by simp), this]
    · have := hp.1 _ hm
      rw [List.filter_cons_of_neg (by simp at this ⊢; omega), ih hp.2 hm]

theorem selectTimes_valid {c : List (Row Int V)} (h : Valid c) (ha : IdsAscending c) (ts : List Int) : Valid (selectTimes c ts) ∧ IdsAscending (selectTimes c ts) := by
  have ha' : IdsAscending (selectTimes c ts) := by
    unfold IdsAscending selectTimes at *
    exact ha.sublist (List.filter_sublist.map _)
  refine ⟨?_, ha'⟩
  rw [valid_iff]
  refine ⟨?_, ((valid_iff c).1 h).2.filter _⟩
  rw [newIds_eq_ids ha']
  exact ids_nodup _

/-- A collection with one row per series: its IDs in row order are the sorted IDs. -/
theorem one_row_ids {c : List (Row Int V)} (ha : IdsAscending c) (h1 : ∀ i, HasId c i → (series c i).length = 1) : c.map (·.id) = ids c := by
  have hnd : (c.map (·.id)).Nodup := by
    rw [List.nodup_iff_count_le_one]
    intro i
    by_cases hi : HasId c i
    · have := h1 i hi
      rw [series, ← List.countP_eq_length_filter] at this
      rw [List.count, List.countP_map]
      exact this.le
    · have : i ∉ c.map (·.id) := fun h => hi (by obtain ⟨r, hr, rfl⟩ := List.mem_map.1 h; exact ⟨r, hr, rfl⟩)
      rw [List.count_eq_zero_of_not_mem this]; omega
  refine eq_of_pairwise_lt ?_ (ids_sorted c) (fun i => mem_ids'.symm)
  have h2 : (c.map (·.id)).Pairwise (· ≠ ·) := hnd
  exact (ha.and h2).imp (fun h => lt_of_le_of_ne h.1 h.2)

section edmd

variable {ι δ κ : Type} [Fintype ι] [Fintype δ] [DecidableEq δ] [Fintype κ]

omit [Fintype ι] in
/-- The step of the model, with the control states that the loop selects. -/
theorem controlStep_isStep (g : (ι → ℝ) → (δ → ℝ)) (K : Matrix δ δ ℝ) (E : Matrix δ κ ℝ) (B : Matrix δ ι ℝ) {X : List (Row Int (ι → ℝ))} (hX : X ≠ []) {U : List (Row Int (κ → ℝ))}
    (hU : Valid U) (hUa : IdsAscending U) (hid : ∀ i, HasId U i ↔ HasId X i) {times : List Int} (hinc : times.Pairwise (· < ·)) (u : Nat → Int → κ → ℝ)
    (hu : ∀ i, HasId X i → ∀ a ∈ times.dropLast, (⟨i, a, u i a⟩ : Row Int (κ → ℝ)) ∈ U) :
    IsStep (withControl U (dictStepControl (pointwise g) K E (fun z => z ᵥ* B))) X 1
      (fun i w a _ => (K *ᵥ g (w.headD 0) + E *ᵥ u i a) ᵥ* B) times := by
  intro cur k a b hka hkb hv ha hidc hlast
  obtain ⟨hk1, hka'⟩ := List.getElem?_eq_some_iff.1 hka
  obtain ⟨hk2, hkb'⟩ := List.getElem?_eq_some_iff.1 hkb
  have hab : a < b := by
    rw [← hka', ← hkb']
    exact List.pairwise_iff_getElem.1 hinc k (k + 1) hk1 hk2 (by omega)
  have had : a ∈ times.dropLast := by
    rw [← hka', List.dropLast_eq_take]
    have : times[k] = (times.take (times.length - 1))[k]'(by simp; omega) := by simp
    rw [this]
    exact List.getElem_mem _
  have hsel : ∀ i, HasId X i → series (selectTimes U [a]) i = [⟨i, a, u i a⟩] := fun i hi => select_one hU (hu i hi a had)
  obtain ⟨hsv, hsa⟩ := selectTimes_valid hU hUa [a]
  have hsid : ∀ i, HasId (selectTimes U [a]) i ↔ HasId X i := by
    intro i
    constructor
    · rintro ⟨r, hr, rfl⟩
      exact (hid _).1 ⟨r, (List.mem_filter.1 hr).1, rfl⟩
    · intro hi
      rw [hasId_iff_series, hsel i hi]; simp
  have hone : ∀ i, HasId cur i → (series cur i).length = 1 := fun i hi => (hlast i ((hidc i).1 hi)).1
  have hcne : cur ≠ [] := by
    obtain ⟨r0, l, hl⟩ := List.ne_nil_iff_exists_cons.1 hX
    obtain ⟨q, hq, -⟩ := (hidc r0.id).2 ⟨r0, by rw [hl]; simp, rfl⟩
    exact List.ne_nil_of_mem hq
  have hsne : selectTimes U [a] ≠ [] := by
    obtain ⟨r0, l, hl⟩ := List.ne_nil_iff_exists_cons.1 hX
    obtain ⟨q, hq, -⟩ := (hsid r0.id).2 ⟨r0, by rw [hl]; simp, rfl⟩
    exact List.ne_nil_of_mem hq
  have hcids : cur.map (·.id) = ids (selectTimes U [a]) := by
    rw [one_row_ids ha hone]
    exact eq_of_pairwise_lt (ids_sorted _) (ids_sorted _) (fun i => by rw [mem_ids, mem_ids, hsid, hidc])
  have hstime : ∀ r ∈ selectTimes U [a], r.time = a := by
    intro r hr
    simpa using (List.mem_filter.1 hr).2
  have htv : timeValues (selectTimes U [a]) = [a] := by
    refine eq_of_pairwise_lt (unique_pairwise _) (by simp) (fun t => ?_)
    rw [timeValues, mem_unique, List.mem_map, List.mem_singleton]
    constructor
    · rintro ⟨r, hr, rfl⟩; exact hstime r hr
    · rintro rfl
      obtain ⟨r, l, hl⟩ := List.ne_nil_iff_exists_cons.1 hsne
      exact ⟨r, by rw [hl]; simp, hstime r (by rw [hl]; simp)⟩
  have hsame : isSameTimeValues (selectTimes U [a]) = true := by
    rw [C10_same_time_values hsne hsv]
    intro i j hi hj
    simp only [content, hsel i ((hsid i).1 hi), hsel j ((hsid j).1 hj), List.map_cons, List.map_nil]
  have hvals : ∀ i, HasId X i → vals (selectTimes U [a]) i = [u i a] := by
    intro i hi
    simp only [vals, content, hsel i hi, List.map_cons, List.map_nil]
  have hcurt : ∀ r ∈ cur, r.time = a ∧ content cur r.id = [(r.time, r.val)] := by
    intro r hr
    obtain ⟨x, hx⟩ := List.length_eq_one_iff.1 (hone r.id ⟨r, hr, rfl⟩)
    have hrx : r ∈ series cur r.id := mem_series.2 ⟨hr, rfl⟩
    rw [hx, List.mem_singleton] at hrx
    have h2 := (hlast r.id ((hidc r.id).1 ⟨r, hr, rfl⟩)).2
    rw [timesOf, hx] at h2
    refine ⟨?_, by rw [content, hx, ← hrx]; rfl⟩
    rw [hrx]; simpa using h2
  obtain ⟨d, hd, hdv, hdid, hdc⟩ := C28_controlled K E (mapVal g cur) (selectTimes U [a]) (mapVal_ne_nil.2 hcne) (by rw [mapVal_ids]; exact hcids) hsv hsa hsame a
    (by
      intro r hr
      obtain ⟨q, hq, rfl⟩ := List.mem_map.1 hr
      exact (hcurt q hq).1)
    (by rw [htv]; rfl) 1 (fun i hi => by rw [hvals i ((hsid i).1 hi)]; rfl) a [b] (by simpa using hab) rfl
  refine ⟨mapVal (fun z => z ᵥ* B) d, ?_, mapVal_valid.2 hdv, fun i => by rw [mapVal_hasId, hdid, mapVal_hasId, hidc], fun i hi => ?_⟩
  · have : ([a, b] : List Int).take 1 = [a] := rfl
    simp only [withControl, this, build_ok_of_valid hsv hsne, dictStepControl, pointwise, hd]
  · obtain ⟨r, hr, rfl⟩ := (hidc i).2 hi
    obtain ⟨hrt, hrc⟩ := hcurt r hr
    have h1 := hdc ⟨r.id, r.time, g r.val⟩ (List.mem_map.2 ⟨r, hr, rfl⟩)
    refine ⟨g r.val ᵥ* B, ?_⟩
    rw [mapVal_content, h1, hrc]
    simp [driven, hvals r.id hi, List.range_succ]

theorem steered_roll (f : V → W → V) (u : Int → W) (e : V) (v : V) (a : Int) (ts : List Int) :
    (a :: ts).zip (v :: roll (fun w t _ => f (w.headD e) (u t)) [v] (a :: ts)) = steeredSeries f u v (a :: ts) := by
  induction ts generalizing v a with
  | nil => rfl
  | cons b ts ih =>
    rw [steeredSeries, ← ih]
    simp [roll]

omit [Fintype ι] in
theorem stepwiseControl_one (step : List (Row Int V) → List (Row Int W) → List Int → Except StepErr (List (Row Int V))) (fill : V) {X : List (Row Int V)} {U : List (Row Int W)}
    (hok : validateControlWindow X U = .ok ()) (times : List Int) :
    stepwiseControl step 1 fill X U times = stepwise (withControl U step) 1 fill X times := by
  unfold stepwiseControl stepwise
  rw [hok]
  simp only [stepLoopControl_one]
  rfl

theorem window_ok {X : List (Row Int V)} {U : List (Row Int W)} (ha : IdsAscending X) (hid : ∀ i, HasId U i ↔ HasId X i) (hsame : isSameTimeValues U = true) {t0 : Int}
    (hUt : (timeValues U).head? = some t0) (hone : ∀ i, HasId X i → timesOf X i = [t0]) : validateControlWindow X U = .ok () := by
  unfold validateControlWindow
  rw [newIds_eq_ids ha]
  have h1 : ids X = ids U := eq_of_pairwise_lt (ids_sorted _) (ids_sorted _) (fun i => by rw [mem_ids, mem_ids, hid])
  rw [if_neg (by simpa using h1), if_neg (by simp [hsame]), if_neg]
  simp only [Bool.not_eq_true, List.any_eq_false]
  intro i hi
  have := hone i (mem_ids.1 hi)
  unfold timesOf series at this
  rw [this, hUt]
  simp

omit [Fintype ι] in
/-- **C236.** Stepwise prediction with control (one sample per initial condition, all at `t0`): every initial condition evolves with the control series of its own ID; the state at a time value is
mapped to the dictionary, advanced by one step with the control at this time and mapped back.  Control states at other times do not matter. -/
theorem C236_stepwise (g : (ι → ℝ) → (δ → ℝ)) (K : Matrix δ δ ℝ) (E : Matrix δ κ ℝ) (B : Matrix δ ι ℝ) {X : List (Row Int (ι → ℝ))} (hX : X ≠ []) (hv : Valid X) (ha : IdsAscending X)
    {U : List (Row Int (κ → ℝ))} (hU : Valid U) (hUa : IdsAscending U) (hid : ∀ i, HasId U i ↔ HasId X i) (hsame : isSameTimeValues U = true) {t0 : Int}
    (hUt : (timeValues U).head? = some t0) (hone : ∀ i, HasId X i → timesOf X i = [t0]) {ts : List Int} (hts : ts ≠ []) (hinc : (t0 :: ts).Pairwise (· < ·)) (u : Nat → Int → κ → ℝ)
    (hu : ∀ i, HasId X i → ∀ a ∈ (t0 :: ts).dropLast, (⟨i, a, u i a⟩ : Row Int (κ → ℝ)) ∈ U) :
    ∃ r, stepwiseControl (dictStepControl (pointwise g) K E (fun z => z ᵥ* B)) 1 0 X U (t0 :: ts) = .ok r ∧ Valid r ∧ (∀ i, HasId r i ↔ HasId X i) ∧
      ∀ q ∈ X, content r q.id = steeredSeries (fun x w => (K *ᵥ g x + E *ᵥ w) ᵥ* B) (u q.id) q.val (t0 :: ts) := by
  rw [stepwiseControl_one _ _ (window_ok ha hid hsame hUt hone)]
  obtain ⟨r, hr, hrv, -, hrid, hrc⟩ := C152_stepwise_partial (n := 1) hX hv ha le_rfl 0 (hist := []) rfl (by simpa using hinc) (Or.inl hts) (by simpa using hone)
    (controlStep_isStep g K E B hX hU hUa hid hinc u hu)
  refine ⟨r, hr, hrv, hrid, ?_⟩
  intro q hq
  have h1 := hone q.id ⟨q, hq, rfl⟩
  obtain ⟨x, hx⟩ := List.length_eq_one_iff.1 (by simpa [timesOf] using congrArg List.length h1 : (series X q.id).length = 1)
  have hqx : q ∈ series X q.id := mem_series.2 ⟨hq, rfl⟩
  rw [hx, List.mem_singleton] at hqx
  have hc : (content X q.id).map (·.2) = [q.val] := by rw [content, hx, ← hqx]; rfl
  rw [hrc q.id ⟨q, hq, rfl⟩, hc]
  exact steered_roll (fun x w => (K *ᵥ g x + E *ᵥ w) ᵥ* B) (u q.id) 0 q.val t0 ts

/-- The states of a controlled system `F` that start at `x`. -/
def controlledStates (F : (ι → ℝ) → (κ → ℝ) → (ι → ℝ)) (u : Nat → κ → ℝ) (x : ι → ℝ) : Nat → (ι → ℝ)
  | 0 => x
  | n + 1 => F (controlledStates F u x n) (u n)

/-- A dictionary in which the controlled system `F` is linear on the set `S`, and that contains the states linearly. -/
structure ClosedUnderControl (S : Set (ι → ℝ)) (F : (ι → ℝ) → (κ → ℝ) → (ι → ℝ)) (g : (ι → ℝ) → (δ → ℝ)) (K : Matrix δ δ ℝ) (E : Matrix δ κ ℝ) (B : Matrix δ ι ℝ) : Prop where
  stays : ∀ x ∈ S, ∀ w, F x w ∈ S
  step : ∀ x ∈ S, ∀ w, g (F x w) = K *ᵥ g x + E *ᵥ w
  decode : ∀ x ∈ S, g x ᵥ* B = x

omit [Fintype ι] [DecidableEq δ] in
theorem steered_closed {S : Set (ι → ℝ)} {F : (ι → ℝ) → (κ → ℝ) → (ι → ℝ)} {g : (ι → ℝ) → (δ → ℝ)} {K : Matrix δ δ ℝ} {E : Matrix δ κ ℝ} {B : Matrix δ ι ℝ}
    (hcl : ClosedUnderControl S F g K E B) (u : Int → κ → ℝ) (t0 dt : Int) {x : ι → ℝ} (hx : x ∈ S) (n s : Nat) :
    steeredSeries (fun x w => (K *ᵥ g x + E *ᵥ w) ᵥ* B) u (controlledStates F (fun k => u (t0 + k * dt)) x s) ((List.range' s n).map (fun k : Nat => t0 + k * dt)) =
      (List.range' s n).map (fun k : Nat => (t0 + k * dt, controlledStates F (fun k => u (t0 + k * dt)) x k)) := by
  have hS : ∀ m, controlledStates F (fun k => u (t0 + k * dt)) x m ∈ S := by
    intro m
    induction m with
    | zero => exact hx
    | succ m ih => exact hcl.stays _ ih _
  induction n generalizing s with
  | zero => rfl
  | succ n ih =>
    rw [List.range'_succ, List.map_cons, List.map_cons, steeredSeries, ← ih (s + 1)]
    congr 2
    rw [← hcl.step _ (hS s), hcl.decode _ (hcl.stays _ (hS s) _)]
    rfl

omit [Fintype ι] in
theorem driven_closed {S : Set (ι → ℝ)} {F : (ι → ℝ) → (κ → ℝ) → (ι → ℝ)} {g : (ι → ℝ) → (δ → ℝ)} {K : Matrix δ δ ℝ} {E : Matrix δ κ ℝ} {B : Matrix δ ι ℝ}
    (hcl : ClosedUnderControl S F g K E B) (u : Nat → κ → ℝ) {x : ι → ℝ} (hx : x ∈ S) (n : Nat) : driven K E (g x) u n ᵥ* B = controlledStates F u x n := by
  have hS : ∀ m, controlledStates F u x m ∈ S := by
    intro m
    induction m with
    | zero => exact hx
    | succ m ih => exact hcl.stays _ ih _
  have h : driven K E (g x) u n = g (controlledStates F u x n) := by
    induction n with
    | zero => simp [driven, controlledStates]
    | succ n ih =>
      rw [controlledStates, hcl.step _ (hS n), ← ih]
      simp only [driven, Finset.sum_range_succ, Matrix.mulVec_add, Matrix.mulVec_mulVec, Matrix.mulVec_sum, pow_succ', Nat.add_sub_cancel, Nat.sub_self, pow_zero, Matrix.one_mul, add_assoc]
      congr 2
      apply Finset.sum_congr rfl
      intro j hj
      have : j < n := by simpa using hj
      rw [show n - j = (n - 1 - j) + 1 by omega, pow_succ', Matrix.mul_assoc]
  rw [h, hcl.decode _ (hS n)]

omit [Fintype ι] in
/-- **C236 (agreement).** If the dictionary makes the controlled system linear, stepwise and direct prediction at `n + 1` time values spaced by `dt` give the same time series, the states of the
nonlinear system with the control input of each series. -/
theorem C236_direct {S : Set (ι → ℝ)} {F : (ι → ℝ) → (κ → ℝ) → (ι → ℝ)} {g : (ι → ℝ) → (δ → ℝ)} {K : Matrix δ δ ℝ} {E : Matrix δ κ ℝ} {B : Matrix δ ι ℝ}
    (hcl : ClosedUnderControl S F g K E B) {X : List (Row Int (ι → ℝ))} (hX : X ≠ []) (hv : Valid X) (ha : IdsAscending X) (hXS : ∀ q ∈ X, q.val ∈ S) {U : List (Row Int (κ → ℝ))}
    (hU : Valid U) (hUa : IdsAscending U) (hid : ∀ i, HasId U i ↔ HasId X i) {t0 dt : Int} (hdt : 0 < dt) (hone : ∀ i, HasId X i → timesOf X i = [t0]) {n : Nat} (hn : n ≠ 0)
    (u : Nat → Int → κ → ℝ) (hu : ∀ i, HasId X i → content U i = (List.range n).map (fun k : Nat => (t0 + k * dt, u i (t0 + k * dt)))) :
    ∃ r d, stepwiseControl (dictStepControl (pointwise g) K E (fun z => z ᵥ* B)) 1 0 X U ((List.range (n + 1)).map (fun k : Nat => t0 + k * dt)) = .ok r ∧
      edmdPredictControl g K E B X U ((List.range (n + 1)).map (fun k : Nat => t0 + k * dt)) = .ok d ∧ Valid r ∧ (∀ i, HasId r i ↔ HasId X i) ∧
      ∀ q ∈ X, content r q.id = (List.range (n + 1)).map (fun k : Nat => (t0 + k * dt, controlledStates F (fun k => u q.id (t0 + k * dt)) q.val k)) ∧ content d q.id = content r q.id := by
  have hcons : (List.range (n + 1)).map (fun k : Nat => t0 + k * dt) = t0 :: (List.range n).map (fun k : Nat => t0 + (k + 1 : Nat) * dt) := by
    rw [List.range_succ_eq_map]
    simp [List.map_map, Function.comp_def]
  have hinc : ((List.range (n + 1)).map (fun k : Nat => t0 + k * dt)).Pairwise (· < ·) := by
    rw [List.pairwise_map]
    refine List.pairwise_lt_range.imp ?_
    intro a b hab
    have : (a : Int) < b := by exact_mod_cast hab
    nlinarith
  obtain ⟨i0, hi0⟩ : ∃ i, HasId X i := by
    obtain ⟨r0, l, hl⟩ := List.ne_nil_iff_exists_cons.1 hX
    exact ⟨r0.id, r0, by rw [hl]; simp, rfl⟩
  have hUne : U ≠ [] := by
    obtain ⟨r, hr, -⟩ := (hid i0).2 hi0
    exact List.ne_nil_of_mem hr
  have hut : ∀ i, HasId X i → (content U i).map (·.1) = (List.range n).map (fun k : Nat => t0 + k * dt) := by
    intro i hi
    rw [hu i hi, List.map_map]; rfl
  have hsame : isSameTimeValues U = true := by
    rw [C10_same_time_values hUne hU]
    intro i j hi hj
    rw [hut i ((hid i).1 hi), hut j ((hid j).1 hj)]
  have htv : (timeValues U).head? = some t0 := by
    rw [Verif.Dmd.timeValues_same hU hsame ((hid i0).2 hi0), hut i0 hi0]
    obtain ⟨m, rfl⟩ := Nat.exists_eq_succ_of_ne_zero hn
    simp [List.range_succ_eq_map]
  have hmem : ∀ i, HasId X i → ∀ a ∈ ((List.range (n + 1)).map (fun k : Nat => t0 + k * dt)).dropLast, (⟨i, a, u i a⟩ : Row Int (κ → ℝ)) ∈ U := by
    intro i hi a ha'
    rw [List.range_succ, List.map_append, List.map_cons, List.map_nil, List.dropLast_concat, List.mem_map] at ha'
    obtain ⟨k, hk, rfl⟩ := ha'
    have : (t0 + (k : Int) * dt, u i (t0 + k * dt)) ∈ content U i := by
      rw [hu i hi]
      exact List.mem_map.2 ⟨k, hk, rfl⟩
    obtain ⟨r, hr, he⟩ := List.mem_map.1 this
    obtain ⟨hr1, hr2⟩ := mem_series.1 hr
    have he := Prod.mk.inj he
    have hre : r = ⟨i, t0 + k * dt, u i (t0 + k * dt)⟩ := by
      rw [← he.1, ← hr2]
      rw [show u r.id r.time = r.val by rw [he.2, hr2, he.1]]
    rw [← hre]
    exact hr1
  have hlen : ∀ i, HasId U i → (vals U i).length = n := by
    intro i hi
    simp [vals, hu i ((hid i).1 hi)]
  have hone' : ∀ i, HasId X i → (series X i).length = 1 := by
    intro i hi
    simpa [timesOf] using congrArg List.length (hone i hi)
  have hXt : ∀ q ∈ X, q.time = t0 := by
    intro q hq
    have h1 : q.time ∈ timesOf X q.id := List.mem_map.2 ⟨q, mem_series.2 ⟨hq, rfl⟩, rfl⟩
    rw [hone q.id ⟨q, hq, rfl⟩] at h1
    simpa using h1
  have hids : X.map (·.id) = ids U := by
    rw [one_row_ids ha hone']
    exact eq_of_pairwise_lt (ids_sorted _) (ids_sorted _) (fun i => by rw [mem_ids, mem_ids, hid])
  obtain ⟨d, hd, -, -, hdc⟩ := C28_controlled K E (mapVal g X) U (mapVal_ne_nil.2 hX) (by rw [mapVal_ids]; exact hids) hU hUa hsame t0
    (by
      intro r hr
      obtain ⟨q, hq, rfl⟩ := List.mem_map.1 hr
      exact hXt q hq) htv n hlen t0 _ (by rw [← hcons]; exact hinc) (by simp)
  obtain ⟨r, hr, hrv, hrid, hrc⟩ := C236_stepwise g K E B hX hv ha hU hUa hid hsame htv hone (ts := (List.range n).map (fun k : Nat => t0 + (k + 1 : Nat) * dt)) (by simpa using hn)
    (by rw [← hcons]; exact hinc) u (by rw [← hcons]; exact hmem)
  rw [← hcons] at hr hd
  refine ⟨r, mapVal (fun z => z ᵥ* B) d, hr, by simp only [edmdPredictControl, hd], hrv, hrid, ?_⟩
  intro q hq
  have h1 : content r q.id = (List.range (n + 1)).map (fun k : Nat => (t0 + k * dt, controlledStates F (fun k => u q.id (t0 + k * dt)) q.val k)) := by
    rw [hrc q hq, ← hcons, List.range_eq_range']
    exact steered_closed hcl (u q.id) t0 dt (hXS q hq) (n + 1) 0
  refine ⟨h1, ?_⟩
  rw [h1, mapVal_content, hdc ⟨q.id, q.time, g q.val⟩ (List.mem_map.2 ⟨q, hq, rfl⟩), ← hcons, List.zip_map', List.map_map]
  apply List.map_congr_left
  intro k hk
  have hk : k < n + 1 := by simpa using hk
  simp only [Function.comp_apply, Prod.mk.injEq, true_and]
  rw [driven_closed hcl _ (hXS q hq)]
  have key : ∀ m, m ≤ n → controlledStates F (fun k => (vals U q.id).getD k 0) q.val m = controlledStates F (fun k => u q.id (t0 + k * dt)) q.val m := by
    intro m hm
    induction m with
    | zero => rfl
    | succ m ih =>
      rw [controlledStates, controlledStates, ih (by omega)]
      congr 1
      simp [vals, hu q.id ⟨q, hq, rfl⟩, List.getD_eq_getElem?_getD, List.getElem?_range (show m < n by omega)]
  exact key k (by omega)

end edmd

/-! ### Several samples per initial condition -/

theorem setRows_keys {c f d : List (Row Int V)} (h : setRows c f = .ok d) : d.map (·.key) = c.map (·.key) := by
  unfold setRows at h
  split_ifs at h
  injection h with h
  rw [← h, List.map_map]
  apply List.map_congr_left
  intro r _
  simp only [Function.comp_apply, replaceRow]
  split <;> rfl

theorem stepBodyControl_keys {step : List (Row Int V) → List (Row Int W) → List Int → Except StepErr (List (Row Int V))} {n : Nat} {times all : List Int} {U : List (Row Int W)}
    {c d : List (Row Int V)} {i : Nat} (h : stepBodyControl step n times all U c i = .ok d) :
    ((all.drop (i - n)).take n).getLast? = times[i - n]? ∧ d.map (·.key) = c.map (·.key) ∧
      ∃ p, step (selectTimes c ((all.drop (i - n)).take n)) (selectTimes U ((all.drop (i - n)).take n)) ((all.drop (i - 1)).take 2) = .ok p := by
  simp only [stepBodyControl] at h
  split_ifs at h with h1
  · cases hb : build (selectTimes c ((all.drop (i - n)).take n)) with
    | error e => rw [hb] at h; cases h
    | ok cur =>
      rw [hb] at h
      simp only at h
      cases hu : build (selectTimes U ((all.drop (i - n)).take n)) with
      | error e => rw [hu] at h; cases h
      | ok u =>
        rw [hu] at h
        simp only at h
        cases hp : step cur u ((all.drop (i - 1)).take 2) with
        | error e => rw [hp] at h; cases h
        | ok p =>
          rw [hp] at h
          simp only at h
          split_ifs at h with h2
          · cases hf : finalStates p 1 with
            | error e => rw [hf] at h; cases h
            | ok f =>
              rw [hf] at h
              have e1 := (build_ok_iff.1 hb).1
              have e2 := (build_ok_iff.1 hu).1
              exact ⟨not_not.1 h1, setRows_keys h, p, by rw [e1, e2]; exact hp⟩

/-- **C236 is violated for dictionaries with memory.** If initial conditions have `n ≥ 2` samples, every stepwise prediction with control input at three or more time values raises, for every
dictionary that returns, for each window, states at the last time of the window. -/
theorem C236_memory_violated {δ κ : Type} [Fintype δ] [DecidableEq δ] [Fintype κ] {trans : List (Row Int V) → Except StepErr (List (Row Int (δ → ℝ)))}
    (htrans : ∀ c D, trans c = .ok D → D ≠ [] ∧ ∀ r ∈ D, ∀ q ∈ c, q.time ≤ r.time) (K : Matrix δ δ ℝ) (E : Matrix δ κ ℝ) (back : (δ → ℝ) → V) {n : Nat} (hn : 2 ≤ n) (fill : V)
    (X : List (Row Int V)) (U : List (Row Int (κ → ℝ))) (t0 t1 t2 : Int) (ts : List Int) (ht : t0 < t1) (hU : ∃ r ∈ U, r.time = t0) :
    ∃ e, stepwiseControl (dictStepControl trans K E back) n fill X U (t0 :: t1 :: t2 :: ts) = .error e := by
  by_contra hcon
  have hok : ∃ d, stepwiseControl (dictStepControl trans K E back) n fill X U (t0 :: t1 :: t2 :: ts) = .ok d := by
    cases h : stepwiseControl (dictStepControl trans K E back) n fill X U (t0 :: t1 :: t2 :: ts) with
    | error e => exact absurd ⟨e, h⟩ hcon
    | ok d => exact ⟨d, rfl⟩
  obtain ⟨d, hd⟩ := hok
  unfold stepwiseControl at hd
  cases hval : validateControlWindow X U with
  | error e => rw [hval] at hd; cases hd
  | ok _ =>
    rw [hval] at hd
    simp only at hd
    cases hexp : expandTimeValues X (t0 :: t1 :: t2 :: ts).tail fill with
    | error e => rw [hexp] at hd; cases hd
    | ok c =>
      rw [hexp] at hd
      simp only [List.length_cons, Nat.add_sub_cancel, stepLoopControl] at hd
      cases hb1 : stepBodyControl (dictStepControl trans K E back) n (t0 :: t1 :: t2 :: ts) (timeValues c) U c n with
      | error e => rw [hb1] at hd; cases hd
      | ok c1 =>
        rw [hb1] at hd
        simp only at hd
        cases hb2 : stepBodyControl (dictStepControl trans K E back) n (t0 :: t1 :: t2 :: ts) (timeValues c) U c1 (n + 1) with
        | error e => rw [hb2] at hd; cases hd
        | ok c2 =>
          obtain ⟨w1, k1, -⟩ := stepBodyControl_keys hb1
          obtain ⟨w2, -, p, hp⟩ := stepBodyControl_keys hb2
          rw [show n + 1 - n = 1 by omega] at w2 hp
          simp only [Nat.sub_self, List.drop_zero, List.getElem?_cons_zero] at w1
          simp only [List.getElem?_cons_succ, List.getElem?_cons_zero] at w2
          -- `t0` and `t1` are in the second window
          have m1 : t1 ∈ ((timeValues c).drop 1).take n := List.mem_of_getLast? w2
          have m0 : t0 ∈ ((timeValues c).drop 1).take n := by
            have hl : n ≤ (timeValues c).length := by
              by_contra hlt
              rw [List.take_of_length_le (by omega)] at w1
              have h3 : (timeValues c).drop 1 ≠ [] := by rintro h0; rw [h0] at m1; simp at m1
              rw [List.take_of_length_le (by simp; omega), List.getLast?_drop, if_neg (by rw [Ne, List.drop_eq_nil_iff] at h3; omega), w1] at w2
              injection w2 with w2
              omega
            rw [List.getLast?_eq_getElem?, List.length_take, Nat.min_eq_left hl, List.getElem?_take_of_lt (by omega)] at w1
            have h4 : (((timeValues c).drop 1).take n)[n - 2]? = some t0 := by
              rw [List.getElem?_take_of_lt (by omega), List.getElem?_drop, show 1 + (n - 2) = n - 1 by omega, w1]
            exact List.mem_of_getElem? h4
          -- a sample at `t1`
          have hq : ∃ q ∈ selectTimes c1 (((timeValues c).drop 1).take n), q.time = t1 := by
            have h5 : t1 ∈ timeValues c := List.mem_of_mem_drop (List.mem_of_mem_take m1)
            rw [← (keys_facts k1).2.2.2, timeValues, mem_unique, List.mem_map] at h5
            obtain ⟨q, hq, hqt⟩ := h5
            exact ⟨q, List.mem_filter.2 ⟨hq, by rw [hqt]; simpa using m1⟩, hqt⟩
          obtain ⟨q, hq, hqt⟩ := hq
          unfold dictStepControl at hp
          cases htr : trans (selectTimes c1 (((timeValues c).drop 1).take n)) with
          | error e => rw [htr] at hp; cases hp
          | ok D =>
            rw [htr] at hp
            simp only at hp
            obtain ⟨hDne, hDt⟩ := htrans _ _ htr
            obtain ⟨x, l, hx⟩ := List.ne_nil_iff_exists_cons.1 hDne
            have hxt : t1 ≤ x.time := by rw [← hqt]; exact hDt x (by rw [hx]; simp) q hq
            obtain ⟨r, hr, hrt⟩ := hU
            have hrm : r ∈ selectTimes U (((timeValues c).drop 1).take n) := List.mem_filter.2 ⟨hr, by rw [hrt]; simpa using m0⟩
            have hbad : ∃ e, predictControlled K E D (selectTimes U (((timeValues c).drop 1).take n)) ((List.drop (n + 1 - 1) (timeValues c)).take 2) = .error e := by
              unfold predictControlled
              have : ∃ e, validateControl D (selectTimes U (((timeValues c).drop 1).take n)) = .error e := by
                unfold validateControl
                split_ifs with a1 a2 a3
                · exact ⟨_, rfl⟩
                · exact ⟨_, rfl⟩
                · exact ⟨_, rfl⟩
                · exfalso
                  apply a3
                  rw [List.any_eq_true]
                  refine ⟨x.time, List.mem_map.2 ⟨x, by rw [hx]; simp, rfl⟩, ?_⟩
                  rw [bne_iff_ne]
                  intro hh
                  have hmem : r.time ∈ timeValues (selectTimes U (((timeValues c).drop 1).take n)) := by
                    rw [timeValues, mem_unique]; exact List.mem_map.2 ⟨r, hrm, rfl⟩
                  have hpw : (timeValues (selectTimes U (((timeValues c).drop 1).take n))).Pairwise (· < ·) := unique_pairwise _
                  generalize timeValues (selectTimes U (((timeValues c).drop 1).take n)) = L at hh hmem hpw
                  match L, hh, hmem, hpw with
                  | y :: L, hh, hmem, hpw =>
                    simp only [List.head?_cons, Option.some.injEq] at hh
                    rcases List.mem_cons.1 hmem with h6 | h6
                    · omega
                    · have := (List.pairwise_cons.1 hpw).1 _ h6
                      omega
              obtain ⟨e, he⟩ := this
              rw [he]
              exact ⟨e, rfl⟩
            obtain ⟨e, he⟩ := hbad
            rw [he] at hp
            cases hp

/-! ### The hypotheses are met -/

/-- Initial conditions of two series at time 4. -/
def exSteerX : List (Row Int (Fin 1 → ℝ)) := [⟨2, 4, ![1]⟩, ⟨5, 4, ![3]⟩]

/-- Their control input at the times 4 and 6. -/
def exSteerU : List (Row Int (Fin 1 → ℝ)) := [⟨2, 4, ![7]⟩, ⟨2, 6, ![0]⟩, ⟨5, 4, ![1]⟩, ⟨5, 6, ![2]⟩]

/-- The control values of `exSteerU`. -/
def exSteerVal (i : Nat) (t : Int) : Fin 1 → ℝ := if i = 2 then (if t = 4 then ![7] else ![0]) else (if t = 4 then ![1] else ![2])

theorem exSteer_valid : Valid exSteerX ∧ IdsAscending exSteerX ∧ Valid exSteerU ∧ IdsAscending exSteerU := by
  refine ⟨?_, ?_, ?_, ?_⟩
  · rw [valid_iff]; exact ⟨by decide, by simp [exSteerX, Before]⟩
  · simp [IdsAscending, exSteerX]
  · rw [valid_iff]; exact ⟨by decide, by simp [exSteerU, Before]⟩
  · simp [IdsAscending, exSteerU]

theorem exSteer_ids (i : Nat) : (HasId exSteerX i ↔ i = 2 ∨ i = 5) ∧ (HasId exSteerU i ↔ i = 2 ∨ i = 5) := by
  constructor <;> simp only [HasId, exSteerX, exSteerU, List.mem_cons, List.not_mem_nil, or_false] <;> constructor
  · rintro ⟨r, rfl | rfl, rfl⟩ <;> simp
  · rintro (rfl | rfl)
    · exact ⟨_, Or.inl rfl, rfl⟩
    · exact ⟨_, Or.inr rfl, rfl⟩
  · rintro ⟨r, rfl | rfl | rfl | rfl, rfl⟩ <;> simp
  · rintro (rfl | rfl)
    · exact ⟨_, Or.inl rfl, rfl⟩
    · exact ⟨_, Or.inr (Or.inr (Or.inl rfl)), rfl⟩

/-- The controlled system `x ↦ 2 x + w` with the states as dictionary. -/
theorem exSteer_closed : ClosedUnderControl (Set.univ : Set (Fin 1 → ℝ)) (fun x w => (2 : ℝ) • x + w) (fun x => x) (Matrix.of fun _ _ : Fin 1 => (2 : ℝ)) (1 : Matrix (Fin 1) (Fin 1) ℝ)
    (1 : Matrix (Fin 1) (Fin 1) ℝ) where
  stays := fun _ _ _ => Set.mem_univ _
  step := by
    intro x _ w
    funext i
    fin_cases i
    simp [Matrix.mulVec, dotProduct]
  decode := fun x _ => by simp

example : ∃ r d, stepwiseControl (dictStepControl (pointwise fun x : Fin 1 → ℝ => x) (Matrix.of fun _ _ : Fin 1 => (2 : ℝ)) (1 : Matrix (Fin 1) (Fin 1) ℝ)
      (fun z => z ᵥ* (1 : Matrix (Fin 1) (Fin 1) ℝ))) 1 0 exSteerX exSteerU ((List.range 3).map (fun k : Nat => (4 : Int) + k * 2)) = .ok r ∧
    edmdPredictControl (fun x : Fin 1 → ℝ => x) (Matrix.of fun _ _ : Fin 1 => (2 : ℝ)) (1 : Matrix (Fin 1) (Fin 1) ℝ) (1 : Matrix (Fin 1) (Fin 1) ℝ) exSteerX exSteerU
      ((List.range 3).map (fun k : Nat => (4 : Int) + k * 2)) = .ok d ∧ content r 5 = [(4, ![3]), (6, ![7]), (8, ![16])] := by
  obtain ⟨h1, h2, h3, h4⟩ := exSteer_valid
  obtain ⟨r, d, hr, hd, -, -, hc⟩ := C236_direct exSteer_closed (X := exSteerX) (by simp [exSteerX]) h1 h2 (fun _ _ => Set.mem_univ _) (U := exSteerU) h3 h4
    (fun i => by rw [(exSteer_ids i).1, (exSteer_ids i).2]) (t0 := 4) (dt := 2) (by decide)
    (by intro i hi; rcases (exSteer_ids i).1.1 hi with rfl | rfl <;> simp [timesOf, series, exSteerX]) (n := 2) (by decide) exSteerVal
    (by intro i hi; rcases (exSteer_ids i).1.1 hi with rfl | rfl <;> simp [content, series, exSteerU, exSteerVal, List.range_succ])
  refine ⟨r, d, hr, hd, ?_⟩
  have := (hc ⟨5, 4, ![3]⟩ (by simp [exSteerX])).1
  rw [this]
  simp [List.range_succ, controlledStates, exSteerVal]
  norm_num

/-- A delay embedding with two samples meets the hypothesis of `C236_memory_violated`: it returns states at the last time. -/
example : ∃ e, stepwiseControl (dictStepControl (V := ℝ) (fun c => match c with
      | [x, y] => if x.time < y.time then .ok [⟨y.id, y.time, ![x.val, y.val]⟩] else .error .assertion
      | _ => .error .assertion) (1 : Matrix (Fin 2) (Fin 2) ℝ) (0 : Matrix (Fin 2) (Fin 1) ℝ) (fun z => z 1)) 2 0 [⟨0, 0, 1⟩, ⟨0, 1, 2⟩] [⟨0, 1, ![0]⟩, ⟨0, 2, ![0]⟩] [1, 2, 3] = .error e := by
  refine C236_memory_violated ?_ _ _ _ le_rfl _ _ _ 1 2 3 [] (by decide) ⟨_, List.mem_cons_self, rfl⟩
  intro c D h
  match c, h with
  | [x, y], h =>
    simp only at h
    split_ifs at h with hlt
    injection h with h
    subst h
    refine ⟨by simp, ?_⟩
    intro r hr q hq
    simp only [List.mem_cons, List.not_mem_nil, or_false] at hr hq
    subst hr
    rcases hq with rfl | rfl
    · exact hlt.le
    · exact le_rfl

end Verif.Edmd
