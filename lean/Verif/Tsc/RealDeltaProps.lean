import Verif.Tsc.RealDeltaLemmas
import Verif.Tsc.DeltaProps
import Mathlib.Tactic.Linarith
import Mathlib.Tactic.FieldSimp
import Mathlib.Tactic.NormNum
/-!
# C214: sampling interval of floating point time values
-/

namespace Verif.Tsc

open Verif.Np

variable {V : Type}

/-! ### Specification -/

/-- The sampling intervals of series `i`, in order. -/
def gapsOf (c : List (Row ℚ V)) (i : Nat) : List ℚ := (consecutive ((series c i).map (·.time))).map (fun p => p.2 - p.1)

/-- Every sampling interval of series `i` agrees with `d` up to five times the documented tolerances. -/
def SampledWith (c : List (Row ℚ V)) (i : Nat) (d : ℚ) : Prop := ∀ g ∈ gapsOf c i, |g - d| ≤ 5 * (1 / 10 ^ 16 + 3 / 10 ^ 12 * d)

/-- Any two of the intervals agree within the tolerances. -/
def GapsClose (l : List ℚ) : Prop := ∀ x ∈ l, ∀ y ∈ l, x ≤ y → y - x ≤ 1 / 10 ^ 16 + 3 / 10 ^ 12 * y

/-! ### Lemmas -/

theorem gapsOf_eq (c : List (Row ℚ V)) (i : Nat) : qDiff ((series c i).map (·.time)) = gapsOf c i := qDiff_eq _

theorem gapsOf_length (c : List (Row ℚ V)) (i : Nat) : (gapsOf c i).length = (series c i).length - 1 := by
  rw [← gapsOf_eq, qDiff_length, List.length_map]

theorem consecutive_lt {l : List ℚ} (h : l.Pairwise (· < ·)) : ∀ p ∈ consecutive l, p.1 < p.2 := by
  fun_induction consecutive l with
  | case1 a b l ih =>
    intro p hp
    rw [List.pairwise_cons] at h
    rcases List.mem_cons.1 hp with rfl | hp
    · exact h.1 b (by simp)
    · exact ih h.2 p hp
  | case2 l h => simp

theorem gapsOf_pos {c : List (Row ℚ V)} (hv : Valid c) (i : Nat) : ∀ g ∈ gapsOf c i, 0 < g := by
  intro g hg
  obtain ⟨p, hp, rfl⟩ := List.mem_map.1 hg
  have hs := hv.series_sorted i
  have := consecutive_lt (l := (series c i).map (·.time)) (by rw [List.pairwise_map]; exact hs) p hp
  linarith

theorem qMin_spec (l : List ℚ) (h : l ≠ []) : qMin l ∈ l ∧ ∀ x ∈ l, qMin l ≤ x := by
  cases l with
  | nil => exact absurd rfl h
  | cons d l =>
    have key : ∀ (l : List ℚ) (d : ℚ), (l.foldl min d = d ∨ l.foldl min d ∈ l) ∧ l.foldl min d ≤ d ∧ ∀ y ∈ l, l.foldl min d ≤ y := by
      intro l
      induction l with
      | nil => intro d; simp
      | cons z l ih =>
        intro d
        obtain ⟨h1, h2, h3⟩ := ih (min d z)
        refine ⟨?_, le_trans h2 (min_le_left _ _), ?_⟩
        · rcases h1 with h1 | h1
          · rcases min_choice d z with hm | hm
            · left; show l.foldl min (min d z) = d; rw [h1, hm]
            · right; show l.foldl min (min d z) ∈ z :: l; rw [h1, hm]; simp
          · right; exact List.mem_cons_of_mem _ h1
        · intro y hy
          rcases List.mem_cons.1 hy with rfl | hy
          · exact le_trans h2 (min_le_right _ _)
          · exact h3 y hy
    obtain ⟨h1, h2, h3⟩ := key l d
    constructor
    · show l.foldl min d ∈ d :: l
      rcases h1 with h1 | h1
      · rw [h1]; simp
      · exact List.mem_cons_of_mem _ h1
    · intro x hx
      rcases List.mem_cons.1 hx with rfl | hx
      · exact h2
      · exact h3 x hx

theorem qMin_eq (l : List ℚ) (d : ℚ) (hd : d ∈ l) (h : ∀ x ∈ l, d ≤ x) : qMin l = d := by
  obtain ⟨h1, h2⟩ := qMin_spec l (List.ne_nil_of_mem hd)
  exact le_antisymm (h2 d hd) (h _ h1)

theorem qClose_iff (m x : ℚ) (hm : m ≤ x) (hx : 0 < x) : qClose m x = true ↔ x - m ≤ 1 / 10 ^ 16 + 3 / 10 ^ 12 * x := by
  unfold qClose tolA tolR
  rw [decide_eq_true_eq, abs_of_nonpos (by linarith), abs_of_pos hx, neg_sub]

/-- The value of the loop branch for one series. -/
theorem qLoopDelta_iff (l : List ℚ) (hl : l ≠ []) (hp : ∀ g ∈ l, 0 < g) : ∃ x, qLoopDelta l = .ok x ∧ ∀ d, x = some d ↔ l.head? = some d ∧ GapsClose l := by
  obtain ⟨hmem, hmin⟩ := qMin_spec l hl
  have hall : l.all (qClose (qMin l)) = true ↔ GapsClose l := by
    rw [List.all_eq_true]
    constructor
    · intro h x hx y hy hxy
      have := (qClose_iff _ _ (hmin y hy) (hp y hy)).1 (h y hy)
      have := hmin x hx
      linarith
    · intro h y hy
      exact (qClose_iff _ _ (hmin y hy) (hp y hy)).2 (h _ hmem y hy (hmin y hy))
  cases l with
  | nil => exact absurd rfl hl
  | cons d l =>
    by_cases h : (d :: l).all (qClose (qMin (d :: l))) = true
    · refine ⟨some d, by simp only [qLoopDelta]; rw [if_pos h], fun e => ?_⟩
      simp [hall.1 h]
    · refine ⟨none, by simp only [qLoopDelta]; rw [if_neg h], fun e => ?_⟩
      constructor
      · intro h0; cases h0
      · intro h0; exact absurd (hall.2 h0.2) h

theorem gapsClose_near {l : List ℚ} (h : GapsClose l) (hp : ∀ g ∈ l, 0 < g) {d : ℚ} (hd : d ∈ l) : ∀ g ∈ l, |g - d| ≤ 2 * (1 / 10 ^ 16 + 3 / 10 ^ 12 * d) := by
  intro g hg
  have hdp := hp d hd
  rw [abs_le]
  rcases le_total d g with hle | hle
  · have := h d hd g hg hle
    constructor <;> linarith
  · have := h g hg d hd hle
    constructor <;> linarith

/-- The value of the equal length branch for one series. -/
theorem qRowDelta_near (l : List ℚ) (hp : ∀ g ∈ l, 0 < g) (m : ℚ) (h : qRowDelta l = some m) : m ∈ l ∧ (∀ g ∈ l, m ≤ g) ∧ ∀ g ∈ l.tail, g - m ≤ 1 / 10 ^ 16 + 3 / 10 ^ 12 * m := by
  match l, h with
  | [d], h =>
    obtain rfl : d = m := by simpa [qRowDelta] using h
    simp
  | d :: e :: l, h =>
    simp only [qRowDelta] at h
    split at h
    · rename_i hc
      obtain rfl := Option.some.inj h
      obtain ⟨hmem, hmin⟩ := qMin_spec (d :: e :: l) (by simp)
      refine ⟨hmem, hmin, fun g hg => ?_⟩
      have hpos := hp _ hmem
      rw [Bool.or_eq_true, List.all_eq_true, List.all_eq_true] at hc
      rcases hc with hc | hc
      · have := of_decide_eq_true (hc g hg)
        have := (abs_lt.1 this).2
        unfold tolA at this
        linarith
      · have := of_decide_eq_true (hc g hg)
        rw [div_lt_iff₀ hpos] at this
        have := (abs_lt.1 this).2
        unfold tolR at this
        linarith
    · cases h

theorem qRowDelta_tail (d : ℚ) (g0 : ℚ) (k : Nat) (hd : 0 < d) (hg : d ≤ g0) : qRowDelta (g0 :: List.replicate (k + 1) d) = some d := by
  have hm : qMin (g0 :: d :: List.replicate k d) = d := by
    apply qMin_eq
    · simp
    · intro x hx
      rcases List.mem_cons.1 hx with rfl | hx
      · exact hg
      · rcases List.mem_cons.1 hx with rfl | hx
        · exact le_refl _
        · rw [List.eq_of_mem_replicate hx]
  rw [List.replicate_succ]
  simp only [qRowDelta, hm]
  rw [if_pos]
  rw [Bool.or_eq_true]
  left
  rw [List.all_eq_true]
  intro x hx
  have : x = d := by
    rcases List.mem_cons.1 hx with rfl | hx
    · rfl
    · exact List.eq_of_mem_replicate hx
  rw [this, sub_self, abs_zero]
  unfold tolA
  norm_num

theorem qRowDelta_const (l : List ℚ) (hl : l ≠ []) (d : ℚ) (hd : 0 < d) (h : ∀ g ∈ l, g = d) : qRowDelta l = some d := by
  match l, hl with
  | [x], _ => rw [h x (by simp)]; rfl
  | x :: y :: l, _ =>
    have e : x :: y :: l = d :: List.replicate (l.length + 1) d := by
      rw [h x (by simp)]
      congr 1
      exact List.eq_replicate_iff.2 ⟨by simp, fun b hb => h b (List.mem_cons_of_mem _ hb)⟩
    rw [e]
    exact qRowDelta_tail d d l.length hd (le_refl _)

theorem qLoop_ok (f : Nat → Except RealErr (Option ℚ)) (l : List Nat) (g : Nat → Option ℚ) (h : ∀ i ∈ l, f i = .ok (g i)) : qLoop f l = .ok (l.map g) := by
  induction l with
  | nil => rfl
  | cons i l ih =>
    have h1 := h i (by simp)
    have h2 := ih (fun j hj => h j (List.mem_cons_of_mem _ hj))
    simp only [qLoop, h1, h2, List.map_cons]

theorem qLoop_error (f : Nat → Except RealErr (Option ℚ)) (l : List Nat) (h1 : ∀ i ∈ l, ∀ e, f i = .error e → e = .emptyMin) (i : Nat) (hi : i ∈ l) (h : f i = .error .emptyMin) : qLoop f l = .error .emptyMin := by
  induction l with
  | nil => cases hi
  | cons j l ih =>
    simp only [qLoop]
    cases hj : f j with
    | error e => rw [h1 j (by simp) e hj]
    | ok x =>
      have hil : i ∈ l := by
        rcases List.mem_cons.1 hi with rfl | hi
        · rw [hj] at h; cases h
        · exact hi
      simp only [ih (fun j hj => h1 j (List.mem_cons_of_mem _ hj)) hil]

theorem qIdDiffs_gaps {c : List (Row ℚ V)} (hv : Valid c) {i : Nat} (hi : HasId c i) : qIdDiffs c i = gapsOf c i := by
  rw [← gapsOf_eq]
  exact qIdDiffs_eq hv hi

theorem nTimesteps_cases {c : List (Row ℚ V)} (hc : c ≠ []) : (∃ n, nTimesteps c = .one n ∧ EqualLengths c ∧ ∀ i, HasId c i → (series c i).length = n) ∨ ((∃ l, nTimesteps c = .per l) ∧ ¬ EqualLengths c) := by
  cases h : nTimesteps c with
  | one n =>
    left
    have hk := (nTimesteps_one hc n).1 h
    have hk' : ∀ i, HasId c i → (series c i).length = n := fun i hi => hk i (mem_ids.2 hi)
    exact ⟨n, rfl, fun i j hi hj => by rw [hk' i hi, hk' j hj], hk'⟩
  | per l =>
    right
    refine ⟨⟨l, rfl⟩, fun he => ?_⟩
    obtain ⟨i0, t, hi0⟩ := List.ne_nil_iff_exists_cons.1 (ids_ne_nil hc)
    have hm : i0 ∈ ids c := by rw [hi0]; simp
    have := (nTimesteps_one hc (series c i0).length).2 (fun i hi => he i i0 (mem_ids.1 hi) (mem_ids.1 hm))
    rw [h] at this
    cases this

/-- The list of the values of all series, if it is computed. -/
theorem qDeltaList_entries {c : List (Row ℚ V)} (hc : c ≠ []) (hv : Valid c) (dts : List (Option ℚ)) (h : qDeltaList c = .ok dts) :
    ∃ (order : List Nat) (f : Nat → Option ℚ), order.Perm (ids c) ∧ dts = order.map f ∧ (¬ EqualLengths c → order = ids c) ∧
      ∀ i, HasId c i → ((EqualLengths c ∧ f i = qRowDelta (gapsOf c i)) ∨ (¬ EqualLengths c ∧ qLoopDelta (gapsOf c i) = .ok (f i))) := by
  rcases nTimesteps_cases hc with ⟨n, hn, he, hlen⟩ | ⟨⟨l, hl⟩, hne⟩
  · refine ⟨newIds (c.map (·.id)), fun i => qRowDelta (gapsOf c i), newIds_perm_ids hv.nodup, ?_, fun h0 => absurd he h0, fun i hi => Or.inl ⟨he, rfl⟩⟩
    simp only [qDeltaList, hn] at h
    obtain rfl := Except.ok.inj h
    rw [qEqualLength_eq hc hv hn]
    simp only [gapsOf_eq]
  · simp only [qDeltaList, hl] at h
    have key : ∀ (l : List Nat) (dts : List (Option ℚ)), qLoop (fun i => qLoopDelta (qIdDiffs c i)) l = .ok dts →
        ∃ f : Nat → Option ℚ, dts = l.map f ∧ ∀ i ∈ l, qLoopDelta (qIdDiffs c i) = .ok (f i) := by
      intro l
      have : ∀ i ∈ l, True := fun _ _ => trivial
      intro dts hq
      refine ⟨fun i => match qLoopDelta (qIdDiffs c i) with | .ok x => x | .error _ => none, ?_⟩
      induction l generalizing dts with
      | nil => simp [qLoop] at hq; subst hq; simp
      | cons j l ih =>
        simp only [qLoop] at hq
        cases hj : qLoopDelta (qIdDiffs c j) with
        | error e => rw [hj] at hq; cases hq
        | ok x =>
          rw [hj] at hq
          cases hr : qLoop (fun i => qLoopDelta (qIdDiffs c i)) l with
          | error e => rw [hr] at hq; cases hq
          | ok xs =>
            rw [hr] at hq
            obtain rfl := Except.ok.inj hq
            obtain ⟨q1, q2⟩ := ih (fun _ _ => trivial) xs hr
            refine ⟨by rw [List.map_cons, ← q1]; simp [hj], fun i hi => ?_⟩
            rcases List.mem_cons.1 hi with rfl | hi
            · simp [hj]
            · exact q2 i hi
    obtain ⟨f, hf, hq⟩ := key (ids c) dts h
    refine ⟨ids c, f, List.Perm.refl _, hf, fun _ => rfl, fun i hi => Or.inr ⟨hne, ?_⟩⟩
    rw [← qIdDiffs_gaps hv hi]
    exact hq i (mem_ids.2 hi)

theorem qGlobalUnique_close (dts : List (Option ℚ)) (hp : ∀ x, some x ∈ dts → 0 < x) (h : qGlobalUnique dts = true) (d : ℚ) (hd : some d ∈ dts) :
    ∀ x ∈ dts, ∃ e, x = some e ∧ |e - d| ≤ 2 * (1 / 10 ^ 16 + 3 / 10 ^ 12 * d) := by
  unfold qGlobalUnique at h
  have hn : dts.all (·.isNone) ≠ true := by
    intro h0
    rw [List.all_eq_true] at h0
    have := h0 _ hd
    simp at this
  rw [if_neg hn, List.all_eq_true] at h
  have hvals : ∀ x, x ∈ dts.filterMap id ↔ some x ∈ dts := by intro x; simp
  obtain ⟨-, hmin⟩ := qMin_spec (dts.filterMap id) (List.ne_nil_of_mem ((hvals d).2 hd))
  intro x hx
  cases x with
  | none => exact absurd (h none hx) (by simp)
  | some e =>
    refine ⟨e, rfl, ?_⟩
    have h1 := (qClose_iff _ _ (hmin e ((hvals e).2 hx)) (hp e hx)).1 (h _ hx)
    have h2 := (qClose_iff _ _ (hmin d ((hvals d).2 hd)) (hp d hd)).1 (h _ hd)
    have h3 := hmin e ((hvals e).2 hx)
    have h4 := hmin d ((hvals d).2 hd)
    have := hp d hd
    rw [abs_le]
    constructor <;> linarith

/-! ### C214 -/

/-- **C214 (part).** If every series is sampled with the interval `d`, then `delta_time` is `d`. -/
theorem C214_regular {c : List (Row ℚ V)} (hc : c ≠ []) (hv : Valid c) {d : ℚ} (h : ∀ i, HasId c i → 2 ≤ (series c i).length ∧ ∀ g ∈ gapsOf c i, g = d) : realDelta c = .ok (.one (some d)) := by
  obtain ⟨i0, t, hi0⟩ := List.ne_nil_iff_exists_cons.1 (ids_ne_nil hc)
  have hne : ∀ i, HasId c i → gapsOf c i ≠ [] := by
    intro i hi h0
    have h1 := gapsOf_length c i
    rw [h0, List.length_nil] at h1
    have := (h i hi).1
    omega
  have hd : 0 < d := by
    have hi : HasId c i0 := mem_ids.1 (by rw [hi0]; simp)
    obtain ⟨g, l, hg⟩ := List.ne_nil_iff_exists_cons.1 (hne i0 hi)
    have hg' : g ∈ gapsOf c i0 := by rw [hg]; simp
    rw [← (h i0 hi).2 g hg']
    exact gapsOf_pos hv i0 g hg'
  have hlist : ∃ dts, qDeltaList c = .ok dts ∧ dts ≠ [] ∧ ∀ x ∈ dts, x = some d := by
    rcases nTimesteps_cases hc with ⟨n, hn, he, hlen⟩ | ⟨⟨l, hl⟩, hnel⟩
    · refine ⟨qEqualLength c n, by simp only [qDeltaList, hn], ?_, ?_⟩
      · rw [qEqualLength_eq hc hv hn]
        intro h0
        rw [List.map_eq_nil_iff] at h0
        have := newIds_perm_ids hv.nodup
        rw [h0, hi0] at this
        exact absurd this.length_eq (by simp)
      · intro x hx
        rw [qEqualLength_eq hc hv hn] at hx
        obtain ⟨i, hi, rfl⟩ := List.mem_map.1 hx
        have hi' : HasId c i := by
          rw [← mem_ids, ← (newIds_perm_ids hv.nodup).mem_iff]; exact hi
        rw [gapsOf_eq]
        exact qRowDelta_const _ (hne i hi') d hd (h i hi').2
    · refine ⟨(ids c).map (fun _ => some d), ?_, by simp [hi0], by simp⟩
      simp only [qDeltaList, hl]
      apply qLoop_ok
      intro i hi
      have hi' := mem_ids.1 hi
      rw [qIdDiffs_gaps hv hi']
      obtain ⟨x, hx, hxi⟩ := qLoopDelta_iff (gapsOf c i) (hne i hi') (gapsOf_pos hv i)
      rw [hx]
      congr 1
      rw [hxi d]
      constructor
      · obtain ⟨g, l, hg⟩ := List.ne_nil_iff_exists_cons.1 (hne i hi')
        rw [hg]
        have := (h i hi').2 g (by rw [hg]; simp)
        simp [this]
      · intro a ha b hb hab
        rw [(h i hi').2 a ha, (h i hi').2 b hb, sub_self]
        have := hd.le
        positivity
  obtain ⟨dts, h1, h2, h3⟩ := hlist
  have hg : qGlobalUnique dts = true := by
    unfold qGlobalUnique
    split
    · rfl
    · rw [List.all_eq_true]
      intro x hx
      have hmin : qMin (dts.filterMap id) = d := by
        obtain ⟨y, ys, hy⟩ := List.ne_nil_iff_exists_cons.1 h2
        have hy' : y ∈ dts := by rw [hy]; simp
        apply qMin_eq
        · simp only [List.mem_filterMap, id]
          exact ⟨y, hy', h3 y hy'⟩
        · intro z hz
          simp only [List.mem_filterMap, id] at hz
          obtain ⟨w, hw, rfl⟩ := hz
          have := h3 _ hw
          rw [Option.some.inj this]
      rw [h3 x hx, hmin]
      show qClose d d = true
      rw [qClose_iff d d (le_refl _) hd, sub_self]
      positivity
  simp only [realDelta, h1]
  rw [if_pos (Or.inr hg)]
  obtain ⟨y, ys, hy⟩ := List.ne_nil_iff_exists_cons.1 h2
  rw [hy, List.headD_cons, h3 y (by rw [hy]; simp)]

/-- **C214 (part).** If one number is reported, then all intervals agree with it up to the tolerances, provided the series have different lengths or in no series the first interval is longer than all others. -/
theorem C214_sound_partial {c : List (Row ℚ V)} (hc : c ≠ []) (hv : Valid c) (d : ℚ) (h : realDelta c = .ok (.one (some d)))
    (hfirst : EqualLengths c → ∀ i, HasId c i → (gapsOf c i).tail = [] ∨ ∃ g0 g, (gapsOf c i).head? = some g0 ∧ g ∈ (gapsOf c i).tail ∧ g0 ≤ g) :
    ∀ i, HasId c i → (gapsOf c i ≠ [] ∧ SampledWith c i d) := by
  unfold realDelta at h
  cases hq : qDeltaList c with
  | error e => rw [hq] at h; cases h
  | ok dts =>
    rw [hq] at h
    simp only at h
    obtain ⟨order, f, hperm, hdts, -, hf⟩ := qDeltaList_entries hc hv dts hq
    -- one series
    have hone : ∀ i, HasId c i → ∀ e, f i = some e → e ∈ gapsOf c i ∧ ∀ g ∈ gapsOf c i, |g - e| ≤ 2 * (1 / 10 ^ 16 + 3 / 10 ^ 12 * e) := by
      intro i hi e he
      rcases hf i hi with ⟨heq, hr⟩ | ⟨-, hr⟩
      · rw [he] at hr
        obtain ⟨q1, q2, q3⟩ := qRowDelta_near _ (gapsOf_pos hv i) e hr.symm
        refine ⟨q1, fun g hg => ?_⟩
        have hep := gapsOf_pos hv i e q1
        have hge := q2 g hg
        have hle : g - e ≤ 1 / 10 ^ 16 + 3 / 10 ^ 12 * e := by
          cases hl : gapsOf c i with
          | nil => rw [hl] at hg; cases hg
          | cons g0 l =>
            rw [hl] at hg q3
            rcases List.mem_cons.1 hg with rfl | hg
            · rcases hfirst heq i hi with h0 | ⟨g0', g', h1, h2, h3⟩
              · rw [hl] at h0 q1
                simp at h0
                subst h0
                simp at q1
                subst q1
                rw [sub_self]; positivity
              · rw [hl] at h1 h2
                simp at h1
                subst h1
                have := q3 g' h2
                linarith
            · exact q3 g hg
        rw [abs_le]
        constructor <;> linarith
      · have hne : gapsOf c i ≠ [] := by
          intro h0
          rw [h0] at hr
          cases hr
        obtain ⟨x, hx, hxi⟩ := qLoopDelta_iff _ hne (gapsOf_pos hv i)
        rw [hx] at hr
        obtain ⟨q1, q2⟩ := (hxi e).1 ((Except.ok.inj hr).trans he)
        have hmem : e ∈ gapsOf c i := List.mem_of_head? q1
        exact ⟨hmem, gapsClose_near q2 (gapsOf_pos hv i) hmem⟩
    have hmem : ∀ i, i ∈ order ↔ HasId c i := by intro i; rw [hperm.mem_iff, mem_ids]
    split at h
    · rename_i hcond
      have hhead : dts.headD none = some d := by
        have := Except.ok.inj h
        exact PerId.one.inj this
      have hdmem : some d ∈ dts := by
        cases dts with
        | nil => cases hhead
        | cons x xs => simp at hhead; subst hhead; simp
      have hpos : ∀ x, some x ∈ dts → 0 < x := by
        intro x hx
        rw [hdts] at hx
        obtain ⟨i, hi, he⟩ := List.mem_map.1 hx
        exact gapsOf_pos hv i x (hone i ((hmem i).1 hi) x he).1
      have hall : ∀ i, HasId c i → ∃ e, f i = some e ∧ |e - d| ≤ 2 * (1 / 10 ^ 16 + 3 / 10 ^ 12 * d) := by
        intro i hi
        have him : f i ∈ dts := by rw [hdts]; exact List.mem_map.2 ⟨i, (hmem i).2 hi, rfl⟩
        rcases hcond with h1 | hg
        · have hl : dts.length = 1 := by
            rw [hdts, List.length_map, hperm.length_eq]; exact h1
          obtain ⟨x, hx⟩ := List.length_eq_one_iff.1 hl
          rw [hx] at him hdmem
          simp at him hdmem
          refine ⟨d, by rw [him, ← hdmem], ?_⟩
          rw [sub_self, abs_zero]
          have := hpos d (by rw [hx, hdmem]; simp)
          positivity
        · exact qGlobalUnique_close dts hpos hg d hdmem _ him
      intro i hi
      obtain ⟨e, he, hed⟩ := hall i hi
      obtain ⟨q1, q2⟩ := hone i hi e he
      refine ⟨List.ne_nil_of_mem q1, fun g hg => ?_⟩
      have hd0 := hpos d hdmem
      have h1 := abs_le.1 (q2 g hg)
      have h2 := abs_le.1 hed
      rw [abs_le]
      constructor <;> linarith [h1.1, h1.2, h2.1, h2.2]
    · cases Except.ok.inj h

/-- **C214 (part).** Series of different lengths with at least two samples each: if the values are reported per series, then each ID has its own value, the first interval exactly if any two intervals agree within the
tolerances. -/
theorem C214_per_id {c : List (Row ℚ V)} (hc : c ≠ []) (hv : Valid c) (hne : ¬ EqualLengths c) (hlen : ∀ i, HasId c i → 2 ≤ (series c i).length) :
    ∃ r, realDelta c = .ok r ∧ ∀ l, r = .per l → l.map (·.1) = ids c ∧ ∀ i x, (i, x) ∈ l → ∀ d, x = some d ↔ (gapsOf c i).head? = some d ∧ GapsClose (gapsOf c i) := by
  have hgne : ∀ i, HasId c i → gapsOf c i ≠ [] := by
    intro i hi h0
    have h1 := gapsOf_length c i
    rw [h0, List.length_nil] at h1
    have := hlen i hi
    omega
  have hex : ∃ dts, qDeltaList c = .ok dts := by
    rcases nTimesteps_cases hc with ⟨n, hn, he, -⟩ | ⟨⟨l, hl⟩, -⟩
    · exact absurd he hne
    · simp only [qDeltaList, hl]
      refine ⟨_, qLoop_ok _ _ (fun i => match qLoopDelta (qIdDiffs c i) with | .ok x => x | .error _ => none) ?_⟩
      intro i hi
      have hi' := mem_ids.1 hi
      obtain ⟨x, hx, -⟩ := qLoopDelta_iff _ (hgne i hi') (gapsOf_pos hv i)
      rw [qIdDiffs_gaps hv hi', hx]
  obtain ⟨dts, hq⟩ := hex
  obtain ⟨order, f, -, hdts, hord, hf⟩ := qDeltaList_entries hc hv dts hq
  rw [hord hne] at hdts
  have hz : ∀ (l : List Nat) (f : Nat → Option ℚ), l.zip (l.map f) = l.map (fun i => (i, f i)) := by
    intro l f; induction l with
    | nil => rfl
    | cons a l ih => simp_all
  by_cases hcond : nTimeseries c = 1 ∨ qGlobalUnique dts = true
  · refine ⟨.one (dts.headD none), by simp only [realDelta, hq]; rw [if_pos hcond], fun l hl => by cases hl⟩
  · refine ⟨.per ((ids c).zip dts), by simp only [realDelta, hq]; rw [if_neg hcond], fun l hl => ?_⟩
    obtain rfl := PerId.per.inj hl
    rw [hdts, hz]
    refine ⟨by simp [Function.comp_def], fun i x hx d => ?_⟩
    obtain ⟨j, hj, he⟩ := List.mem_map.1 hx
    simp only [Prod.mk.injEq] at he
    obtain ⟨rfl, rfl⟩ := he
    have hj' := mem_ids.1 hj
    rcases hf j hj' with ⟨he, -⟩ | ⟨-, hr⟩
    · exact absurd he hne
    · obtain ⟨x, hx, hxi⟩ := qLoopDelta_iff _ (hgne j hj') (gapsOf_pos hv j)
      rw [hx] at hr
      rw [← Except.ok.inj hr]
      exact hxi d

/-- **C214 is violated.** Series of equal length in which only the first interval is longer than the others are reported as sampled with the others: the first interval is never looked at. -/
theorem C214_first_violated {c : List (Row ℚ V)} (hc : c ≠ []) (hv : Valid c) (d : ℚ) (k : Nat) (h : ∀ i, HasId c i → ∃ g0, d ≤ g0 ∧ gapsOf c i = g0 :: List.replicate (k + 1) d) : realDelta c = .ok (.one (some d)) := by
  obtain ⟨i0, t, hi0⟩ := List.ne_nil_iff_exists_cons.1 (ids_ne_nil hc)
  have hi0' : HasId c i0 := mem_ids.1 (by rw [hi0]; simp)
  have hd : 0 < d := by
    obtain ⟨g0, -, hg⟩ := h i0 hi0'
    exact gapsOf_pos hv i0 d (by rw [hg]; simp)
  have hlen : ∀ i, HasId c i → (series c i).length = k + 3 := by
    intro i hi
    obtain ⟨g0, -, hg⟩ := h i hi
    have := gapsOf_length c i
    rw [hg] at this
    simp at this
    omega
  have hn : nTimesteps c = .one (k + 3) := (nTimesteps_one hc _).2 (fun i hi => hlen i (mem_ids.1 hi))
  have hall : ∀ x ∈ qEqualLength c (k + 3), x = some d := by
    intro x hx
    rw [qEqualLength_eq hc hv hn] at hx
    obtain ⟨i, hi, rfl⟩ := List.mem_map.1 hx
    have hi' : HasId c i := by
      rw [← mem_ids, ← (newIds_perm_ids hv.nodup).mem_iff]; exact hi
    obtain ⟨g0, hle, hg⟩ := h i hi'
    rw [gapsOf_eq, hg]
    exact qRowDelta_tail d g0 k hd hle
  have hne : qEqualLength c (k + 3) ≠ [] := by
    rw [qEqualLength_eq hc hv hn]
    intro h0
    rw [List.map_eq_nil_iff] at h0
    have := newIds_perm_ids hv.nodup
    rw [h0, hi0] at this
    exact absurd this.length_eq (by simp)
  have hg : qGlobalUnique (qEqualLength c (k + 3)) = true := by
    unfold qGlobalUnique
    split
    · rfl
    · rw [List.all_eq_true]
      intro x hx
      have hmin : qMin ((qEqualLength c (k + 3)).filterMap id) = d := by
        apply qMin_eq
        · simp only [List.mem_filterMap, id]
          exact ⟨x, hx, hall x hx⟩
        · intro z hz
          simp only [List.mem_filterMap, id] at hz
          obtain ⟨w, hw, rfl⟩ := hz
          rw [Option.some.inj (hall _ hw)]
      rw [hall x hx, hmin]
      show qClose d d = true
      rw [qClose_iff d d (le_refl _) hd, sub_self]
      positivity
  simp only [realDelta, qDeltaList, hn]
  rw [if_pos (Or.inr hg)]
  obtain ⟨y, ys, hy⟩ := List.ne_nil_iff_exists_cons.1 hne
  rw [hy, List.headD_cons, hall y (by rw [hy]; simp)]

/-- **C214 is violated.** A series with one sample beside a longer one: `delta_time` raises, for every such collection. -/
theorem C214_degenerate_violated {c : List (Row ℚ V)} (hc : c ≠ []) (hv : Valid c) (hne : ¬ EqualLengths c) (i : Nat) (hi : HasId c i) (h1 : (series c i).length = 1) : realDelta c = .error .emptyMin := by
  rcases nTimesteps_cases hc with ⟨n, hn, he, -⟩ | ⟨⟨l, hl⟩, -⟩
  · exact absurd he hne
  · have hq : qLoop (fun i => qLoopDelta (qIdDiffs c i)) (ids c) = .error .emptyMin := by
      apply qLoop_error _ _ _ i (mem_ids.2 hi)
      · rw [qIdDiffs_gaps hv hi]
        have := gapsOf_length c i
        rw [h1] at this
        rw [List.length_eq_zero_iff.1 this]
        rfl
      · intro j _ e he
        cases hd : qIdDiffs c j with
        | nil => rw [hd] at he; simpa [qLoopDelta] using he.symm
        | cons x xs =>
          rw [hd] at he
          simp only [qLoopDelta] at he
          split at he <;> cases he
    simp only [realDelta, qDeltaList, hl, hq]

/-- The time values `m + d t` for integer time values `t`. -/
def scaledTime (m d : ℚ) (c : List (Row Int V)) : List (Row ℚ V) := c.map (fun r => ⟨r.id, m + r.time * d, r.val⟩)

theorem scaled_series (m d : ℚ) (c : List (Row Int V)) (i : Nat) : series (scaledTime m d c) i = scaledTime m d (series c i) := by
  unfold scaledTime series
  rw [List.filter_map]
  rfl

/-- **C214 (part).** Collections whose time values are `m + d t` with integers `t` that are normalised: `normalize_time` gives back these integers. -/
theorem C214_normalize_partial {c : List (Row Int V)} (hc : c ≠ []) (hv : Valid c) (m d : ℚ) (hd : 0 < d) (h0 : ∀ r ∈ c, 0 ≤ r.time) (hz : ∃ r ∈ c, r.time = 0) (h : ∀ i, HasId c i → Regular (timesOf c i) 1) :
    realNormalize (scaledTime m d c) = .ok c := by
  have hne : scaledTime m d c ≠ [] := by simpa [scaledTime] using hc
  have hhas : ∀ i, HasId (scaledTime m d c) i ↔ HasId c i := by intro i; simp [HasId, scaledTime]
  have hval : Valid (scaledTime m d c) := by
    rw [valid_iff] at hv ⊢
    obtain ⟨h1, h2⟩ := hv
    refine ⟨by simpa [scaledTime, Function.comp_def] using h1, ?_⟩
    unfold scaledTime
    rw [List.pairwise_map]
    refine h2.imp ?_
    intro a b hab hid
    have := hab hid
    have : (a.time : ℚ) < b.time := by exact_mod_cast this
    show m + (a.time : ℚ) * d < m + (b.time : ℚ) * d
    nlinarith
  have hreg : ∀ i, HasId (scaledTime m d c) i → 2 ≤ (series (scaledTime m d c) i).length ∧ ∀ g ∈ gapsOf (scaledTime m d c) i, g = d := by
    intro i hi
    obtain ⟨r1, r2⟩ := h i ((hhas i).1 hi)
    unfold timesOf at r1 r2
    rw [scaled_series]
    refine ⟨by simpa [scaledTime] using r1, ?_⟩
    intro g hg
    unfold gapsOf at hg
    rw [scaled_series] at hg
    have e : (scaledTime m d (series c i)).map (·.time) = ((series c i).map (·.time)).map (fun t : Int => m + (t : ℚ) * d) := by
      simp [scaledTime, Function.comp_def]
    rw [e, consecutive_map] at hg
    obtain ⟨p, hp, rfl⟩ := List.mem_map.1 hg
    obtain ⟨q, hq, rfl⟩ := List.mem_map.1 hp
    have := r2 q hq
    have e2 : q.2 = q.1 + 1 := by omega
    simp only [Prod.map, e2]
    push_cast
    ring
  have hmin : qMin ((scaledTime m d c).map (·.time)) = m := by
    obtain ⟨r, hr, hr0⟩ := hz
    apply qMin_eq
    · simp only [scaledTime, List.map_map, List.mem_map]
      exact ⟨r, hr, by simp [hr0]⟩
    · intro x hx
      simp only [scaledTime, List.map_map, List.mem_map] at hx
      obtain ⟨s, hs, rfl⟩ := hx
      have : (0 : ℚ) ≤ s.time := by exact_mod_cast h0 s hs
      simp only [Function.comp_apply]
      nlinarith
  have hback : (scaledTime m d c).map (fun r => (⟨r.id, ⌊(r.time - qMin ((scaledTime m d c).map (·.time))) / d⌋, r.val⟩ : Row Int V)) = c := by
    rw [hmin]
    unfold scaledTime
    rw [List.map_map]
    conv_rhs => rw [← List.map_id c]
    apply List.map_congr_left
    intro r _
    simp only [Function.comp_apply, id]
    have : (m + (r.time : ℚ) * d - m) / d = (r.time : ℚ) := by field_simp; ring
    rw [this, Int.floor_intCast]
  have hdt1 := C11_regular hc hv .int h
  have hmin0 : minTime c = 0 := by
    obtain ⟨h1, r, hr, hrt⟩ := minTime_spec hc
    obtain ⟨r', hr', hr't⟩ := hz
    have := h1 r' hr'; have := h0 r hr; omega
  simp only [realNormalize, C214_regular hne hval hreg, hback, build_ok_of_valid hv hc]
  simp [isNormalizedTime, isConstDeltaTime, hdt1, hmin0]

/-- One series at the times 0, 1.9 and 2.9. -/
def demoReal : List (Row ℚ Nat) := [⟨0, 0, 7⟩, ⟨0, 19 / 10, 8⟩, ⟨0, 29 / 10, 9⟩]

theorem demoReal_valid : Valid demoReal := by
  rw [valid_iff]; constructor
  · decide
  · unfold Before; decide +kernel

/-- **C214 is violated (normalised time).** The samples at 0, 1.9 and 2.9 are moved to the times 0, 1 and 2. -/
theorem C214_normalize_violated : Valid demoReal ∧ realDelta demoReal = .ok (.one (some 1)) ∧ realNormalize demoReal = .ok [⟨0, 0, 7⟩, ⟨0, 1, 8⟩, ⟨0, 2, 9⟩] := by
  refine ⟨demoReal_valid, by decide +kernel, by decide +kernel⟩

/-- The hypotheses are met: a long first interval, different lengths, a series with one sample. -/
example : realDelta ([⟨3, 0, 0⟩, ⟨3, 5, 0⟩, ⟨3, 11 / 2, 0⟩, ⟨3, 6, 0⟩, ⟨1, 0, 0⟩, ⟨1, 1 / 2, 0⟩, ⟨1, 1, 0⟩, ⟨1, 3 / 2, 0⟩] : List (Row ℚ Nat)) = .ok (.one (some (1 / 2))) := by decide +kernel

example : realDelta ([⟨3, 0, 0⟩, ⟨3, 1 / 2, 0⟩, ⟨3, 1, 0⟩, ⟨1, 0, 0⟩, ⟨1, 1 / 4, 0⟩] : List (Row ℚ Nat)) = .ok (.per [(1, some (1 / 4)), (3, some (1 / 2))]) := by decide +kernel

example : realDelta ([⟨3, 0, 0⟩, ⟨3, 1 / 2, 0⟩, ⟨3, 1, 0⟩, ⟨1, 0, 0⟩] : List (Row ℚ Nat)) = .error .emptyMin := by decide +kernel

/-- The same collection with integer time values has a sampling interval per series. -/
example : deltaTime .int ([⟨3, 0, 0⟩, ⟨3, 1, 0⟩, ⟨3, 2, 0⟩, ⟨1, 0, 0⟩] : List (Row Int Nat)) = .per [(1, none), (3, some 1)] := by decide +kernel

example : realNormalize (scaledTime (1 / 2) (1 / 4) [⟨2, 3, 'a'⟩, ⟨2, 4, 'b'⟩, ⟨0, 0, 'c'⟩, ⟨0, 1, 'd'⟩]) = .ok [⟨2, 3, 'a'⟩, ⟨2, 4, 'b'⟩, ⟨0, 0, 'c'⟩, ⟨0, 1, 'd'⟩] := by decide +kernel

end Verif.Tsc
