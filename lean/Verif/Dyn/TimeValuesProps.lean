import Verif.Dyn.TimeValues
import Mathlib.Tactic.Linarith
import Mathlib.Tactic.FieldSimp
import Mathlib.Tactic.Ring
import Mathlib.Algebra.Order.Floor.Ring
/-!
# C29, C74, C76: time values of a prediction
-/

namespace Verif.Dyn

open Verif.Np

/-- Specification: the array can hold these entries (64 bit integers for integer kinds). -/
def Arr.WellFormed (a : Arr) : Prop :=
  match a.kind with
  | .int => ∀ v ∈ a.vals, ∃ z : Int, v = .fin z ∧ -2 ^ 63 ≤ z ∧ z < 2 ^ 63
  | .uint => ∀ v ∈ a.vals, ∃ z : Int, v = .fin z ∧ 0 ≤ z ∧ z < 2 ^ 64
  | .datetime => ∀ v ∈ a.vals, v = .nan ∨ ∃ z : Int, v = .fin z ∧ -2 ^ 63 ≤ z ∧ z < 2 ^ 63
  | _ => True

/-- Specification of acceptable time values: one dimensional, supported type, finite, non-negative numbers (no sign for datetimes), strictly
increasing. -/
structure GoodTimes (a : Arr) : Prop where
  oneDim : a.ndim = 1
  supported : a.kind ≠ .other
  finite : ∀ v ∈ a.vals, ∃ q, v = .fin q
  nonneg : a.kind ≠ .datetime → ∀ q, .fin q ∈ a.vals → 0 ≤ q
  increasing : (a.vals.map Num.get).Pairwise (· < ·)

theorem wrapSigned_pos {z : Int} (h1 : -2 ^ 63 ≤ z) (h2 : z < 2 ^ 63) : wrapSigned z = z := by
  unfold wrapSigned
  rw [Int.emod_eq_of_lt (by omega) (by omega)]; omega

theorem npDiffQ_all (k : Kind) (l : List Rat)
    (h : ∀ a ∈ l, ∀ b ∈ l, (0 < diffEntry k a b ↔ a < b)) :
    (npDiffQ k l).all (fun d => decide (0 < d)) = true ↔ l.Pairwise (· < ·) := by
  induction l with
  | nil => simp [npDiffQ]
  | cons a l ih =>
    cases l with
    | nil => simp [npDiffQ]
    | cons b l =>
      have ih := ih (fun x hx y hy => h x (List.mem_cons_of_mem _ hx) y (List.mem_cons_of_mem _ hy))
      simp only [npDiffQ, List.all_cons, Bool.and_eq_true, decide_eq_true_eq]
      rw [ih, h a (by simp) b (by simp), List.pairwise_cons (a := a)]
      constructor
      · rintro ⟨hab, hp⟩
        refine ⟨?_, hp⟩
        intro c hc
        rcases List.mem_cons.1 hc with rfl | hc
        · exact hab
        · exact lt_trans hab ((List.pairwise_cons.1 hp).1 c hc)
      · rintro ⟨h1, h2⟩
        exact ⟨h1 b (by simp), h2⟩

theorem fmt_iff (a : Arr) :
    (∃ l, validateTimeValuesFormat a = .ok l) ↔
      a.ndim = 1 ∧ a.kind ≠ .other ∧ (a.kind ≠ .datetime → ∀ v ∈ a.vals, v.isNeg = false) ∧ (∀ v ∈ a.vals, v.isFinite = true) ∧
      (npDiffQ a.kind (a.vals.map Num.get)).all (fun d => decide (0 < d)) = true := by
  unfold validateTimeValuesFormat
  generalize (npDiffQ a.kind (a.vals.map Num.get)).all (fun d => decide (0 < d)) = B
  by_cases h1 : a.ndim = 1
  · by_cases h2 : a.kind = .other
    · simp [h1, h2]
    · by_cases h3 : a.kind ≠ .datetime ∧ a.vals.any Num.isNeg = true
      · rw [if_neg (by simp [h1]), if_neg h2, if_pos h3]
        constructor
        · rintro ⟨l, hl⟩; cases hl
        · rintro ⟨_, _, h, _⟩
          obtain ⟨v, hv, hn⟩ := List.any_eq_true.1 h3.2
          rw [h h3.1 v hv] at hn; cases hn
      · rw [if_neg (by simp [h1]), if_neg h2, if_neg h3]
        have h3' : a.kind ≠ .datetime → ∀ v ∈ a.vals, v.isNeg = false := by
          intro hk v hv
          by_contra hc
          exact h3 ⟨hk, List.any_eq_true.2 ⟨v, hv, by simpa using hc⟩⟩
        by_cases h4 : a.vals.all Num.isFinite = true
        · have h4' : ∀ v ∈ a.vals, v.isFinite = true := by simpa using h4
          cases B
          · simp [h4]
          · rw [if_neg (by simp [h4]), if_neg (by simp)]
            exact ⟨fun _ => ⟨h1, h2, h3', h4', rfl⟩, fun _ => ⟨_, rfl⟩⟩
        · rw [if_pos (by simpa using h4)]
          constructor
          · rintro ⟨l, hl⟩; cases hl
          · rintro ⟨_, _, _, h, _⟩; exact absurd (List.all_eq_true.2 h) h4
  · simp [h1]

theorem goodTimes_iff (a : Arr)
    (hd : (∀ v ∈ a.vals, v.isFinite = true) → (a.kind ≠ .datetime → ∀ v ∈ a.vals, v.isNeg = false) →
      ∀ x ∈ a.vals.map Num.get, ∀ y ∈ a.vals.map Num.get, (0 < diffEntry a.kind x y ↔ x < y)) :
    (∃ l, validateTimeValuesFormat a = .ok l) ↔ GoodTimes a := by
  rw [fmt_iff]
  constructor
  · rintro ⟨h1, h2, h3, h4, h5⟩
    refine ⟨h1, h2, ?_, ?_, (npDiffQ_all _ _ (hd h4 h3)).1 h5⟩
    · intro v hv
      have := h4 v hv
      cases v <;> simp_all [Num.isFinite]
    · intro hk q hq
      have := h3 hk _ hq
      simpa [Num.isNeg] using this
  · rintro ⟨h1, h2, h3, h4, h5⟩
    have hfin : ∀ v ∈ a.vals, v.isFinite = true := by
      intro v hv; obtain ⟨q, rfl⟩ := h3 v hv; rfl
    have hneg : a.kind ≠ .datetime → ∀ v ∈ a.vals, v.isNeg = false := by
      intro hk v hv
      obtain ⟨q, rfl⟩ := h3 v hv
      simpa [Num.isNeg] using h4 hk q hv
    exact ⟨h1, h2, hneg, hfin, (npDiffQ_all _ _ (hd hfin hneg)).2 h5⟩

/-- **C29** (partial: signed integers, floats, unsupported types, and datetimes that are less than 292 years apart).  Time values are accepted iff
they are one dimensional, of a supported type, finite, non-negative (numbers) and strictly increasing; the accepted values are passed on unchanged. -/
theorem C29_format_partial (a : Arr) (hw : a.WellFormed) (hu : a.kind ≠ .uint)
    (hdt : a.kind = .datetime → ∀ x ∈ a.vals, ∀ y ∈ a.vals, |x.get - y.get| < 2 ^ 63) :
    ((∃ l, validateTimeValuesFormat a = .ok l) ↔ GoodTimes a) ∧
    ∀ l, validateTimeValuesFormat a = .ok l → a.vals = l.map Num.fin := by
  constructor
  · apply goodTimes_iff
    intro hf hn x hx y hy
    obtain ⟨vx, hvx, rfl⟩ := List.mem_map.1 hx
    obtain ⟨vy, hvy, rfl⟩ := List.mem_map.1 hy
    unfold Arr.WellFormed at hw
    cases hk : a.kind
    · rw [hk] at hw
      obtain ⟨zx, rfl, hx1, hx2⟩ := hw vx hvx
      obtain ⟨zy, rfl, hy1, hy2⟩ := hw vy hvy
      have hnx : (0 : Rat) ≤ zx := by simpa [Num.isNeg] using hn (by simp [hk]) _ hvx
      have hny : (0 : Rat) ≤ zy := by simpa [Num.isNeg] using hn (by simp [hk]) _ hvy
      have hnx' : 0 ≤ zx := by exact_mod_cast hnx
      have hny' : 0 ≤ zy := by exact_mod_cast hny
      simp only [diffEntry, Num.get]
      rw [← Int.cast_sub, Rat.num_intCast, wrapSigned_pos (by omega) (by omega)]
      norm_cast
      omega
    · exact absurd hk hu
    · simp only [diffEntry]; exact sub_pos
    · rw [hk] at hw
      have h1 := hw vx hvx
      have h2 := hw vy hvy
      have hfx := hf vx hvx
      have hfy := hf vy hvy
      rcases h1 with rfl | ⟨zx, rfl, hx1, hx2⟩
      · cases hfx
      rcases h2 with rfl | ⟨zy, rfl, hy1, hy2⟩
      · cases hfy
      have := hdt hk _ hvy _ hvx
      simp only [Num.get] at this
      rw [← Int.cast_sub, ← Int.cast_abs] at this
      have habs : |zy - zx| < 2 ^ 63 := by exact_mod_cast this
      obtain ⟨ha1, ha2⟩ := abs_lt.1 habs
      simp only [diffEntry, Num.get]
      rw [← Int.cast_sub, Rat.num_intCast, wrapSigned_pos (by omega) (by omega)]
      norm_cast
      omega
    · simp only [diffEntry]; exact sub_pos
  · intro l hl
    have h4 := ((fmt_iff a).1 ⟨l, hl⟩).2.2.2.1
    have : l = a.vals.map Num.get := by
      unfold validateTimeValuesFormat at hl
      split at hl
      · cases hl
      split at hl
      · cases hl
      split at hl
      · cases hl
      split at hl
      · cases hl
      split at hl
      · cases hl
      cases hl; rfl
    rw [this, List.map_map]
    conv_lhs => rw [← List.map_id a.vals]
    apply List.map_congr_left
    intro v hv
    have := h4 v hv
    cases v <;> simp_all [Num.isFinite, Num.get]

example : GoodTimes ⟨1, .float, [.fin 0, .fin (1 / 2), .fin 2]⟩ :=
  ⟨rfl, by decide, by simp, by simp, by simp only [List.map, Num.get]; decide +kernel⟩

/-- **C29 is violated** by the code: decreasing unsigned integer time values are accepted (the difference wraps around), and increasing datetimes
that are more than 292 years apart are rejected. -/
theorem C29_violated :
    (validateTimeValuesFormat ⟨1, .uint, [.fin 5, .fin 3]⟩ = .ok [5, 3] ∧ ¬ GoodTimes ⟨1, .uint, [.fin 5, .fin 3]⟩ ∧
      Arr.WellFormed ⟨1, .uint, [.fin 5, .fin 3]⟩) ∧
    (validateTimeValuesFormat ⟨1, .datetime, [.fin (-9000000000000000000), .fin 9000000000000000000]⟩ = .error .notIncreasing ∧
      GoodTimes ⟨1, .datetime, [.fin (-9000000000000000000), .fin 9000000000000000000]⟩ ∧
      Arr.WellFormed ⟨1, .datetime, [.fin (-9000000000000000000), .fin 9000000000000000000]⟩) := by
  refine ⟨⟨by decide +kernel, ?_, ?_⟩, ⟨by decide +kernel, ⟨rfl, by decide, by simp, by simp, ?_⟩, ?_⟩⟩
  · intro h; have := h.increasing; simp only [List.map, Num.get, List.pairwise_cons] at this
    have := this.1 3 (by simp); norm_num at this
  · intro v hv
    simp only [List.mem_cons, List.not_mem_nil, or_false] at hv
    rcases hv with rfl | rfl
    · exact ⟨5, by norm_num, by norm_num, by norm_num⟩
    · exact ⟨3, by norm_num, by norm_num, by norm_num⟩
  · simp only [List.map, Num.get]; decide +kernel
  · intro v hv
    simp only [List.mem_cons, List.not_mem_nil, or_false] at hv
    rcases hv with rfl | rfl
    · exact Or.inr ⟨-9000000000000000000, by norm_num, by norm_num, by norm_num⟩
    · exact Or.inr ⟨9000000000000000000, by norm_num, by norm_num, by norm_num⟩

/-! ## The time values used by `predict` -/

theorem reference_const {l : List Rat} {r : Rat} (hne : l ≠ []) (h : ∀ t ∈ l, t = r) (u : Control) : reference (some l) u = .ok r := by
  unfold reference
  have : unique l = [r] := by
    have h1 : unique l = unique [r] := unique_congr (by
      intro a; constructor
      · intro ha; rw [h a ha]; simp
      · intro ha; rw [List.mem_singleton] at ha; subst ha
        obtain ⟨x, l', rfl⟩ := List.ne_nil_iff_exists_cons.1 hne
        rw [← h x (by simp)]; simp)
    rw [h1]; rfl
  simp only [this]

/-- **C74, given time values.** For initial conditions with common final time `r` and accepted (strictly increasing, non-empty) time values: they are
rejected iff one lies before `r` (beyond the tolerance); otherwise the prediction starts at `r` (up to the tolerance) and its time values are the
given ones, with `r` put in front exactly if it is not the first of them. -/
theorem C74_given (l : List Rat) (r dt : Rat) (hne : l ≠ []) (hl : ∀ t ∈ l, t = r) (intLike reqLast : Bool) (times : List Rat)
    (htn : times ≠ []) (hinc : times.Pairwise (· < ·)) :
    (predictTimes (some l) .none dt intLike reqLast (some times) = .error .tooSmall ↔ ∃ t ∈ times, t < r - numTol intLike) ∧
    ∀ res, predictTimes (some l) .none dt intLike reqLast (some times) = .ok res →
      (res = times ∨ res = r :: times) ∧ res.Pairwise (· < ·) ∧ (∃ t rest, res = t :: rest ∧ |r - t| ≤ numTol intLike) ∧
      (res = times ↔ ∃ t rest, times = t :: rest ∧ |r - t| ≤ numTol intLike) := by
  have htol : 0 ≤ numTol intLike := by unfold numTol; split <;> norm_num
  obtain ⟨t, rest, rfl⟩ := List.ne_nil_iff_exists_cons.1 htn
  unfold predictTimes
  rw [reference_const hne hl]
  simp only [checkControlTimes, Option.isNone_some]
  by_cases hs : ((t :: rest).any fun t => decide (t < r - numTol intLike)) = true
  · have hs' : ∃ a ∈ t :: rest, a < r - numTol intLike := by simpa using hs
    rw [if_neg (by simp), if_pos hs]
    exact ⟨by simp only [true_iff]; exact hs', by intro res h; cases h⟩
  · have hs' : ¬ ∃ a ∈ t :: rest, a < r - numTol intLike := by simpa using hs
    rw [if_neg (by simp), if_neg hs]
    by_cases hb : numTol intLike < |r - t|
    · simp only [if_pos hb]
      refine ⟨⟨fun h => by simp at h, fun h => absurd h hs'⟩, ?_⟩
      intro res h
      cases h
      have ht : ¬ t < r - numTol intLike := fun h => hs' ⟨t, by simp, h⟩
      have hrt : r < t := by
        by_contra hc
        have : |r - t| = r - t := abs_of_nonneg (by linarith)
        linarith
      refine ⟨Or.inr rfl, ?_, ⟨r, t :: rest, rfl, by simpa using htol⟩, ?_⟩
      · rw [List.pairwise_cons]
        refine ⟨?_, hinc⟩
        intro a ha
        rcases List.mem_cons.1 ha with rfl | ha
        · exact hrt
        · exact lt_trans hrt ((List.pairwise_cons.1 hinc).1 a ha)
      · constructor
        · intro h; have := congrArg List.length h; simp at this
        · rintro ⟨t', rest', h, hle⟩
          cases h
          exact absurd hb (not_lt.2 hle)
    · simp only [if_neg hb]
      refine ⟨⟨fun h => by simp at h, fun h => absurd h hs'⟩, ?_⟩
      intro res h
      cases h
      exact ⟨Or.inl rfl, hinc, ⟨t, rest, rfl, not_lt.1 hb⟩, by simp only [true_iff]; exact ⟨t, rest, rfl, not_lt.1 hb⟩⟩

/-- **C74, given time values with a control collection** (integer or datetime time). They are accepted exactly if they are the time values of the control from the time `r` of the
initial conditions on, followed by one step more if the last state needs no control input; then the prediction has these time values, with `r` put in front if the control starts later. -/
theorem C74_given_control (l : List Rat) (r dt : Rat) (hdt : 0 < dt) (hne : l ≠ []) (hl : ∀ t ∈ l, t = r) (reqLast : Bool) (ut times res : List Rat) :
    predictTimes (some l) (.tsc ut) dt true reqLast (some times) = .ok res ↔
      (if reqLast = true then times = ut.filter (fun t => decide (r ≤ t)) else ∃ u, (ut.filter (fun t => decide (r ≤ t))).getLast? = some u ∧ times = ut.filter (fun t => decide (r ≤ t)) ++ [u + dt]) ∧
      ∃ t rest, times = t :: rest ∧ res = if t = r then times else r :: times := by
  have hzip : ∀ a b : List Rat, a.length = b.length → (a.zip b).all (fun p => decide (|p.1 - p.2| ≤ 0)) = true → a = b := by
    intro a
    induction a with
    | nil => intro b hb _; exact (List.length_eq_zero_iff.mp hb.symm).symm
    | cons x a ih =>
      intro b hb h
      cases b with
      | nil => simp at hb
      | cons y b =>
        rw [List.zip_cons_cons, List.all_cons, Bool.and_eq_true, decide_eq_true_eq] at h
        have hxy : x = y := sub_eq_zero.mp (abs_nonpos_iff.mp h.1)
        rw [hxy, ih b (by simpa using hb) h.2]
  have hself : ∀ a : List Rat, (a.zip a).all (fun p => decide (|p.1 - p.2| ≤ 0)) = true := by
    intro a
    induction a with
    | nil => rfl
    | cons x a ih => simp only [List.zip_cons_cons, List.all_cons, ih, sub_self, abs_zero, le_refl, decide_true, Bool.and_self]
  have hcheck : ∀ req : List Rat, (¬ (times.length ≠ req.length ∨ !((times.zip req).all (fun p => decide (|p.1 - p.2| ≤ 0))))) ↔ times = req := by
    intro req
    constructor
    · intro h
      push Not at h
      exact hzip _ _ h.1 (by have := h.2; rwa [ne_eq, Bool.not_eq_true, Bool.not_eq_false'] at this)
    · rintro rfl h
      rcases h with h | h
      · exact h rfl
      · rw [hself times] at h; simp at h
  have hfin : ∀ ts : List Rat, (∀ t ∈ ts, r ≤ t) → ((if (some l).isNone = true then Except.ok ts
        else if ts.any (fun t => decide (t < r)) = true then .error .tooSmall
        else match ts with
          | [] => .error .shape
          | t :: _ => if 0 < |r - t| then .ok (r :: ts) else .ok ts : Except TvErr (List Rat)) = .ok res ↔ ∃ t rest, ts = t :: rest ∧ res = if t = r then ts else r :: ts) := by
    intro ts hge
    rw [if_neg (by simp), if_neg (by simpa using hge)]
    cases ts with
    | nil => simp
    | cons t rest =>
      by_cases h : t = r
      · subst h; simp [eq_comm]
      · have : 0 < |r - t| := abs_pos.mpr (sub_ne_zero.mpr (Ne.symm h))
        simp only [if_pos this, Except.ok.injEq, List.cons.injEq]
        constructor
        · rintro rfl; exact ⟨t, rest, ⟨rfl, rfl⟩, by rw [if_neg h]⟩
        · rintro ⟨t', rest', ⟨rfl, rfl⟩, h'⟩; rw [h', if_neg h]
  have hge : ∀ t ∈ ut.filter (fun t => decide (r ≤ t)), r ≤ t := by
    intro t ht
    simpa using (List.mem_filter.mp ht).2
  unfold predictTimes
  rw [reference_const hne hl]
  simp only [numTol, if_true, checkControlTimes, sub_zero]
  generalize hq : ut.filter (fun t => decide (r ≤ t)) = q at hge ⊢
  cases reqLast with
  | true =>
    simp only [Bool.not_true, Bool.false_eq_true, false_and, if_false, if_true]
    by_cases hm : times = q
    · rw [if_neg ((hcheck q).mpr hm)]
      have := hfin times (by rw [hm]; exact hge)
      exact ⟨fun h => ⟨hm, this.mp h⟩, fun h => this.mpr h.2⟩
    · rw [if_pos (by by_contra hc; exact hm ((hcheck q).mp hc))]
      exact ⟨fun h => (by cases h), fun h => absurd h.1 hm⟩
  | false =>
    simp only [Bool.not_false, true_and, Bool.false_eq_true, if_false]
    rcases List.eq_nil_or_concat q with rfl | ⟨q', u, rfl⟩
    · simp
    · rw [List.concat_eq_append] at hge ⊢
      rw [if_neg (by simp)]
      have hlast : (q' ++ [u]).getLastD 0 = u := by simp
      rw [hlast]
      by_cases hm : times = q' ++ [u] ++ [u + dt]
      · rw [if_neg ((hcheck _).mpr hm)]
        have hge' : ∀ t ∈ times, r ≤ t := by
          intro t ht
          rw [hm] at ht
          rcases List.mem_append.mp ht with ht | ht
          · exact hge t ht
          · rw [List.mem_singleton.mp ht]
            linarith [hge u (by simp)]
        have := hfin times hge'
        constructor
        · intro h
          exact ⟨⟨u, by simp, hm⟩, this.mp h⟩
        · rintro ⟨-, h⟩
          exact this.mpr h
      · rw [if_pos (by by_contra hc; exact hm ((hcheck _).mp hc))]
        refine ⟨fun h => (by cases h), ?_⟩
        rintro ⟨⟨u', hu, h⟩, -⟩
        simp at hu
        subst hu
        exact absurd h hm

example : predictTimes (some [3, 3]) (.tsc [1, 2, 3, 5]) 2 true false (some [3, 5, 7]) = .ok [3, 5, 7] :=
  (C74_given_control [3, 3] 3 2 (by norm_num) (by simp) (by simp) false _ _ _).mpr ⟨by simpa using ⟨5, by decide +kernel, by decide +kernel⟩, 3, [5, 7], rfl, by simp⟩

/-- **C74, default without control**: one step from the common final time. -/
theorem C74_default (l : List Rat) (r dt : Rat) (hne : l ≠ []) (hl : ∀ t ∈ l, t = r) (intLike reqLast : Bool) :
    predictTimes (some l) .none dt intLike reqLast none = .ok [r, r + dt] := by
  unfold predictTimes; rw [reference_const hne hl]; rfl

/-- **C74**: initial conditions with different final times are rejected. -/
theorem C74_rejects (l : List Rat) (u : Control) (dt : Rat) (intLike reqLast : Bool) (given : Option (List Rat)) (a b : Rat)
    (ha : a ∈ l) (hb : b ∈ l) (hab : a ≠ b) : predictTimes (some l) u dt intLike reqLast given = .error .reference := by
  have : reference (some l) u = .error .reference := by
    simp only [reference]
    have ha' := (mem_unique a l).2 ha
    have hb' := (mem_unique b l).2 hb
    generalize unique l = m at ha' hb'
    match m with
    | [] => simp at ha'
    | [c] => simp at ha' hb'; exact absurd (ha'.trans hb'.symm) hab
    | _ :: _ :: _ => rfl
  unfold predictTimes; rw [this]

/-- **C74, default with a control collection** that starts at the time of the initial conditions: its time values and one step more. -/
theorem C74_default_control (l : List Rat) (r dt : Rat) (hdt : 0 < dt) (hne : l ≠ []) (hl : ∀ t ∈ l, t = r) (intLike : Bool) (ts : List Rat)
    (hinc : (r :: ts).Pairwise (· < ·)) :
    predictTimes (some l) (.tsc (r :: ts)) dt intLike false none = .ok ((r :: ts) ++ [(r :: ts).getLast (by simp) + dt]) := by
  have htol : 0 ≤ numTol intLike := by unfold numTol; split <;> norm_num
  unfold predictTimes
  rw [reference_const hne hl]
  have hge : ∀ t ∈ r :: ts, r ≤ t := by
    intro t ht
    rcases List.mem_cons.1 ht with rfl | ht
    · exact le_refl _
    · exact le_of_lt ((List.pairwise_cons.1 hinc).1 t ht)
  have hlast : (r :: ts).getLastD 0 = (r :: ts).getLast (by simp) := by rw [List.getLastD_eq_getLast?, List.getLast?_eq_some_getLast (by simp)]; rfl
  simp only [defaultTimes, Bool.false_eq_true, if_false, hlast]
  rw [List.filter_eq_self.2]
  · rw [if_neg (by simp)]
  · intro t ht
    rw [decide_eq_true_eq]
    rcases List.mem_append.1 ht with ht | ht
    · linarith [hge t ht]
    · rw [List.mem_singleton] at ht; subst ht
      linarith [hge _ (List.getLast_mem (l := r :: ts) (by simp))]

/-- **C74, default with an array of `n` control inputs** (partial: integer and datetime time): `n + 1` time values `r, r + dt, ..., r + n dt`. -/
theorem C74_array_partial (l : List Rat) (r dt : Rat) (hdt : 0 < dt) (hne : l ≠ []) (hl : ∀ t ∈ l, t = r) (n : Nat) :
    predictTimes (some l) (.array n) dt true false none = .ok ((List.range (n + 1)).map (fun (k : Nat) => r + k * dt)) := by
  unfold predictTimes
  rw [reference_const hne hl]
  simp only [defaultTimes, npArange, numTol, if_true, Bool.false_eq_true, if_false]
  have : (r + 0 + ((n : Rat) + 1) * dt - r) / dt = ((n + 1 : Nat) : Rat) := by field_simp; push_cast; ring
  rw [this, Int.ceil_natCast]
  simp

/-- **C74 is violated** by the code for floating point time: with an array of `n` control inputs and any sampling `dt ≥ 1e-14` the default has `n + 2`
time values instead of `n + 1`. -/
theorem C74_array_violated (l : List Rat) (r dt : Rat) (hdt : 1 / 10 ^ 14 ≤ dt) (hne : l ≠ []) (hl : ∀ t ∈ l, t = r) (n : Nat) :
    ∃ res, predictTimes (some l) (.array n) dt false false none = .ok res ∧ res.length = n + 2 := by
  have hpos : 0 < dt := lt_of_lt_of_le (by norm_num) hdt
  unfold predictTimes
  rw [reference_const hne hl]
  refine ⟨_, rfl, ?_⟩
  simp only [npArange, numTol, Bool.false_eq_true, if_false, List.length_map, List.length_range]
  have : ⌈(r + 1 / 10 ^ 14 + ((n : Rat) + 1) * dt - r) / dt⌉ = ((n + 2 : Nat) : Int) := by
    rw [Int.ceil_eq_iff]
    constructor
    · rw [lt_div_iff₀ hpos]; push_cast
      have : (0 : Rat) < 1 / 10 ^ 14 := by norm_num
      linarith
    · rw [div_le_iff₀ hpos]; push_cast; linarith
  rw [this]; exact Int.toNat_natCast _

/-- **C76 is violated** by the code: `DMDControl.predict` (which does not use the last control state) rejects every array of control inputs, whether or
not time values are given; `EDMD.predict` accepts the same array. -/
theorem C76_violated (l : List Rat) (r dt : Rat) (hne : l ≠ []) (hl : ∀ t ∈ l, t = r) (hdt : 1 / 10 ^ 14 ≤ dt) (intLike : Bool) (n : Nat)
    (given : Option (List Rat)) (hgiven : ∀ g, given = some g → g ≠ [] ∧ g.Pairwise (· < ·)) (res : List Rat)
    (h : predictTimes (some l) (.array n) dt intLike false given = .ok res) :
    dmdControlFromArray n res = .error .shape := by
  have hlen : n < res.length := by
    cases given with
    | none =>
      cases intLike with
      | true =>
        rw [C74_array_partial l r dt (lt_of_lt_of_le (by norm_num) hdt) hne hl n] at h
        cases h; simp
      | false =>
        obtain ⟨res', h', hl'⟩ := C74_array_violated l r dt hdt hne hl n
        rw [h'] at h; cases h; omega
    | some g =>
      unfold predictTimes at h
      rw [reference_const hne hl] at h
      simp only [checkControlTimes, Bool.false_eq_true, if_false, Option.isNone_some] at h
      split at h
      · cases h
      · rename_i heq
        split at heq
        · cases heq
        · rename_i hgl
          have hgl : g.length = n + 1 := by simpa using hgl
          split at h
          · cases h
          · cases g with
            | nil => simp at hgl
            | cons a g =>
              simp only at h
              split at h <;> cases h <;> simp at hgl ⊢ <;> omega
  unfold dmdControlFromArray
  rw [if_pos (by omega)]

example : predictTimes (some [0]) (.array 2) 1 true false none = .ok [0, 1, 2] ∧ edmdControlFromArray 2 [0, 1, 2] = .ok [0, 1] := by
  constructor <;> decide +kernel

end Verif.Dyn
