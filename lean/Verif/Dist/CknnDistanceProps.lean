import Verif.Dist.CknnDistance
import Mathlib.Tactic.NormNum
/-!
# C188: the distance argument of the continuous nearest neighbour kernel
-/

namespace Verif.Dist

/-- Every row of the distance matrices computed by the algorithm has at least `n` values (in a point cloud with `n` points): all pairs are stored, or at least `n` nearest neighbours are. -/
def Provides : DistObj → Int → Prop
  | .range none _, _ => True
  | .range (some _) kmin, n => ∃ m, kmin = some m ∧ n ≤ m
  | .knn k, n => n ≤ k

/-- Helper: looking up a default that was set. -/
theorem dictGet_setDefault (q : Key) (v : SVal) (l : List (Key × SVal)) : dictGet q (setDefault q v l) = some ((dictGet q l).getD v) := by
  unfold setDefault
  split
  · rename_i h
    obtain ⟨x, hx⟩ := Option.isSome_iff_exists.1 h
    rw [hx]
    rfl
  · rename_i h
    rw [Option.not_isSome_iff_eq_none] at h
    rw [h]
    unfold dictGet at h ⊢
    rw [List.find?_append, Option.map_eq_none_iff.1 h]
    simp

/-- Helper: a default does not change other entries. -/
theorem dictGet_setDefault_ne {q r : Key} (hqr : r ≠ q) (v : SVal) (l : List (Key × SVal)) : dictGet q (setDefault r v l) = dictGet q l := by
  unfold setDefault
  split
  · rfl
  · unfold dictGet
    rw [List.find?_append]
    simp [hqr]

/-! ## C188 -/

/-- C188, the part that holds: of the algorithms that state a number of neighbours, exactly those are accepted that have at least `n` neighbours per point, and the kernel uses them unchanged.  All others are
refused, with an `AttributeError`. -/
theorem C188_objects_partial (n : Int) (o : DistObj) (ho : ∀ c, o ≠ .range c none) (hc : ∀ k, o ≠ .range none k) :
    (Provides o n → cknnDistance n (.obj o) = .ok o) ∧ (¬ Provides o n → cknnDistance n (.obj o) = .error .attribute) := by
  match o with
  | .knn k =>
    simp only [Provides, cknnDistance]
    exact ⟨fun h => if_neg (by omega), fun h => if_pos (by omega)⟩
  | .range c none => exact absurd rfl (ho c)
  | .range none k => exact absurd rfl (hc k)
  | .range (some c) (some m) =>
    simp only [Provides, cknnDistance]
    refine ⟨?_, fun h => if_pos ?_⟩
    · rintro ⟨m', h, hm⟩
      obtain rfl := Option.some.inj h
      exact if_neg (by omega)
    · by_contra h'
      exact h ⟨m, rfl, by omega⟩

/-- C188: whatever object is accepted has enough neighbours. -/
theorem C188_objects_sound (n : Int) (o o' : DistObj) (h : cknnDistance n (.obj o) = .ok o') : o' = o ∧ Provides o n := by
  match o with
  | .knn k =>
    simp only [cknnDistance] at h
    split at h
    · cases h
    · exact ⟨(Except.ok.inj h).symm, by simp only [Provides]; omega⟩
  | .range c none => cases h
  | .range c (some m) =>
    simp only [cknnDistance] at h
    split at h
    · cases h
    · refine ⟨(Except.ok.inj h).symm, ?_⟩
      cases c with
      | none => trivial
      | some c => exact ⟨m, rfl, by omega⟩

/-- C188: without the argument, all pairs are stored, so that there are enough neighbours. -/
theorem C188_default (n : Int) : ∃ o, cknnDistance n .none = .ok o ∧ Provides o n := ⟨.range none none, rfl, trivial⟩

/-- C188 is violated: the algorithm that computes all pairs is refused, although every point has all points as neighbours. -/
theorem C188_dense_violated (n : Int) : Provides (.range none none) n ∧ cknnDistance n (.obj (.range none none)) = .error .type := ⟨trivial, rfl⟩

/-- Helper: the object for a dictionary with a positive cut-off. -/
theorem cknn_dict_cut (n : Int) (l : List (Key × SVal)) (c : ℝ) (hc : 0 < c) (hcut : dictGet .cutOff l = some (.num (some c))) (m : Metric) (hm : (dictGet .metric l).getD (.metricName .euclidean) = .metricName m) :
    cknnDistance n (.dict ⟨none, l⟩) = match kminOf (some ((dictGet .k l).getD .none)) with
      | .error e => .error e
      | .ok kmin => .ok (.range (some (if m = .sqeuclidean then c ^ 2 else c)) kmin) := by
  have h1 : dictGet .metric (setDefault .metric (.metricName .euclidean) (setDefault .kmin (.int n) l)) = some (.metricName m) := by
    rw [dictGet_setDefault, dictGet_setDefault_ne (by decide), hm]
  have h2 : dictGet .cutOff (setDefault .metric (.metricName .euclidean) (setDefault .kmin (.int n) l)) = some (.num (some c)) := by
    rw [dictGet_setDefault_ne (by decide), dictGet_setDefault_ne (by decide), hcut]
  have h3 : dictGet .k (setDefault .metric (.metricName .euclidean) (setDefault .kmin (.int n) l)) = dictGet .k l := by
    rw [dictGet_setDefault_ne (by decide), dictGet_setDefault_ne (by decide)]
  have h4 : cknnInit (cknnDefaults n ⟨none, l⟩) = .ok ⟨.guessOptimal, [(.metric, .metricName m), (.cutOff, .num (some c)), (.kmin, (dictGet .k l).getD .none)], []⟩ := by
    unfold cknnInit cknnDefaults
    rw [if_neg (by simp)]
    dsimp only
    rw [h1, h2, h3]
    rfl
  have h5 : cknnDistance n (.dict ⟨none, l⟩) = guessObject ⟨.guessOptimal, [(.metric, .metricName m), (.cutOff, .num (some c)), (.kmin, (dictGet .k l).getD .none)], []⟩ := by
    simp only [cknnDistance, cknnFromDict, h4]
  rw [h5]
  have e1 : ∀ v : SVal, dictGet .cutOff [(Key.metric, SVal.metricName m), (.cutOff, .num (some c)), (.kmin, v)] = some (.num (some c)) := fun v => rfl
  have e2 : ∀ v : SVal, dictGet .metric [(Key.metric, SVal.metricName m), (.cutOff, .num (some c)), (.kmin, v)] = some (.metricName m) := fun v => rfl
  have e3 : ∀ v : SVal, givenKmin ⟨.guessOptimal, [(Key.metric, SVal.metricName m), (.cutOff, .num (some c)), (.kmin, v)], []⟩ = some v := fun v => rfl
  simp only [guessObject, e1, e2, e3, if_neg hc.ne', if_neg (not_le.mpr hc)]
  cases kminOf (some ((dictGet .k l).getD .none)) with
  | error e => rfl
  | ok kmin => cases m <;> simp

/-- C188 is violated: with a dictionary that has a cut-off, the kernel's algorithm states no minimal number of neighbours, although the kernel writes `kmin` into the dictionary, and even if the caller gave a
value for `kmin`. -/
theorem C188_dict_violated (n : Int) (l : List (Key × SVal)) (c : ℝ) (hc : 0 < c) (hcut : dictGet .cutOff l = some (.num (some c))) (hk : dictGet .k l = none) (m : Metric)
    (hm : (dictGet .metric l).getD (.metricName .euclidean) = .metricName m) : ∃ o, cknnDistance n (.dict ⟨none, l⟩) = .ok o ∧ ¬ ∃ q, Provides o q := by
  rw [cknn_dict_cut n l c hc hcut m hm, hk]
  refine ⟨_, rfl, ?_⟩
  rintro ⟨q, m', h, -⟩
  cases h

/-- C188: only under the name `k` a minimal number of neighbours in the dictionary takes effect, and it is not compared with `n`. -/
theorem C188_dict_k (n q : Int) (hq : 0 < q) (l : List (Key × SVal)) (c : ℝ) (hc : 0 < c) (hcut : dictGet .cutOff l = some (.num (some c))) (hk : dictGet .k l = some (.int q)) (m : Metric)
    (hm : (dictGet .metric l).getD (.metricName .euclidean) = .metricName m) : ∃ o, cknnDistance n (.dict ⟨none, l⟩) = .ok o ∧ ∀ r, Provides o r ↔ r ≤ q := by
  rw [cknn_dict_cut n l c hc hcut m hm, hk]
  simp only [Option.getD_some, kminOf, if_neg (not_le.mpr hq)]
  refine ⟨_, rfl, fun r => ⟨?_, fun h => ⟨q, rfl, h⟩⟩⟩
  rintro ⟨m', h, hr⟩
  obtain rfl := Option.some.inj h
  exact hr

/-- C188 is violated: the algorithm cannot be selected by name in the dictionary. -/
theorem C188_backend_violated (n : Int) (b : Backend) (l : List (Key × SVal)) : cknnDistance n (.dict ⟨some b, l⟩) = .error .type := rfl

/-- C188 is violated: the dictionary of the caller is changed; in a second kernel that gets the same dictionary the minimal number of neighbours is that of the first. -/
theorem C188_shared_violated (n₁ n₂ : Int) (l : List (Key × SVal)) (hl : l ≠ []) (hk : dictGet .kmin l = none) :
    dictGet .kmin (cknnDictAfter n₂ (cknnDictAfter n₁ ⟨none, l⟩)).entries = some (.int n₁) := by
  have h1 : cknnDictAfter n₁ ⟨none, l⟩ = cknnDefaults n₁ ⟨none, l⟩ := by
    unfold cknnDictAfter
    rw [if_neg (by simpa using hl)]
  have h2 : dictGet .kmin (cknnDefaults n₁ ⟨none, l⟩).entries = some (.int n₁) := by
    unfold cknnDefaults
    dsimp only
    rw [dictGet_setDefault_ne (by decide), dictGet_setDefault, hk]
    rfl
  rw [h1]
  unfold cknnDictAfter
  split
  · exact h2
  · generalize cknnDefaults n₁ ⟨none, l⟩ = d at h2
    unfold cknnDefaults
    dsimp only
    rw [dictGet_setDefault_ne (by decide), dictGet_setDefault, h2]
    rfl

example : Provides (.knn 10) 5 ∧ ¬ Provides (.knn 3) 5 ∧ ¬ Provides (.range (some 1) (some 4)) 5 := by
  refine ⟨by simp [Provides], by simp [Provides], ?_⟩
  rintro ⟨m, h, hm⟩
  obtain rfl := Option.some.inj h
  omega

example : dictGet .cutOff [(Key.cutOff, SVal.num (some 2)), (.kmin, .int 50)] = some (.num (some 2)) ∧ dictGet .k [(Key.cutOff, SVal.num (some 2)), (.kmin, .int 50)] = none ∧
    (dictGet .metric [(Key.cutOff, SVal.num (some 2)), (.kmin, .int 50)]).getD (.metricName .euclidean) = .metricName .euclidean := ⟨rfl, rfl, rfl⟩

end Verif.Dist
