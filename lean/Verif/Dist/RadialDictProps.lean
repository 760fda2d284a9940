import Verif.Dist.RadialDict
import Verif.Dist.CknnDistanceProps
/-!
# Properties of the argument `distance` of radial basis kernels (C211)
-/

namespace Verif.Dist

/-! ## Specification -/

/-- The settings of the dictionary apart from the metric. -/
def OtherSettings (d : DistDict) : Option Backend × List (Key × SVal) := (d.backend, d.entries.filter (fun x => decide (x.1 ≠ .metric)))

/-- What a user expects: the algorithm with the settings of the dictionary and the metric of the kernel. -/
def expected (req : Metric) (d : DistDict) : Except DErr (Constructed SVal) :=
  initDistance (d.backend.getD .guessOptimal) (.metricName req) ((dictGet .cutOff d.entries).getD .none) ((dictGet .k d.entries).getD .none)
    (d.entries.filter (fun x => decide (x.1 ≠ .metric ∧ x.1 ≠ .cutOff ∧ x.1 ≠ .k)))

/-- The dictionary asks for another metric than `req`. -/
def Contradicts (req : Metric) (d : DistDict) : Prop := ∃ v, dictGet .metric d.entries = some v ∧ v ≠ .none ∧ v ≠ .metricName req

/-! ## Lemmas -/

lemma metricFits_iff (req : Metric) (d : DistDict) : metricFits req (popMetric d).1 = true ↔ ¬ Contradicts req d := by
  unfold popMetric Contradicts
  cases h : dictGet .metric d.entries with
  | none => simp [metricFits]
  | some v => cases v <;> simp [metricFits]

lemma dictGet_filter {q r : Key} (h : q ≠ r) (l : List (Key × SVal)) : dictGet q (l.filter (fun x => decide (x.1 ≠ r))) = dictGet q l := by
  induction l with
  | nil => rfl
  | cons x l ih =>
    unfold dictGet at ih ⊢
    by_cases hx : x.1 = r
    · rw [List.filter_cons_of_neg (by simp [hx]), List.find?_cons_of_neg (by simp [hx, Ne.symm h]), ih]
    · rw [List.filter_cons_of_pos (by simp [hx])]
      by_cases hq : x.1 = q
      · rw [List.find?_cons_of_pos (by simp [hq]), List.find?_cons_of_pos (by simp [hq])]
      · rw [List.find?_cons_of_neg (by simp [hq]), List.find?_cons_of_neg (by simp [hq]), ih]

lemma dictGet_filter_self (q : Key) (l : List (Key × SVal)) : dictGet q (l.filter (fun x => decide (x.1 ≠ q))) = none := by
  unfold dictGet
  rw [Option.map_eq_none_iff, List.find?_eq_none]
  intro x hx
  simp only [List.mem_filter, decide_eq_true_eq] at hx
  simp [hx.2]

lemma dictGet_append (q : Key) (l m : List (Key × SVal)) : dictGet q (l ++ m) = (dictGet q l).or (dictGet q m) := by
  unfold dictGet
  rw [List.find?_append]
  cases List.find? (fun x => decide (x.1 = q)) l <;> simp

lemma radial_after_ok (req : Metric) (d : DistDict) (h : ¬ Contradicts req d) :
    (radialFromDict req d).2 = ⟨d.backend, d.entries.filter (fun x => decide (x.1 ≠ .metric)) ++ [(.metric, .metricName req)]⟩ := by
  unfold radialFromDict
  rw [if_pos ((metricFits_iff req d).2 h)]
  rfl

lemma radial_after_error (req : Metric) (d : DistDict) (h : Contradicts req d) : radialFromDict req d = (.error .value, ⟨d.backend, d.entries.filter (fun x => decide (x.1 ≠ .metric))⟩) := by
  unfold radialFromDict
  rw [if_neg (by rw [metricFits_iff]; simpa using h)]
  rfl

lemma radial_value (req : Metric) (d : DistDict) (h : ¬ Contradicts req d) : (radialFromDict req d).1 = expected req d := by
  unfold radialFromDict
  rw [if_pos ((metricFits_iff req d).2 h)]
  simp only [dictInit, expected, popMetric]
  rw [dictGet_append, dictGet_filter_self, dictGet_append, dictGet_filter (by decide), dictGet_append, dictGet_filter (by decide)]
  congr 1
  · cases dictGet Key.cutOff d.entries <;> rfl
  · cases dictGet Key.k d.entries <;> rfl
  · rw [List.filter_append, List.filter_filter]
    simp only [ne_eq, not_true_eq_false, false_and, decide_false, Bool.false_eq_true, not_false_eq_true, List.filter_cons_of_neg, List.filter_nil, List.append_nil]
    congr 1
    funext x
    by_cases hx : x.1 = Key.metric <;> simp [hx]

lemma expected_congr (req : Metric) (d d' : DistDict) (h : OtherSettings d = OtherSettings d') : expected req d = expected req d' := by
  simp only [OtherSettings, Prod.mk.injEq] at h
  unfold expected
  have key : ∀ q : Key, q ≠ .metric → dictGet q d.entries = dictGet q d'.entries := fun q hq => by
    rw [← dictGet_filter hq d.entries, ← dictGet_filter hq d'.entries, h.2]
  have hf : ∀ e : DistDict, e.entries.filter (fun x => decide (x.1 ≠ Key.metric ∧ x.1 ≠ .cutOff ∧ x.1 ≠ .k)) = (e.entries.filter (fun x => decide (x.1 ≠ .metric))).filter (fun x => decide (x.1 ≠ .cutOff ∧ x.1 ≠ .k)) := by
    intro e
    rw [List.filter_filter]
    congr 1
    funext x
    by_cases hx : x.1 = Key.metric <;> simp [hx]
  rw [h.1, key .cutOff (by decide), key .k (by decide), hf d, hf d', h.2]

lemma radial_other (req : Metric) (d : DistDict) : OtherSettings (radialFromDict req d).2 = OtherSettings d := by
  by_cases h : Contradicts req d
  · rw [radial_after_error req d h]
    simp [OtherSettings, List.filter_filter]
  · rw [radial_after_ok req d h]
    simp [OtherSettings, List.filter_append, List.filter_filter]

lemma contradicts_after (req r : Metric) (d : DistDict) : Contradicts r (radialFromDict req d).2 ↔ ¬ Contradicts req d ∧ r ≠ req := by
  by_cases h : Contradicts req d
  · rw [radial_after_error req d h]
    simp only [h, not_true_eq_false, false_and, iff_false]
    rintro ⟨v, hv, -⟩
    rw [dictGet_filter_self] at hv
    cases hv
  · rw [radial_after_ok req d h]
    simp only [h, not_false_eq_true, true_and]
    unfold Contradicts
    rw [show dictGet Key.metric (d.entries.filter (fun x => decide (x.1 ≠ .metric)) ++ [(Key.metric, SVal.metricName req)]) = some (.metricName req) by rw [dictGet_append, dictGet_filter_self]; rfl]
    constructor
    · rintro ⟨v, hv, -, h2⟩ rfl
      simp only [Option.some.injEq] at hv
      exact h2 hv.symm
    · intro hr
      exact ⟨_, rfl, by simp, by simpa using Ne.symm hr⟩

/-! ## C211 -/

/-- **C211 (part).** One kernel: it is refused exactly if the dictionary asks for another metric, and otherwise it uses the settings of the dictionary with its metric; the other settings of the dictionary are kept. -/
theorem C211_one_partial (req : Metric) (d : DistDict) :
    (Contradicts req d → (radialFromDict req d).1 = .error .value) ∧ (¬ Contradicts req d → (radialFromDict req d).1 = expected req d) ∧ OtherSettings (radialFromDict req d).2 = OtherSettings d :=
  ⟨fun h => by rw [radial_after_error req d h], radial_value req d, radial_other req d⟩

/-- **C211 (part).** Without the argument the kernel uses the default settings and its metric. -/
theorem C211_default (req : Metric) : radialDefault req = expected req ⟨none, []⟩ := by
  have h := radial_value req ⟨none, []⟩ (by unfold Contradicts; simp [dictGet])
  rw [← h]
  rfl

/-- **C211 (part).** An algorithm object is accepted exactly if its metric is the one of the kernel. -/
theorem C211_object (req m : Metric) : radialFromObject req m = .ok () ↔ m = req := by
  unfold radialFromObject
  by_cases h : m = req <;> simp [h]

/-- **C211 (part).** Any number of kernels with the same metric: all of them use the settings of the dictionary. -/
theorem C211_same_partial (req : Metric) (n : Nat) : ∀ d, ¬ Contradicts req d → (radialHistory d (List.replicate n req)).1 = List.replicate n (expected req d) := by
  induction n with
  | zero => intro d _; rfl
  | succ n ih =>
    intro d h
    rw [List.replicate_succ, List.replicate_succ]
    show (radialFromDict req d).1 :: (radialHistory (radialFromDict req d).2 (List.replicate n req)).1 = _
    rw [radial_value req d h, ih _ (by rw [contradicts_after]; simp), expected_congr req _ d (radial_other req d)]

/-- Which kernels of a sequence are refused: `before` tells whether the next one would be refused if its metric differs from the given one. -/
def Refused : Option Metric → List Metric → List Bool
  | _, [] => []
  | none, r :: rs => false :: Refused (some r) rs
  | some m, r :: rs => if r = m then false :: Refused (some m) rs else true :: Refused none rs

lemma history_from (rs : List Metric) : ∀ (d : DistDict) (b : Option Metric), (∀ r, Contradicts r d ↔ ∃ m, b = some m ∧ r ≠ m) →
    (radialHistory d rs).1 = (rs.zip (Refused b rs)).map (fun p => if p.2 then .error .value else expected p.1 d) := by
  induction rs with
  | nil => intro d b _; rfl
  | cons r rs ih =>
    intro d b hb
    show (radialFromDict r d).1 :: (radialHistory (radialFromDict r d).2 rs).1 = _
    have ho := radial_other r d
    have hexp : ∀ l : List (Metric × Bool), l.map (fun p => if p.2 then Except.error DErr.value else expected p.1 (radialFromDict r d).2) = l.map (fun p => if p.2 then .error .value else expected p.1 d) := by
      intro l
      congr 1
      funext p
      rw [expected_congr p.1 _ d ho]
    by_cases h : Contradicts r d
    · obtain ⟨m, rfl, hm⟩ := (hb r).1 h
      rw [ih _ none (fun r' => by rw [contradicts_after]; simp [h]), hexp]
      simp only [Refused, if_neg hm, List.zip_cons_cons, List.map_cons, if_true]
      rw [radial_after_error r d h]
    · have hnext : (radialHistory (radialFromDict r d).2 rs).1 = (rs.zip (Refused (some r) rs)).map (fun p => if p.2 then .error .value else expected p.1 d) := by
        rw [ih _ (some r) (fun r' => by rw [contradicts_after]; simp [h]), hexp]
      rw [hnext, radial_value r d h]
      cases b with
      | none => simp [Refused]
      | some m =>
        have hm : r = m := by
          by_contra hne
          exact h ((hb r).2 ⟨m, rfl, hne⟩)
        simp [Refused, hm]

/-- **C211 (part).** All sequences of kernels that are constructed with one dictionary that does not state a metric: the outcome of every kernel. A kernel is refused exactly if the kernel before was accepted and
has another metric. -/
theorem C211_history_violated (rs : List Metric) (d : DistDict) (hd : dictGet .metric d.entries = none) :
    (radialHistory d rs).1 = (rs.zip (Refused none rs)).map (fun p => if p.2 then .error .value else expected p.1 d) ∧
    (∀ i, (Refused none rs)[i + 1]? = some true ↔ (Refused none rs)[i]? = some false ∧ ∃ a b, rs[i]? = some a ∧ rs[i + 1]? = some b ∧ b ≠ a) := by
  refine ⟨history_from rs d none (fun r => by unfold Contradicts; rw [hd]; simp), ?_⟩
  have gen : ∀ (rs : List Metric) (b : Option Metric) (i : Nat), (Refused b rs)[i + 1]? = some true ↔ (Refused b rs)[i]? = some false ∧ ∃ x y, rs[i]? = some x ∧ rs[i + 1]? = some y ∧ y ≠ x := by
    intro rs
    induction rs with
    | nil => intro b i; cases b <;> simp [Refused]
    | cons r rs ih =>
      have hfirst : ∀ b, (Refused b rs)[0]? = some true ↔ ∃ m, b = some m ∧ ∃ y, rs[0]? = some y ∧ y ≠ m := by
        intro b
        cases rs with
        | nil => cases b <;> simp [Refused]
        | cons r' rs => cases b with
          | none => simp [Refused]
          | some m => by_cases hm : r' = m <;> simp [Refused, hm]
      intro b i
      have step : ∀ (v : Bool) (b' : Option Metric), Refused b (r :: rs) = v :: Refused b' rs → (b' = if v then none else some r) →
          ((Refused b (r :: rs))[i + 1]? = some true ↔ (Refused b (r :: rs))[i]? = some false ∧ ∃ x y, (r :: rs)[i]? = some x ∧ (r :: rs)[i + 1]? = some y ∧ y ≠ x) := by
        intro v b' h hb'
        rw [h]
        cases i with
        | zero =>
          simp only [zero_add, List.getElem?_cons_succ, List.getElem?_cons_zero, Option.some.injEq]
          rw [hfirst, hb']
          cases v <;> simp
        | succ i =>
          simp only [List.getElem?_cons_succ]
          exact ih b' i
      cases b with
      | none => exact step false (some r) rfl rfl
      | some m =>
        by_cases hm : r = m
        · exact step false (some m) (by simp [Refused, hm]) (by simp [hm])
        · exact step true none (by simp [Refused, hm]) rfl
  exact gen rs none

/-- **C211 is violated.** A dictionary without a metric: a kernel with the first metric is accepted, one with the second metric is refused, and the same call again is accepted; each of them is accepted with a new dictionary with the
same settings. -/
theorem C211_repeated_violated (a b : Metric) (hab : b ≠ a) (d : DistDict) (hd : dictGet .metric d.entries = none) :
    (radialHistory d [a, b, b]).1 = [expected a d, .error .value, expected b d] ∧ (radialFromDict b d).1 = expected b d := by
  refine ⟨?_, radial_value b d (by unfold Contradicts; rw [hd]; simp)⟩
  rw [(C211_history_violated _ d hd).1]
  simp [Refused, hab]

/-- **C211 is violated.** A dictionary that asks for another metric: the kernel is refused, and the same call again is accepted with a metric that was not asked for. -/
theorem C211_contradiction_violated (req m : Metric) (hm : m ≠ req) (d : DistDict) (hd : dictGet .metric d.entries = some (.metricName m)) :
    (radialHistory d [req, req]).1 = [.error .value, expected req d] := by
  have h : Contradicts req d := ⟨_, hd, by simp, by simpa using hm⟩
  show [(radialFromDict req d).1, (radialFromDict req (radialFromDict req d).2).1] = _
  rw [radial_value req (radialFromDict req d).2 (by rw [contradicts_after]; simp [h]), expected_congr req _ d (radial_other req d), radial_after_error req d h]

/-- **C211 is violated.** If the dictionary has been used for a Gaussian kernel (squared Euclidean metric), then a continuous nearest neighbour kernel that gets it uses the squared metric, with a new dictionary the Euclidean one. -/
theorem C211_neighbours_violated (n : Int) (d : DistDict) (hd : dictGet .metric d.entries = none) :
    dictGet .metric (cknnDefaults n (radialFromDict .sqeuclidean d).2).entries = some (.metricName .sqeuclidean) ∧ dictGet .metric (cknnDefaults n d).entries = some (.metricName .euclidean) := by
  constructor
  · rw [radial_after_ok .sqeuclidean d (by unfold Contradicts; rw [hd]; simp)]
    unfold cknnDefaults
    dsimp only
    rw [dictGet_setDefault, dictGet_setDefault_ne (by decide), dictGet_append, dictGet_filter_self]
    rfl
  · unfold cknnDefaults
    dsimp only
    rw [dictGet_setDefault, dictGet_setDefault_ne (by decide), hd]
    rfl

/-- A dictionary with a cut-off: three kernels, of which the second is refused, and the object that is made for the first. -/
example : (radialHistory ⟨none, [(.cutOff, .num (some 2))]⟩ [.sqeuclidean, .euclidean, .euclidean]).1 =
    [.ok ⟨.guessOptimal, [(.metric, .metricName .sqeuclidean), (.cutOff, .num (some 2)), (.kmin, .none)], []⟩, .error .value,
     .ok ⟨.guessOptimal, [(.metric, .metricName .euclidean), (.cutOff, .num (some 2)), (.kmin, .none)], []⟩] := by
  rw [(C211_repeated_violated .sqeuclidean .euclidean (by decide) _ rfl).1]
  simp [expected, initDistance, construct, Backend.params, Backend.hasOptions, Backend.required, dictGet]

end Verif.Dist
