import Verif.Edmd.GridSearch
import Verif.Tsc.FoldProps
import Verif.Tsc.TrainTestProps
import Verif.Tsc.MetricProps
/-! # C157: grid search with cross validation -/

namespace Verif.Edmd

open Verif.Tsc

variable {P Q S M E K V : Type}

/-! ## Specification -/

/-- `v` is the score on `B` of a model that is fitted to `A` with the parameters `p`, or the value of `error_score` if one of the two calls raises. -/
def Scored (L : Learner P S M E K V) (es : ErrorScore K) (att : Option S) (p : P) (A B : List (Row Int V)) (v : Option K) : Prop :=
  (∃ m, L.fit p A = .ok m ∧ L.score att m B = .ok v) ∨ (es = .value v ∧ ((∃ e, L.fit p A = .error e) ∨ ∃ m e, L.fit p A = .ok m ∧ L.score att m B = .error e))

/-- Candidate `b` has the largest mean score, and it is the first one with this score; candidates without a mean score are not better. -/
def BestOf [LinearOrder K] (means : List (Option K)) (b : Nat) : Prop :=
  b < means.length ∧ (∀ (j : Nat) (y : K), means[j]? = some (some y) → ∃ x, means[b]? = some (some x) ∧ y ≤ x) ∧
    ∀ j : Nat, j < b → ∀ x, means[b]? = some (some x) → ∀ y, means[j]? = some (some y) → y < x

/-! ## Lemmas -/

theorem argMin_spec {l : List Nat} (h : l ≠ []) : ∃ hb : argMin l < l.length, (∀ y ∈ l, l[argMin l] ≤ y) ∧ ∀ j (hj : j < argMin l), ∃ y ∈ l, y < l[j]'(by omega) := by
  have hex : ∃ x ∈ l, (fun x => l.all (fun y => decide (x ≤ y))) x = true := by
    obtain ⟨m, hm⟩ : ∃ m, l.min? = some m := by
      cases hh : l.min? with
      | none => rw [List.min?_eq_none_iff] at hh; exact absurd hh h
      | some m => exact ⟨m, rfl⟩
    rw [List.min?_eq_some_iff] at hm
    exact ⟨m, hm.1, by simpa using hm.2⟩
  have hb : argMin l < l.length := List.findIdx_lt_length.2 hex
  refine ⟨hb, ?_, ?_⟩
  · have := List.findIdx_getElem (w := hb)
    rw [List.all_eq_true] at this
    intro y hy
    exact of_decide_eq_true (this y hy)
  · intro j hj
    have := List.not_of_lt_findIdx hj
    simp only [List.all_eq_false, decide_eq_true_eq, not_le] at this
    simpa using this

theorem best_of_ranks [Field K] [LinearOrder K] [IsStrictOrderedRing K] {means : List (Option K)} (h : means ≠ []) : BestOf means (argMin (rankScores means)) := by
  have hlen : (rankScores means).length = means.length := by unfold rankScores; split <;> simp
  have hne : rankScores means ≠ [] := by
    intro e; rw [e] at hlen; exact h (List.length_eq_zero_iff.1 hlen.symm)
  obtain ⟨hb, hmin, hfirst⟩ := argMin_spec hne
  cases hlo : nanMin means with
  | none =>
    have hnil : means.filterMap id = [] := by simpa [nanMin] using hlo
    have hno : ∀ (j : Nat) (y : K), means[j]? ≠ some (some y) := by
      intro j y hj
      have : y ∈ means.filterMap id := List.mem_filterMap.2 ⟨some y, List.mem_of_getElem? hj, rfl⟩
      rw [hnil] at this; simp at this
    exact ⟨by omega, fun j y hj => absurd hj (hno j y), fun j _ x hx => absurd hx (hno _ x)⟩
  | some lo =>
    have hlo' : lo ∈ means.filterMap id ∧ ∀ y ∈ means.filterMap id, lo ≤ y := List.min?_eq_some_iff.1 hlo
    obtain ⟨m, hm, hmlo⟩ := List.mem_filterMap.1 hlo'.1
    simp only [id] at hmlo
    subst hmlo
    set v := means.map (fun m => m.getD (lo - 1)) with hv
    have hr : rankScores means = v.map (fun x => (v.filter (fun y => decide (x < y))).length + 1) := by unfold rankScores; rw [hlo]
    set b := argMin (rankScores means) with hbdef
    have hbm : b < means.length := by omega
    have hbv : b < v.length := by simpa [hv] using hbm
    have hrank : ∀ j (hj : j < v.length), (rankScores means)[j]'(by rw [hr]; simpa using hj) = (v.filter (fun y => decide (v[j] < y))).length + 1 := by
      intro j hj; simp [hr]
    -- the largest entry has rank one
    have hvne : v ≠ [] := by intro e; rw [e] at hbv; simp at hbv
    obtain ⟨mx, hmx⟩ : ∃ mx, v.max? = some mx := by
      cases hh : v.max? with
      | none => rw [List.max?_eq_none_iff] at hh; exact absurd hh hvne
      | some mx => exact ⟨mx, rfl⟩
    rw [List.max?_eq_some_iff] at hmx
    have hone : 1 ∈ rankScores means := by
      rw [hr, List.mem_map]
      refine ⟨mx, hmx.1, ?_⟩
      have : v.filter (fun y => decide (mx < y)) = [] := by
        rw [List.filter_eq_nil_iff]; intro y hy; simpa using hmx.2 y hy
      rw [this]; rfl
    have hbtop : ∀ y ∈ v, y ≤ v[b] := by
      have h1 := hmin 1 hone
      rw [hrank b hbv] at h1
      have : v.filter (fun y => decide (v[b] < y)) = [] := List.length_eq_zero_iff.1 (by omega)
      rw [List.filter_eq_nil_iff] at this
      intro y hy; simpa using this y hy
    have hgetv : ∀ j y, means[j]? = some (some y) → ∃ hj : j < v.length, v[j] = y := by
      intro j y hj
      obtain ⟨hj', he⟩ := List.getElem?_eq_some_iff.1 hj
      exact ⟨by simpa [hv] using hj', by simp [hv, he]⟩
    have hsome : ∃ x, means[b]? = some (some x) ∧ v[b] = x := by
      cases hmb : means[b] with
      | some x => exact ⟨x, by rw [List.getElem?_eq_getElem hbm, hmb], by simp [hv, hmb]⟩
      | none =>
        exfalso
        have h1 : v[b] = lo - 1 := by simp [hv, hmb]
        have h2 : lo ∈ v := List.mem_map.2 ⟨some lo, hm, rfl⟩
        have := hbtop lo h2
        rw [h1] at this
        exact absurd this (by simp)
    obtain ⟨x, hx, hvx⟩ := hsome
    refine ⟨hbm, ?_, ?_⟩
    · intro j y hj
      obtain ⟨hj', he⟩ := hgetv j y hj
      exact ⟨x, hx, by rw [← hvx, ← he]; exact hbtop _ (List.getElem_mem hj')⟩
    · intro j hj x' hx' y hy
      rw [hx] at hx'
      simp only [Option.some.injEq] at hx'
      subst hx'
      obtain ⟨hj', he⟩ := hgetv j y hy
      obtain ⟨r, hr1, hr2⟩ := hfirst j hj
      rw [hrank j hj'] at hr2
      have hrpos : 1 ≤ r := by
        rw [hr, List.mem_map] at hr1
        obtain ⟨z, -, rfl⟩ := hr1
        omega
      have : v.filter (fun z => decide (v[j] < z)) ≠ [] := by
        intro e; rw [e] at hr2; simp at hr2; omega
      obtain ⟨z, hz⟩ := List.exists_mem_of_ne_nil _ this
      rw [List.mem_filter, decide_eq_true_eq] at hz
      rw [← he, ← hvx]
      exact lt_of_lt_of_le hz.2 (hbtop z hz.1)

theorem tasks_length (cands : List Q) (folds : List (List Nat × List Nat)) : (tasks cands folds).length = cands.length * folds.length := by
  unfold tasks
  induction cands with
  | nil => simp
  | cons q l ih => rw [List.flatMap_cons, List.length_append, ih, List.length_map, List.length_cons]; ring

theorem tasks_get (cands : List Q) (folds : List (List Nat × List Nat)) {c s : Nat} {q : Q} {f : List Nat × List Nat} (hc : cands[c]? = some q) (hs : folds[s]? = some f) :
    (tasks cands folds)[c * folds.length + s]? = some (q, f) := by
  unfold tasks
  induction cands generalizing c with
  | nil => simp at hc
  | cons a l ih =>
    have hsl := (List.getElem?_eq_some_iff.1 hs).1
    rw [List.flatMap_cons]
    cases c with
    | zero =>
      simp only [List.getElem?_cons_zero, Option.some.injEq] at hc
      rw [Nat.zero_mul, Nat.zero_add, List.getElem?_append_left (by simpa using hsl), List.getElem?_map, hs, hc]
      rfl
    | succ c =>
      rw [List.getElem?_cons_succ] at hc
      rw [List.getElem?_append_right (by rw [List.length_map]; nlinarith), List.length_map, show (c + 1) * folds.length + s - folds.length = c * folds.length + s by
        rw [Nat.succ_mul]; omega]
      exact ih hc

theorem fitAndScore_ok {L : Learner P S M E K V} {upd : P → Q → P} {es : ErrorScore K} {est : Estimator P S} {X : List (Row Int V)} {q : Q} {f : List Nat × List Nat} {o : TaskScore K}
    (h : fitAndScore L upd es est X q f = .ok o) :
    ∃ A B, assignIdsTrainTest X f.1 f.2 = .ok (A, B) ∧ Scored L es est.attached (upd est.params q) A B o.test ∧ Scored L es est.attached (upd est.params q) A A o.train := by
  unfold fitAndScore at h
  split at h
  · simp at h
  rename_i A B hAB
  refine ⟨A, B, hAB, ?_⟩
  simp only [Estimator.setParams] at h
  split at h
  · rename_i e he
    cases es with
    | raise => simp at h
    | value v =>
      simp only [Except.ok.injEq] at h
      subst h
      exact ⟨.inr ⟨rfl, .inl ⟨_, he⟩⟩, .inr ⟨rfl, .inl ⟨_, he⟩⟩⟩
  · rename_i m hm
    have key : ∀ C a, scoreOr es (L.score est.attached m C) = .ok a → Scored L es est.attached (upd est.params q) A C a := by
      intro C a ha
      cases hv : L.score est.attached m C with
      | ok v =>
        rw [hv] at ha
        simp only [scoreOr, Except.ok.injEq] at ha
        subst ha
        exact .inl ⟨m, hm, hv⟩
      | error e =>
        rw [hv] at ha
        cases es with
        | raise => simp [scoreOr] at ha
        | value v =>
          simp only [scoreOr, Except.ok.injEq] at ha
          subst ha
          exact .inr ⟨rfl, .inr ⟨m, e, hm, hv⟩⟩
    split at h
    · simp at h
    · rename_i a ha
      split at h
      · simp at h
      · rename_i b hb
        simp only [Except.ok.injEq] at h
        subst h
        exact ⟨key B a ha, key A b hb⟩

theorem gridSearch_train [Field K] [LinearOrder K] {L : Learner P S M E K V} {upd : P → Q → P} {es : ErrorScore K} {est : Estimator P S} {X : List (Row Int V)} {cands : List Q} {nSplits : Nat}
    {folds : List (List Nat × List Nat)} {r : SearchResult P S M K} {out : List (TaskScore K)} (ho : runTasks L upd es est X cands folds = .ok out)
    (h : gridSearch L upd es est X cands nSplits folds = .ok r) : r.train = scoreMatrix cands.length nSplits (out.map (·.train)) := by
  simp only [gridSearch, ho] at h
  split at h
  · simp at h
  split at h
  · simp at h
  split at h
  · simp at h
  split at h
  · simp at h
  simp only [Except.ok.injEq] at h
  rw [← h]

/-- What an accepted search returns. -/
theorem gridSearch_ok [Field K] [LinearOrder K] {L : Learner P S M E K V} {upd : P → Q → P} {es : ErrorScore K} {est : Estimator P S} {X : List (Row Int V)} {cands : List Q} {nSplits : Nat}
    {folds : List (List Nat × List Nat)} {r : SearchResult P S M K} (h : gridSearch L upd es est X cands nSplits folds = .ok r) :
    ∃ out, runTasks L upd es est X cands folds = .ok out ∧ out ≠ [] ∧ out.length = cands.length * nSplits ∧ r.test = scoreMatrix cands.length nSplits (out.map (·.test)) ∧
      r.means = r.test.map meanScore ∧ r.best = argMin (rankScores r.means) ∧ r.bestScore = (r.means[r.best]?).getD none ∧
      ∃ q, cands[r.best]? = some q ∧ r.estimator = est.setParams upd q ∧ L.fit (upd est.params q) X = .ok r.model := by
  unfold gridSearch at h
  split at h
  · simp at h
  rename_i out hout
  split at h
  · simp at h
  rename_i h1
  split at h
  · simp at h
  rename_i h2
  simp only at h
  split at h
  · simp at h
  rename_i q hq
  split at h
  · simp at h
  rename_i m hm
  simp only [Except.ok.injEq] at h
  subst h
  exact ⟨out, hout, by intro e; rw [e] at h1; simp at h1, by simpa using h2, rfl, rfl, rfl, rfl, q, hq, rfl, hm⟩

/-! ## C157 -/

/-- **C157 (scores).** After an accepted search with the splits of one of the cross validation classes, the score of candidate `c` in split `s` is the score on the test part of a model with the parameters
of this candidate that is fitted to the training part only (of a clone of the estimator, i.e. with the score function of the class). The two parts have no sample in common. -/
theorem C157_scores_partial [Field K] [LinearOrder K] {L : Learner P S M E K V} {upd : P → Q → P} {es : ErrorScore K} {est : Estimator P S} {X : List (Row Int V)} (hX : Valid X) {cands : List Q} {k : Nat}
    {folds : List (List Nat × List Nat)} (hf : IsKFold X.length k folds) {r : SearchResult P S M K} (h : gridSearch L upd es est X cands k folds = .ok r)
    {c s : Nat} {q : Q} {f : List Nat × List Nat} (hc : cands[c]? = some q) (hs : folds[s]? = some f) :
    ∃ A B row v, assignIdsTrainTest X f.1 f.2 = .ok (A, B) ∧ A.length + B.length = X.length ∧ (∀ i ∈ f.1, i ∉ f.2) ∧
      r.test[c]? = some row ∧ row.length = k ∧ row[s]? = some v ∧ Scored L es none (upd est.params q) A B v := by
  obtain ⟨out, h1, h2, h3, h4, -⟩ := gridSearch_ok h
  unfold runTasks at h1
  obtain ⟨hl, hget⟩ := mapM_ok_get _ _ _ h1
  have hfl := hf.count
  obtain ⟨o, ho, hof⟩ := hget _ _ (tasks_get cands folds hc hs)
  obtain ⟨A, B, hAB, hsc, -⟩ := fitAndScore_ok hof
  have hcl := (List.getElem?_eq_some_iff.1 hc).1
  have hsl := (List.getElem?_eq_some_iff.1 hs).1
  have hfm : f ∈ folds := List.mem_of_getElem? hs
  obtain ⟨-, -, ν, -, hA, -, hB, -⟩ := C16_train_test hX hAB
  have hperm := hf.complement f hfm
  refine ⟨A, B, ((out.map (·.test)).drop (c * k)).take k, o.test, hAB, ?_, ?_, ?_, ?_, ?_, hsc⟩
  · rw [hA, hB, ← List.length_append, hperm.length_eq, List.length_range]
  · have hnd : (f.1 ++ f.2).Nodup := hperm.nodup_iff.2 List.nodup_range
    rw [List.nodup_append'] at hnd
    intro i h1 h2
    exact hnd.2.2 h1 h2
  · rw [h4]; unfold scoreMatrix
    rw [List.getElem?_map, List.getElem?_range hcl]; rfl
  · rw [List.length_take, List.length_drop, List.length_map, h3]
    have : c * k + k ≤ cands.length * k := by
      have := Nat.mul_le_mul_right k (show c + 1 ≤ cands.length by omega)
      rwa [Nat.succ_mul] at this
    omega
  · rw [List.getElem?_take_of_lt (by omega), List.getElem?_drop, List.getElem?_map]
    rw [hfl] at ho
    rw [ho]; rfl

/-- **C157 (train scores).** The same for the reported training scores: candidate `c` in split `s` is scored on the part it was fitted to. -/
theorem C157_train_partial [Field K] [LinearOrder K] {L : Learner P S M E K V} {upd : P → Q → P} {es : ErrorScore K} {est : Estimator P S} {X : List (Row Int V)} {cands : List Q} {k : Nat}
    {folds : List (List Nat × List Nat)} (hf : IsKFold X.length k folds) {r : SearchResult P S M K} (h : gridSearch L upd es est X cands k folds = .ok r)
    {c s : Nat} {q : Q} {f : List Nat × List Nat} (hc : cands[c]? = some q) (hs : folds[s]? = some f) :
    ∃ A B row v, assignIdsTrainTest X f.1 f.2 = .ok (A, B) ∧ r.train[c]? = some row ∧ row[s]? = some v ∧ Scored L es none (upd est.params q) A A v := by
  obtain ⟨out, h1, h2, h3, -⟩ := gridSearch_ok h
  have h4 := gridSearch_train h1 h
  unfold runTasks at h1
  obtain ⟨hl, hget⟩ := mapM_ok_get _ _ _ h1
  have hfl := hf.count
  obtain ⟨o, ho, hof⟩ := hget _ _ (tasks_get cands folds hc hs)
  obtain ⟨A, B, hAB, -, hsc⟩ := fitAndScore_ok hof
  have hcl := (List.getElem?_eq_some_iff.1 hc).1
  have hsl := (List.getElem?_eq_some_iff.1 hs).1
  refine ⟨A, B, ((out.map (·.train)).drop (c * k)).take k, o.train, hAB, ?_, ?_, hsc⟩
  · rw [h4]; unfold scoreMatrix
    rw [List.getElem?_map, List.getElem?_range hcl]; rfl
  · rw [List.getElem?_take_of_lt (by omega), List.getElem?_drop, List.getElem?_map]
    rw [hfl] at ho
    rw [ho]; rfl

theorem mapM_ok_of {α β ε : Type} (f : α → Except ε β) : ∀ l : List α, (∀ a ∈ l, ∃ b, f a = .ok b) → ∃ o, l.mapM f = .ok o
  | [], _ => ⟨[], rfl⟩
  | a :: l, h => by
    obtain ⟨b, hb⟩ := h a (by simp)
    obtain ⟨o, ho⟩ := mapM_ok_of f l (fun x hx => h x (by simp [hx]))
    exact ⟨b :: o, by simp [List.mapM_cons, hb, ho]; rfl⟩

/-- **C157 (accepted searches).** A search with at least one candidate and one split is accepted if every split can be made, every candidate can be fitted to every training part and to all data, and every
fitted model can be scored. -/
theorem C157_accepts [Field K] [LinearOrder K] [IsStrictOrderedRing K] (L : Learner P S M E K V) (upd : P → Q → P) (es : ErrorScore K) (est : Estimator P S) (X : List (Row Int V)) (cands : List Q)
    (folds : List (List Nat × List Nat)) (hc : cands ≠ []) (hf : folds ≠ []) (hall : ∀ q ∈ cands, ∀ f ∈ folds, ∃ A B m a b, assignIdsTrainTest X f.1 f.2 = .ok (A, B) ∧
      L.fit (upd est.params q) A = .ok m ∧ L.score none m B = .ok a ∧ L.score none m A = .ok b) (hX : ∀ q ∈ cands, ∃ m, L.fit (upd est.params q) X = .ok m) :
    ∃ r, gridSearch L upd es est X cands folds.length folds = .ok r := by
  obtain ⟨out, hout⟩ : ∃ out, runTasks L upd es est X cands folds = .ok out := by
    refine mapM_ok_of _ _ ?_
    rintro ⟨q, f⟩ hqf
    simp only [tasks, List.mem_flatMap, List.mem_map] at hqf
    obtain ⟨q', hq, f', hfm, he⟩ := hqf
    cases he
    obtain ⟨A, B, m, a, b, h1, h2, h3, h4⟩ := hall q hq f hfm
    refine ⟨⟨a, b, false⟩, ?_⟩
    simp only [fitAndScore, h1, Estimator.setParams, Estimator.clone, h2, h3, h4, scoreOr]
  have hlen : out.length = cands.length * folds.length := by
    have ho := hout
    unfold runTasks at ho
    obtain ⟨hl, -⟩ := mapM_ok_get _ _ _ ho
    rw [hl, tasks_length]
  have hpos : 0 < cands.length * folds.length := Nat.mul_pos (List.length_pos_iff.2 hc) (List.length_pos_iff.2 hf)
  unfold gridSearch
  rw [hout]
  simp only
  rw [if_neg (by omega), if_neg (by omega)]
  set means := (scoreMatrix cands.length folds.length (out.map (·.test))).map meanScore with hm
  have hml : means.length = cands.length := by simp [hm, scoreMatrix]
  have hne : means ≠ [] := by intro e; rw [e] at hml; exact hc (List.length_eq_zero_iff.1 hml.symm)
  have hlt := (best_of_ranks hne).1
  rw [List.getElem?_eq_getElem (by omega)]
  obtain ⟨m, hm⟩ := hX _ (List.getElem_mem (show argMin (rankScores means) < cands.length by omega))
  simp only [Estimator.setParams, hm]
  exact ⟨_, rfl⟩

theorem mapM_id_some (vs : List K) : (vs.map some).mapM (id : Option K → Option K) = some vs := by
  induction vs with
  | nil => rfl
  | cons a l ih => simp [ih]

theorem meanScore_some [Field K] (vs : List K) : meanScore (vs.map some) = some (vs.sum / (vs.length : K)) := by
  unfold meanScore; rw [mapM_id_some]; rfl

theorem meanScore_none [Field K] {l : List (Option K)} (h : none ∈ l) : meanScore l = none := by
  unfold meanScore
  have : l.mapM (id : Option K → Option K) = none := by
    induction l with
    | nil => simp at h
    | cons a l ih =>
      rw [List.mapM_cons]
      rcases List.mem_cons.1 h with h' | h'
      · rw [← h']; rfl
      · rw [ih h']; cases a <;> rfl
  rw [this]; rfl

/-- **C157 (selection and refit).** The selected candidate has the largest mean test score over all splits, and is the first one with this score. `best_score_` is this mean; the final model has the
parameters of this candidate and is fitted to all data. -/
theorem C157_best [Field K] [LinearOrder K] [IsStrictOrderedRing K] {L : Learner P S M E K V} {upd : P → Q → P} {es : ErrorScore K} {est : Estimator P S} {X : List (Row Int V)} {cands : List Q} {k : Nat}
    {folds : List (List Nat × List Nat)} {r : SearchResult P S M K} (h : gridSearch L upd es est X cands k folds = .ok r) :
    r.means.length = cands.length ∧ (∀ (c : Nat) (vs : List K), r.test[c]? = some (vs.map some) → r.means[c]? = some (some (vs.sum / (vs.length : K)))) ∧
      (∀ (c : Nat) (row : List (Option K)), r.test[c]? = some row → none ∈ row → r.means[c]? = some none) ∧
      BestOf r.means r.best ∧ r.means[r.best]? = some r.bestScore ∧ ∃ q, cands[r.best]? = some q ∧ r.estimator.params = upd est.params q ∧ L.fit (upd est.params q) X = .ok r.model := by
  obtain ⟨out, h1, h2, h3, h4, h5, h6, h7, q, h8, h9, h10⟩ := gridSearch_ok h
  have hml : r.means.length = cands.length := by rw [h5, h4]; simp [scoreMatrix]
  have hne : r.means ≠ [] := by
    intro e
    rw [e] at hml
    have : cands.length = 0 := hml.symm
    rw [this, Nat.zero_mul] at h3
    exact h2 (List.length_eq_zero_iff.1 h3)
  have hbest : BestOf r.means r.best := by rw [h6]; exact best_of_ranks hne
  refine ⟨hml, ?_, ?_, hbest, ?_, q, h8, by rw [h9]; rfl, h10⟩
  · intro c vs hc
    rw [h5, List.getElem?_map, hc, Option.map_some, meanScore_some]
  · intro c row hc hrow
    rw [h5, List.getElem?_map, hc, Option.map_some, meanScore_none hrow]
  · rw [h7, List.getElem?_eq_getElem hbest.1]; rfl

/-- **C157 (errors).** With `error_score='raise'`, the search raises if a fit or a score of any candidate in any split raises. -/
theorem C157_raises [Field K] [LinearOrder K] {L : Learner P S M E K V} {upd : P → Q → P} {est : Estimator P S} {X : List (Row Int V)} {cands : List Q} {k : Nat} {folds : List (List Nat × List Nat)}
    {q : Q} {f : List Nat × List Nat} (hq : q ∈ cands) (hf : f ∈ folds) {A B : List (Row Int V)} (hAB : assignIdsTrainTest X f.1 f.2 = .ok (A, B))
    (hbad : (∃ e, L.fit (upd est.params q) A = .error e) ∨ ∃ m e, L.fit (upd est.params q) A = .ok m ∧ L.score none m B = .error e) :
    ∃ e, gridSearch L upd .raise est X cands k folds = .error e := by
  cases hr : gridSearch L upd .raise est X cands k folds with
  | error e => exact ⟨e, rfl⟩
  | ok r =>
    exfalso
    obtain ⟨out, h1, -⟩ := gridSearch_ok hr
    unfold runTasks at h1
    obtain ⟨hl, hget⟩ := mapM_ok_get _ _ _ h1
    obtain ⟨c, hc⟩ := List.getElem?_of_mem hq
    obtain ⟨s, hs⟩ := List.getElem?_of_mem hf
    obtain ⟨o, ho, hof⟩ := hget _ _ (tasks_get cands folds hc hs)
    obtain ⟨A', B', hAB', hsc, -⟩ := fitAndScore_ok hof
    rw [hAB] at hAB'
    cases hAB'
    rcases hsc with ⟨m, h2, h3⟩ | ⟨h2, -⟩
    · simp only [Estimator.clone] at h2 h3
      rcases hbad with ⟨e, he⟩ | ⟨m', e, he, hse⟩
      · rw [he] at h2; simp at h2
      · rw [he] at h2; cases h2
        rw [hse] at h3; simp at h3
    · simp at h2

/-- **C157 (attached score).** The score function that `adapt_model` attaches to the estimator is not used in the search: every estimator gives the scores of its clone. -/
theorem C157_clone [Field K] [LinearOrder K] (L : Learner P S M E K V) (upd : P → Q → P) (es : ErrorScore K) (est : Estimator P S) (X : List (Row Int V)) (cands : List Q) (folds : List (List Nat × List Nat)) :
    runTasks L upd es est X cands folds = runTasks L upd es est.clone X cands folds := rfl

/-- Two series. -/
def exGrid : List (Row Int Nat) := [⟨0, 0, 0⟩, ⟨0, 1, 0⟩, ⟨1, 0, 0⟩, ⟨1, 1, 0⟩]

/-- A model that stores its parameter; the attached score prefers small parameters, the one of the class large ones. -/
def exLearner : Learner Nat Unit Nat Unit ℚ Nat := ⟨fun p _ => .ok p, fun a m _ => .ok (some (if a.isSome then -(m : ℚ) else (m : ℚ)))⟩

theorem exGrid_folds : IsKFold exGrid.length 2 [([2, 3], [0, 1]), ([0, 1], [2, 3])] := ⟨rfl, by decide, by decide, by decide, by decide⟩

/-- The hypotheses of `C157_accepts` hold for one candidate and one split. -/
example : ∀ q ∈ [5], ∀ f ∈ [([0, 1], [2, 3])], ∃ A B m a b, assignIdsTrainTest exGrid f.1 f.2 = .ok (A, B) ∧
    exLearner.fit q A = .ok m ∧ exLearner.score none m B = .ok a ∧ exLearner.score none m A = .ok b := by
  intro q hq f hf
  simp only [List.mem_singleton] at hq hf
  subst hq hf
  exact ⟨_, _, 5, some 5, some 5, rfl, rfl, rfl, rfl⟩

/-- The hypotheses of the theorems above hold for an accepted search. -/
example : Valid exGrid ∧ ((gridSearch exLearner (fun _ q => q) (.value none) ⟨0, none⟩ exGrid [1, 3, 2] 2 [([2, 3], [0, 1]), ([0, 1], [2, 3])]).toOption.any (fun r =>
    decide (r.best = 1) && decide (r.bestScore = some 3) && decide (r.means = [some 1, some 3, some 2]) && decide (r.model = 3))) = true :=
  ⟨by rw [valid_iff]; exact ⟨by decide, by unfold Before; decide⟩, by decide +kernel⟩

/-- **C157 (negation).** "Uses the score function set in the model": for a model with an attached score function the search selects the candidate that is the worst one for this score in every split and for
every data; the attached function is part of the returned estimator. -/
theorem C157_attached_violated : ∃ r, gridSearch exLearner (fun _ q => q) .raise ⟨0, some ()⟩ exGrid [1, 2] 2 [([2, 3], [0, 1]), ([0, 1], [2, 3])] = .ok r ∧ r.best = 1 ∧ r.model = 2 ∧
    r.estimator.attached = some () ∧ ∀ B, exLearner.score (some ()) 2 B = .ok (some (-2)) ∧ exLearner.score (some ()) 1 B = .ok (some (-1)) := by
  have h : ((gridSearch exLearner (fun _ q => q) .raise ⟨0, some ()⟩ exGrid [1, 2] 2 [([2, 3], [0, 1]), ([0, 1], [2, 3])]).toOption.any (fun r =>
      decide (r.best = 1) && decide (r.model = 2) && r.estimator.attached.isSome)) = true := by decide +kernel
  cases hr : gridSearch exLearner (fun _ q => q) .raise ⟨0, some ()⟩ exGrid [1, 2] 2 [([2, 3], [0, 1]), ([0, 1], [2, 3])] with
  | error e => rw [hr] at h; simp [Except.toOption] at h
  | ok r =>
    rw [hr] at h
    simp only [Except.toOption, Option.any_some, Bool.and_eq_true, decide_eq_true_eq] at h
    refine ⟨r, rfl, h.1.1, h.1.2, ?_, fun B => ⟨by simp [exLearner], by simp [exLearner]⟩⟩
    cases ha : r.estimator.attached with
    | none => rw [ha] at h; simp at h
    | some u => rfl

end Verif.Edmd
