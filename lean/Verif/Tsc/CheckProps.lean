import Verif.Tsc.Check
import Verif.Tsc.CollProps
import Verif.Tsc.DeltaProps
import Mathlib.Data.List.Sort
/-!
# C62, C115, C116: the checks accept exactly the collections with the requested properties
-/

namespace Verif.Tsc

open Verif.Np

variable {V : Type}

/-! ## Specification -/

/-- The properties that the arguments of `check_tsc` request, for integer time values. -/
structure Meets (fin : V → Bool) (nCols : Nat) (q : TscReq) (c : List (Row Int V)) : Prop where
  finite : q.allFinite = true → ∀ r ∈ c, fin r.val = true
  samples : q.minSamples ≤ c.length
  features : q.minFeatures ≤ nCols
  sameLength : q.sameLength = true → EqualLengths c
  constDelta : q.constDelta = true → ∃ d, ∀ i, HasId c i → Regular (timesOf c i) d
  delta : ∀ d, q.delta = some d → ∀ i, HasId c i → Regular (timesOf c i) d
  sameTimes : q.sameTimeValues = true → ∀ i j, HasId c i → HasId c j → timesOf c i = timesOf c j
  normalized : q.normalized = true →
    (∀ r ∈ c, 0 ≤ r.time) ∧ (∃ r ∈ c, r.time = 0) ∧ ∀ i, HasId c i → Regular (timesOf c i) 1
  nTimeseries : ∀ n, q.nTimeseries = some n → ∃ l : List Nat, l.Nodup ∧ (∀ i, i ∈ l ↔ HasId c i) ∧ (l.length : Int) = n
  nTimesteps : ∀ n, q.nTimesteps = some n → ∀ i, HasId c i → ((series c i).length : Int) = n
  minTimesteps : ∀ n, q.minTimesteps = some n → ∀ i, HasId c i → n ≤ (series c i).length
  noDegenerate : q.noDegenerate = true → ∀ i, HasId c i → (series c i).length ≠ 1
  dtype : ∀ t, q.dtype = some t → t = .int

/-! ## Helper lemmas -/

theorem failIf_none (b : Bool) (e : CheckErr) : failIf b e = none ↔ b = false := by
  cases b <;> simp [failIf]

theorem runChecks_ok (l : List (Option CheckErr)) : runChecks l = .ok () ↔ ∀ x ∈ l, x = none := by
  induction l with
  | nil => simp [runChecks]
  | cons x l ih => cases x <;> simp [runChecks, ih]

theorem isEqualLength_iff {c : List (Row Int V)} (hc : c ≠ []) : isEqualLength c = true ↔ EqualLengths c := by
  unfold isEqualLength EqualLengths
  match h : nTimesteps c with
  | .one n =>
    have := (nTimesteps_one hc n).1 h
    simp only [PerId.values]
    constructor
    · intro _ i j hi hj
      rw [this i (mem_ids.2 hi), this j (mem_ids.2 hj)]
    · intro _
      rw [beq_iff_eq, unique_length_one]
      exact ⟨n, by simp, by simp⟩
  | .per l =>
    have hl := nTimesteps_per h
    have hv : (PerId.per l).values = (ids c).map (fun i => (series c i).length) := by
      rw [PerId.values, hl, List.map_map]
      rfl
    rw [beq_iff_eq, unique_length_one, hv]
    constructor
    · rintro ⟨a, -, ha⟩ i j hi hj
      rw [ha _ (List.mem_map.2 ⟨i, mem_ids.2 hi, rfl⟩), ha _ (List.mem_map.2 ⟨j, mem_ids.2 hj, rfl⟩)]
    · intro he
      obtain ⟨i0, t, hi⟩ := List.ne_nil_iff_exists_cons.1 (ids_ne_nil hc)
      refine ⟨(series c i0).length, by simp [hi], fun b hb => ?_⟩
      obtain ⟨i, hm, rfl⟩ := List.mem_map.1 hb
      exact he i i0 (mem_ids.1 hm) (mem_ids.1 (by simp [hi]))

theorem isConstDelta_regular {c : List (Row Int V)} (hc : c ≠ []) (hv : Valid c) {d : Int} (h : ∀ i, HasId c i → Regular (timesOf c i) d) : isConstDeltaTime .int c = true := by
  unfold isConstDeltaTime
  rw [C11_regular hc hv .int h]; rfl

theorem isConstDelta_iff {c : List (Row Int V)} (hc : c ≠ []) (hv : Valid c) (hm : ModerateSteps c) :
    isConstDeltaTime .int c = true ↔ ∃ d, ∀ i, HasId c i → Regular (timesOf c i) d := by
  simp only [← C11_int_partial hc hv hm]
  unfold isConstDeltaTime
  match h : deltaTime .int c with
  | .one (some d) => simp
  | .one none => simp
  | .per l => simp

theorem closeDelta_iff (a : Option Int) (d : Int) (hd : d.natAbs < 10 ^ 12 - 1) : closeDelta a d = true ↔ a = some d := by
  unfold closeDelta
  cases a with
  | none => simp
  | some a =>
    simp only [decide_eq_true_eq, Option.some.injEq]
    constructor
    · intro h
      have : (a - d).natAbs = 0 := by
        by_contra hne
        have : 1 * 10 ^ 15 ≤ (a - d).natAbs * 10 ^ 15 := Nat.mul_le_mul_right _ (by omega)
        omega
      omega
    · rintro rfl
      simp

theorem allClose_const (l : List (Option Int)) (d : Int) (hne : l ≠ []) (h : ∀ x ∈ l, x = some d) : allClose l = true := by
  have hv : ∀ x ∈ l.filterMap id, x = d := by
    intro x hx
    obtain ⟨y, hy, he⟩ := List.mem_filterMap.1 hx
    rw [h y hy] at he
    simpa using he.symm
  unfold allClose
  dsimp only
  have hm : (l.filterMap id).foldl min ((l.filterMap id).headD 0) = d := by
    obtain ⟨a, t, rfl⟩ := List.ne_nil_iff_exists_cons.1 hne
    obtain rfl := h a (by simp)
    simp only [List.filterMap_cons, id, List.headD_cons] at hv ⊢
    rcases (foldl_min_spec (d :: t.filterMap id) d).2.2 with h1 | h1
    · exact h1
    · exact hv _ h1
  rw [hm, List.all_eq_true]
  intro x hx
  rw [h x hx]
  simp

theorem deltaList_length {c : List (Row Int V)} (hc : c ≠ []) (hv : Valid c) : (deltaList c).length = (ids c).length := by
  obtain ⟨order, hperm, -, hd⟩ := dts_eq hc hv
  rw [hd, List.length_map, hperm.length_eq]

theorem checkRequiredDelta_iff {c : List (Row Int V)} (hc : c ≠ []) (hv : Valid c) (hm : ModerateSteps c) (d : Int)
    (hd : d.natAbs < 10 ^ 12 - 1) : checkRequiredDelta .int c d = none ↔ ∀ i, HasId c i → Regular (timesOf c i) d := by
  rw [← C11_int_partial hc hv hm]
  unfold checkRequiredDelta
  have hclose : ((deltaTime .int c).values.all (fun a => closeDelta a d) = true) ↔ ∀ a ∈ (deltaTime .int c).values, a = some d := by
    simp only [List.all_eq_true, closeDelta_iff _ d hd]
  simp only [ite_eq_left_iff, reduceCtorEq, imp_false, not_not, hclose]
  match h : deltaTime .int c with
  | .one a => simp [PerId.values]
  | .per l =>
    simp only [reduceCtorEq, iff_false]
    intro hall
    unfold deltaTime at h
    split at h
    · cases h
    · rename_i hn
      simp only [PerId.per.injEq] at h
      subst h
      apply hn
      right
      have hvals : (PerId.per ((ids c).zip (deltaList c))).values = deltaList c := by
        rw [PerId.values, List.map_snd_zip]
        rw [deltaList_length hc hv]
      rw [hvals] at hall
      unfold globalUnique
      split
      · rfl
      · refine allClose_const _ d ?_ hall
        intro he
        have := deltaList_length hc hv
        rw [he] at this
        exact ids_ne_nil hc (List.eq_nil_of_length_eq_zero this.symm)

theorem checkNTimesteps_iff {c : List (Row Int V)} (hc : c ≠ []) (n : Int) :
    checkNTimesteps c n = true ↔ ∀ i, HasId c i → ((series c i).length : Int) = n := by
  unfold checkNTimesteps
  obtain ⟨i0, t, hi⟩ := List.ne_nil_iff_exists_cons.1 (ids_ne_nil hc)
  have hi0 : i0 ∈ ids c := by simp [hi]
  match h : nTimesteps c with
  | .one m =>
    have := (nTimesteps_one hc m).1 h
    simp only [beq_iff_eq]
    constructor
    · rintro rfl i hi
      rw [this i (mem_ids.2 hi)]
    · intro h2
      rw [← h2 i0 (mem_ids.1 hi0), this i0 hi0]
  | .per l =>
    simp only [Bool.false_eq_true, false_iff]
    intro h2
    have h3 := (nTimesteps_one hc (series c i0).length).2 (fun i hi => by
      have e1 := h2 i (mem_ids.1 hi)
      have e2 := h2 i0 (mem_ids.1 hi0)
      omega)
    rw [h] at h3
    cases h3

/-! ## Property theorems -/

/-- **C62 (integer time; partial).** For a valid collection with integer time values and intervals below `3·10¹¹` and a required time delta below
`10¹²`, `check_tsc` returns, and returns the unchanged collection, iff every requested property holds. Missing: datetimes (`C62_datetime_violated`), larger
intervals, where the tolerance of the comparison accepts different intervals. -/
theorem C62_check_tsc_partial {c : List (Row Int V)} (hc : c ≠ []) (hv : Valid c) (hm : ModerateSteps c) (fin : V → Bool) (nCols : Nat)
    (q : TscReq) (hd : ∀ d, q.delta = some d → d.natAbs < 10 ^ 12 - 1) (c' : List (Row Int V)) :
    checkTsc .int fin nCols q c = .ok c' ↔ c' = c ∧ Meets fin nCols q c := by
  have hrun : checkTsc .int fin nCols q c = .ok c' ↔ c' = c ∧ runChecks (tscChecks .int fin nCols q c) = .ok () := by
    unfold checkTsc
    split
    · rename_i h
      rw [h]
      simp [eq_comm]
    · rename_i e h
      rw [h]
      simp
  rw [hrun, runChecks_ok]
  refine and_congr_right fun _ => ?_
  unfold tscChecks
  simp only [List.mem_cons, List.not_mem_nil, or_false, forall_eq_or_imp, forall_eq, failIf_none]
  have e1 : (q.allFinite && !c.all (fun r => fin r.val)) = false ↔ (q.allFinite = true → ∀ r ∈ c, fin r.val = true) := by
    cases q.allFinite <;> simp
  have e4 : (q.sameLength && !isEqualLength c) = false ↔ (q.sameLength = true → EqualLengths c) := by
    rw [← isEqualLength_iff hc]; cases q.sameLength <;> simp
  have e5 : (q.constDelta && !isConstDeltaTime .int c) = false ↔ (q.constDelta = true → ∃ d, ∀ i, HasId c i → Regular (timesOf c i) d) := by
    rw [← isConstDelta_iff hc hv hm]; cases q.constDelta <;> simp
  have e6 : q.delta.bind (checkRequiredDelta .int c) = none ↔
      ∀ d, q.delta = some d → ∀ i, HasId c i → Regular (timesOf c i) d := by
    cases hq : q.delta with
    | none => simp
    | some d => simp [checkRequiredDelta_iff hc hv hm d (hd d hq)]
  have htimes : ∀ i, (content c i).map (·.1) = timesOf c i := by
    intro i
    simp [content, timesOf, Function.comp_def]
  have e7 : (q.sameTimeValues && !isSameTimeValues c) = false ↔
      (q.sameTimeValues = true → ∀ i j, HasId c i → HasId c j → timesOf c i = timesOf c j) := by
    have := C10_same_time_values hc hv
    simp only [htimes] at this
    rw [← this]; cases q.sameTimeValues <;> simp
  have e8 : (q.normalized && !isNormalizedTime .int c) = false ↔ (q.normalized = true →
      (∀ r ∈ c, 0 ≤ r.time) ∧ (∃ r ∈ c, r.time = 0) ∧ ∀ i, HasId c i → Regular (timesOf c i) 1) := by
    rw [← C12_is_normalized hc hv hm]; cases q.normalized <;> simp
  have e9 : q.nTimeseries.bind (fun n => failIf ((nTimeseries c : Int) != n) .nTimeseries) = none ↔
      ∀ n, q.nTimeseries = some n → ∃ l : List Nat, l.Nodup ∧ (∀ i, i ∈ l ↔ HasId c i) ∧ (l.length : Int) = n := by
    cases hq : q.nTimeseries with
    | none => simp
    | some n =>
      simp only [Option.bind_some, failIf_none, Option.some.injEq, forall_eq', bne_eq_false_iff_eq]
      constructor
      · intro h
        exact ⟨ids c, ids_nodup c, fun i => mem_ids, h⟩
      · rintro ⟨l, hl, hmem, rfl⟩
        have : l.Perm (ids c) := (List.perm_ext_iff_of_nodup hl (ids_nodup c)).2 fun i => by rw [hmem, mem_ids]
        rw [nTimeseries, this.length_eq]
  have e10 : q.nTimesteps.bind (fun n => failIf (!checkNTimesteps c n) .nTimesteps) = none ↔
      ∀ n, q.nTimesteps = some n → ∀ i, HasId c i → ((series c i).length : Int) = n := by
    cases hq : q.nTimesteps with
    | none => simp
    | some n => simp [failIf_none, checkNTimesteps_iff hc]
  have e11 : q.minTimesteps.bind (fun n => failIf (!checkMinTimesteps c n) .minTimesteps) = none ↔
      ∀ n, q.minTimesteps = some n → ∀ i, HasId c i → n ≤ (series c i).length := by
    cases hq : q.minTimesteps with
    | none => simp
    | some n => simp [failIf_none, checkMinTimesteps_iff hc]
  have e12 : (q.noDegenerate && (degenerateIds c).isSome) = false ↔ (q.noDegenerate = true → ∀ i, HasId c i → (series c i).length ≠ 1) := by
    rw [← (C09_degenerate hc).2]; cases q.noDegenerate <;> cases degenerateIds c <;> simp
  have e13 : q.dtype.bind (fun t => failIf (t != TimeKind.int) .dtype) = none ↔ ∀ t, q.dtype = some t → t = .int := by
    cases hq : q.dtype with
    | none => simp
    | some t => simp [failIf_none]
  rw [e1, e4, e5, e6, e7, e8, e9, e10, e11, e12, e13]
  simp only [decide_eq_false_iff_not, not_lt]
  constructor
  · rintro ⟨h1, h2, h3, h4, h5, h6, h7, h8, h9, h10, h11, h12, h13⟩
    exact ⟨h1, h2, h3, h4, h5, h6, h7, h8, h9, h10, h11, h12, h13⟩
  · rintro ⟨h1, h2, h3, h4, h5, h6, h7, h8, h9, h10, h11, h12, h13⟩
    exact ⟨h1, h2, h3, h4, h5, h6, h7, h8, h9, h10, h11, h12, h13⟩

/-- **C62 (order of the checks).** Whether a collection is accepted does not depend on the order in which the checks are made, for either kind of time. -/
theorem C62_order (k : TimeKind) (fin : V → Bool) (nCols : Nat) (q : TscReq) (c : List (Row Int V)) (l : List (Option CheckErr))
    (hl : l.Perm (tscChecks k fin nCols q c)) : runChecks l = .ok () ↔ checkTsc k fin nCols q c = .ok c := by
  have : checkTsc k fin nCols q c = .ok c ↔ runChecks (tscChecks k fin nCols q c) = .ok () := by
    unfold checkTsc
    split
    · rename_i h
      simp [h]
    · rename_i e h
      simp [h]
  rw [this, runChecks_ok, runChecks_ok]
  exact ⟨fun h x hx => h x (hl.mem_iff.2 hx), fun h x hx => h x (hl.mem_iff.1 hx)⟩

/-- **C62 is false for datetimes.** A collection with two series of different sampling interval passes the default checks, which request a constant time
delta. -/
theorem C62_datetime_violated : ∃ c : List (Row Int Nat), Valid c ∧ checkTsc .datetime (fun _ => true) 1 {} c = .ok c ∧
    ¬ ∃ d, ∀ i, HasId c i → Regular (timesOf c i) d := by
  refine ⟨dtWitness, dtWitness_valid, by decide, ?_⟩
  rintro ⟨d, hd⟩
  have h0 := (hd 0 ⟨⟨0, 0, 0⟩, by simp [dtWitness], rfl⟩).2 (0, 1) (by decide)
  have h1 := (hd 1 ⟨⟨1, 0, 0⟩, by simp [dtWitness], rfl⟩).2 (0, 2) (by decide)
  simp at h0 h1
  omega

/-- **C62, datetimes with a wrong required time delta** are rejected, but by an `AttributeError` and not by the documented `TSCException`. -/
theorem C62_attribute_error : ∃ c : List (Row Int Nat), Valid c ∧ checkTsc .datetime (fun _ => true) 1 { delta := some 2 } c = .error .attribute :=
  ⟨dtWitness, dtWitness_valid, by decide⟩

/-- Non-vacuity: a request that is met and one that is not. -/
example : checkTsc .int (fun _ => true) 1 { delta := some 2, sameTimeValues := true, nTimesteps := some 2 }
      ([⟨3, 0, 1⟩, ⟨3, 2, 2⟩, ⟨1, 0, 4⟩, ⟨1, 2, 4⟩] : List (Row Int Nat)) = .ok [⟨3, 0, 1⟩, ⟨3, 2, 2⟩, ⟨1, 0, 4⟩, ⟨1, 2, 4⟩] ∧
    checkTsc .int (fun _ => true) 1 { minTimesteps := some 3 }
      ([⟨3, 0, 1⟩, ⟨3, 2, 2⟩, ⟨1, 0, 4⟩, ⟨1, 2, 4⟩] : List (Row Int Nat)) = .error .minTimesteps := by decide

/-! ## C115: required IDs and non-overlapping series -/

section Ids

variable {τ : Type} [LinearOrder τ]

theorem groupHead_seen (b rest : List (Row τ V)) (seen : List Nat) (h : ∀ r ∈ b, r.id ∈ seen) :
    groupHead 1 seen (b ++ rest) = groupHead 1 ((b.map (·.id)).reverse ++ seen) rest := by
  induction b generalizing seen with
  | nil => simp
  | cons r b ih =>
    have hr : ¬ seen.count r.id < 1 := by
      have := List.count_pos_iff.2 (h r (by simp))
      omega
    rw [List.cons_append, groupHead, if_neg hr, ih (r.id :: seen) fun x hx => by simp [h x (by simp [hx])]]
    simp

theorem groupHead_one_ids (is : List Nat) (hn : is.Nodup) (f : Nat → List (Row τ V)) (hf : ∀ i ∈ is, ∀ r ∈ f i, r.id = i)
    (hne : ∀ i ∈ is, f i ≠ []) (seen : List Nat) (hs : ∀ i ∈ is, i ∉ seen) :
    (groupHead 1 seen (is.flatMap f)).map (·.id) = is := by
  induction is generalizing seen with
  | nil => simp [groupHead]
  | cons i is ih =>
    rw [List.nodup_cons] at hn
    obtain ⟨r, b, hb⟩ := List.ne_nil_iff_exists_cons.1 (hne i (by simp))
    have hr : r.id = i := hf i (by simp) r (by simp [hb])
    have hbid : ∀ x ∈ b, x.id = i := fun x hx => hf i (by simp) x (by simp [hb, hx])
    have h0 : seen.count r.id < 1 := by
      rw [hr, List.count_eq_zero_of_not_mem (hs i (by simp))]
      omega
    rw [List.flatMap_cons, hb, List.cons_append, groupHead, if_pos h0, groupHead_seen _ _ _ fun x hx => by simp [hbid x hx, hr]]
    rw [List.map_cons, hr, ih hn.2 (fun j hj => hf j (by simp [hj])) (fun j hj => hne j (by simp [hj]))]
    intro j hj hmem
    simp only [List.mem_append, List.mem_reverse, List.mem_map, List.mem_cons] at hmem
    rcases hmem with ⟨x, hx, rfl⟩ | rfl | hmem
    · exact hn.1 (by rw [← hbid x hx]; exact hj)
    · exact hn.1 hj
    · exact hs j (by simp [hj]) hmem

/-- **C115 (required IDs, any order).** Without `check_order`, the check passes iff the required IDs are, up to their order, exactly the IDs of the collection,
each named once. -/
theorem C115_required_ids (c : List (Row τ V)) (required : List Nat) :
    checkRequiredIds c required false = none ↔ required.Nodup ∧ ∀ i, i ∈ required ↔ HasId c i := by
  unfold checkRequiredIds
  simp only [Bool.false_eq_true, if_false, failIf_none, decide_eq_false_iff_not, not_not]
  have hperm : (required.mergeSort (· ≤ ·)).Perm required := List.mergeSort_perm _ _
  constructor
  · intro h
    rw [← h] at hperm
    exact ⟨hperm.nodup_iff.1 (ids_nodup c), fun i => by rw [← hperm.mem_iff, mem_ids]⟩
  · rintro ⟨hn, hm⟩
    have h1 : (ids c).Perm (required.mergeSort (· ≤ ·)) :=
      ((List.perm_ext_iff_of_nodup (ids_nodup c) hn).2 fun i => by rw [mem_ids, hm]).trans hperm.symm
    have h2 : (required.mergeSort (fun a b => decide (a ≤ b))).Pairwise (· ≤ ·) := by
      have := List.pairwise_mergeSort (le := fun a b : Nat => decide (a ≤ b)) (by simp; omega) (by simp; omega) required
      simpa using this
    exact h1.eq_of_pairwise (fun a b _ _ h h' => le_antisymm h h') ((ids_sorted c).imp le_of_lt) h2

/-- **C115 (required IDs, in order).** With `check_order`, the check passes iff the required IDs name each series once, in the order in which the
series are stored. -/
theorem C115_required_ids_order {c : List (Row τ V)} (hv : Valid c) (required : List Nat) :
    checkRequiredIds c required true = none ↔ required.Nodup ∧ (∀ i ∈ required, HasId c i) ∧ c = required.flatMap (series c) := by
  unfold checkRequiredIds
  simp only [if_true, failIf_none, decide_eq_false_iff_not, not_not]
  have hf : ∀ is : List Nat, ∀ i ∈ is, ∀ r ∈ series c i, r.id = i := fun _ i _ r hr => series_id hr
  have hne : ∀ is : List Nat, (∀ i ∈ is, HasId c i) → ∀ i ∈ is, series c i ≠ [] := fun _ h i hi => hasId_iff_series.1 (h i hi)
  have hids : ∀ i ∈ newIds (c.map (·.id)), HasId c i := fun i hi => by
    rw [mem_newIds] at hi
    obtain ⟨r, hr, h⟩ := List.mem_map.1 hi
    exact ⟨r, hr, h⟩
  have key : ∀ is : List Nat, is.Nodup → (∀ i ∈ is, HasId c i) → c = is.flatMap (series c) → (groupHead 1 [] c).map (·.id) = is := by
    intro is h1 h2 h3
    have := groupHead_one_ids is h1 (series c) (hf is) (hne is h2) [] (by simp)
    rwa [← h3] at this
  have hnew := key _ hv.nodup hids hv.eq_flatMap.symm
  constructor
  · intro h
    rw [hnew] at h
    subst h
    exact ⟨hv.nodup, hids, hv.eq_flatMap.symm⟩
  · rintro ⟨h1, h2, h3⟩
    exact key _ h1 h2 h3

/-- **C115 (overlap).** `check_non_overlapping_timeseries` passes iff no time value occurs in two rows. -/
theorem C115_non_overlapping (c : List (Row τ V)) : checkNonOverlapping c = none ↔ (c.map (·.time)).Nodup := by
  unfold checkNonOverlapping
  rw [failIf_none, List.any_eq_false, List.nodup_iff_count_le_one]
  simp only [decide_eq_true_eq, not_lt, mem_unique]
  constructor
  · intro h a
    by_cases ha : a ∈ c.map (·.time)
    · exact h a ha
    · rw [List.count_eq_zero_of_not_mem ha]
      omega
  · intro h a _
    exact h a

example : checkRequiredIds ([⟨3, 0, 1⟩, ⟨3, 2, 2⟩, ⟨1, 0, 4⟩] : List (Row Int Nat)) [3, 1] true = none ∧
    checkRequiredIds ([⟨3, 0, 1⟩, ⟨3, 2, 2⟩, ⟨1, 0, 4⟩] : List (Row Int Nat)) [1, 3] true = some .requiredIds ∧
    checkNonOverlapping ([⟨3, 0, 1⟩, ⟨3, 2, 2⟩, ⟨1, 5, 4⟩] : List (Row Int Nat)) = none := by decide

end Ids

/-! ## C116: equal sampling of two collections -/

/-- **C116 (constant sampling).** With `require_const`, `check_equal_delta_time` accepts two collections with integer time values iff all series of
both are sampled with one common interval. -/
theorem C116_equal_delta_const {c d : List (Row Int V)} (hc : c ≠ []) (hvc : Valid c) (hmc : ModerateSteps c) (hd : d ≠ []) (hvd : Valid d)
    (hmd : ModerateSteps d) :
    checkEqualDelta (deltaTime .int c) (deltaTime .int d) true = .ok () ↔
      ∃ δ, (∀ i, HasId c i → Regular (timesOf c i) δ) ∧ ∀ i, HasId d i → Regular (timesOf d i) δ := by
  simp only [← C11_int_partial hc hvc hmc, ← C11_int_partial hd hvd hmd]
  cases deltaTime .int c with
  | per l => cases deltaTime .int d <;> simp [checkEqualDelta]
  | one a =>
    cases deltaTime .int d with
    | per l => simp [checkEqualDelta]
    | one b =>
      cases a <;> cases b <;> simp [checkEqualDelta, equalConstDelta]
      exact eq_comm

/-- **C116 (symmetry) is false.** Without `require_const`, a collection with several intervals and one with a single interval are rejected, but in one order of
the arguments the rejection is not the documented `TSCException` but the `ValueError` of an ambiguous truth value. -/
theorem C116_ambiguous_violated (a : Option Int) (l : List (Nat × Option Int)) :
    checkEqualDelta (.per l) (.one a) false = .error .requiredDelta ∧ checkEqualDelta (.one a) (.per l) false = .error .ambiguous := ⟨rfl, rfl⟩

/-- **C116, reflexivity is false.** A collection that consists of degenerate series only is not accepted as equally sampled as itself. -/
theorem C116_reflexive_violated : ∃ c : List (Row Int Nat), Valid c ∧
    checkEqualDelta (deltaTime .int c) (deltaTime .int c) false = .error .requiredDelta := by
  refine ⟨[⟨0, 0, 0⟩], (valid_iff _).2 ⟨by decide, List.pairwise_singleton _ _⟩, by decide⟩

example : checkEqualDelta (deltaTime .int ([⟨3, 0, 1⟩, ⟨3, 2, 2⟩] : List (Row Int Nat)))
    (deltaTime .int ([⟨1, 0, 1⟩, ⟨1, 2, 2⟩, ⟨2, 7, 1⟩, ⟨2, 9, 2⟩] : List (Row Int Nat))) true = .ok () := by decide

end Verif.Tsc
