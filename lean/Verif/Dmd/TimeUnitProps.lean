import Verif.Dmd.TimeOriginProps
import Verif.Tsc.RealDeltaProps
/-!
# C251: the unit of time does not matter

`unitTime s c` is the collection with all time values given in a unit that is `s` times smaller (seconds in place of minutes for `s = 60`), so that every time value is multiplied by `s`.
The models and predictions are the same, with the time values in the new unit.
-/

namespace Verif.Dmd

open Verif.Tsc Verif.Np Verif.Lin Verif.Dyn Matrix

/-- Specification: the same collection with the time values in a unit that is `s` times smaller. -/
def unitTime {V : Type} (s : Int) (c : List (Row Int V)) : List (Row Int V) := c.map (fun r => ⟨r.id, r.time * s, r.val⟩)

section lemmas

variable {V W : Type}

theorem unitTime_ids_col (s : Int) (c : List (Row Int V)) : (unitTime s c).map (·.id) = c.map (·.id) := by
  unfold unitTime
  rw [List.map_map]
  rfl

theorem unitTime_val_col (s : Int) (c : List (Row Int V)) : (unitTime s c).map (·.val) = c.map (·.val) := by
  unfold unitTime
  rw [List.map_map]
  rfl

theorem unitTime_time_col (s : Int) (c : List (Row Int V)) : (unitTime s c).map (·.time) = (c.map (·.time)).map (· * s) := by
  unfold unitTime
  rw [List.map_map, List.map_map]
  rfl

theorem unitTime_length (s : Int) (c : List (Row Int V)) : (unitTime s c).length = c.length := by
  unfold unitTime
  rw [List.length_map]

theorem unitTime_ne_nil {s : Int} {c : List (Row Int V)} (h : c ≠ []) : unitTime s c ≠ [] := by
  unfold unitTime
  simpa using h

theorem ids_unitTime (s : Int) (c : List (Row Int V)) : ids (unitTime s c) = ids c := by
  unfold ids
  rw [unitTime_ids_col]

theorem nTimeseries_unitTime (s : Int) (c : List (Row Int V)) : nTimeseries (unitTime s c) = nTimeseries c := by
  unfold nTimeseries
  rw [ids_unitTime]

theorem counts_unitTime (s : Int) (c : List (Row Int V)) : counts (unitTime s c) = counts c := by
  unfold counts
  rw [unitTime_ids_col, ids_unitTime]

theorem nTimesteps_unitTime (s : Int) (c : List (Row Int V)) : nTimesteps (unitTime s c) = nTimesteps c := by
  unfold nTimesteps
  rw [counts_unitTime, ids_unitTime, nTimeseries_unitTime]

theorem checkMin_unitTime (s : Int) (c : List (Row Int V)) (n : Int) : checkMinTimesteps (unitTime s c) n = checkMinTimesteps c n := by
  unfold checkMinTimesteps
  rw [nTimesteps_unitTime]

theorem mul_mono {s : Int} (hs : 0 < s) : StrictMono (fun t : Int => t * s) := fun _ _ h => Int.mul_lt_mul_of_pos_right h hs

theorem unitTime_inj {s : Int} (hs : 0 < s) {c d : List (Row Int V)} : unitTime s c = unitTime s d ↔ c = d := by
  refine ⟨fun h => ?_, fun h => by rw [h]⟩
  unfold unitTime at h
  refine List.map_injective_iff.2 ?_ h
  rintro ⟨i, t, v⟩ ⟨i', t', v'⟩ e
  simp only [Row.mk.injEq] at e
  obtain ⟨rfl, e, rfl⟩ := e
  rw [(mul_mono hs).injective e]

theorem timeValues_unitTime {s : Int} (hs : 0 < s) (c : List (Row Int V)) : timeValues (unitTime s c) = (timeValues c).map (· * s) := by
  unfold timeValues
  rw [unitTime_time_col, unique_map_mono (mul_mono hs)]

theorem sameTimes_unitTime {s : Int} (hs : 0 < s) (c : List (Row Int V)) : isSameTimeValues (unitTime s c) = isSameTimeValues c := by
  unfold isSameTimeValues
  rw [nTimeseries_unitTime, nTimesteps_unitTime, timeValues_unitTime hs, List.length_map]

theorem valid_unitTime {s : Int} (hs : 0 < s) (c : List (Row Int V)) : Valid (unitTime s c) ↔ Valid c := by
  rw [valid_iff, valid_iff, unitTime_ids_col]
  refine and_congr_right (fun _ => ?_)
  unfold unitTime
  rw [List.pairwise_map]
  refine List.pairwise_iff_getElem.trans (Iff.trans ?_ List.pairwise_iff_getElem.symm)
  refine forall_congr' (fun i => forall_congr' (fun j => forall_congr' (fun hi => forall_congr' (fun hj => forall_congr' (fun _ => ?_)))))
  exact forall_congr' (fun _ => (mul_mono hs).lt_iff_lt)

theorem build_unitTime {s : Int} (hs : 0 < s) (c : List (Row Int V)) : (build (unitTime s c)).toOption = (build c).toOption.map (unitTime s) := by
  by_cases h : c ≠ [] ∧ Valid c
  · rw [build_ok_of_valid h.2 h.1, build_ok_of_valid ((valid_unitTime hs c).2 h.2) (unitTime_ne_nil h.1)]
    rfl
  · cases h1 : build c with
    | ok d => obtain ⟨rfl, h2, h3⟩ := build_ok_iff.1 h1; exact absurd ⟨h2, h3⟩ h
    | error e =>
      cases h4 : build (unitTime s c) with
      | error e => rfl
      | ok d =>
        obtain ⟨-, h2, h3⟩ := build_ok_iff.1 h4
        exact absurd ⟨fun h0 => h2 (by rw [h0]; rfl), (valid_unitTime hs c).1 h3⟩ h

theorem npDiff_mul (s : Int) (l : List Int) : npDiff (l.map (· * s)) = (npDiff l).map (· * s) := by
  unfold npDiff
  rw [← List.map_tail, List.zipWith_map, List.map_zipWith]
  congr 1
  funext a b
  rw [Int.sub_mul]

theorem rowDelta_mul {s : Int} (hs : 0 < s) (l : List Int) : rowDelta (l.map (· * s)) = (rowDelta l).map (· * s) := by
  cases l with
  | nil => rfl
  | cons d l =>
    unfold rowDelta
    simp only [List.map_cons, List.all_map]
    have e : ((fun x => x == d * s) ∘ fun x => x * s) = fun x => x == d := by
      funext x
      rw [Bool.eq_iff_iff]
      simp only [Function.comp, beq_iff_eq]
      exact (mul_mono hs).injective.eq_iff
    rw [e]
    split <;> rfl

theorem zipIdx_filter_map {α β : Type} (g : α → β) (p : Nat → Bool) (l : List α) : ∀ n, (((l.map g).zipIdx n).filter (fun q => p q.2)).map (·.1) = (((l.zipIdx n).filter (fun q => p q.2)).map (·.1)).map g := by
  induction l with
  | nil => intro _; rfl
  | cons a l ih =>
    intro n
    rw [List.map_cons, List.zipIdx_cons, List.zipIdx_cons, List.filter_cons, List.filter_cons]
    simp only
    split
    · rw [List.map_cons, List.map_cons, List.map_cons, ih]
    · rw [ih]

theorem deltaEqual_unitTime {s : Int} (hs : 0 < s) (c : List (Row Int V)) (n : Nat) : deltaEqualLength (unitTime s c) n = (deltaEqualLength c n).map (Option.map (· * s)) := by
  unfold deltaEqualLength
  rw [ids_unitTime, nTimeseries_unitTime, unitTime_time_col, npDiff_mul]
  split_ifs with h
  · rw [List.map_map]; rfl
  · simp only
    rw [zipIdx_filter_map (· * s) (fun k => !(k % n == n - 1))]
    generalize ((npDiff (c.map (·.time))).zipIdx.filter (fun p => !(p.2 % n == n - 1))).map (·.1) = masked
    unfold reshapeRows
    rw [List.map_map, List.map_map, List.map_map]
    refine List.map_congr_left (fun i _ => ?_)
    simp only [Function.comp]
    rw [← List.map_drop, ← List.map_take, rowDelta_mul hs]

theorem deltaUnequal_unitTime {s : Int} (hs : 0 < s) (c : List (Row Int V)) : deltaUnequalLength (unitTime s c) = (deltaUnequalLength c).map (Option.map (· * s)) := by
  unfold deltaUnequalLength
  rw [ids_unitTime, unitTime_ids_col, unitTime_time_col, npDiff_mul]
  simp only
  rw [List.map_map]
  refine List.map_congr_left (fun i _ => ?_)
  simp only [Function.comp]
  generalize ((((c.map (·.id)).zipIdx.filter (fun p => p.1 == i)).map (·.2)).dropLast) = pos
  have e : pos.map (fun p => ((npDiff (c.map (·.time))).map (· * s)).getD p 0) = (pos.map (fun p => (npDiff (c.map (·.time))).getD p 0)).map (· * s) := by
    rw [List.map_map]
    refine List.map_congr_left (fun p _ => ?_)
    simp only [Function.comp, List.getD_eq_getElem?_getD, List.getElem?_map]
    cases (npDiff (c.map (·.time)))[p]? with
    | none => simp
    | some x => rfl
  rw [e, unique_map_mono (mul_mono hs), List.length_map, List.head?_map]
  split <;> rfl

theorem deltaList_unitTime {s : Int} (hs : 0 < s) (c : List (Row Int V)) : deltaList (unitTime s c) = (deltaList c).map (Option.map (· * s)) := by
  unfold deltaList
  rw [nTimesteps_unitTime]
  cases nTimesteps c with
  | one n => exact deltaEqual_unitTime hs c n
  | per l => exact deltaUnequal_unitTime hs c

theorem foldl_min_mul {s : Int} (hs : 0 < s) (l : List Int) : ∀ a, (l.map (· * s)).foldl min (a * s) = l.foldl min a * s := by
  induction l with
  | nil => intro _; rfl
  | cons b l ih =>
    intro a
    rw [List.map_cons, List.foldl_cons, List.foldl_cons, ← ih]
    congr 1
    exact ((mul_mono hs).monotone.map_min).symm

theorem min?_mul {s : Int} (hs : 0 < s) (l : List Int) : (l.map (· * s)).min? = l.min?.map (· * s) := by
  cases l with
  | nil => rfl
  | cons a l =>
    rw [List.map_cons, List.min?_cons', List.min?_cons', foldl_min_mul hs]
    rfl

theorem close_mul {N : Nat} (hN : 10000 ∣ N) (a b : Nat) {k : Nat} (hk : 0 < k) : a * k * N ≤ 1 + 30000 * (b * k) ↔ a * N ≤ 1 + 30000 * b := by
  obtain ⟨q, rfl⟩ := hN
  have h : ∀ n m : Nat, n * (10000 * q) ≤ 1 + 30000 * m ↔ n * q ≤ 3 * m := fun n m => by
    rw [show n * (10000 * q) = 10000 * (n * q) by ring]
    omega
  rw [h, h, show a * k * q = a * q * k by ring, ← Nat.mul_assoc]
  exact Nat.mul_le_mul_right_iff hk

theorem allClose_spec : ∃ N : Nat, 10000 ∣ N ∧ ∀ l : List (Option Int), allClose l = true ↔
    ∀ x ∈ l, ∃ y, x = some y ∧ ((l.filterMap id).foldl min ((l.filterMap id).headD 0) - y).natAbs * N ≤ 1 + 30000 * y.natAbs := by
  refine ⟨10 ^ 16, by norm_num, fun l => ?_⟩
  unfold allClose
  simp only [List.all_eq_true]
  refine forall_congr' (fun x => forall_congr' (fun _ => ?_))
  match x with
  | none => simp
  | some x =>
    simp only [decide_eq_true_eq, Option.some.injEq, exists_eq_left']

theorem allClose_mul {s : Int} (hs : 0 < s) (l : List (Option Int)) : allClose (l.map (Option.map (· * s))) = allClose l := by
  obtain ⟨N, hN, h⟩ := allClose_spec
  rw [Bool.eq_iff_iff, h, h]
  have e1 : (l.map (Option.map (· * s))).filterMap id = (l.filterMap id).map (· * s) := by
    rw [List.filterMap_map, List.map_filterMap]
    rfl
  have e2 : ((l.filterMap id).map (· * s)).headD 0 = (l.filterMap id).headD 0 * s := by
    cases l.filterMap id with
    | nil => simp
    | cons a l => rfl
  rw [e1, e2, foldl_min_mul hs, List.forall_mem_map]
  generalize (l.filterMap id).foldl min ((l.filterMap id).headD 0) = m
  refine forall_congr' (fun x => forall_congr' (fun _ => ?_))
  cases x with
  | none => simp
  | some x =>
    simp only [Option.map_some, Option.some.injEq, exists_eq_left']
    rw [← Int.sub_mul, Int.natAbs_mul, Int.natAbs_mul]
    exact close_mul hN (m - x).natAbs x.natAbs (Int.natAbs_pos.2 hs.ne')

theorem globalUnique_mul {s : Int} (hs : 0 < s) (k : TimeKind) (l : List (Option Int)) : globalUnique k (l.map (Option.map (· * s))) = globalUnique k l := by
  unfold globalUnique
  have e : (l.map (Option.map (· * s))).all (·.isNone) = l.all (·.isNone) := by
    rw [List.all_map]
    congr 1
    funext x
    exact Option.isNone_map
  rw [e, allClose_mul hs]

end lemmas

/-- A sampling interval, or one for every series, in the new unit. -/
def perUnit (s : Int) : PerId (Option Int) → PerId (Option Int)
  | .one d => .one (d.map (· * s))
  | .per l => .per (l.map (fun p => (p.1, p.2.map (· * s))))

section lemmas

variable {V W : Type}

theorem deltaTime_unitTime {s : Int} (hs : 0 < s) (k : TimeKind) (c : List (Row Int V)) : deltaTime k (unitTime s c) = perUnit s (deltaTime k c) := by
  unfold deltaTime
  rw [deltaList_unitTime hs, ids_unitTime, nTimeseries_unitTime, globalUnique_mul hs]
  split_ifs with h
  · simp only [perUnit]
    congr 1
    cases deltaList c with
    | nil => rfl
    | cons a l => rfl
  · simp only [perUnit, List.zip_map_right]
    rfl

theorem constDelta_unitTime {s : Int} (hs : 0 < s) (k : TimeKind) (c : List (Row Int V)) : isConstDeltaTime k (unitTime s c) = isConstDeltaTime k c := by
  unfold isConstDeltaTime
  rw [deltaTime_unitTime hs]
  cases deltaTime k c with
  | one d => exact Option.isSome_map
  | per l => rfl

theorem shiftMatrices_unitTime (s : Int) (c : List (Row Int V)) : shiftMatrices (unitTime s c) = shiftMatrices c := by
  unfold shiftMatrices shiftRows
  rw [checkMin_unitTime, nTimeseries_unitTime, nTimesteps_unitTime, unitTime_val_col]

theorem groupTail_unitTime (s : Int) (n : Nat) (c : List (Row Int V)) : groupTail n (unitTime s c) = unitTime s (groupTail n c) := by
  induction c with
  | nil => rfl
  | cons r c ih =>
    have e1 : ∀ (r : Row Int V) l, groupTail n (r :: l) = if (l.map (·.id)).count r.id < n then r :: groupTail n l else groupTail n l := fun _ _ => rfl
    have e2 : unitTime s (r :: c) = ⟨r.id, r.time * s, r.val⟩ :: unitTime s c := rfl
    rw [e2, e1, e1, ih, unitTime_ids_col]
    split <;> rfl

theorem toOption_ite {E α β : Type} {p : Prop} [Decidable p] {e e' : E} {x : Except E α} {y : Except E β} {g : β → α} (h : x.toOption = y.toOption.map g) :
    (if p then (.error e : Except E α) else x).toOption = (if p then (.error e' : Except E β) else y).toOption.map g := by
  split
  · rfl
  · exact h

theorem dropLast_unitTime {s : Int} (hs : 0 < s) (c : List (Row Int V)) (n : Nat) : (dropLastN (unitTime s c) n).toOption = (dropLastN c n).toOption.map (unitTime s) := by
  unfold dropLastN
  rw [checkMin_unitTime, groupTail_unitTime]
  have e : dropKeys (unitTime s c) ((unitTime s (groupTail n c)).map (·.key)) = unitTime s (dropKeys c ((groupTail n c).map (·.key))) := by
    unfold dropKeys unitTime
    rw [List.filter_map, List.map_map]
    congr 1
    refine List.filter_congr (fun r _ => ?_)
    simp only [Function.comp]
    congr 1
    rw [Bool.eq_iff_iff, List.contains_iff_mem, List.contains_iff_mem, List.mem_map, List.mem_map]
    refine exists_congr (fun q => and_congr_right (fun _ => ?_))
    simp [Row.key, hs.ne']
  rw [e]
  exact toOption_ite (build_unitTime hs _)

theorem fromTensor_unitTime {s : Int} (hs : 0 < s) (n : Nat) (tensor : List (List W)) (l : Option (List Nat)) (times : List Int) :
    (fromTensor n tensor l (times.map (· * s))).toOption = (fromTensor n tensor l times).toOption.map (unitTime s) := by
  unfold fromTensor
  cases tensorIds tensor.length l with
  | error e => rfl
  | ok l =>
    simp only
    rw [List.length_map]
    refine toOption_ite ?_
    rw [← build_unitTime hs]
    congr 2
    have e : (List.replicate tensor.length (times.map (· * s))).flatten = ((List.replicate tensor.length times).flatten).map (· * s) := by
      rw [List.map_flatten, List.map_replicate]
    rw [e, List.zip_map_right, List.zipWith_map_left]
    unfold unitTime
    rw [List.map_mergeSort (s := keyLe), List.map_zipWith]
    · rfl
    · intro a _ b _
      unfold keyLe
      simp only
      rw [decide_eq_decide.2 (mul_mono hs).le_iff_le]

theorem idxOf_map_inj {g : Int → Int} (hg : Function.Injective g) (l : List Int) (a : Int) : (l.map g).idxOf (g a) = l.idxOf a := by
  induction l with
  | nil => rfl
  | cons b l ih =>
    rw [List.map_cons, List.idxOf_cons, List.idxOf_cons, ih]
    have : (g b == g a) = (b == a) := by
      rw [Bool.eq_iff_iff, beq_iff_eq, beq_iff_eq]
      exact hg.eq_iff
    rw [this]

theorem evolve_unitTime {s : Int} (hs : 0 < s) (X : List (Row Int V)) (times : List Int) (solve solve' : List V → List Int → List (List W))
    (hsolve : ∀ ics norm, solve' ics (norm.map (· * s)) = solve ics norm) :
    (evolveFrame (unitTime s X) (times.map (· * s)) solve').toOption = (evolveFrame X times solve).toOption.map (unitTime s) := by
  unfold evolveFrame
  rw [unitTime_ids_col, unitTime_val_col, min?_mul hs, List.length_map]
  simp only
  refine toOption_ite ?_
  cases hm : times.min? with
  | none => rfl
  | some a =>
    simp only [Option.map_some]
    have e : (times.map (· * s)).map (· - a * s) = (times.map (· - a)).map (· * s) := by
      rw [List.map_map, List.map_map]
      refine List.map_congr_left (fun t _ => ?_)
      simp only [Function.comp]
      rw [Int.sub_mul]
    rw [e, hsolve]
    have hf' := fromTensor_unitTime hs times.length (solve (X.map (·.val)) (times.map (· - a))) (some (X.map (·.id))) (times.map (· - a))
    cases hf : fromTensor times.length (solve (X.map (·.val)) (times.map (· - a))) (some (X.map (·.id))) (times.map (· - a)) with
    | error e =>
      rw [hf] at hf'
      cases hg : fromTensor times.length (solve (X.map (·.val)) (times.map (· - a))) (some (X.map (·.id))) ((times.map (· - a)).map (· * s)) with
      | error e => rfl
      | ok c => rw [hg] at hf'; exact nomatch hf'
    | ok c =>
      rw [hf] at hf'
      cases hg : fromTensor times.length (solve (X.map (·.val)) (times.map (· - a))) (some (X.map (·.id))) ((times.map (· - a)).map (· * s)) with
      | error e => rw [hg] at hf'; exact nomatch hf'
      | ok c' =>
        rw [hg] at hf'
        have hc' : c' = unitTime s c := by injection hf'
        subst hc'
        simp only
        rw [timeValues_unitTime hs]
        have h3 : ((timeValues c).map (· * s)).map (· + a * s) = times.map (· * s) ↔ (timeValues c).map (· + a) = times := by
          have e2 : ((timeValues c).map (· * s)).map (· + a * s) = ((timeValues c).map (· + a)).map (· * s) := by
            rw [List.map_map, List.map_map]
            refine List.map_congr_left (fun t _ => ?_)
            simp only [Function.comp]
            rw [Int.add_mul]
          rw [e2]
          exact (List.map_injective_iff.2 (mul_mono hs).injective).eq_iff
        by_cases h2 : (timeValues c).map (· + a) = times
        · rw [if_neg (not_not.2 h2), if_neg (not_not.2 (h3.2 h2))]
          have h4 : setTimeLevels (unitTime s c) (times.map (· * s)) = unitTime s (setTimeLevels c times) := by
            unfold setTimeLevels
            rw [timeValues_unitTime hs]
            unfold unitTime
            rw [List.map_map, List.map_map]
            refine List.map_congr_left (fun r hr => ?_)
            simp only [Function.comp]
            congr 1
            have hmem : r.time ∈ timeValues c := by
              unfold timeValues
              rw [mem_unique]
              exact List.mem_map_of_mem hr
            have hidx : ((timeValues c).map (· * s)).idxOf (r.time * s) = (timeValues c).idxOf r.time := idxOf_map_inj (mul_mono hs).injective _ _
            have hlt : (timeValues c).idxOf r.time < times.length := by
              rw [← h2, List.length_map]
              exact List.idxOf_lt_length_iff.2 hmem
            rw [hidx, List.getD_eq_getElem?_getD, List.getD_eq_getElem?_getD, List.getElem?_map, List.getElem?_eq_getElem hlt]
            rfl
          rw [h4]
          have hb := build_unitTime hs (setTimeLevels c times)
          cases h5 : build (setTimeLevels c times) with
          | error e =>
            rw [h5] at hb
            cases h6 : build (unitTime s (setTimeLevels c times)) with
            | error e => rfl
            | ok d => rw [h6] at hb; exact nomatch hb
          | ok d =>
            rw [h5] at hb
            cases h6 : build (unitTime s (setTimeLevels c times)) with
            | error e => rw [h6] at hb; exact nomatch hb
            | ok d' => rw [h6] at hb; exact hb
        · rw [if_pos h2, if_pos (fun h => h2 (h3.1 h))]
          rfl

theorem toOption_ok {E α : Type} {x : Except E α} {a : α} : x = .ok a ↔ x.toOption = some a := by
  cases x with
  | error e => exact ⟨nofun, nofun⟩
  | ok b => exact ⟨fun h => by injection h with h; rw [h]; rfl, fun h => by injection h with h; rw [h]⟩

theorem ok_of_toOption {E E' : Type} {s : Int} (hs : 0 < s) {x : Except E (List (Row Int W))} {y : Except E' (List (Row Int W))} (h : x.toOption = y.toOption.map (unitTime s)) (r : List (Row Int W)) :
    x = .ok (unitTime s r) ↔ y = .ok r := by
  rw [toOption_ok, toOption_ok, h]
  cases y.toOption with
  | none => simp
  | some c => simp [unitTime_inj hs]

theorem stepCount_mul {s : Int} (hs : 0 < s) (dt t : Int) : stepCount (dt * s) (t * s) = stepCount dt t := by
  unfold stepCount
  rw [Int.mul_ediv_mul_of_pos_left _ _ hs]

end lemmas

variable {V : Type} {ι κ : Type} [Fintype ι] [Fintype κ]

/-- C251 for what a collection tells about its sampling, and for the snapshot pairs: the sampling interval is in the new unit, the rest is the same. -/
theorem C251_sampling {s : Int} (hs : 0 < s) (k : TimeKind) (c : List (Row Int V)) :
    (Valid (unitTime s c) ↔ Valid c) ∧ (∀ dt, deltaTime k (unitTime s c) = .one (some (dt * s)) ↔ deltaTime k c = .one (some dt)) ∧ isConstDeltaTime k (unitTime s c) = isConstDeltaTime k c ∧
      isSameTimeValues (unitTime s c) = isSameTimeValues c ∧ nTimesteps (unitTime s c) = nTimesteps c ∧ shiftMatrices (unitTime s c) = shiftMatrices c ∧
      timeValues (unitTime s c) = (timeValues c).map (· * s) := by
  refine ⟨valid_unitTime hs c, fun dt => ?_, constDelta_unitTime hs k c, sameTimes_unitTime hs c, nTimesteps_unitTime s c, shiftMatrices_unitTime s c, timeValues_unitTime hs c⟩
  rw [deltaTime_unitTime hs]
  cases deltaTime k c with
  | per l => simp [perUnit]
  | one d =>
    cases d with
    | none => simp [perUnit]
    | some d => simp [perUnit, hs.ne']

/-- C251 for the fit of `DMDStandard` with and without sample weights. -/
theorem C251_fit {s : Int} (hs : 0 < s) (k : TimeKind) (c : List (Row Int (ι → ℝ))) (w : Option (List ℝ)) (K : Matrix ι ι ℝ) : Fits k (unitTime s c) w K ↔ Fits k c w K := by
  unfold Fits
  rw [constDelta_unitTime hs, shiftMatrices_unitTime, unitTime_length]

omit [Fintype ι] [Fintype κ] in
theorem controlIndex_unitTime {s : Int} (hs : 0 < s) (c : List (Row Int (ι → ℝ))) (u : List (Row Int (κ → ℝ))) : controlIndexMatches (unitTime s c) (unitTime s u) ↔ controlIndexMatches c u := by
  have e : ∀ {V : Type} (c : List (Row Int V)), (unitTime s c).map (·.key) = (c.map (·.key)).map (fun k => ⟨k.id, k.time * s⟩) := fun c => by
    unfold unitTime
    rw [List.map_map, List.map_map]
    rfl
  have hinj : Function.Injective (fun k : Key Int => (⟨k.id, k.time * s⟩ : Key Int)) := by
    rintro ⟨i, t⟩ ⟨i', t'⟩ h
    simp only [Key.mk.injEq] at h
    obtain ⟨rfl, h⟩ := h
    rw [(mul_mono hs).injective h]
  have h0 := dropLast_unitTime hs c 1
  constructor
  · rintro ⟨d, h1, h2⟩
    rw [h1] at h0
    cases h3 : dropLastN c 1 with
    | error _ => rw [h3] at h0; exact nomatch h0
    | ok d' =>
      rw [h3] at h0
      have hd : d = unitTime s d' := by injection h0
      subst hd
      refine ⟨d', h3, ?_⟩
      rw [e, e] at h2
      exact List.map_injective_iff.2 hinj h2
  · rintro ⟨d, h1, h2⟩
    refine ⟨unitTime s d, (ok_of_toOption hs h0 d).2 h1, ?_⟩
    rw [e, e, h2]

/-- C251 for the fit of `DMDControl`: states and controls get the same unit. -/
theorem C251_fit_control {s : Int} (hs : 0 < s) (k : TimeKind) (c : List (Row Int (ι → ℝ))) (u : List (Row Int (κ → ℝ))) (A : Matrix ι ι ℝ) (B : Matrix ι κ ℝ) :
    FitsControl k (unitTime s c) (unitTime s u) A B ↔ FitsControl k c u A B := by
  unfold FitsControl
  rw [constDelta_unitTime hs, shiftMatrices_unitTime, unitTime_length, unitTime_val_col, controlIndex_unitTime hs]

/-- C251 for `predict`: sampling interval, initial conditions and time values are given in the new unit. -/
theorem C251_predict [DecidableEq ι] {s : Int} (hs : 0 < s) (A : Matrix ι ι ℝ) (dt : Int) (X : List (Row Int (ι → ℝ))) (times : List Int) (r : List (Row Int (ι → ℝ))) :
    predictMatrix A (dt * s) (unitTime s X) (times.map (· * s)) = .ok (unitTime s r) ↔ predictMatrix A dt X times = .ok r := by
  unfold predictMatrix
  refine ok_of_toOption hs (evolve_unitTime hs X times _ _ (fun ics norm => ?_)) r
  unfold flowmapMatrix
  simp only [List.map_map, Function.comp_def, stepCount_mul hs]

omit [Fintype ι] [Fintype κ] in
theorem validateControl_unitTime {s : Int} (hs : 0 < s) (X : List (Row Int (ι → ℝ))) (U : List (Row Int (κ → ℝ))) : validateControl (unitTime s X) (unitTime s U) = validateControl X U := by
  unfold validateControl
  rw [unitTime_ids_col, ids_unitTime, sameTimes_unitTime hs, unitTime_time_col, timeValues_unitTime hs, List.any_map, List.head?_map]
  have : ((fun t => Option.map (· * s) (timeValues U).head? != some t) ∘ fun x => x * s) = fun t => (timeValues U).head? != some t := by
    funext t
    cases (timeValues U).head? with
    | none => rfl
    | some a =>
      rw [Bool.eq_iff_iff]
      simp [bne_iff_ne, hs.ne']
  rw [this]

omit [Fintype ι] [Fintype κ] in
theorem loop_length [Fintype ι] [Fintype κ] (A : Matrix ι ι ℝ) (B : Matrix ι κ ℝ) : ∀ ds ds' : List Int, ds.length = ds'.length → ∀ x us, controlledLoop A B x ds us = controlledLoop A B x ds' us := by
  intro ds
  induction ds with
  | nil =>
    intro ds' h x us
    rw [List.length_eq_zero_iff.1 h.symm]
  | cons d ds ih =>
    intro ds' h x us
    cases ds' with
    | nil => exact nomatch h
    | cons d' ds' =>
      cases us with
      | nil => rfl
      | cons u us =>
        unfold controlledLoop
        rw [ih ds' (by simpa using h)]

/-- C251 for `predict` with control input. -/
theorem C251_predict_control [DecidableEq ι] {s : Int} (hs : 0 < s) (A : Matrix ι ι ℝ) (B : Matrix ι κ ℝ) (X : List (Row Int (ι → ℝ))) (U : List (Row Int (κ → ℝ))) (times : List Int) (r : List (Row Int (ι → ℝ))) :
    predictControlled A B (unitTime s X) (unitTime s U) (times.map (· * s)) = .ok (unitTime s r) ↔ predictControlled A B X U times = .ok r := by
  refine ok_of_toOption hs ?_ r
  unfold predictControlled
  rw [validateControl_unitTime hs, unitTime_val_col, ids_unitTime, List.length_map, unitTime_length]
  cases validateControl X U with
  | error e => rfl
  | ok _ =>
    simp only
    refine toOption_ite (evolve_unitTime hs X times _ _ (fun ics norm => ?_))
    unfold flowmapMatrixControlled
    congr 1
    funext x u
    exact loop_length A B _ _ (by rw [length_diffs, length_diffs, List.length_map]) x u

omit [Fintype ι] in
theorem fdSeries_mul {s : Int} (scheme : Scheme) (st : Stencil) (q : Nat) (shift : Bool) (dt : ℝ) (l : List (Int × (ι → ℝ))) :
    fdSeries scheme st q shift (dt * s) (l.map (fun p => (p.1 * s, p.2))) = (fdSeries scheme st q shift dt l).map (fun p => (p.1 * s, fun f => p.2 f / (s : ℝ) ^ q)) := by
  unfold fdSeries
  have e1 : (l.map (fun p => (p.1 * s, p.2))).map (·.1) = (l.map (·.1)).map (· * s) := by
    rw [List.map_map, List.map_map]; rfl
  have e2 : (l.map (fun p => (p.1 * s, p.2))).map (·.2) = l.map (·.2) := by
    rw [List.map_map]; rfl
  have e3 : fdValue st q (dt * s) (l.map (·.2)) = fun p f => fdValue st q dt (l.map (·.2)) p f / (s : ℝ) ^ q := by
    funext p f
    unfold fdValue
    rw [mul_pow, ← div_div, mul_div_assoc]
  have e4 : ∀ a b, List.zip ((a : List Int).map (· * s)) ((b : List Nat).map (fun p f => fdValue st q dt (l.map (·.2)) p f / (s : ℝ) ^ q)) =
      (List.zip a (b.map (fdValue st q dt (l.map (·.2))))).map (fun p => (p.1 * s, fun f => p.2 f / (s : ℝ) ^ q)) := fun a b => by
    rw [List.zip_map, List.zip_map_right, List.map_map]
    rfl
  rw [e1, e2, List.length_map]
  simp only
  rw [e3]
  simp only [List.length_map]
  split_ifs
  · rw [← List.map_drop, e4]
  · rw [← List.map_take, ← List.map_drop, e4]

omit [Fintype ι] in
/-- C251 for `time_derivative`: a derivative of order `q` in the unit that is `s` times smaller is `s^q` times smaller. -/
theorem C251_derivative {s : Int} (hs : 0 < s) (scheme : Scheme) (st : Stencil) (q : Nat) (shift : Bool) {c d : List (Row Int (ι → ℝ))} (hc : c ≠ []) (hv : Valid c)
    (h : timeDerivative scheme st q shift c = .ok d) : timeDerivative scheme st q shift (unitTime s c) = .ok (d.map (fun r => ⟨r.id, r.time * s, fun f => r.val f / (s : ℝ) ^ q⟩)) := by
  obtain ⟨dt, h0, h⟩ := derivative_spacing h
  have e : timeDerivative scheme st q shift (unitTime s c) = fromFrameList (fdFrames scheme st q shift ((dt : ℝ) * s) (unitTime s c)) (some (ids (unitTime s c))) := by
    unfold timeDerivative isConstDeltaTime
    rw [deltaTime_unitTime hs, h0]
    simp only [perUnit, Option.map_some, Int.cast_mul]
    rfl
  rw [e]
  have hcon : ∀ i, content (unitTime s c) i = (content c i).map (fun p => (p.1 * s, p.2)) := fun i => by
    unfold content series unitTime
    rw [List.filter_map, List.map_map, List.map_map]
    rfl
  have hid : ∀ i, HasId (unitTime s c) i ↔ HasId c i := fun i => by rw [← mem_ids, ids_unitTime, mem_ids]
  have hlen : ∀ i, (series (unitTime s c) i).length = (series c i).length := fun i => by
    rw [← content_length, hcon, List.length_map, content_length]
  obtain ⟨h1, h2⟩ := fdFrames_ok hc hv scheme st q shift (dt : ℝ)
  obtain ⟨h3, h4⟩ := fdFrames_ok (unitTime_ne_nil (s := s) hc) ((valid_unitTime hs c).2 hv) scheme st q shift ((dt : ℝ) * s)
  obtain ⟨d', hd'⟩ := h3.2 (fun i hi => by rw [hlen]; exact h1.1 ⟨d, h⟩ i ((hid i).1 hi))
  obtain ⟨a1, a2, -, a4, -⟩ := h2 d h
  obtain ⟨b1, b2, -, b4, -⟩ := h4 d' hd'
  rw [hd']
  congr 1
  rw [← b1.eq_flatMap, b2]
  conv_rhs => rw [← a1.eq_flatMap, a2]
  rw [List.map_flatMap, ids_unitTime]
  refine List.flatMap_congr (fun i hi => ?_)
  rw [mem_ids] at hi
  rw [series_eq_content, series_eq_content, b4 i ((hid i).2 hi), a4 i hi, hcon, fdSeries_mul]
  rw [List.map_map, List.map_map]
  rfl

/-- non-vacuity: with minutes written as seconds, the prediction of every system for two initial conditions exists and is the same, at time values in seconds. -/
example (A : Matrix (Fin 1) (Fin 1) ℝ) : ∃ r, predictMatrix A 2 [⟨3, 4, ![1]⟩, ⟨5, 4, ![2]⟩] [4, 6, 8] = .ok r ∧
    predictMatrix A (2 * 60) (unitTime 60 [⟨3, 4, ![1]⟩, ⟨5, 4, ![2]⟩]) [240, 360, 480] = .ok (unitTime 60 r) ∧ content r 5 = [(4, A ^ 0 *ᵥ ![2]), (6, A ^ 1 *ᵥ ![2]), (8, A ^ 2 *ᵥ ![2])] := by
  obtain ⟨d, hd, -, -, -, hc⟩ := evolveFrame_ok ([⟨3, 4, ![1]⟩, ⟨5, 4, ![2]⟩] : List (Row Int (Fin 1 → ℝ))) 4 [6, 8] (fun ics norm => flowmapMatrix A ics norm 2) (by simp) (by simp) (by decide) rfl
    (by simp [flowmapMatrix])
  exact ⟨d, hd, (C251_predict (by norm_num) A 2 _ [4, 6, 8] d).2 hd, hc 1 (by simp)⟩

/-- non-vacuity: there is a first order derivative of the data, and with time values in another unit it is 60 times smaller. -/
example : ∃ d, timeDerivative .backward [(-1, -1), (0, 1)] 1 false exNoisy = .ok d ∧
    timeDerivative .backward [(-1, -1), (0, 1)] 1 false (unitTime 60 exNoisy) = .ok (d.map (fun r => ⟨r.id, r.time * 60, fun f => r.val f / 60⟩)) := by
  have hne : exNoisy ≠ [] := by simp [exNoisy]
  have hv : Valid exNoisy := by
    rw [valid_iff]; constructor
    · decide
    · unfold Before; decide
  have hlen : ∀ i, HasId exNoisy i → 1 < (series exNoisy i).length := by
    rintro i ⟨r, hr, rfl⟩
    simp only [exNoisy, List.mem_cons, List.not_mem_nil, or_false] at hr
    rcases hr with rfl | rfl | rfl | rfl | rfl <;> decide
  have h0 : deltaTime .int exNoisy = .one (some 2) := by
    apply C11_regular hne hv
    rintro i ⟨r, hr, rfl⟩
    simp only [exNoisy, List.mem_cons, List.not_mem_nil, or_false] at hr
    rcases hr with rfl | rfl | rfl | rfl | rfl <;> unfold Regular <;> decide
  obtain ⟨d, hd⟩ := (fdFrames_ok hne hv .backward [(-1, -1), (0, 1)] 1 false ((2 : Int) : ℝ)).1.2 (fun i hi => by
    have e : startSample [(-1, -1), (0, 1)] + endSamples [(-1, -1), (0, 1)] = 1 := by simp [startSample, endSamples]
    rw [e]
    exact hlen i hi)
  have h : timeDerivative .backward [(-1, -1), (0, 1)] 1 false exNoisy = .ok d := by
    rw [← hd]
    unfold timeDerivative isConstDeltaTime
    rw [h0]
    rfl
  refine ⟨d, h, ?_⟩
  have := C251_derivative (s := 60) (by norm_num) _ _ _ _ hne hv h
  simpa using this

/-- Specification: the same collection with floating point time values in another unit. -/
def unitReal (m : ℚ) (c : List (Row ℚ V)) : List (Row ℚ V) := c.map (fun r => ⟨r.id, r.time * m, r.val⟩)

theorem gaps_mul (m : ℚ) (l : List ℚ) : (consecutive (l.map (· * m))).map (fun p => p.2 - p.1) = ((consecutive l).map (fun p => p.2 - p.1)).map (· * m) := by
  induction l with
  | nil => rfl
  | cons a l ih =>
    cases l with
    | nil => rfl
    | cons b l =>
      rw [List.map_cons] at ih
      rw [List.map_cons, List.map_cons, consecutive, consecutive, List.map_cons, List.map_cons, List.map_cons, ih, sub_mul]

/-- **C251 for floating point time values, what holds:** data sampled with exactly one interval are reported as regularly sampled in every unit, with the interval in that unit. -/
theorem C251_float_partial {c : List (Row ℚ V)} (hc : c ≠ []) (hv : Valid c) {d m : ℚ} (hm : 0 < m) (h : ∀ i, HasId c i → 2 ≤ (series c i).length ∧ ∀ g ∈ gapsOf c i, g = d) :
    realDelta c = .ok (.one (some d)) ∧ realDelta (unitReal m c) = .ok (.one (some (d * m))) := by
  refine ⟨C214_regular hc hv h, C214_regular (by simpa [unitReal] using hc) ?_ ?_⟩
  · rw [valid_iff] at hv ⊢
    obtain ⟨h1, h2⟩ := hv
    refine ⟨by simpa [unitReal, Function.comp_def] using h1, ?_⟩
    unfold unitReal
    rw [List.pairwise_map]
    exact h2.imp (fun hab hid => mul_lt_mul_of_pos_right (hab hid) hm)
  · intro i hi
    have hs : series (unitReal m c) i = unitReal m (series c i) := by
      unfold series unitReal
      rw [List.filter_map]
      rfl
    have hi' : HasId c i := by
      obtain ⟨r, hr, he⟩ := hi
      obtain ⟨r', hr', rfl⟩ := List.mem_map.1 hr
      exact ⟨r', hr', he⟩
    obtain ⟨h1, h2⟩ := h i hi'
    refine ⟨by rw [hs]; simpa [unitReal] using h1, ?_⟩
    have hg : gapsOf (unitReal m c) i = (gapsOf c i).map (· * m) := by
      unfold gapsOf
      rw [hs]
      unfold unitReal
      simp only [List.map_map]
      have e : ((series c i).map ((·.time) ∘ fun r => (⟨r.id, r.time * m, r.val⟩ : Row ℚ V))) = ((series c i).map (·.time)).map (· * m) := by
        rw [List.map_map]; rfl
      rw [e, gaps_mul, List.map_map]
    rw [hg]
    intro g hg'
    obtain ⟨g', hg'', rfl⟩ := List.mem_map.1 hg'
    rw [h2 g' hg'']

/-- non-vacuity: two series of different lengths sampled every half hour, in minutes. -/
example : realDelta (unitReal 60 ([⟨3, 0, 7⟩, ⟨3, 1 / 2, 8⟩, ⟨3, 1, 9⟩, ⟨1, 5, 7⟩, ⟨1, 11 / 2, 7⟩] : List (Row ℚ Nat))) = .ok (.one (some 30)) := by decide +kernel

/-- Sampled after 1, 1 and 1.05 time units. -/
def exUneven : List (Row ℚ Nat) := [⟨0, 0, 7⟩, ⟨0, 1, 8⟩, ⟨0, 2, 9⟩, ⟨0, 61 / 20, 10⟩]

/-- **C251, violated for floating point time values.** The sampling intervals `1`, `1` and `1.05` are different, and no sampling interval is reported. In a unit that is `10^15` times larger the intervals are
`1e-15` and `1.05e-15`, their difference is below the absolute tolerance `1e-16`, and the collection counts as regularly sampled. -/
theorem C251_violated : Valid exUneven ∧ realDelta exUneven = .ok (.one none) ∧ realDelta (unitReal (1 / 10 ^ 15) exUneven) = .ok (.one (some (1 / 10 ^ 15))) := by
  refine ⟨?_, by decide +kernel, by decide +kernel⟩
  rw [valid_iff]
  constructor
  · decide
  · unfold Before; decide +kernel

end Verif.Dmd
