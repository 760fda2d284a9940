import Verif.Tsc.IndexNum
import Verif.Tsc.IndexProps
/-!
# C253: which time values the constructor takes for sorted

The check subtracts neighbouring time values in their machine type.
-/

namespace Verif.Tsc

/-! ## Helper lemmas -/

theorem wrapSigned_small {x : Rat} (h1 : -2 ^ 63 ≤ x) (h2 : x < 2 ^ 63) : wrapSigned x = x := by
  unfold wrapSigned
  have : ⌊(x + 2 ^ 63) / 2 ^ 64⌋ = 0 := by
    rw [Int.floor_eq_zero_iff]
    constructor
    · apply div_nonneg <;> linarith
    · rw [div_lt_one (by norm_num)]; linarith
  rw [this]
  simp

theorem wrapSigned_large {x : Rat} (h1 : 2 ^ 63 ≤ x) (h2 : x < 2 ^ 64 + 2 ^ 63) : wrapSigned x = x - 2 ^ 64 := by
  unfold wrapSigned
  have : ⌊(x + 2 ^ 63) / 2 ^ 64⌋ = 1 := by
    rw [Int.floor_eq_iff]
    constructor
    · rw [le_div_iff₀ (by norm_num)]; push_cast; linarith
    · rw [div_lt_iff₀ (by norm_num)]; push_cast; linarith
  rw [this]
  simp

theorem wrapSigned_low {x : Rat} (h1 : -2 ^ 64 ≤ x) (h2 : x < -2 ^ 63) : wrapSigned x = x + 2 ^ 64 := by
  unfold wrapSigned
  have : ⌊(x + 2 ^ 63) / 2 ^ 64⌋ = -1 := by
    rw [Int.floor_eq_iff]
    constructor
    · rw [le_div_iff₀ (by norm_num)]; push_cast; linarith
    · rw [div_lt_iff₀ (by norm_num)]; push_cast; linarith
  rw [this]
  push_cast
  ring

theorem wrapUnsigned_pos {x : Rat} (h0 : x ≠ 0) (h1 : -2 ^ 64 < x) (h2 : x < 2 ^ 64) : 0 < wrapUnsigned x := by
  unfold wrapUnsigned
  rcases lt_or_gt_of_ne h0 with h | h
  · have : ⌊x / 2 ^ 64⌋ = -1 := by
      rw [Int.floor_eq_iff]
      constructor
      · rw [le_div_iff₀ (by norm_num)]; push_cast; linarith
      · rw [div_lt_iff₀ (by norm_num)]; push_cast; linarith
    rw [this]
    push_cast
    linarith
  · have : ⌊x / 2 ^ 64⌋ = 0 := by
      rw [Int.floor_eq_zero_iff]
      exact ⟨div_nonneg h.le (by norm_num), by rw [div_lt_one (by norm_num)]; exact h2⟩
    rw [this]
    simpa using h

theorem validateIndexNum_ok_iff (r : RawIndex) : validateIndexNum r = .ok () ↔
    r.multi = true ∧ r.nlevels = 2 ∧ r.rows.Nodup ∧ idsInteger (r.rows.map (·.1)) = true ∧
    anyNeg (r.rows.map (·.1)) = false ∧ kindAllowed r.fixedDelta r.kind = true ∧
    ((r.kind = .u ∨ r.kind = .i ∨ r.kind = .f) → anyNeg (r.rows.map (·.2)) = false) ∧ r.rows ≠ [] ∧
    (newIds (r.rows.map (·.1))).Nodup ∧ anyUnsorted r.kind r.rows = false := by
  unfold validateIndexNum
  repeat rw [ite_error_ok]
  simp [or_assoc, anyDuplicated]

theorem anyUnsorted_congr (k : Kind) (l : List (Option Rat × Option Rat)) :
    (∀ a ∈ l, ∀ b ∈ l, stepNonPos k a.2 b.2 = diffNonPos (timeNum k a.2) (timeNum k b.2)) → anyUnsorted k l = anyNotSorted k l := by
  fun_induction anyUnsorted k l with
  | case1 a b l ih =>
    intro h
    unfold anyNotSorted
    rw [ih (fun x hx y hy => h x (List.mem_cons_of_mem _ hx) y (List.mem_cons_of_mem _ hy)), h a (by simp) b (by simp)]
  | case2 l hn =>
    intro _
    unfold anyNotSorted
    split
    · exact absurd rfl (hn _ _ _)
    · rfl

theorem anyUnsorted_false (k : Kind) (l : List (Option Rat × Option Rat)) (h : l.Pairwise (fun a b => a.1 = b.1 → stepNonPos k a.2 b.2 = false)) : anyUnsorted k l = false := by
  fun_induction anyUnsorted k l with
  | case1 a b l ih =>
    rw [List.pairwise_cons] at h
    rw [ih h.2, Bool.or_false]
    by_cases e : a.1 = b.1
    · rw [h.1 b (by simp) e, Bool.and_false]
    · rw [beq_eq_false_iff_ne.2 e, Bool.false_and]
  | case2 l hn => rfl

/-! ## Property theorems -/

/-- **C253 (what holds).** Let the time values be signed integers or floating point numbers, or datetimes that are less than 146 years away from 1970 (2^62 nanoseconds), none of them missing.  Then the
constructor accepts an index if and only if it is valid; in particular time values are taken for sorted exactly if they are. -/
theorem C253_sorted_partial (r : RawIndex) (hu : r.kind ≠ .u) (h : ∀ p ∈ r.rows, ∃ t, p.2 = some t ∧ (r.kind = .M → -2 ^ 62 < t ∧ t < 2 ^ 62)) : validateIndexNum r = .ok () ↔ ValidIndex r := by
  rw [← C01_index_partial r (fun p hp => by obtain ⟨t, ht, -⟩ := h p hp; rw [ht]; exact nofun), validateIndexNum_ok_iff, validateIndex_ok_iff]
  have e : anyUnsorted r.kind r.rows = anyNotSorted r.kind r.rows := by
    refine anyUnsorted_congr _ _ (fun a ha b hb => ?_)
    obtain ⟨ta, hta, hMa⟩ := h a ha
    obtain ⟨tb, htb, hMb⟩ := h b hb
    rw [hta, htb]
    have hk : ∀ t : Rat, timeNum r.kind (some t) = some t := by intro t; cases r.kind <;> rfl
    unfold stepNonPos diffNonPos
    rw [hk, hk]
    simp only
    have : numDiff r.kind ta tb = tb - ta := by
      unfold numDiff
      cases hkind : r.kind with
      | u => exact absurd hkind hu
      | M =>
        obtain ⟨h1, h2⟩ := hMa hkind
        obtain ⟨h3, h4⟩ := hMb hkind
        exact wrapSigned_small (by linarith) (by linarith)
      | i => rfl
      | f => rfl
      | other => rfl
    rw [this]
  rw [e]

/-- **C253 is violated by unsigned integers:** the difference of two unsigned integers is never negative, so a collection is accepted whatever the order of its time values.  (They only have to be
different within a series, and every series has to be one block.) -/
theorem C253_unsigned_violated (c : List (Row Rat Unit)) (hc : c ≠ []) (hkeys : (c.map (·.key)).Nodup) (hids : (newIds (c.map (·.id))).Nodup) (ht : ∀ x ∈ c, 0 ≤ x.time ∧ x.time < 2 ^ 64) (fixedDelta : Bool) :
    validateIndexNum ⟨true, 2, raw c, .u, fixedDelta⟩ = .ok () := by
  rw [validateIndexNum_ok_iff]
  refine ⟨rfl, rfl, (nodup_raw c).2 hkeys, idsInteger_raw c, anyNeg_raw c, by cases fixedDelta <;> rfl, fun _ => (anyNeg_raw_time c).2 (fun x hx => (ht x hx).1), by simpa [raw] using hc, ?_, ?_⟩
  · simp only
    rw [raw_fst_injective, newIds_map _ (fun a b h => some_cast_inj.1 h)]
    exact (List.nodup_map_iff (fun a b h => some_cast_inj.1 h)).2 hids
  · refine anyUnsorted_false _ _ ?_
    simp only [raw, List.pairwise_map]
    rw [List.Nodup, List.pairwise_map] at hkeys
    refine hkeys.imp_of_mem (fun {a b} ha hb hne hid => ?_)
    have hid' : a.id = b.id := some_cast_inj.1 hid
    have hne' : b.time - a.time ≠ 0 := fun e => hne (by rw [Row.key, Row.key, hid', sub_eq_zero.1 e])
    have := wrapUnsigned_pos hne' (by have := (ht a ha).2; have := (ht b hb).1; linarith) (by have := (ht a ha).1; have := (ht b hb).2; linarith)
    exact decide_eq_false (not_le.2 this)

/-- non-vacuity of the violation: a series of unsigned integers in descending order is accepted, and it is no valid collection. -/
example : validateIndexNum ⟨true, 2, [(some 3, some 7), (some 3, some 5), (some 3, some 2)], .u, false⟩ = .ok () ∧
    validateIndexNum ⟨true, 2, [(some 3, some 7), (some 3, some 5), (some 3, some 2)], .i, false⟩ = .error .notSorted := by
  constructor <;> decide +kernel

/-- **C253 is violated by datetimes more than 292 years apart:** two time values in the right order are refused. -/
theorem C253_far_violated (i : Nat) (a b : Rat) (h1 : 2 ^ 63 ≤ b - a) (h2 : b - a ≤ 2 ^ 64) :
    validateIndexNum ⟨true, 2, [(some (i : Rat), some a), (some (i : Rat), some b)], .M, false⟩ = .error .notSorted ∧
      ValidIndex ⟨true, 2, [(some (i : Rat), some a), (some (i : Rat), some b)], .M, false⟩ := by
  have hlt : a < b := by linarith
  have hv : Valid ([⟨i, a, ()⟩, ⟨i, b, ()⟩] : List (Row Rat Unit)) := by
    rw [valid_iff]
    constructor
    · simp [newIds]
    · simp [Before, hlt]
  have hs : stepNonPos .M (some a) (some b) = true := by
    refine decide_eq_true ?_
    change wrapSigned (b - a) ≤ 0
    rw [wrapSigned_large h1 (by linarith)]
    linarith
  refine ⟨?_, rfl, rfl, Or.inr (Or.inr ⟨rfl, Or.inr rfl⟩), [⟨i, a, ()⟩, ⟨i, b, ()⟩], by simp, rfl, hv, by simp⟩
  have hne : ((some (i : Rat) : Option Rat), (some a : Option Rat)) ≠ (some (i : Rat), some b) := by simp [hlt.ne]
  unfold validateIndexNum
  have hneg : ¬ ((i : Rat) < 0) := not_lt.2 (Nat.cast_nonneg i)
  simp [anyDuplicated, hlt.ne, idsInteger, anyNeg, hneg, kindAllowed, newIds, anyUnsorted, hs]

/-- **C253 is violated by missing datetimes:** NaT is the smallest 64 bit integer; behind a datetime after 1970 the difference wraps around to a positive number, and the index is accepted. -/
theorem C253_missing_violated (i : Nat) (t : Rat) (h1 : 0 < t) (h2 : t < 2 ^ 63) :
    validateIndexNum ⟨true, 2, [(some (i : Rat), some t), (some (i : Rat), none)], .M, false⟩ = .ok () ∧
      ¬ ValidIndex ⟨true, 2, [(some (i : Rat), some t), (some (i : Rat), none)], .M, false⟩ := by
  have hs : stepNonPos .M (some t) none = false := by
    refine decide_eq_false (not_le.2 ?_)
    change 0 < wrapSigned (-2 ^ 63 - t)
    rw [wrapSigned_low (by linarith) (by linarith)]
    linarith
  constructor
  · unfold validateIndexNum
    have hneg : ¬ ((i : Rat) < 0) := not_lt.2 (Nat.cast_nonneg i)
    simp [anyDuplicated, idsInteger, anyNeg, hneg, kindAllowed, newIds, anyUnsorted, hs]
  · rintro ⟨_, _, _, c, _, h, _⟩
    have : ((some (i : Rat) : Option Rat), (none : Option Rat)) ∈ c.map (fun x => ((some (x.id : Rat) : Option Rat), (some x.time : Option Rat))) := by
      rw [← h]; simp
    simp at this

/-- Behind a datetime before 1970 a missing value is refused. -/
theorem C253_missing_refused (i : Nat) (t : Rat) (h1 : -2 ^ 63 ≤ t) (h2 : t ≤ 0) :
    validateIndexNum ⟨true, 2, [(some (i : Rat), some t), (some (i : Rat), none)], .M, false⟩ = .error .notSorted := by
  have hs : stepNonPos .M (some t) none = true := by
    refine decide_eq_true ?_
    change wrapSigned (-2 ^ 63 - t) ≤ 0
    rw [wrapSigned_small (by linarith) (by linarith)]
    linarith
  unfold validateIndexNum
  have hneg : ¬ ((i : Rat) < 0) := not_lt.2 (Nat.cast_nonneg i)
  simp [anyDuplicated, idsInteger, anyNeg, hneg, kindAllowed, newIds, anyUnsorted, hs]

/-- non-vacuity: a valid index of two series of datetimes. -/
example : validateIndexNum ⟨true, 2, [(some 3, some 0), (some 3, some 86400), (some 1, some (-5)), (some 1, some 7)], .M, false⟩ = .ok () := by decide +kernel

end Verif.Tsc
