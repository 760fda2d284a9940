import Verif.Tsc.KeptProps
/-!
# C257: when `assign_ids_const_delta` without `drop_samples` raises
-/

namespace Verif.Tsc

open Verif.Np

variable {V : Type}

/-- Specification: the `m`-th sampling interval. -/
def gapAt (t : List Int) (m : Nat) : Int := t.getD (m + 1) 0 - t.getD m 0

/-- Specification: the sample number `j` is isolated.  The first sample is if the first two intervals differ; a later one, which is neither the last nor the last but
one, if both intervals at it differ from each other and from the next interval on either side. -/
def Isolated (t : List Int) (j : Nat) : Prop :=
  j + 2 < t.length ∧ if j = 0 then gapAt t 0 ≠ gapAt t 1 else (j = 1 ∨ gapAt t (j - 2) ≠ gapAt t (j - 1)) ∧ gapAt t (j - 1) ≠ gapAt t j ∧ gapAt t j ≠ gapAt t (j + 1)

/-! ## Helper lemmas -/

theorem mem_consecutive_getD : ∀ (l : List Int) (m : Nat), m + 1 < l.length → (l.getD m 0, l.getD (m + 1) 0) ∈ consecutive l
  | [], m, h => by simp at h
  | [a], m, h => by simp at h
  | a :: b :: l, 0, _ => by simp [consecutive]
  | a :: b :: l, m + 1, h => by
    have := mem_consecutive_getD (b :: l) m (by simpa using h)
    simp only [consecutive, List.mem_cons]
    right
    simpa using this

theorem regular_gap {t : List Int} {d : Int} (h : Regular t d) {m : Nat} (hm : m + 1 < t.length) : gapAt t m = d := h.2 _ (mem_consecutive_getD t m hm)

theorem not_isolated_of_regular {t : List Int} {d : Int} (h : Regular t d) (j : Nat) : ¬ Isolated t j := by
  rintro ⟨hj, hc⟩
  split_ifs at hc with h0
  · subst h0
    exact hc (by rw [regular_gap h (by omega), regular_gap h (by omega)])
  · exact hc.2.1 (by rw [regular_gap h (by omega), regular_gap h (by omega)])

theorem sdAt_gap {t : List Int} {j : Nat} (h0 : 0 < j) : sdAt t j = true ↔ j + 1 < t.length ∧ gapAt t (j - 1) ≠ gapAt t j := by
  obtain ⟨k, rfl⟩ : ∃ k, j = k + 1 := ⟨j - 1, by omega⟩
  simp [sdAt, gapAt]

theorem sdAt_zero {t : List Int} : sdAt t 0 = true ↔ 1 < t.length := by
  simp [sdAt]

theorem isolated_iff {t : List Int} {j : Nat} (hj : j < t.length) (h2 : 2 ≤ t.length) :
    Isolated t j ↔ (j = 0 ∨ startAt t j = true) ∧ j + 1 < t.length ∧ startAt t (j + 1) = true := by
  have hlen : ∀ m, sdAt t m = true → m + 1 < t.length := by
    intro m hm
    unfold sdAt at hm
    simp only [Bool.and_eq_true, decide_eq_true_eq] at hm
    exact hm.1
  unfold Isolated
  rcases Nat.eq_zero_or_pos j with rfl | hpos
  · have h0 : sdAt t 0 = true := sdAt_zero.2 (by omega)
    have h1 := sdAt_gap (t := t) (j := 1) (by omega)
    have hs : startAt t (0 + 1) = sdAt t 1 := by
      unfold startAt
      cases h : sdAt t 1 <;> simp [h0]
    rw [hs, h1]
    simp only [if_true, true_or, true_and]
    constructor
    · rintro ⟨a, b⟩; exact ⟨by omega, by omega, b⟩
    · rintro ⟨-, a, b⟩; exact ⟨by omega, b⟩
  · have e : ((j = 0 ∨ startAt t j = true) ∧ j + 1 < t.length ∧ startAt t (j + 1) = true) ↔ (sdAt t (j - 1) = true ∧ sdAt t j = true ∧ sdAt t (j + 1) = true) := by
      have := hlen (j + 1)
      unfold startAt
      simp only [Nat.add_sub_cancel]
      cases h1 : sdAt t (j - 1) <;> cases h2 : sdAt t j <;> cases h3 : sdAt t (j + 1) <;> cases h4 : sdAt t (j + 1 + 1) <;> simp_all <;> omega
    rw [e, sdAt_gap hpos, sdAt_gap (by omega : 0 < j + 1), if_neg (by omega)]
    simp only [Nat.add_sub_cancel]
    rcases (by omega : j = 1 ∨ 1 < j) with rfl | h1
    · rw [sdAt_zero]
      simp only [true_or, true_and]
      constructor
      · rintro ⟨a, b, c⟩; exact ⟨by omega, ⟨by omega, b⟩, by omega, c⟩
      · rintro ⟨-, ⟨-, b⟩, a, c⟩; exact ⟨by omega, b, c⟩
    · rw [sdAt_gap (by omega : 0 < j - 1), show j - 1 - 1 = j - 2 by omega]
      constructor
      · rintro ⟨a, b, c, d⟩; exact ⟨⟨by omega, b.resolve_left (by omega)⟩, ⟨by omega, c⟩, by omega, d⟩
      · rintro ⟨⟨-, b⟩, ⟨-, c⟩, a, d⟩; exact ⟨by omega, Or.inr b, c, d⟩

theorem count_one_of {l : List Nat} {p : Nat} (hp : p < l.length) (h1 : ∀ q (h : q < p), l[q] < l[p]) (h2 : ∀ q (h : q < l.length), p < q → l[p] < l[q]) : l.count l[p] = 1 := by
  have e : l = l.take p ++ l[p] :: l.drop (p + 1) := by rw [← List.drop_eq_getElem_cons hp, List.take_append_drop]
  have c1 : (l.take p).count l[p] = 0 := by
    rw [List.count_eq_zero]
    intro hm
    obtain ⟨q, hq, he⟩ := List.getElem_of_mem hm
    rw [List.length_take] at hq
    rw [List.getElem_take] at he
    have := h1 q (by omega)
    omega
  have c2 : (l.drop (p + 1)).count l[p] = 0 := by
    rw [List.count_eq_zero]
    intro hm
    obtain ⟨q, hq, he⟩ := List.getElem_of_mem hm
    rw [List.length_drop] at hq
    rw [List.getElem_drop] at he
    have := h2 (p + 1 + q) (by omega) (by omega)
    omega
  have := congrArg (List.count l[p]) e
  rw [List.count_append, List.count_cons_self, c1, c2] at this
  omega

/-- The pieces with one sample are the isolated samples. -/
theorem piece_single_iff {minId : Nat} {s : List (Row Int V)} {p : Nat} (hp : p < ((splitRows minId s).map (·.id)).length) (h2 : 2 ≤ s.length) :
    ((splitRows minId s).map (·.id)).count ((splitRows minId s).map (·.id))[p] = 1 ↔ Isolated (s.map (·.time)) p := by
  have hl : ((splitRows minId s).map (·.id)).length = s.length := by simp [splitRows_length]
  have hid : ∀ q (hq : q < ((splitRows minId s).map (·.id)).length), ((splitRows minId s).map (·.id))[q] = cnt (startAt (s.map (·.time))) (q + 1) + minId := by
    intro q hq
    rw [List.getElem_map, splitRows_getElem]
  rw [isolated_iff (by rw [List.length_map]; omega) (by rw [List.length_map]; exact h2)]
  constructor
  · intro hc
    have hs : p + 1 < s.length ∧ startAt (s.map (·.time)) (p + 1) = true := by
      by_contra hne
      rcases Nat.lt_or_ge (p + 1) s.length with h | h
      · have hf : startAt (s.map (·.time)) (p + 1) = false := by
          rw [not_and] at hne; simpa using hne h
        have e := splitRows_id_eq (minId := minId) (by omega) hf
        have := count_two (Nat.lt_succ_self p) (by omega) e
        rw [← e] at this
        omega
      · have hf := start_last (s.map (·.time))
        obtain ⟨q, rfl⟩ : ∃ q, p = q + 1 := ⟨p - 1, by omega⟩
        rw [List.length_map, show s.length - 1 = q + 1 by omega] at hf
        have e := splitRows_id_eq (minId := minId) (by omega) hf
        have := count_two (show q < q + 1 by omega) (by omega) e
        omega
    refine ⟨?_, by rw [List.length_map]; exact hs.1, hs.2⟩
    by_contra hne
    rw [not_or] at hne
    obtain ⟨q, rfl⟩ : ∃ q, p = q + 1 := ⟨p - 1, by omega⟩
    have hf : startAt (s.map (·.time)) (q + 1) = false := by simpa using hne.2
    have e := splitRows_id_eq (minId := minId) (by omega) hf
    have := count_two (show q < q + 1 by omega) (by omega) e
    omega
  · rintro ⟨h0, h1, hs⟩
    refine count_one_of hp ?_ ?_
    · intro q hq
      rw [hid, hid]
      have hsp := h0.resolve_left (by omega)
      have := cnt_mono (startAt (s.map (·.time))) (show q + 1 ≤ p by omega)
      have e : cnt (startAt (s.map (·.time))) (p + 1) = cnt (startAt (s.map (·.time))) p + 1 := by rw [cnt, hsp]; rfl
      omega
    · intro q hq hpq
      rw [hid, hid]
      have := cnt_mono (startAt (s.map (·.time))) (show p + 1 + 1 ≤ q + 1 by omega)
      have e : cnt (startAt (s.map (·.time))) (p + 1 + 1) = cnt (startAt (s.map (·.time))) (p + 1) + 1 := by rw [cnt, hs]; rfl
      omega

theorem splitOne_error_iff (k : TimeKind) (minId : Nat) {s : List (Row Int V)} {i : Nat} (hne : s ≠ []) (hs : s.Pairwise (fun a b => a.time < b.time)) (hi : ∀ r ∈ s, r.id = i) :
    (∃ e, splitOne k false minId s = .error e) ↔ s.length = 1 ∨ ∃ j, Isolated (s.map (·.time)) j := by
  unfold splitOne
  rw [deltaTime_single k hne hs hi]
  match hrd : rowDelta (npDiff (s.map (·.time))) with
  | some d0 =>
    rw [hrd]
    have hreg := (rowDelta_iff _ _).1 hrd
    refine ⟨fun ⟨e, he⟩ => by simp at he, ?_⟩
    rintro (h | ⟨j, hj⟩)
    · have := hreg.1
      rw [List.length_map] at this
      omega
    · exact absurd hj (not_isolated_of_regular hreg j)
  | none =>
    rw [hrd]
    simp only
    unfold splitIrregular
    by_cases h1 : s.length = 1
    · simp [h1]
    by_cases h2 : s.length = 2
    · exfalso
      obtain ⟨a, b, rfl⟩ := List.length_eq_two.1 h2
      simp [npDiff, rowDelta] at hrd
    have hpos : 0 < s.length := List.length_pos_of_ne_nil hne
    simp only [h1, h2, if_false, false_or]
    rw [(split_cond (i := i) hne).1, (split_cond (i := i) hne).2]
    have hl : ((splitRows minId s).map (·.id)).length = s.length := by simp [splitRows_length]
    have hany : ((splitRows minId s).map (·.id)).any (fun i => ((splitRows minId s).map (·.id)).count i == 1) = true ↔ ∃ j, Isolated (s.map (·.time)) j := by
      rw [List.any_eq_true]
      constructor
      · rintro ⟨x, hx, hc⟩
        obtain ⟨p, hp, rfl⟩ := List.getElem_of_mem hx
        exact ⟨p, (piece_single_iff hp (by omega)).1 (by simpa using hc)⟩
      · rintro ⟨j, hj⟩
        have hjl : j < ((splitRows minId s).map (·.id)).length := by
          have := hj.1
          rw [List.length_map] at this
          omega
        exact ⟨_, List.getElem_mem hjl, by simpa using (piece_single_iff hjl (by omega)).2 hj⟩
    rw [← hany]
    by_cases ha : ((splitRows minId s).map (·.id)).any (fun i => ((splitRows minId s).map (·.id)).count i == 1) = true
    · simp [ha]
    · have hsne : splitRows minId s ≠ [] := by
        intro e; have := congrArg List.length e; rw [splitRows_length] at this; simp at this; exact hne this
      rw [build_ok_of_valid (splitRows_valid hs minId) hsne]
      simp [ha]

theorem loop_error_iff (k : TimeKind) : ∀ (l : List (List (Row Int V))) (m : Nat), (∀ g ∈ l, g ≠ [] ∧ g.Pairwise (fun a b => a.time < b.time) ∧ ∃ i, ∀ r ∈ g, r.id = i) →
    ((∃ e, constDeltaLoop k false m l = .error e) ↔ ∃ g ∈ l, g.length = 1 ∨ ∃ j, Isolated (g.map (·.time)) j)
  | [], m, _ => by simp [constDeltaLoop]
  | g :: l, m, hg => by
    obtain ⟨hgne, hgs, i, hgi⟩ := hg g (by simp)
    have hone := splitOne_error_iff k m hgne hgs hgi
    have ih := fun m => loop_error_iff k l m (fun g' hg' => hg g' (by simp [hg']))
    rw [List.exists_mem_cons_iff, ← hone]
    unfold constDeltaLoop
    match ho : splitOne k false m g with
    | .error e => simp
    | .ok none => exact absurd ((splitOne_good k false m hgne hgs hgi).2.1 ho) (by simp)
    | .ok (some d) =>
      rw [← ih ((ids d).foldl max 0 + 1)]
      simp only [reduceCtorEq, exists_false, false_or]
      match hl : constDeltaLoop k false ((ids d).foldl max 0 + 1) l with
      | .error e => simp
      | .ok r => simp

/-! ## Property theorem -/

/-- **C257.** Without `drop_samples` the call raises exactly if there is a series with a single sample or a series with an isolated sample. -/
theorem C257_raises (k : TimeKind) {c : List (Row Int V)} (hv : Valid c) :
    (∃ e, assignIdsConstDelta k false c = .error e) ↔ ∃ i, HasId c i ∧ ((timesOf c i).length = 1 ∨ ∃ j, Isolated (timesOf c i) j) := by
  have hgr : ∀ g ∈ (ids c).map (fun i => c.filter (fun r => r.id == i)), g ≠ [] ∧ g.Pairwise (fun a b => a.time < b.time) ∧ ∃ i, ∀ r ∈ g, r.id = i := by
    intro g hg
    obtain ⟨i, hi, rfl⟩ := List.mem_map.1 hg
    exact ⟨series_ne_nil.2 (mem_ids'.1 hi), hv.series_sorted i, i, fun r hr => series_id hr⟩
  have hiff := loop_error_iff k _ 0 hgr
  have hrhs : (∃ g ∈ (ids c).map (fun i => c.filter (fun r => r.id == i)), g.length = 1 ∨ ∃ j, Isolated (g.map (·.time)) j) ↔
      ∃ i, HasId c i ∧ ((timesOf c i).length = 1 ∨ ∃ j, Isolated (timesOf c i) j) := by
    constructor
    · rintro ⟨g, hg, h⟩
      obtain ⟨i, hi, rfl⟩ := List.mem_map.1 hg
      exact ⟨i, mem_ids.1 hi, by rw [timesOf, List.length_map]; exact h⟩
    · rintro ⟨i, hi, h⟩
      rw [timesOf, List.length_map] at h
      exact ⟨_, List.mem_map.2 ⟨i, mem_ids.2 hi, rfl⟩, h⟩
  rw [← hrhs, ← hiff]
  obtain ⟨hgood, -⟩ := loop_good k false _ 0 hgr
  unfold assignIdsConstDelta
  match hl : constDeltaLoop k false 0 ((ids c).map (fun i => c.filter (fun r => r.id == i))) with
  | .error e => simp
  | .ok [] => simp
  | .ok (d0 :: ds) =>
    obtain ⟨hG, hne⟩ := hgood _ hl
    simp only
    have hRv : Valid (d0 :: ds).flatten := valid_of_asc hG.asc hG.before
    rw [build_ok_of_valid hRv (hne (by simp))]
    obtain ⟨d, hd, -⟩ := C08_assign_ids_sequential (hne (by simp)) hRv
    simp only
    rw [hd]
    simp

/-- non-vacuity: a gap between samples with one interval is accepted, a single sample in a gap is not, nor are two samples before a gap. -/
example : (assignIdsConstDelta (V := Nat) .int false [⟨0, 0, 5⟩, ⟨0, 1, 6⟩, ⟨0, 2, 7⟩, ⟨0, 9, 8⟩, ⟨0, 10, 9⟩]).toOption = some (some [⟨0, 0, 5⟩, ⟨0, 1, 6⟩, ⟨0, 2, 7⟩, ⟨1, 9, 8⟩, ⟨1, 10, 9⟩]) ∧
    (assignIdsConstDelta (V := Nat) .int false [⟨0, 0, 5⟩, ⟨0, 1, 6⟩, ⟨0, 2, 7⟩, ⟨0, 9, 8⟩, ⟨0, 20, 9⟩, ⟨0, 21, 9⟩]).toOption = none ∧
    (assignIdsConstDelta (V := Nat) .int false [⟨0, 0, 5⟩, ⟨0, 1, 6⟩, ⟨0, 9, 7⟩, ⟨0, 10, 8⟩, ⟨0, 11, 8⟩]).toOption = none := by
  decide +kernel

example : Isolated [0, 1, 2, 9, 20, 21] 3 ∧ ¬ Isolated [0, 1, 2, 9, 20, 21] 1 := by
  simp [Isolated, gapAt]

end Verif.Tsc
