import Verif.Tsc.Blocks
import Verif.Tsc.Model
/-! Helper lemmas about IDs and counts. -/

namespace Verif.Tsc

open Verif.Np

variable {τ V : Type} [LinearOrder τ]

theorem mem_ids {c : List (Row τ V)} {i : Nat} : i ∈ ids c ↔ HasId c i := by
  simp [ids, mem_unique, HasId]

theorem mem_ids' {c : List (Row τ V)} {i : Nat} : i ∈ ids c ↔ i ∈ c.map (·.id) := by
  simp [ids, mem_unique]

theorem ids_sorted (c : List (Row τ V)) : (ids c).Pairwise (· < ·) := unique_pairwise _

theorem count_eq_length_series (c : List (Row τ V)) (i : Nat) : (c.map (·.id)).count i = (series c i).length := by
  rw [List.count_eq_countP, List.countP_map, List.countP_eq_length_filter]; rfl

theorem counts_eq (c : List (Row τ V)) : counts c = (ids c).map (fun i => (series c i).length) := by
  simp only [counts, count_eq_length_series]

theorem ids_ne_nil {c : List (Row τ V)} (h : c ≠ []) : ids c ≠ [] := by
  obtain ⟨r, l, rfl⟩ := List.ne_nil_iff_exists_cons.1 h
  intro he
  have : r.id ∈ ids (r :: l) := mem_ids'.2 (by simp)
  rw [he] at this; simp at this

theorem unique_length_one {α : Type} [LinearOrder α] {l : List α} : (unique l).length = 1 ↔ ∃ a, l ≠ [] ∧ ∀ b ∈ l, b = a := by
  constructor
  · intro h
    match hu : unique l with
    | [] => rw [hu] at h; simp at h
    | a :: b :: t => rw [hu] at h; simp at h
    | [a] =>
      refine ⟨a, ?_, ?_⟩
      · rintro rfl; simp [unique] at hu
      · intro b hb
        have := (mem_unique b l).2 hb
        rw [hu] at this; simpa using this
  · rintro ⟨a, hne, h⟩
    have : unique l = [a] := by
      rw [← unique_of_pairwise (l := [a]) (by simp)]
      apply unique_congr
      intro b
      constructor
      · intro hb; simp [h b hb]
      · intro hb
        obtain ⟨x, t, rfl⟩ := List.ne_nil_iff_exists_cons.1 hne
        have := h x (by simp)
        simp at hb; rw [hb, ← this]; simp
    simp [this]

/-- `n_timesteps` is a single number `k` iff every series has `k` samples. -/
theorem nTimesteps_one {c : List (Row τ V)} (hc : c ≠ []) (k : Nat) :
    nTimesteps c = .one k ↔ ∀ i ∈ ids c, (series c i).length = k := by
  have hne := ids_ne_nil hc
  obtain ⟨i0, t, hi⟩ := List.ne_nil_iff_exists_cons.1 hne
  have hcounts : counts c = (series c i0).length :: t.map (fun i => (series c i).length) := by rw [counts_eq, hi]; simp
  have key : (nTimeseries c = 1 ∨ (unique (counts c)).length = 1) ↔ ∀ i ∈ ids c, (series c i).length = (series c i0).length := by
    constructor
    · rintro (h | h)
      · rw [nTimeseries, hi] at h
        simp at h; subst h
        rw [hi]; simp
      · obtain ⟨a, _, h⟩ := unique_length_one.1 h
        intro i hm
        have h1 := h (series c i).length (by rw [counts_eq]; exact List.mem_map.2 ⟨i, hm, rfl⟩)
        have h2 := h (series c i0).length (by rw [hcounts]; simp)
        rw [h1, h2]
    · intro h
      right
      rw [unique_length_one]
      refine ⟨(series c i0).length, by rw [hcounts]; simp, ?_⟩
      intro b hb
      rw [counts_eq] at hb
      obtain ⟨i, hm, rfl⟩ := List.mem_map.1 hb
      exact h i hm
  unfold nTimesteps
  split
  · rename_i h
    rw [key] at h
    rw [hcounts]
    simp only [List.headD_cons, PerId.one.injEq]
    constructor
    · rintro rfl; exact h
    · intro h'; exact h' i0 (by rw [hi]; simp)
  · rename_i h
    rw [key] at h
    simp only [reduceCtorEq, false_iff]
    intro h'
    apply h
    intro i hm
    rw [h' i hm, h' i0 (by rw [hi]; simp)]

theorem nTimesteps_per {c : List (Row τ V)} {l : List (Nat × Nat)} (h : nTimesteps c = .per l) :
    l = (ids c).map (fun i => (i, (series c i).length)) := by
  unfold nTimesteps at h
  split at h
  · simp at h
  · simp only [PerId.per.injEq] at h
    rw [← h, counts_eq]
    rw [List.zip_map_right]
    clear h
    induction ids c with
    | nil => rfl
    | cons i t ih => simp_all

/-- `check_required_min_timesteps` succeeds iff every series has at least `n` samples. -/
theorem checkMinTimesteps_iff {c : List (Row τ V)} (hc : c ≠ []) (n : Int) :
    checkMinTimesteps c n = true ↔ ∀ i, HasId c i → n ≤ (series c i).length := by
  unfold checkMinTimesteps
  match h : nTimesteps c with
  | .one k =>
    have hk := (nTimesteps_one hc k).1 h
    obtain ⟨i0, t, hi⟩ := List.ne_nil_iff_exists_cons.1 (ids_ne_nil hc)
    simp only [PerId.values, List.any_cons, List.any_nil, Bool.or_false, Bool.not_eq_true', decide_eq_false_iff_not, not_lt]
    constructor
    · intro hle i hm
      rw [hk i (mem_ids.2 hm)]; exact hle
    · intro h'
      have hm : i0 ∈ ids c := by rw [hi]; simp
      have := h' i0 (mem_ids.1 hm)
      rwa [hk i0 hm] at this
  | .per l =>
    have hl := nTimesteps_per h
    simp only [PerId.values, Bool.not_eq_true', List.any_eq_false, decide_eq_true_eq, not_lt, hl, List.map_map, List.mem_map,
      Function.comp_apply, forall_exists_index, and_imp, forall_apply_eq_imp_iff₂]
    constructor
    · intro h' i hm; exact h' i (mem_ids.2 hm)
    · intro h' i hm; exact h' i (mem_ids.1 hm)

theorem newIds_perm_ids {c : List (Row τ V)} (h : (newIds (c.map (·.id))).Nodup) : (newIds (c.map (·.id))).Perm (ids c) :=
  (List.perm_ext_iff_of_nodup h (unique_nodup _)).2 (fun i => by rw [mem_newIds, ← mem_ids', ids])

theorem newIds_sublist {α : Type} [DecidableEq α] (l : List α) : (newIds l).Sublist l := by
  fun_induction newIds l with
  | case1 => simp
  | case2 => simp
  | case3 b l ih => exact ih.cons _
  | case4 a b l h ih => exact ih.cons_cons _

/-- If IDs do not decrease along the index, the blocks appear in the order of `ids`. -/
theorem newIds_eq_ids {c : List (Row τ V)} (h : (c.map (·.id)).Pairwise (· ≤ ·)) : newIds (c.map (·.id)) = ids c := by
  have hlt : (newIds (c.map (·.id))).Pairwise (· < ·) := by
    generalize c.map (·.id) = l at h
    fun_induction newIds l with
    | case1 => simp
    | case2 => simp
    | case3 b l ih => exact ih (List.pairwise_cons.1 h).2
    | case4 a b l hab ih =>
      rw [List.pairwise_cons] at h ⊢
      refine ⟨?_, ih h.2⟩
      intro x hx
      have hx := (mem_newIds _ _).1 hx
      have h1 := h.1 b (by simp)
      rcases List.mem_cons.1 hx with rfl | hx
      · omega
      · have := (List.pairwise_cons.1 h.2).1 x hx
        omega
  exact eq_of_pairwise_lt hlt (ids_sorted c) (fun i => by rw [mem_newIds, mem_ids'])

end Verif.Tsc
