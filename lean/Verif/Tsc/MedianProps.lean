import Verif.Tsc.MetricProps
/-!
# C63: what the median absolute error says

A median absolute error of zero does not mean that the prediction is exact (`C63_medae_violated`), but that at least half of the errors vanish.
-/

namespace Verif.Tsc

/-! ## Helper lemmas -/

theorem sorted_mergeSort_real [∀ a b : ℝ, Decidable (a ≤ b)] (l : List ℝ) : (l.mergeSort (fun a b => decide (a ≤ b))).Pairwise (· ≤ ·) := by
  have := List.pairwise_mergeSort (le := fun a b : ℝ => decide (a ≤ b)) (fun a b c h1 h2 => by simp only [decide_eq_true_eq] at *; exact h1.trans h2)
    (fun a b => by simp only [Bool.or_eq_true, decide_eq_true_eq]; exact le_total a b) l
  simpa using this

theorem count_below {s : List ℝ} (hs : s.Pairwise (· ≤ ·)) {m : ℝ} (p : ℝ → Bool) (hp : ∀ x, x ≤ m → p x = true) {k : Nat} (hk : k < s.length) (h : s[k] ≤ m) : k + 1 ≤ s.countP p := by
  have h1 : (s.take (k + 1)).countP p = k + 1 := by
    rw [List.countP_eq_length.2, List.length_take, min_eq_left hk]
    intro x hx
    obtain ⟨i, hi, rfl⟩ := List.getElem_of_mem hx
    rw [List.length_take] at hi
    rw [List.getElem_take]
    refine hp _ (le_trans ?_ h)
    rcases Nat.lt_or_ge i k with hik | hik
    · exact List.pairwise_iff_getElem.1 hs i k _ hk hik
    · have : i = k := by omega
      subst this
      exact le_rfl
  rw [← h1]
  exact (List.take_sublist _ _).countP_le

theorem count_above {s : List ℝ} (hs : s.Pairwise (· ≤ ·)) {m : ℝ} (p : ℝ → Bool) (hp : ∀ x, m ≤ x → p x = true) {k : Nat} (hk : k < s.length) (h : m ≤ s[k]) : s.length - k ≤ s.countP p := by
  have h1 : (s.drop k).countP p = s.length - k := by
    rw [List.countP_eq_length.2, List.length_drop]
    intro x hx
    obtain ⟨i, hi, rfl⟩ := List.getElem_of_mem hx
    rw [List.length_drop] at hi
    rw [List.getElem_drop]
    refine hp _ (h.trans ?_)
    rcases Nat.eq_zero_or_pos i with rfl | hi0
    · simp
    · exact List.pairwise_iff_getElem.1 hs k (k + i) hk (by omega) (by omega)
  rw [← h1]
  exact (List.drop_sublist _ _).countP_le

theorem getD_of_lt {s : List ℝ} {k : Nat} (h : k < s.length) : s.getD k 0 = s[k] := by
  simp [List.getD, h]

/-! ## Property theorems -/

/-- **C63 (median).** At least half of the errors are at most, and at least half of them are at least the median error. -/
theorem C63_median (l : List ℝ) (hl : l ≠ []) (below above : ℝ → Bool) (hb : ∀ x, x ≤ median l → below x = true) (ha : ∀ x, median l ≤ x → above x = true) :
    l.length ≤ 2 * l.countP below ∧ l.length ≤ 2 * l.countP above := by
  classical
  have hperm := List.mergeSort_perm l (fun a b : ℝ => decide (a ≤ b))
  have hsort := sorted_mergeSort_real l
  have hlen := hperm.length_eq
  rw [← hperm.countP_eq below, ← hperm.countP_eq above, ← hlen]
  have hm : median l = if (l.mergeSort (fun a b => decide (a ≤ b))).length % 2 = 1 then (l.mergeSort (fun a b => decide (a ≤ b))).getD ((l.mergeSort (fun a b => decide (a ≤ b))).length / 2) 0
      else ((l.mergeSort (fun a b => decide (a ≤ b))).getD ((l.mergeSort (fun a b => decide (a ≤ b))).length / 2 - 1) 0 +
        (l.mergeSort (fun a b => decide (a ≤ b))).getD ((l.mergeSort (fun a b => decide (a ≤ b))).length / 2) 0) / 2 := by
    unfold median
    congr!
  have hpos : 0 < (l.mergeSort (fun a b => decide (a ≤ b))).length := by rw [hlen]; exact List.length_pos_of_ne_nil hl
  generalize l.mergeSort (fun a b => decide (a ≤ b)) = s at hsort hm hpos
  have h1 : s.length / 2 < s.length := by omega
  have h0 : s.length / 2 - 1 < s.length := by omega
  rw [getD_of_lt h1, getD_of_lt h0] at hm
  split_ifs at hm with hodd
  · have c1 := count_below hsort below hb h1 hm.ge
    have c2 := count_above hsort above ha h1 hm.le
    omega
  · have hle : s[s.length / 2 - 1] ≤ s[s.length / 2] := List.pairwise_iff_getElem.1 hsort _ _ h0 h1 (by omega)
    have c1 := count_below hsort below hb h0 (by rw [hm]; linarith)
    have c2 := count_above hsort above ha h1 (by rw [hm]; linarith)
    omega

/-- The median of an even number of errors is in the middle between two of them. -/
theorem C63_median_even {l : List ℝ} (hl : l ≠ []) (he : l.length % 2 = 0) : ∃ a ∈ l, ∃ b ∈ l, a ≤ b ∧ median l = (a + b) / 2 ∧ ∃ u v, l.Perm (u ++ v) ∧ u.length = v.length ∧ (∀ x ∈ u, x ≤ a) ∧ ∀ x ∈ v, b ≤ x := by
  classical
  have hperm := List.mergeSort_perm l (fun a b : ℝ => decide (a ≤ b))
  have hsort := sorted_mergeSort_real l
  have hlen := hperm.length_eq
  have hm : median l = if (l.mergeSort (fun a b => decide (a ≤ b))).length % 2 = 1 then (l.mergeSort (fun a b => decide (a ≤ b))).getD ((l.mergeSort (fun a b => decide (a ≤ b))).length / 2) 0
      else ((l.mergeSort (fun a b => decide (a ≤ b))).getD ((l.mergeSort (fun a b => decide (a ≤ b))).length / 2 - 1) 0 +
        (l.mergeSort (fun a b => decide (a ≤ b))).getD ((l.mergeSort (fun a b => decide (a ≤ b))).length / 2) 0) / 2 := by
    unfold median
    congr!
  have hpos : 0 < (l.mergeSort (fun a b => decide (a ≤ b))).length := by rw [hlen]; exact List.length_pos_of_ne_nil hl
  generalize l.mergeSort (fun a b => decide (a ≤ b)) = s at hsort hm hpos hperm hlen
  have h1 : s.length / 2 < s.length := by omega
  have h0 : s.length / 2 - 1 < s.length := by omega
  rw [getD_of_lt h1, getD_of_lt h0, if_neg (by omega)] at hm
  refine ⟨_, hperm.mem_iff.1 (List.getElem_mem h0), _, hperm.mem_iff.1 (List.getElem_mem h1), List.pairwise_iff_getElem.1 hsort _ _ h0 h1 (by omega), hm,
    s.take (s.length / 2), s.drop (s.length / 2), by rw [List.take_append_drop]; exact hperm.symm, by simp; omega, ?_, ?_⟩
  · intro x hx
    obtain ⟨i, hi, rfl⟩ := List.getElem_of_mem hx
    rw [List.length_take] at hi
    rw [List.getElem_take]
    rcases Nat.lt_or_ge i (s.length / 2 - 1) with h | h
    · exact List.pairwise_iff_getElem.1 hsort _ _ _ _ h
    · have : i = s.length / 2 - 1 := by omega
      subst this
      exact le_rfl
  · intro x hx
    obtain ⟨i, hi, rfl⟩ := List.getElem_of_mem hx
    rw [List.length_drop] at hi
    rw [List.getElem_drop]
    rcases Nat.eq_zero_or_pos i with rfl | h
    · simp
    · exact List.pairwise_iff_getElem.1 hsort _ _ _ (by omega) (by omega)

/-- **C63 (median absolute error zero).** At least half of the errors vanish. -/
theorem C63_medae_partial (l : List ℝ) (hl : l ≠ []) (hn : ∀ x ∈ l, 0 ≤ x) (h : median l = 0) (zero : ℝ → Bool) (hz : zero 0 = true) : l.length ≤ 2 * l.countP zero := by
  classical
  have := (C63_median l hl (fun x => decide (x ≤ 0)) (fun _ => true) (fun x hx => by rw [h] at hx; simpa using hx) (fun _ _ => rfl)).1
  refine this.trans (Nat.mul_le_mul_left 2 (List.countP_mono_left (fun x hx hx0 => ?_)))
  have : x = 0 := le_antisymm (by simpa using hx0) (hn x hx)
  rw [this]
  exact hz

/-- non-vacuity: four errors, two of them zero; the median is positive. -/
example : median [0, 3, 0, 1] = 1 / 2 := by
  unfold median
  have : ([0, 3, 0, 1] : List ℝ).mergeSort (fun a b => decide (a ≤ b)) = [0, 0, 1, 3] := by
    refine List.Perm.eq_of_pairwise (le := (· ≤ ·)) (fun a b _ _ h1 h2 => le_antisymm h1 h2) ?_ ?_ ((List.mergeSort_perm _ _).trans ?_)
    · exact sorted_mergeSort_real _
    · norm_num
    · exact List.Perm.cons _ ((List.Perm.swap _ _ _).trans (List.Perm.cons _ (List.Perm.swap _ _ _)))
  simp [this]

end Verif.Tsc
