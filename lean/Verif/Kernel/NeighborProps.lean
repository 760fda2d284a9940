import Verif.Kernel.Neighbor
import Verif.Kernel.NormalizeLemmas
/-!
# C100, C101: nearest neighbour distances and the continuous nearest neighbour graph
-/

namespace Verif.Kernel

open Matrix

/-! ## Specification -/

open Classical in
/-- `v` is the `k`-th smallest entry of `l`: less than `k` entries are smaller, at least `k` are not larger. -/
def IsKth (l : List ℝ) (k : Nat) (v : ℝ) : Prop := v ∈ l ∧ l.countP (fun x => decide (x < v)) < k ∧ k ≤ l.countP (fun x => decide (x ≤ v))

/-! ## Helper lemmas -/

open Classical in
theorem IsKth.unique {l : List ℝ} {k : Nat} {v w : ℝ} (hv : IsKth l k v) (hw : IsKth l k w) : v = w := by
  have key : ∀ {a b : ℝ}, IsKth l k a → IsKth l k b → ¬ a < b := by
    intro a b ha hb hab
    have : l.countP (fun x => decide (x ≤ a)) ≤ l.countP (fun x => decide (x < b)) :=
      List.countP_mono_left (fun x _ hx => by simp only [decide_eq_true_eq] at hx ⊢; exact lt_of_le_of_lt hx hab)
    exact absurd (ha.2.2.trans this) (not_le.mpr hb.2.1)
  exact le_antisymm (not_lt.mp (key hw hv)) (not_lt.mp (key hv hw))

open Classical in
theorem IsKth.perm {l l' : List ℝ} (h : l.Perm l') {k : Nat} {v : ℝ} (hv : IsKth l k v) : IsKth l' k v :=
  ⟨h.mem_iff.mp hv.1, by rw [← h.countP_eq]; exact hv.2.1, by rw [← h.countP_eq]; exact hv.2.2⟩

theorem countP_split (l : List ℝ) (p : ℝ → Bool) (j : Nat) : l.countP p = (l.take j).countP p + (l.drop j).countP p := by
  rw [← List.countP_append, List.take_append_drop]

open Classical in
theorem isKth_sorted {l : List ℝ} (hs : l.Pairwise (· ≤ ·)) {k : Nat} (h1 : 1 ≤ k) (h2 : k ≤ l.length) : IsKth l k (l.getD (k - 1) 0) := by
  have hlt : k - 1 < l.length := by omega
  have hg : l.getD (k - 1) 0 = l[k - 1] := by simp [List.getD, hlt]
  rw [hg]
  refine ⟨List.getElem_mem _, ?_, ?_⟩
  · rw [countP_split l _ (k - 1)]
    have : (l.drop (k - 1)).countP (fun x => decide (x < l[k - 1])) = 0 := by
      rw [List.countP_eq_zero]
      intro x hx
      simp only [decide_eq_true_eq, not_lt]
      obtain ⟨i, hi, rfl⟩ := List.mem_iff_getElem.mp hx
      rw [List.getElem_drop]
      rcases Nat.eq_zero_or_pos i with rfl | hi0
      · simp
      · exact List.pairwise_iff_getElem.mp hs _ _ _ _ (by omega)
    rw [this, Nat.add_zero]
    refine lt_of_le_of_lt (List.countP_le_length) ?_
    rw [List.length_take]
    omega
  · rw [countP_split l _ k]
    have : (l.take k).countP (fun x => decide (x ≤ l[k - 1])) = (l.take k).length := by
      rw [List.countP_eq_length]
      intro x hx
      simp only [decide_eq_true_eq]
      obtain ⟨i, hi, rfl⟩ := List.mem_iff_getElem.mp hx
      rw [List.length_take] at hi
      rw [List.getElem_take]
      rcases Nat.lt_or_ge i (k - 1) with h | h
      · exact List.pairwise_iff_getElem.mp hs _ _ _ _ h
      · have : i = k - 1 := by omega
        subst this
        exact le_refl _
    rw [this, List.length_take]
    omega

open Classical in
theorem kthSmallest_isKth (l : List ℝ) {k : Nat} (h1 : 1 ≤ k) (h2 : k ≤ l.length) : IsKth l k (kthSmallest l k) := by
  have hp : (l.mergeSort (fun a b => decide (a ≤ b))).Perm l := List.mergeSort_perm _ _
  have hs : (l.mergeSort (fun a b => decide (a ≤ b))).Pairwise (· ≤ ·) := by
    have := List.pairwise_mergeSort (le := fun a b : ℝ => decide (a ≤ b)) (fun a b c h1 h2 => by simp only [decide_eq_true_eq] at *; exact h1.trans h2)
      (fun a b => by simp only [Bool.or_eq_true, decide_eq_true_eq]; exact le_total a b) l
    exact this.imp (fun h => by simpa using h)
  exact (isKth_sorted hs h1 (by rw [hp.length_eq]; exact h2)).perm hp

/-! ## C100 -/

/-- C100: exactly the numbers of neighbours from one to the number of columns are accepted, and the result is the `k`-th smallest entry of each row. -/
theorem C100_dense {m n : Nat} (D : Matrix (Fin m) (Fin n) ℝ) (k : Nat) :
    (∃ v, kthDense D k = .ok v ∧ ∀ i, IsKth (List.ofFn (D i)) k (v i)) ∧ 0 < k ∧ k ≤ n ∨ kthDense D k = .error .value ∧ ¬ (0 < k ∧ k ≤ n) := by
  unfold kthDense
  by_cases h : 0 < k ∧ k ≤ n
  · rw [if_pos h]
    exact Or.inl ⟨⟨_, rfl, fun i => kthSmallest_isKth _ h.1 (by simpa using h.2)⟩, h⟩
  · rw [if_neg h]
    exact Or.inr ⟨rfl, h⟩

open Classical in
/-- C100: a sparse matrix that stores exactly the distances below a cut-off has the same result as the dense one, or the call raises because a row has too few entries. -/
theorem C100_sparse {m n : Nat} (D : Matrix (Fin m) (Fin n) ℝ) (cutOff : ℝ) (rows : Fin m → List ℝ) (hr : ∀ i, (rows i).Perm ((List.ofFn (D i)).filter (fun x => decide (x < cutOff)))) (k : Nat) :
    kthSparse n rows k = kthDense D k ∨ kthSparse n rows k = .error .value ∧ ∃ i, ((List.ofFn (D i)).filter (fun x => decide (x < cutOff))).length < k := by
  unfold kthSparse kthDense
  by_cases h : 0 < k ∧ k ≤ n
  · rw [if_pos h, if_pos h]
    by_cases hl : ∃ i, (rows i).length < k
    · rw [if_pos hl]
      obtain ⟨i, hi⟩ := hl
      exact Or.inr ⟨rfl, i, by rw [← (hr i).length_eq]; exact hi⟩
    · rw [if_neg hl]
      push Not at hl
      refine Or.inl ?_
      congr 1
      funext i
      have h1 := (kthSmallest_isKth (rows i) h.1 (hl i)).perm (hr i)
      have h2 := kthSmallest_isKth (List.ofFn (D i)) h.1 (by simpa using h.2)
      refine IsKth.unique ?_ h2
      obtain ⟨g1, g2, g3⟩ := h1
      obtain ⟨g4, g5⟩ := List.mem_filter.mp g1
      simp only [decide_eq_true_eq] at g5
      refine ⟨g4, ?_, ?_⟩
      · rw [List.countP_filter] at g2
        refine lt_of_le_of_lt (le_of_eq (List.countP_congr (fun x _ => ?_))) g2
        simp only [Bool.and_eq_true, decide_eq_true_eq]
        exact ⟨fun h => ⟨h, h.trans g5⟩, fun h => h.1⟩
      · rw [List.countP_filter] at g3
        refine g3.trans (le_of_eq (List.countP_congr (fun x _ => ?_)))
        simp only [Bool.and_eq_true, decide_eq_true_eq]
        exact ⟨fun h => h.1, fun h => ⟨h, lt_of_le_of_lt h g5⟩⟩
  · rw [if_neg h, if_neg h]
    exact Or.inl rfl

example : IsKth [3, 1, 2] 2 2 := by
  unfold IsKth
  refine ⟨by simp, ?_, ?_⟩ <;> norm_num [List.countP_cons]

/-! ## C101 -/

/-- A distance matrix of a point cloud. -/
def IsDistance {n : Nat} (D : Matrix (Fin n) (Fin n) ℝ) : Prop := (∀ i j, 0 ≤ D i j) ∧ (∀ i j, D i j = D j i) ∧ ∀ i, D i i = 0

theorem mul_inv_lt {x a b c : ℝ} (ha : 0 < a) (hb : 0 < b) : a⁻¹ * x * b⁻¹ < c ↔ x < c * (a * b) := by
  have : a⁻¹ * x * b⁻¹ = x / (a * b) := by field_simp
  rw [this, div_lt_iff₀ (mul_pos ha hb)]

/-- C101, the true part: if every point has a positive distance to its `k`-th neighbour (the point itself is the first one), the graph is undirected, has all self-loops and an edge exactly
between points with `d(x, y) < delta * √(d_k(x) d_k(y))`; evaluating it component-wise at the training points gives the same graph if `k` is less than the number of points. -/
theorem C101_graph_partial {n : Nat} (c : CkNN) (hc : c.Admissible) (D : Matrix (Fin n) (Fin n) ℝ) (hD : IsDistance D) (hn : 0 < n) (hk : c.k ≤ n)
    (hpos : ∀ i v, IsKth (List.ofFn (D i)) c.k v → 0 < v) :
    ∃ G v, c.pdist none D = .ok (G, v) ∧ (∀ i, IsKth (List.ofFn (D i)) c.k (v i)) ∧ (∀ i j, G i j ↔ D i j < c.delta * Real.sqrt (v i * v j)) ∧ (∀ i j, G i j ↔ G j i) ∧ (∀ i, G i i) ∧
      (c.k ≤ n - 1 → ∃ G', c.cdist (some v) D = .ok G' ∧ ∀ i j, G' i j ↔ G i j) := by
  have hkth : ∀ i, IsKth (List.ofFn (D i)) c.k (kthSmallest (List.ofFn (D i)) c.k) := fun i => kthSmallest_isKth _ hc.2 (by simpa using hk)
  have hv : ∀ i, 0 < kthSmallest (List.ofFn (D i)) c.k := fun i => hpos i _ (hkth i)
  have hd : kthDense D c.k = .ok (fun i => kthSmallest (List.ofFn (D i)) c.k) := by
    unfold kthDense
    rw [if_pos ⟨hc.2, hk⟩]
  generalize hw : (fun i => kthSmallest (List.ofFn (D i)) c.k) = v at hd
  have hvv : ∀ i, kthSmallest (List.ofFn (D i)) c.k = v i := fun i => by rw [← hw]
  simp only [hvv] at hkth hv
  have hs : ∀ i, 0 < Real.sqrt (v i) := fun i => Real.sqrt_pos.mpr (hv i)
  have hedge : ∀ i j, (Real.sqrt (v i))⁻¹ * D i j * (Real.sqrt (v j))⁻¹ < c.delta ↔ D i j < c.delta * Real.sqrt (v i * v j) := by
    intro i j
    rw [mul_inv_lt (hs i) (hs j), Real.sqrt_mul (hv i).le]
  have hdiv : divide D (fun i => Real.sqrt (v i)) (fun j => Real.sqrt (v j)) = .ok (Matrix.of (fun i j => (Real.sqrt (v i))⁻¹ * D i j * (Real.sqrt (v j))⁻¹)) := by
    unfold divide
    rw [if_neg (by push Not; exact fun i => (hs i).ne'), if_neg (by push Not; exact fun i => (hs i).ne')]
  have hsq : ∃ F, divideSquare D (fun i => Real.sqrt (v i)) c.symmetric = .ok F ∧ ∀ i j, F i j = (Real.sqrt (v i))⁻¹ * D i j * (Real.sqrt (v j))⁻¹ := by
    unfold divideSquare
    rw [hdiv]
    refine ⟨_, rfl, fun i j => ?_⟩
    split
    · simp only [removeNoise, of_apply]
      rw [hD.2.1 j i]
      ring
    · rfl
  obtain ⟨F, hF1, hF2⟩ := hsq
  have hG : ∀ i j, F i j < c.delta ↔ D i j < c.delta * Real.sqrt (v i * v j) := fun i j => by rw [hF2]; exact hedge i j
  refine ⟨fun i j => F i j < c.delta, v, ?_, hkth, hG, ?_, ?_, ?_⟩
  · unfold CkNN.pdist
    rw [if_neg (by push Not; exact ⟨⟨0, hn⟩, hD.2.2 _⟩)]
    simp only [Option.isSome_none, Bool.false_eq_true, if_false, hd, hF1]
  · intro i j
    beta_reduce
    rw [hG, hG, hD.2.1 i j, mul_comm (v i)]
  · intro i
    beta_reduce
    rw [hG, hD.2.2]
    exact mul_pos hc.1 (Real.sqrt_pos.mpr (mul_pos (hv i) (hv i)))
  · intro hk1
    refine ⟨fun i j => (Real.sqrt (v i))⁻¹ * D i j * (Real.sqrt (v j))⁻¹ < c.delta, ?_, ?_⟩
    · unfold CkNN.cdist
      have := hc.2
      rw [if_neg (by omega)]
      simp only [hd, hdiv]
      rfl
    · intro i j
      beta_reduce
      rw [hF2]

open Classical in
/-- C101 is violated for `k_neighbor=1`, which is accepted: every pair-wise evaluation raises, because the nearest neighbour of a point is the point itself. -/
theorem C101_violated_one {n : Nat} (delta : ℝ) (s : Bool) (D : Matrix (Fin n) (Fin n) ℝ) (hD : IsDistance D) (hn : 0 < n) : (CkNN.mk 1 delta s).pdist none D = .error .zeroDivision := by
  have h0 : ∀ i, kthSmallest (List.ofFn (D i)) 1 = 0 := by
    intro i
    refine (kthSmallest_isKth (List.ofFn (D i)) le_rfl (by rw [List.length_ofFn]; exact hn)).unique ⟨?_, ?_, ?_⟩
    · exact List.mem_ofFn.mpr ⟨i, hD.2.2 i⟩
    · rw [Nat.lt_one_iff, List.countP_eq_zero]
      intro x hx
      obtain ⟨j, rfl⟩ := List.mem_ofFn.mp hx
      simp only [decide_eq_true_eq, not_lt]
      exact hD.1 i j
    · rw [Nat.one_le_iff_ne_zero, ← Nat.pos_iff_ne_zero, List.countP_pos_iff]
      exact ⟨D i i, List.mem_ofFn.mpr ⟨i, rfl⟩, by simp [hD.2.2 i]⟩
  unfold CkNN.pdist
  rw [if_neg (by push Not; exact ⟨⟨0, hn⟩, hD.2.2 _⟩)]
  have hd : kthDense D 1 = .ok (fun i => kthSmallest (List.ofFn (D i)) 1) := by
    unfold kthDense
    rw [if_pos ⟨one_pos, hn⟩]
  simp only [Option.isSome_none, Bool.false_eq_true, if_false, hd]
  unfold divideSquare divide
  rw [if_pos ⟨⟨0, hn⟩, by beta_reduce; rw [h0]; exact Real.sqrt_zero⟩]

/-- C101 is violated for `k_neighbor` equal to the number of points: the pair-wise evaluation is accepted, every component-wise one is rejected. -/
theorem C101_violated_all {m n : Nat} (c : CkNN) (hk : c.k = n) (hn : 0 < n) (w : Fin n → ℝ) (D : Matrix (Fin m) (Fin n) ℝ) : c.cdist (some w) D = .error .value := by
  unfold CkNN.cdist
  rw [if_pos (by omega)]

/-- The distance matrix of the points 0, 1, 3. -/
def nnD : Matrix (Fin 3) (Fin 3) ℝ := !![0, 1, 3; 1, 0, 2; 3, 2, 0]

theorem nnD_distance : IsDistance nnD := by
  refine ⟨?_, ?_, ?_⟩
  · intro i j
    fin_cases i <;> fin_cases j <;> norm_num [nnD]
  · intro i j
    fin_cases i <;> fin_cases j <;> rfl
  · intro i
    fin_cases i <;> rfl

example : (CkNN.mk 2 1 true).Admissible ∧ IsDistance nnD ∧ ∀ i v, IsKth (List.ofFn (nnD i)) 2 v → 0 < v := by
  refine ⟨⟨one_pos, by norm_num⟩, nnD_distance, ?_⟩
  intro i v ⟨h1, h2, h3⟩
  obtain ⟨j, rfl⟩ := List.mem_ofFn.mp h1
  rcases eq_or_lt_of_le (nnD_distance.1 i j) with h | h
  · rw [← h] at h3
    exfalso
    fin_cases i <;> norm_num [nnD, List.ofFn_succ, List.countP_cons] at h3
  · exact h

end Verif.Kernel
