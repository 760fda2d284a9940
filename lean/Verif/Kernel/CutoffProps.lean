import Verif.Kernel.Cutoff
import Verif.Kernel.NeighborProps
/-!
# C133: the estimated cut-off distance
-/

namespace Verif.Kernel

open Matrix

/-! ## Specification -/

open Classical in
/-- The number of points at a distance of at most `r` from point `i` (the point itself included). -/
noncomputable def within {n : Nat} (D : Matrix (Fin n) (Fin n) ℝ) (i : Fin n) (r : ℝ) : Nat := (List.finRange n).countP fun j => decide (D i j ≤ r)

open Classical in
/-- The number of points closer than `r` to point `i`. -/
noncomputable def closer {n : Nat} (D : Matrix (Fin n) (Fin n) ℝ) (i : Fin n) (r : ℝ) : Nat := (List.finRange n).countP fun j => decide (D i j < r)

/-! ## Helper lemmas -/

theorem foldl_max_spec (l : List ℝ) : ∀ a : ℝ, a ≤ l.foldl max a ∧ (∀ x ∈ l, x ≤ l.foldl max a) ∧ (l.foldl max a = a ∨ l.foldl max a ∈ l) := by
  induction l with
  | nil => intro a; simp
  | cons b l ih =>
    intro a
    obtain ⟨h1, h2, h3⟩ := ih (max a b)
    refine ⟨(le_max_left _ _).trans h1, ?_, ?_⟩
    · intro x hx
      rcases List.mem_cons.mp hx with rfl | hx
      · exact (le_max_right _ _).trans h1
      · exact h2 x hx
    · simp only [List.foldl_cons]
      rcases h3 with h3 | h3
      · rcases max_choice a b with h | h
        · exact Or.inl (h3.trans h)
        · exact Or.inr (by rw [h3, h]; simp)
      · exact Or.inr (List.mem_cons_of_mem _ h3)

theorem npMax_iff (l : List ℝ) (v : ℝ) : npMax l = .ok v ↔ v ∈ l ∧ ∀ x ∈ l, x ≤ v := by
  cases l with
  | nil => simp [npMax]
  | cons a l =>
    obtain ⟨h1, h2, h3⟩ := foldl_max_spec l a
    have hmem : l.foldl max a ∈ a :: l := by
      rcases h3 with h3 | h3
      · rw [h3]; simp
      · exact List.mem_cons_of_mem _ h3
    have hle : ∀ x ∈ a :: l, x ≤ l.foldl max a := by
      intro x hx
      rcases List.mem_cons.mp hx with rfl | hx
      · exact h1
      · exact h2 x hx
    simp only [npMax, Except.ok.injEq]
    constructor
    · rintro rfl; exact ⟨hmem, hle⟩
    · rintro ⟨hv, hm⟩; exact le_antisymm (hm _ hmem) (hle _ hv)

theorem npMax_total {l : List ℝ} (h : l ≠ []) : ∃ v, npMax l = .ok v := by
  cases l with
  | nil => exact absurd rfl h
  | cons a l => exact ⟨_, rfl⟩

open Classical in
theorem isKth_within {n : Nat} (D : Matrix (Fin n) (Fin n) ℝ) (i : Fin n) (k : Nat) (v : ℝ) : IsKth (List.ofFn (D i)) k v ↔ (∃ j, D i j = v) ∧ closer D i v < k ∧ k ≤ within D i v := by
  unfold IsKth closer within
  rw [List.mem_ofFn, List.ofFn_eq_map, List.countP_map, List.countP_map]
  rfl

/-- The check of `k` accepts whole numbers and all numbers larger than one. -/
theorem checkCutoffK_ok (k : Rat) (h : k.den = 1 ∨ 1 < k) : checkCutoffK k = .ok k.floor := by
  unfold checkCutoffK
  rw [if_neg]
  rintro ⟨h1, h2⟩
  rcases h with h | h
  · exact h2 h
  · exact absurd h1 (not_le.mpr h)

theorem bindOk {α β : Type} (a : α) (f : α → Except KErr β) : Except.bind (.ok a) f = f a := rfl

theorem floor_natCast (k : Nat) : (k : Rat).floor = (k : Int) := by
  rw [← Rat.floor_intCast (k : Int)]; rfl

/-- The rows of the neighbour distances. -/
theorem kthRows_ok {m n : Nat} (D : Matrix (Fin m) (Fin n) ℝ) (k : Int) (h : 1 ≤ k) (hn : k ≤ n) :
    kthRows D k = .ok (List.ofFn fun i => kthSmallest (List.ofFn (D i)) k.toNat) := by
  unfold kthRows kthDense
  rw [if_pos (by omega)]

theorem kthRows_error {m n : Nat} (D : Matrix (Fin m) (Fin n) ℝ) (k : Int) (h : ¬ (1 ≤ k ∧ k ≤ n)) : kthRows D k = .error .value := by
  unfold kthRows kthDense
  rw [if_neg (by omega)]

/-! ## C133 -/

/-- C133, the true part: for at least ten points, a whole number `k ≥ 1` of neighbours and a subsample of at least `k` points, the estimate is returned, every point of the subsample has at least
`k` points (with itself) within the cut-off, and for some point of the subsample less than `k` points are closer than the cut-off: it is the smallest distance that gives all of them `k` neighbours. -/
theorem C133_neighbours_partial {n : Nat} (D : Matrix (Fin n) (Fin n) ℝ) (perm : List (Fin n)) (hp : perm.Perm (List.finRange n)) (hn : 10 ≤ n) (nSubsample k : Nat) (h1 : 1 ≤ k) (hs : k ≤ nSubsample) (hkn : k ≤ n) :
    ∃ v, estimateCutoff D perm nSubsample k = .ok v ∧ (∀ i ∈ perm.take nSubsample, k ≤ within D i v) ∧ (∃ i ∈ perm.take nSubsample, closer D i v < k) ∧
      ∀ r, (∀ i ∈ perm.take nSubsample, k ≤ within D i r) → v ≤ r := by
  classical
  have hlen : perm.length = n := by rw [hp.length_eq, List.length_finRange]
  have htake : perm.take (min n nSubsample) = perm.take nSubsample := by
    rcases le_total n nSubsample with h | h
    · rw [min_eq_left h, List.take_of_length_le (by omega), List.take_of_length_le (by omega)]
    · rw [min_eq_right h]
  have hsub : (perm.take nSubsample).length = min nSubsample n := by rw [List.length_take, hlen]
  have hfl : (k : Rat).floor = (k : Int) := floor_natCast k
  unfold estimateCutoff
  rw [checkCutoffK_ok (k : Rat) (Or.inl (Rat.den_natCast k)), hfl]
  simp only [bindOk, if_neg (not_lt.mpr hn)]
  rw [htake]
  generalize hS : perm.take nSubsample = sub at *
  have hlim : limitK (k : Int) sub.length = k := by unfold limitK; omega
  rw [hlim, kthRows_ok _ _ (by omega) (by omega)]
  simp only [Int.toNat_natCast]
  have hne : (List.ofFn fun i : Fin sub.length => kthSmallest (List.ofFn fun j => subRows D sub i j) k) ≠ [] := by
    intro h
    have := congrArg List.length h
    simp at this
    subst this
    simp at hsub
    omega
  obtain ⟨v, hv⟩ := npMax_total hne
  refine ⟨v, hv, ?_⟩
  obtain ⟨hm, hle⟩ := (npMax_iff _ _).1 hv
  have hk : ∀ i : Fin sub.length, IsKth (List.ofFn (D (sub.get i))) k (kthSmallest (List.ofFn (D (sub.get i))) k) := fun i => kthSmallest_isKth _ h1 (by rw [List.length_ofFn]; omega)
  have hmono : ∀ i a b, a ≤ b → within D i a ≤ within D i b := fun i a b hab => List.countP_mono_left (fun j _ hj => by
    simp only [decide_eq_true_eq] at hj ⊢; exact hj.trans hab)
  refine ⟨?_, ?_, ?_⟩
  · intro i hi
    obtain ⟨a, ha, rfl⟩ := List.mem_iff_getElem.mp hi
    have := ((isKth_within D _ _ _).1 (hk ⟨a, ha⟩)).2.2
    exact this.trans (hmono _ _ _ (hle _ (List.mem_ofFn.mpr ⟨⟨a, ha⟩, rfl⟩)))
  · obtain ⟨i, hi⟩ := List.mem_ofFn.mp hm
    refine ⟨(sub.get i), List.getElem_mem _, ?_⟩
    have := ((isKth_within D _ _ _).1 (hk i)).2.1
    rw [show kthSmallest (List.ofFn (D (sub.get i))) k = v from hi] at this
    exact this
  · intro r hr
    obtain ⟨i, hi⟩ := List.mem_ofFn.mp hm
    by_contra hlt
    have h2 := ((isKth_within D _ _ _).1 (hk i)).2.1
    rw [show kthSmallest (List.ofFn (D (sub.get i))) k = v from hi] at h2
    have h3 := hr (sub.get i) (List.getElem_mem _)
    have : within D (sub.get i) r ≤ closer D (sub.get i) v := List.countP_mono_left (fun j _ hj => by
      simp only [decide_eq_true_eq] at hj ⊢; exact lt_of_le_of_lt hj (not_le.mp hlt))
    omega

/-- C133: with all points in the subsample every point of the cloud has `k` neighbours within the cut-off, and the estimate does not depend on the random permutation. -/
theorem C133_all_points {n : Nat} (D : Matrix (Fin n) (Fin n) ℝ) (perm perm' : List (Fin n)) (hp : perm.Perm (List.finRange n)) (hp' : perm'.Perm (List.finRange n)) (hn : 10 ≤ n) (nSubsample k : Nat)
    (h1 : 1 ≤ k) (hs : n ≤ nSubsample) (hkn : k ≤ n) :
    ∃ v, estimateCutoff D perm nSubsample k = .ok v ∧ estimateCutoff D perm' nSubsample k = .ok v ∧ (∀ i, k ≤ within D i v) ∧ ∃ i, closer D i v < k := by
  obtain ⟨v, hv, ha, hb, hc⟩ := C133_neighbours_partial D perm hp hn nSubsample k h1 (by omega) hkn
  obtain ⟨w, hw, ha', hb', hc'⟩ := C133_neighbours_partial D perm' hp' hn nSubsample k h1 (by omega) hkn
  have ht : ∀ q : List (Fin n), q.Perm (List.finRange n) → ∀ i, i ∈ q.take nSubsample := by
    intro q hq i
    rw [List.take_of_length_le (by rw [hq.length_eq, List.length_finRange]; exact hs)]
    exact hq.mem_iff.mpr (List.mem_finRange i)
  have hvw : v = w := le_antisymm (hc w fun i _ => ha' i (ht _ hp' i)) (hc' v fun i _ => ha i (ht _ hp i))
  subst hvw
  exact ⟨v, hv, hw, fun i => ha i (ht _ hp i), hb.imp fun i h => h.2⟩

/-- C133 is violated by the check of `k`: one neighbour is accepted although the message asks for more than one, and every cut-off estimated with it is zero (the point is its own neighbour). -/
theorem C133_one_violated {n : Nat} (D : Matrix (Fin n) (Fin n) ℝ) (hD : IsDistance D) (perm : List (Fin n)) (hp : perm.Perm (List.finRange n)) (hn : 10 ≤ n) (nSubsample : Nat) (hs : 1 ≤ nSubsample) :
    estimateCutoff D perm nSubsample 1 = .ok 0 := by
  classical
  obtain ⟨v, hv, ha, ⟨i, hi, hb⟩, hc⟩ := C133_neighbours_partial D perm hp hn nSubsample 1 le_rfl hs (by omega)
  rw [Nat.cast_one] at hv
  rw [hv]
  have h0 : v ≤ 0 := hc 0 fun j _ => by
    unfold within
    exact List.countP_pos_iff.mpr ⟨j, List.mem_finRange j, by simp [hD.2.2 j]⟩
  have h1 : ¬ v < 0 := by
    intro hlt
    have := ha i hi
    unfold within at this
    obtain ⟨j, -, hj⟩ := List.countP_pos_iff.mp (Nat.lt_of_lt_of_le Nat.zero_lt_one this)
    rw [decide_eq_true_eq] at hj
    exact absurd (hD.1 i j) (not_le.mpr (lt_of_le_of_lt hj hlt))
  rw [le_antisymm h0 (not_lt.mp h1)]

/-- C133 is violated by the check of `k`: every number above one is accepted and truncated, whole or not; e.g. two and a half neighbours are two. -/
theorem C133_truncated_violated {n : Nat} (D : Matrix (Fin n) (Fin n) ℝ) (perm : List (Fin n)) (nSubsample : Nat) (k : Rat) (hk : 1 < k) :
    estimateCutoff D perm nSubsample k = estimateCutoff D perm nSubsample k.floor := by
  unfold estimateCutoff
  rw [checkCutoffK_ok k (Or.inr hk), checkCutoffK_ok _ (Or.inl (Rat.den_intCast _)), Rat.floor_intCast]

/-- C133 is violated for subsamples smaller than the number of neighbours: `k` is replaced by the size of the subsample although all points are searched. -/
theorem C133_subsample_violated {n : Nat} (D : Matrix (Fin n) (Fin n) ℝ) (perm : List (Fin n)) (hp : perm.Perm (List.finRange n)) (hn : 10 ≤ n) (nSubsample k : Nat) (hs : 1 ≤ nSubsample) (hk : nSubsample ≤ k) (hsn : nSubsample ≤ n) :
    estimateCutoff D perm nSubsample k = estimateCutoff D perm nSubsample nSubsample := by
  have hlen : perm.length = n := by rw [hp.length_eq, List.length_finRange]
  unfold estimateCutoff
  rw [checkCutoffK_ok (k : Rat) (Or.inl (Rat.den_natCast k)), checkCutoffK_ok (nSubsample : Rat) (Or.inl (Rat.den_natCast _)), show (k : Rat).floor = (k : Int) from floor_natCast k,
    show (nSubsample : Rat).floor = (nSubsample : Int) from floor_natCast nSubsample]
  simp only [bindOk, if_neg (not_lt.mpr hn)]
  have : ∀ x : Nat, nSubsample ≤ x → limitK (x : Int) (perm.take (min n nSubsample)).length = nSubsample := by
    intro x hx
    unfold limitK
    rw [List.length_take, hlen]
    omega
  rw [this k hk, this nSubsample le_rfl]

/-- C133: which numbers are rejected.  Less than one neighbour always (for at least ten points), but for less than ten points whole numbers are never checked: the largest distance is returned for every `k`. -/
theorem C133_rejects {n : Nat} (D : Matrix (Fin n) (Fin n) ℝ) (perm : List (Fin n)) (nSubsample : Nat) (k : Rat) :
    (10 ≤ n → k < 1 → estimateCutoff D perm nSubsample k = .error .value) ∧ (n < 10 → (k.den = 1 ∨ 1 < k) → estimateCutoff D perm nSubsample k = npMax (pdistList D)) := by
  constructor
  · intro hn hk
    unfold estimateCutoff
    by_cases hd : k.den = 1
    · rw [checkCutoffK_ok k (Or.inl hd)]
      simp only [bindOk, if_neg (not_lt.mpr hn)]
      have : k.floor < 1 := by
        have := Rat.floor_le k
        have h2 : (k.floor : Rat) < 1 := lt_of_le_of_lt this hk
        exact_mod_cast h2
      rw [kthRows_error _ _ (by unfold limitK; omega)]
      rfl
    · unfold checkCutoffK
      rw [if_pos ⟨hk.le, hd⟩]
      rfl
  · intro hn hk
    unfold estimateCutoff
    rw [checkCutoffK_ok k hk]
    simp only [Except.bind, if_pos hn]

/-- The largest distance is larger than every distance between different points, for a symmetric matrix. -/
theorem C133_few_points {n : Nat} (D : Matrix (Fin n) (Fin n) ℝ) (hD : IsDistance D) (v : ℝ) : npMax (pdistList D) = .ok v ↔ (∃ i j, i ≠ j ∧ D i j = v) ∧ ∀ i j, i ≠ j → D i j ≤ v := by
  rw [npMax_iff]
  have hmem : ∀ x, x ∈ pdistList D ↔ ∃ i j, i ≠ j ∧ D i j = x := by
    intro x
    simp only [pdistList, List.mem_flatMap, List.mem_finRange, true_and, List.mem_map, List.mem_filter, decide_eq_true_eq]
    constructor
    · rintro ⟨i, j, hij, rfl⟩; exact ⟨i, j, hij.ne, rfl⟩
    · rintro ⟨i, j, hij, rfl⟩
      rcases lt_or_gt_of_ne hij with h | h
      · exact ⟨i, j, h, rfl⟩
      · exact ⟨j, i, h, hD.2.1 j i⟩
  rw [hmem]
  constructor
  · rintro ⟨h1, h2⟩; exact ⟨h1, fun i j hij => h2 _ ((hmem _).2 ⟨i, j, hij, rfl⟩)⟩
  · rintro ⟨h1, h2⟩
    refine ⟨h1, fun x hx => ?_⟩
    obtain ⟨i, j, hij, rfl⟩ := (hmem x).1 hx
    exact h2 i j hij

/-- C133: a given square distance matrix gives the estimate with all points in the subsample. -/
theorem C133_given {n : Nat} (D : Matrix (Fin n) (Fin n) ℝ) (perm : List (Fin n)) (hp : perm.Perm (List.finRange n)) (k : Nat) (h1 : 1 ≤ k) (hkn : k ≤ n) :
    estimateCutoffGiven D D k = estimateCutoff D perm n k := by
  classical
  by_cases hn : n < 10
  · unfold estimateCutoffGiven
    rw [(C133_rejects D perm n k).2 hn (Or.inl (Rat.den_natCast k)), checkCutoffK_ok _ (Or.inl (Rat.den_natCast k))]
    simp only [Except.bind, if_pos hn]
  · obtain ⟨v, hv, hi, -⟩ := C133_all_points D perm (List.finRange n) hp (List.Perm.refl _) (by omega) n k h1 le_rfl hkn
    rw [hv, ← hi]
    unfold estimateCutoffGiven estimateCutoff
    rw [checkCutoffK_ok _ (Or.inl (Rat.den_natCast k)), show (k : Rat).floor = (k : Int) from floor_natCast k]
    simp only [Except.bind, if_neg hn]
    have ht : (List.finRange n).take (min n n) = List.finRange n := List.take_of_length_le (by simp)
    rw [ht]
    rw [kthRows_ok D _ (by omega) (by omega), kthRows_ok _ _ (by unfold limitK; rw [List.length_finRange]; omega) (by unfold limitK; rw [List.length_finRange]; omega)]
    have : limitK (k : Int) (List.finRange n).length = k := by unfold limitK; rw [List.length_finRange]; omega
    rw [this]
    simp only [Int.toNat_natCast]
    congr 1
    refine List.ext_getElem (by simp) fun i h1 h2 => ?_
    simp only [List.getElem_ofFn]
    congr 2
    funext j
    simp [subRows]

/-- Non-vacuity: eleven points on a line, three of them sampled, two neighbours; the identity is a permutation. -/
example : ∃ v, estimateCutoff (fun i j : Fin 11 => |(i : ℝ) - j|) (List.finRange 11) 3 (2 : Nat) = .ok v ∧ (∀ i ∈ (List.finRange 11).take 3, 2 ≤ within (fun i j : Fin 11 => |(i : ℝ) - j|) i v) := by
  obtain ⟨v, h, h', -⟩ := C133_neighbours_partial (fun i j : Fin 11 => |(i : ℝ) - j|) (List.finRange 11) (List.Perm.refl _) (by omega) 3 2 (by omega) (by omega) (by omega)
  exact ⟨v, h, h'⟩

end Verif.Kernel
