import Verif.Dist.Basic
import Mathlib.Tactic.Linarith
import Mathlib.Tactic.NormNum
import Mathlib.Tactic.FinCases
/-!
# C47-C50, C105: distance matrices
-/

namespace Verif.Dist

/-! ## C47 -/

/-- C47: conversion of non-negative distances stores exactly the values below the (positive) cut-off, also true zeros. -/
theorem C47_stored {m n : Nat} (D : Fin m → Fin n → ℝ) (cut : ℝ) (hcut : 0 < cut) (hD : ∀ i j, 0 ≤ D i j) (i : Fin m) (j : Fin n) (v : ℝ) :
    dense2csr D cut i j = some v ↔ D i j = v ∧ v < cut := by
  have hinv : invalid < 0 := by norm_num [invalid]
  have h0 := hD i j
  unfold dense2csr
  by_cases hz : D i j = 0
  · simp only [hz, if_true]
    rw [if_neg (not_le.mpr (hinv.trans hcut)), if_neg hinv.ne, if_pos rfl, Option.some.injEq]
    exact ⟨fun h => ⟨h, h ▸ hcut⟩, fun h => h.1⟩
  · simp only [hz, if_false]
    by_cases hc : D i j ≥ cut
    · rw [if_pos hc, if_pos rfl]
      refine ⟨fun h => (by cases h), fun h => absurd hc (not_le.mpr (h.1 ▸ h.2))⟩
    · rw [if_neg hc, if_neg hz, if_neg (fun h => by linarith), Option.some.injEq]
      exact ⟨fun h => ⟨h, h ▸ not_le.mp hc⟩, fun h => h.1⟩

theorem dense2csr_eq {m n : Nat} (D : Fin m → Fin n → ℝ) (cut : ℝ) (hcut : 0 < cut) (hD : ∀ i j, 0 ≤ D i j) (i : Fin m) (j : Fin n) [Decidable (D i j < cut)] :
    dense2csr D cut i j = if D i j < cut then some (D i j) else none := by
  split
  · exact (C47_stored D cut hcut hD i j _).mpr ⟨rfl, by assumption⟩
  · rw [Option.eq_none_iff_forall_ne_some]
    intro v h
    obtain ⟨rfl, h2⟩ := (C47_stored D cut hcut hD i j v).mp h
    contradiction

/-- C47 for the diagonal: all other values are kept, the diagonal is stored as zero. -/
theorem C47_diagonal {n : Nat} (S : Stored n n) (hS : ∀ i j x, S i j = some x → 0 ≤ x) (i j : Fin n) : setZerosDiagonal S i j = if i = j then some 0 else S i j := by
  have hinv : invalid < 0 := by norm_num [invalid]
  unfold setZerosDiagonal
  split
  · simp
  · rw [Option.map_map]
    cases h : S i j with
    | none => rfl
    | some x =>
      have hx := hS i j x h
      simp only [Option.map_some, Function.comp]
      by_cases hz : x = 0
      · simp [hz]
      · rw [if_neg hz, if_neg (fun h => by linarith)]

example : dense2csr (fun (_ : Fin 1) (j : Fin 3) => (j : ℝ)) 2 0 0 = some 0 ∧ dense2csr (fun (_ : Fin 1) (j : Fin 3) => (j : ℝ)) 2 0 1 = some 1 ∧
    dense2csr (fun (_ : Fin 1) (j : Fin 3) => (j : ℝ)) 2 0 2 = none := by
  refine ⟨?_, ?_, ?_⟩
  · exact (C47_stored _ 2 two_pos (fun i j => by positivity) 0 0 0).mpr ⟨by norm_num, by norm_num⟩
  · exact (C47_stored _ 2 two_pos (fun i j => by positivity) 0 1 1).mpr ⟨by norm_num, by norm_num⟩
  · classical
    rw [dense2csr_eq _ 2 two_pos (fun i j => by positivity) 0 2]
    norm_num

/-! ## C48 -/

variable {P : Type}

/-- `e` is a distance. -/
structure IsDist (e : P → P → ℝ) : Prop where
  nonneg : ∀ x y, 0 ≤ e x y
  self : ∀ x, e x x = 0
  symm : ∀ x y, e x y = e y x

/-- The distances of a call. -/
def trueDist (e : P → P → ℝ) (X : Cloud P) (Y : Option (Cloud P)) : Σ m : Nat, Fin m → Fin X.n → ℝ :=
  match Y with
  | none => ⟨X.n, fun i j => e (X.pt i) (X.pt j)⟩
  | some Y => ⟨Y.n, fun i j => e (Y.pt i) (X.pt j)⟩

open Classical in
/-- The specification: exactly the pairs for which `near` holds are stored, with the distance in the metric. -/
noncomputable def specMatrix (e : P → P → ℝ) (mt : Metric) (near : ℝ → Prop) (X : Cloud P) (Y : Option (Cloud P)) : SMat :=
  ⟨(trueDist e X Y).1, X.n, fun i j => if near ((trueDist e X Y).2 i j) then some (mt.apply ((trueDist e X Y).2 i j)) else none⟩

theorem apply_nonneg (mt : Metric) {r : ℝ} (h : 0 ≤ r) : 0 ≤ mt.apply r := by
  cases mt
  · exact h
  · exact sq_nonneg r

theorem apply_lt (mt : Metric) {r c : ℝ} (h : 0 ≤ r) (hc : 0 < c) : mt.apply r < mt.apply c ↔ r < c := by
  cases mt
  · exact Iff.rfl
  · exact sq_lt_sq₀ h hc.le

theorem apply_pos (mt : Metric) {c : ℝ} (hc : 0 < c) : 0 < mt.apply c := by
  cases mt
  · exact hc
  · exact pow_pos hc 2

theorem radius_apply (mt : Metric) {c : ℝ} (hc : 0 < c) : radius mt (some (mt.apply c)) = some c := by
  cases mt
  · rfl
  · simp only [radius, Metric.apply, Option.map_some, Real.sqrt_sq hc.le]

theorem pdistMatrix_eq (e : P → P → ℝ) (h : IsDist e) (mt : Metric) (X : Cloud P) (i j : Fin X.n) : pdistMatrix (fun x y => mt.apply (e x y)) X i j = mt.apply (e (X.pt i) (X.pt j)) := by
  unfold pdistMatrix
  split
  · rename_i hij
    rw [hij, h.self]
    cases mt <;> simp [Metric.apply]
  · rcases le_total i j with hij | hij
    · rw [min_eq_left hij, max_eq_right hij]
    · rw [min_eq_right hij, max_eq_left hij, h.symm]

theorem applyCutOff_eq {m n : Nat} (mt : Metric) (c : ℝ) (hc : 0 < c) (D : Fin m → Fin n → ℝ) (hD : ∀ i j, 0 ≤ D i j) :
    applyCutOff (some (mt.apply c)) (fun i j => mt.apply (D i j)) = fun i j => open Classical in if D i j < c then some (mt.apply (D i j)) else none := by
  classical
  funext i j
  simp only [applyCutOff]
  rw [dense2csr_eq _ _ (apply_pos mt hc) (fun i j => apply_nonneg mt (hD i j))]
  simp only [apply_lt mt (hD i j) hc]

/-- C48, rejected inputs: brute force refuses exactly reference clouds of at most one point. -/
theorem C48_brute_rejects (dm : P → P → ℝ) (cut : Option ℝ) (X : Cloud P) (Y : Option (Cloud P)) : (∃ err, bruteCall dm cut X Y = .error err) ↔ X.n ≤ 1 := by
  unfold bruteCall
  by_cases hX : X.n ≤ 1
  · simp [hX]
  · cases Y <;> simp [hX]

/-- C48, what brute force computes: the pairs with distance smaller than the (Euclidean) cut-off. -/
theorem C48_brute (e : P → P → ℝ) (he : IsDist e) (mt : Metric) (c : ℝ) (hc : 0 < c) (X : Cloud P) (hX : 1 < X.n) (Y : Option (Cloud P)) :
    bruteCall (fun x y => mt.apply (e x y)) (some (mt.apply c)) X Y = .ok (specMatrix e mt (fun r => r < c) X Y) := by
  unfold bruteCall specMatrix trueDist
  rw [if_neg (by omega)]
  cases Y with
  | none =>
    have : pdistMatrix (fun x y => mt.apply (e x y)) X = fun i j => mt.apply (e (X.pt i) (X.pt j)) := by
      funext i j
      exact pdistMatrix_eq e he mt X i j
    simp only [this]
    rw [applyCutOff_eq mt c hc (fun i j => e (X.pt i) (X.pt j)) (fun i j => he.nonneg _ _)]
  | some Y =>
    change Except.ok (SMat.mk Y.n X.n (applyCutOff (some (mt.apply c)) (fun i j => mt.apply (e (Y.pt i) (X.pt j))))) = _
    rw [applyCutOff_eq mt c hc (fun i j => e (Y.pt i) (X.pt j)) (fun i j => he.nonneg _ _)]

theorem radiusQuery_some {e : P → P → ℝ} {mt : Metric} {r : Option ℝ} {X Y : Cloud P} {i : Fin Y.n} {j : Fin X.n} {x : ℝ} (h : radiusQuery e mt r X Y i j = some x) :
    x = mt.apply (e (Y.pt i) (X.pt j)) := by
  unfold radiusQuery at h
  obtain ⟨_, h⟩ := Option.ite_none_right_eq_some.mp h
  exact (Option.some.inj h).symm

/-- C48, what the trees compute on a new object: the pairs with distance smaller than or *equal to* the cut-off. -/
theorem C48_tree (t : Tree) (e : P → P → ℝ) (he : IsDist e) (mt : Metric) (c : ℝ) (hc : 0 < c) (X : Cloud P) (hX : 1 < X.n) (Y : Option (Cloud P)) :
    (treeCall t e mt (some (mt.apply c)) none X Y).1 = .ok (specMatrix e mt (fun r => r ≤ c) X Y) := by
  classical
  unfold treeCall specMatrix trueDist
  rw [if_neg (by omega)]
  cases Y with
  | none =>
    cases t with
    | scipyKdTree =>
      simp only [radius_apply mt hc]
      rfl
    | sklearnBalltree =>
      simp only [radius_apply mt hc]
      congr 2
      funext i j
      rw [C47_diagonal]
      · by_cases hij : i = j
        · rw [if_pos hij, hij, he.self, if_pos hc.le]
          cases mt <;> simp [Metric.apply]
        · rw [if_neg hij, if_neg hij]
          rfl
      · intro i j x hx
        by_cases hij : i = j
        · rw [if_pos hij] at hx
          cases hx
        · rw [if_neg hij] at hx
          rw [radiusQuery_some hx]
          exact apply_nonneg mt (he.nonneg _ _)
  | some Y =>
    simp only [radius_apply mt hc]
    rfl

theorem specMatrix_congr (e : P → P → ℝ) (mt : Metric) (p q : ℝ → Prop) (X : Cloud P) (Y : Option (Cloud P)) (h : ∀ i j, p ((trueDist e X Y).2 i j) ↔ q ((trueDist e X Y).2 i j)) :
    specMatrix e mt p X Y = specMatrix e mt q X Y := by
  classical
  unfold specMatrix
  congr 1
  funext i j
  exact if_congr (h i j) rfl rfl

/-- C48, the part that holds: if no distance is equal to the cut-off all algorithms return the same matrix, for both metrics, pair-wise and component-wise. -/
theorem C48_agree_partial (t : Tree) (e : P → P → ℝ) (he : IsDist e) (mt : Metric) (c : ℝ) (hc : 0 < c) (X : Cloud P) (hX : 1 < X.n) (Y : Option (Cloud P))
    (hne : ∀ i j, (trueDist e X Y).2 i j ≠ c) : (treeCall t e mt (some (mt.apply c)) none X Y).1 = bruteCall (fun x y => mt.apply (e x y)) (some (mt.apply c)) X Y := by
  rw [C48_brute e he mt c hc X hX Y, C48_tree t e he mt c hc X hX Y]
  congr 1
  exact specMatrix_congr e mt _ _ X Y (fun i j => ⟨fun h => lt_of_le_of_ne h (hne i j), le_of_lt⟩)

/-- C48 is violated whenever a distance is equal to the cut-off: the trees store the pair, brute force does not. -/
theorem C48_violated (t : Tree) (e : P → P → ℝ) (he : IsDist e) (mt : Metric) (c : ℝ) (hc : 0 < c) (X : Cloud P) (hX : 1 < X.n) (Y : Option (Cloud P))
    (heq : ∃ i j, (trueDist e X Y).2 i j = c) : (treeCall t e mt (some (mt.apply c)) none X Y).1 ≠ bruteCall (fun x y => mt.apply (e x y)) (some (mt.apply c)) X Y := by
  rw [C48_brute e he mt c hc X hX Y, C48_tree t e he mt c hc X hX Y]
  intro h
  have h := Except.ok.inj h
  unfold specMatrix at h
  simp only [SMat.mk.injEq, heq_eq_eq, true_and] at h
  obtain ⟨i, j, hij⟩ := heq
  have := congrFun (congrFun h i) j
  rw [if_pos hij.le, if_neg (by rw [hij]; exact lt_irrefl c)] at this
  cases this

/-- C48: exactly the positive cut-offs are used, a cut-off zero means no cut-off, negative ones are rejected. -/
theorem C48_cut_off (mt : Metric) (c : ℝ) : (0 < c → setCutOff mt (some c) = .ok (some (mt.apply c))) ∧ (c < 0 → setCutOff mt (some c) = .error .value) ∧
    (c = 0 → setCutOff mt (some c) = .ok none) := by
  refine ⟨fun h => ?_, fun h => ?_, fun h => ?_⟩ <;> simp only [setCutOff]
  · rw [if_neg h.ne', if_neg (not_lt.mpr h.le)]
  · rw [if_neg h.ne, if_pos h]
  · rw [if_pos h]

/-- The real line as a space of points. -/
theorem isDist_real : IsDist (fun x y : ℝ => |x - y|) := ⟨fun _ _ => abs_nonneg _, fun x => by simp, fun x y => abs_sub_comm x y⟩

example : (treeCall .scipyKdTree (fun x y : ℝ => |x - y|) .euclidean (some (Metric.euclidean.apply 1)) none ⟨2, ![0, 1]⟩ none).1 ≠
    bruteCall (fun x y : ℝ => Metric.euclidean.apply |x - y|) (some (Metric.euclidean.apply 1)) ⟨2, ![0, 1]⟩ none :=
  C48_violated _ _ isDist_real _ _ one_pos _ (by norm_num) _ ⟨(0 : Fin 2), (1 : Fin 2), by
    change |(![(0 : ℝ), 1] : Fin 2 → ℝ) 0 - (![(0 : ℝ), 1] : Fin 2 → ℝ) 1| = 1
    norm_num⟩

example : (treeCall .scipyKdTree (fun x y : ℝ => |x - y|) .euclidean (some (Metric.euclidean.apply 2)) none ⟨2, ![0, 1]⟩ none).1 =
    bruteCall (fun x y : ℝ => Metric.euclidean.apply |x - y|) (some (Metric.euclidean.apply 2)) ⟨2, ![0, 1]⟩ none := by
  refine C48_agree_partial _ _ isDist_real _ _ two_pos _ (by norm_num) _ ?_
  intro i j
  change Fin 2 at i
  change Fin 2 at j
  change |(![(0 : ℝ), 1] : Fin 2 → ℝ) i - (![(0 : ℝ), 1] : Fin 2 → ℝ) j| ≠ 2
  fin_cases i <;> fin_cases j <;> norm_num

/-! ## C49 -/

/-- C49, the part that holds: a pair-wise call does not depend on earlier calls. -/
theorem C49_pairwise_partial (t : Tree) (e : P → P → ℝ) (mt : Metric) (cut : Option ℝ) (st : Option (Cloud P)) (X : Cloud P) :
    (treeCall t e mt cut st X none).1 = (treeCall t e mt cut none X none).1 := by
  unfold treeCall
  split
  · rfl
  · cases t <;> rfl

/-- The state after a history of calls with the same reference points. -/
theorem treeRun_same (t : Tree) (e : P → P → ℝ) (mt : Metric) (cut : Option ℝ) (X : Cloud P) (cs : List (Cloud P × Option (Cloud P))) (h : ∀ c ∈ cs, c.1 = X) (st : Option (Cloud P))
    (hst : st = none ∨ st = some X) : treeRun t e mt cut st cs = none ∨ treeRun t e mt cut st cs = some X := by
  induction cs generalizing st with
  | nil => exact hst
  | cons c cs ih =>
    refine ih (fun c' hc' => h c' (List.mem_cons_of_mem _ hc')) _ ?_
    have hc : c.1 = X := h c List.mem_cons_self
    unfold treeCall
    split
    · exact hst
    · split
      · cases t <;> exact Or.inr (by rw [hc])
      · refine Or.inr ?_
        rcases hst with rfl | rfl
        · simp [hc]
        · rfl

/-- C49, the part that holds: component-wise calls return the right distances if all earlier calls had the same reference points. -/
theorem C49_same_partial (t : Tree) (e : P → P → ℝ) (mt : Metric) (cut : Option ℝ) (X : Cloud P) (cs : List (Cloud P × Option (Cloud P))) (h : ∀ c ∈ cs, c.1 = X) (Y : Option (Cloud P)) :
    (treeCall t e mt cut (treeRun t e mt cut none cs) X Y).1 = (treeCall t e mt cut none X Y).1 := by
  rcases treeRun_same t e mt cut X cs h none (Or.inl rfl) with h | h <;> rw [h]
  cases Y with
  | none => exact C49_pairwise_partial t e mt cut _ X
  | some Y =>
    unfold treeCall
    split <;> rfl

/-- C49 is violated: a component-wise call after any history that ends with a call for `X₁` returns the distances to points of an earlier call; directly after a pair-wise call for `X₁` (or as the
second call on an object) these are the distances to `X₁`. -/
theorem C49_violated (t : Tree) (e : P → P → ℝ) (mt : Metric) (cut : Option ℝ) (X₁ X₂ Y : Cloud P) (h1 : 1 < X₁.n) (h2 : 1 < X₂.n) (Y₁ : Option (Cloud P)) :
    (treeCall t e mt cut (treeRun t e mt cut none [(X₁, Y₁)]) X₂ (some Y)).1 = (treeCall t e mt cut none X₁ (some Y)).1 := by
  have hst : treeRun t e mt cut none [(X₁, Y₁)] = some X₁ := by
    simp only [treeRun, treeCall]
    rw [if_neg (by omega)]
    cases Y₁ with
    | none => cases t <;> rfl
    | some Y₁ => rfl
  rw [hst]
  unfold treeCall
  rw [if_neg (by omega), if_neg (by omega)]
  rfl

/-- C49: a concrete wrong result, distances to `0, 1` instead of `10, 11`. -/
theorem C49_violated_example : ∃ M M' : SMat, (treeCall .scipyKdTree (fun x y : ℝ => |x - y|) .euclidean none (treeRun .scipyKdTree (fun x y : ℝ => |x - y|) .euclidean none none
      [(⟨2, ![0, 1]⟩, none)]) ⟨2, ![10, 11]⟩ (some ⟨1, ![10]⟩)).1 = .ok M ∧
    (treeCall .scipyKdTree (fun x y : ℝ => |x - y|) .euclidean none none ⟨2, ![10, 11]⟩ (some ⟨1, ![10]⟩)).1 = .ok M' ∧ M ≠ M' := by
  rw [C49_violated _ _ _ _ _ _ _ (by norm_num) (by norm_num)]
  refine ⟨_, _, rfl, rfl, ?_⟩
  intro h
  simp only [SMat.mk.injEq, heq_eq_eq, true_and, Option.getD_none] at h
  have := congrFun (congrFun h (0 : Fin 1)) (0 : Fin 2)
  simp [radiusQuery, radius, Metric.apply] at this

/-! ## C50 -/

section kmin
variable {m n : Nat}

/-- The rows have all pairs with distance zero, as every radius contains them. -/
def HasZeros (D : Fin m → Fin n → ℝ) (S : Stored m n) : Prop := ∀ i j, D i j = 0 → (S i j).isSome

theorem nnz_le_of_subset {S S' : Stored m n} {i : Fin m} (h : ∀ j, (S i j).isSome → (S' i j).isSome) : nnz S i ≤ nnz S' i :=
  Finset.card_le_card (fun j hj => by
    rw [Finset.mem_filter] at hj ⊢
    exact ⟨hj.1, h j hj.2⟩)

/-- C50: rows have at least `kmin` values, values that were stored are still stored, pairs with `kmin` far neighbours are added. -/
theorem C50_count (pairwise : Bool) (hmn : pairwise = true → m = n) (kmin : Nat) (D : Fin m → Fin n → ℝ) (S S' : Stored m n) (hz : HasZeros D S) (h : EnsureKmin pairwise hmn kmin D S (.ok S')) :
    (∀ i, kmin ≤ nnz S' i) ∧ ∀ i j, (S i j).isSome → (S' i j).isSome := by
  classical
  unfold EnsureKmin at h
  split at h
  · split at h
    · cases h
    · obtain ⟨I, hI, h⟩ := h
      obtain rfl := Except.ok.inj h
      have hkeep : ∀ i j, (S i j).isSome → ((fun i j => if nnz S i < kmin ∧ j ∈ I i ∧ D i j ≠ 0 then some (D i j)
          else if h : pairwise = true then
            if nnz S (Fin.cast (hmn h).symm j) < kmin ∧ Fin.cast (hmn h) i ∈ I (Fin.cast (hmn h).symm j) ∧ D (Fin.cast (hmn h).symm j) (Fin.cast (hmn h) i) ≠ 0 then
              some (D (Fin.cast (hmn h).symm j) (Fin.cast (hmn h) i)) else S i j
          else S i j : Stored m n) i j).isSome := by
        intro i j hs
        beta_reduce
        split
        · rfl
        · split
          · split
            · rfl
            · exact hs
          · exact hs
      refine ⟨fun i => ?_, hkeep⟩
      by_cases hi : nnz S i < kmin
      · refine le_of_eq_of_le (hI i).1.symm (Finset.card_le_card (fun j hj => ?_))
        rw [Finset.mem_filter]
        refine ⟨Finset.mem_univ j, ?_⟩
        by_cases h0 : D i j = 0
        · exact hkeep i j (hz i j h0)
        · beta_reduce
          rw [if_pos ⟨hi, hj, h0⟩]
          rfl
      · exact (not_lt.mp hi).trans (nnz_le_of_subset (hkeep i))
  · rename_i hn
    obtain rfl := Except.ok.inj h
    refine ⟨fun i => ?_, fun i j h => h⟩
    by_contra hc
    exact hn ⟨i, not_le.mp hc⟩

/-- C50: the stored values after the insertion: an old value, or the Euclidean distance of the pair. -/
theorem kmin_values (pairwise : Bool) (hmn : pairwise = true → m = n) (kmin : Nat) (D : Fin m → Fin n → ℝ)
    (hsym : ∀ h : pairwise = true, ∀ i j, D (Fin.cast (hmn h).symm j) (Fin.cast (hmn h) i) = D i j) (S S' : Stored m n) (h : EnsureKmin pairwise hmn kmin D S (.ok S')) (i : Fin m) (j : Fin n) :
    S' i j = S i j ∨ (S' i j = some (D i j) ∧ D i j ≠ 0) := by
  classical
  unfold EnsureKmin at h
  split at h
  · split at h
    · cases h
    · obtain ⟨I, hI, h⟩ := h
      obtain rfl := Except.ok.inj h
      beta_reduce
      split
      · rename_i hnew
        exact Or.inr ⟨rfl, hnew.2.2⟩
      · split
        · rename_i hp
          split
          · rename_i hnew
            refine Or.inr ⟨by rw [hsym hp i j], ?_⟩
            rw [← hsym hp i j]
            exact hnew.2.2
          · exact Or.inl rfl
        · exact Or.inl rfl
  · obtain rfl := Except.ok.inj h
    exact Or.inl rfl

/-- C50, the part that holds: with the Euclidean metric all stored values are distances. -/
theorem C50_euclidean_partial (pairwise : Bool) (hmn : pairwise = true → m = n) (kmin : Nat) (D : Fin m → Fin n → ℝ)
    (hsym : ∀ h : pairwise = true, ∀ i j, D (Fin.cast (hmn h).symm j) (Fin.cast (hmn h) i) = D i j) (S S' : Stored m n) (hS : ∀ i j x, S i j = some x → x = D i j)
    (h : EnsureKmin pairwise hmn kmin D S (.ok S')) (i : Fin m) (j : Fin n) (x : ℝ) (hx : S' i j = some x) : x = D i j := by
  rcases kmin_values pairwise hmn kmin D hsym S S' h i j with h | ⟨h, -⟩
  · rw [h] at hx
    exact hS i j x hx
  · rw [h] at hx
    exact (Option.some.inj hx).symm

/-- C50 is violated for the squared Euclidean metric: every row with fewer than `kmin` values gets the Euclidean distances of its `kmin` nearest points, and these are not squared distances (unless
they are zero or one).  Values that were right are replaced, too. -/
theorem C50_violated (pairwise : Bool) (hmn : pairwise = true → m = n) (kmin : Nat) (D : Fin m → Fin n → ℝ) (S S' : Stored m n)
    (h : EnsureKmin pairwise hmn kmin D S (.ok S')) (i : Fin m) (hi : nnz S i < kmin) :
    ∃ I : Finset (Fin n), IsNearest (D i) kmin I ∧ ∀ j ∈ I, D i j ≠ 0 → S' i j = some (D i j) ∧ (D i j ≠ 1 → S' i j ≠ some (Metric.sqeuclidean.apply (D i j))) := by
  classical
  unfold EnsureKmin at h
  rw [if_pos ⟨i, hi⟩] at h
  split at h
  · cases h
  · obtain ⟨I, hI, h⟩ := h
    obtain rfl := Except.ok.inj h
    refine ⟨I i, hI i, fun j hj h0 => ?_⟩
    have hv : (if nnz S i < kmin ∧ j ∈ I i ∧ D i j ≠ 0 then some (D i j)
        else if h : pairwise = true then
          if nnz S (Fin.cast (hmn h).symm j) < kmin ∧ Fin.cast (hmn h) i ∈ I (Fin.cast (hmn h).symm j) ∧ D (Fin.cast (hmn h).symm j) (Fin.cast (hmn h) i) ≠ 0 then
            some (D (Fin.cast (hmn h).symm j) (Fin.cast (hmn h) i)) else S i j
        else S i j) = some (D i j) := if_pos ⟨hi, hj, h0⟩
    refine ⟨hv, fun h1 hc => ?_⟩
    have hc := hv.symm.trans hc
    have hc := Option.some.inj hc
    simp only [Metric.apply] at hc
    have : D i j * (D i j - 1) = 0 := by linarith [sq (D i j)]
    rcases mul_eq_zero.mp this with h | h
    · exact h0 h
    · exact h1 (by linarith)

/-- C50: more neighbours than points are rejected, as soon as a row has too few; without cut-off the trees raise. -/
theorem C50_rejects (pairwise : Bool) (hmn : pairwise = true → m = n) (kmin : Nat) (D : Fin m → Fin n → ℝ) (S : Stored m n) (hm : 0 < m) (hk : n < kmin) (res : Except DErr (Stored m n))
    (h : EnsureKmin pairwise hmn kmin D S res) : res = .error .value := by
  unfold EnsureKmin at h
  rw [if_pos, if_pos hk] at h
  · exact h
  · refine ⟨⟨0, hm⟩, lt_of_le_of_lt ?_ hk⟩
    exact (Finset.card_filter_le _ _).trans (by rw [Finset.card_univ, Fintype.card_fin])

/-- C50 for the whole call on a radius matrix with a positive cut-off, Euclidean metric: `kmin` values in each row, and all of them are distances; also for `kmin = 1`, for which nothing is done. -/
theorem C50_handle_partial (pairwise : Bool) (hmn : pairwise = true → m = n) (kmin : Nat) (D : Fin m → Fin n → ℝ)
    (hsym : ∀ h : pairwise = true, ∀ i j, D (Fin.cast (hmn h).symm j) (Fin.cast (hmn h) i) = D i j) (hdiag : ∀ h : pairwise = true, ∀ i, D i (Fin.cast (hmn h) i) = 0) (c : ℝ) (hc : 0 < c)
    (S S' : Stored m n) (hS : ∀ i j x, S i j = some x ↔ x = D i j ∧ D i j ≤ c) (h : HandleKmin pairwise hmn (some kmin) false D S (.ok S')) :
    (∀ i, kmin ≤ nnz S' i) ∧ (∀ i j x, S' i j = some x → x = D i j) ∧ ∀ i j, D i j ≤ c → S' i j = some (D i j) := by
  have hz : HasZeros D S := fun i j h0 => by
    rw [(hS i j 0).mpr ⟨h0.symm, by rw [h0]; exact hc.le⟩]
    rfl
  have hval : ∀ i j x, S i j = some x → x = D i j := fun i j x hx => ((hS i j x).mp hx).1
  simp only [HandleKmin] at h
  split at h
  · rw [if_neg (by simp)] at h
    have hv := C50_euclidean_partial pairwise hmn kmin D hsym S S' hval h
    obtain ⟨h1, h2⟩ := C50_count pairwise hmn kmin D S S' hz h
    refine ⟨h1, hv, fun i j hj => ?_⟩
    obtain ⟨x, hx⟩ := Option.isSome_iff_exists.mp (h2 i j (by rw [(hS i j _).mpr ⟨rfl, hj⟩]; rfl))
    rw [hx, hv i j x hx]
  · rename_i hn
    obtain rfl := Except.ok.inj h
    refine ⟨fun i => ?_, hval, fun i j hj => (hS i j _).mpr ⟨rfl, hj⟩⟩
    cases pairwise with
    | false => simp at hn; omega
    | true =>
      have hk : kmin ≤ 1 := by simpa using hn
      refine hk.trans (Finset.card_pos.mpr ⟨Fin.cast (hmn rfl) i, ?_⟩)
      rw [Finset.mem_filter]
      exact ⟨Finset.mem_univ _, hz _ _ (hdiag rfl i)⟩

/-- C50 is violated without cut-off: "ignored" in the documentation, but the trees raise an exception. -/
theorem C50_dense_violated (pairwise : Bool) (hmn : pairwise = true → m = n) (kmin : Nat) (hk : 1 < kmin) (D : Fin m → Fin n → ℝ) (S : Stored m n) (res : Except DErr (Stored m n))
    (h : HandleKmin pairwise hmn (some kmin) true D S res) : res = .error .attribute := by
  simp only [HandleKmin] at h
  rwa [if_pos (by cases pairwise <;> simp <;> omega), if_pos trivial] at h

/-- Nearest neighbours exist. -/
theorem exists_nearest (dist : Fin n → ℝ) (k : Nat) (hk : k ≤ n) : ∃ I, IsNearest dist k I := by
  classical
  induction k with
  | zero => exact ⟨∅, rfl, fun j hj => absurd hj (Finset.notMem_empty j)⟩
  | succ k ih =>
    obtain ⟨I, h1, h2⟩ := ih (by omega)
    have hne : (Finset.univ \ I).Nonempty := by
      rw [← Finset.card_pos, Finset.card_sdiff, Finset.inter_univ, Finset.card_univ, Fintype.card_fin, h1]
      omega
    obtain ⟨a, ha, hmin⟩ := Finset.exists_min_image (Finset.univ \ I) dist hne
    rw [Finset.mem_sdiff] at ha
    refine ⟨insert a I, by rw [Finset.card_insert_of_notMem ha.2, h1], fun j hj j' hj' => ?_⟩
    rw [Finset.mem_insert, not_or] at hj'
    rcases Finset.mem_insert.mp hj with rfl | hj
    · exact hmin j' (by rw [Finset.mem_sdiff]; exact ⟨Finset.mem_univ _, hj'.2⟩)
    · exact h2 j hj j' hj'.2

/-- The relation always has a result. -/
theorem ensureKmin_exists (pairwise : Bool) (hmn : pairwise = true → m = n) (kmin : Nat) (D : Fin m → Fin n → ℝ) (S : Stored m n) : ∃ res, EnsureKmin pairwise hmn kmin D S res := by
  unfold EnsureKmin
  split
  · split
    · exact ⟨_, rfl⟩
    · rename_i h
      choose I hI using fun i => exists_nearest (D i) kmin (not_lt.mp h)
      exact ⟨_, I, hI, rfl⟩
  · exact ⟨_, rfl⟩

/-- A non-trivial case: points `0` and `2`, nothing but the diagonal stored; the squared distance four is stored as two. -/
example : ∃ S', EnsureKmin true (fun _ => rfl) 2 (fun i j : Fin 2 => |(![0, 2] : Fin 2 → ℝ) i - ![0, 2] j|) (fun i j => if i = j then some 0 else none) (.ok S') ∧ S' 0 1 = some 2 := by
  obtain ⟨res, h⟩ := ensureKmin_exists true (fun _ => rfl) 2 (fun i j : Fin 2 => |(![0, 2] : Fin 2 → ℝ) i - ![0, 2] j|) (fun i j => if i = j then some 0 else none)
  have hn : nnz (fun i j : Fin 2 => if i = j then some (0 : ℝ) else none) 0 < 2 := by
    have : nnz (fun i j : Fin 2 => if i = j then some (0 : ℝ) else none) 0 ≤ ({0} : Finset (Fin 2)).card := by
      refine Finset.card_le_card (fun j hj => ?_)
      rw [Finset.mem_filter] at hj
      fin_cases j
      · simp
      · simp at hj
    simpa using Nat.lt_succ_of_le this
  cases res with
  | error e =>
    unfold EnsureKmin at h
    rw [if_pos ⟨0, hn⟩, if_neg (by norm_num)] at h
    obtain ⟨I, -, h⟩ := h
    cases h
  | ok S' =>
    refine ⟨S', h, ?_⟩
    obtain ⟨I, hI, hv⟩ := C50_violated true (fun _ => rfl) 2 _ _ S' h 0 hn
    have hI2 : I = Finset.univ := Finset.eq_univ_of_card I hI.1
    have := (hv 1 (by rw [hI2]; exact Finset.mem_univ _) (by norm_num)).1
    rw [this]
    norm_num

end kmin

/-! ## C105: k nearest neighbours -/

/-- C105, pair-wise: each row has exactly `k` values, the diagonal is zero, all values are distances, and no point that is left out is nearer than a stored one. -/
theorem C105_pairwise {n : Nat} (k : Nat) (hk : 2 ≤ k) (hkn : k ≤ n) (D : Fin n → Fin n → ℝ) (hD : ∀ i j, 0 ≤ D i j) (hdiag : ∀ i, D i i = 0) (res : Except DErr (Stored n n)) (h : KnnPdist k D res) :
    ∃ S, res = .ok S ∧ (∀ i, nnz S i = k) ∧ (∀ i, S i i = some 0) ∧ (∀ i j x, S i j = some x → x = D i j) ∧ ∀ i j j', (S i j).isSome → S i j' = none → D i j ≤ D i j' := by
  classical
  unfold KnnPdist at h
  rw [if_neg (by omega)] at h
  obtain ⟨I, hI, rfl⟩ := h
  have hpos : ∀ (i j : Fin n) (x : ℝ), (if j ∈ I i then some (D i j) else none) = some x → 0 ≤ x := by
    intro i j x hx
    split at hx
    · rw [← Option.some.inj hx]
      exact hD i j
    · cases hx
  have hS : ∀ i j, setZerosDiagonal (fun i j => if j ∈ I i then some (D i j) else none) i j = if i = j then some 0 else if j ∈ I i then some (D i j) else none :=
    fun i j => C47_diagonal _ hpos i j
  refine ⟨_, rfl, fun i => ?_, fun i => ?_, fun i j x hx => ?_, fun i j j' h1 h2 => ?_⟩
  · have : Finset.univ.filter (fun j => (setZerosDiagonal (fun i j => if j ∈ I i then some (D i j) else none) i j).isSome) = insert i (I i) := by
      ext j
      rw [Finset.mem_filter, Finset.mem_insert, hS]
      by_cases hij : i = j
      · simp [hij]
      · by_cases hj : j ∈ I i
        · simp [hj, hij]
        · simp [hj, hij, Ne.symm hij]
    unfold nnz
    have hc : (Finset.univ.filter (fun j => (setZerosDiagonal (fun i j => if j ∈ I i then some (D i j) else none) i j).isSome = true)).card = (insert i (I i)).card := congrArg Finset.card this
    refine Eq.trans ?_ (hc.trans ?_)
    · congr
    · rw [Finset.card_insert_of_notMem (hI i).1, (hI i).2.1]
      omega
  · have := hS i i
    rw [if_pos rfl] at this
    convert this
  · have e := hS i j
    have e : (if i = j then some 0 else if j ∈ I i then some (D i j) else none) = some x := by
      rw [← e]
      convert hx
    split at e
    · rename_i hij
      rw [← hij, hdiag, ← Option.some.inj e]
    · split at e
      · exact (Option.some.inj e).symm
      · cases e
  · have e1 := hS i j
    have e2 := hS i j'
    have h1 : (if i = j then some 0 else if j ∈ I i then some (D i j) else none).isSome := by
      rw [← e1]
      convert h1
    have h2 : (if i = j' then some 0 else if j' ∈ I i then some (D i j') else none) = none := by
      rw [← e2]
      convert h2
    by_cases hij : i = j
    · rw [← hij, hdiag]
      exact hD i j'
    · rw [if_neg hij] at h1
      have hj : j ∈ I i := by
        by_contra hc
        rw [if_neg hc] at h1
        cases h1
      by_cases hij' : i = j'
      · rw [if_pos hij'] at h2
        cases h2
      · rw [if_neg hij'] at h2
        have hj' : j' ∉ I i := by
          intro hc
          rw [if_pos hc] at h2
          cases h2
        exact (hI i).2.2 j hj j' hj' (Ne.symm hij')

/-- C105, component-wise. -/
theorem C105_componentwise {m n : Nat} (k : Nat) (hk : 1 ≤ k) (hkn : k ≤ n) (hn : 1 < n) (D : Fin m → Fin n → ℝ) (res : Except DErr (Stored m n)) (h : KnnCdist k D res) :
    ∃ S, res = .ok S ∧ (∀ i, nnz S i = k) ∧ (∀ i j x, S i j = some x → x = D i j) ∧ ∀ i j j', (S i j).isSome → S i j' = none → D i j ≤ D i j' := by
  classical
  unfold KnnCdist at h
  rw [if_neg (by omega)] at h
  obtain ⟨I, hI, rfl⟩ := h
  refine ⟨_, rfl, fun i => ?_, fun i j x hx => ?_, fun i j j' h1 h2 => ?_⟩
  · rw [← (hI i).1]
    unfold nnz
    congr 1
    ext j
    rw [Finset.mem_filter]
    by_cases hj : j ∈ I i
    · simp [hj]
    · simp [hj]
  · split at hx
    · exact (Option.some.inj hx).symm
    · cases hx
  · have hj : j ∈ I i := by
      by_contra hc
      rw [if_neg hc] at h1
      cases h1
    have hj' : j' ∉ I i := by
      intro hc
      rw [if_pos hc] at h2
      cases h2
    exact (hI i).2 j hj j' hj'

/-- C105: pair-wise evaluation with `k = 1` (each point is its own neighbour) is rejected, although component-wise evaluation accepts it. -/
theorem C105_one {n : Nat} (D : Fin n → Fin n → ℝ) (res : Except DErr (Stored n n)) (h : KnnPdist 1 D res) : res = .error .value := by
  unfold KnnPdist at h
  rwa [if_pos (by omega)] at h

example : ∃ res, KnnPdist 2 (fun i j : Fin 3 => |(![0, 1, 5] : Fin 3 → ℝ) i - ![0, 1, 5] j|) res := by
  classical
  unfold KnnPdist
  simp only [show ¬ (3 ≤ 1 ∨ 2 ≤ 1 ∨ 3 < 2) by omega, if_false]
  refine ⟨_, ![{1}, {0}, {1}], ?_, rfl⟩
  intro i
  fin_cases i <;> refine ⟨by simp, by simp, fun j hj j' hj' hne => ?_⟩ <;> fin_cases j' <;> simp at hj hj' hne ⊢ <;> subst hj <;> norm_num

end Verif.Dist
