import Verif.Dist.Objects
import Verif.Dist.Props
/-! # Property C197: distance objects state what they compute and accept the data they can compute with -/

namespace Verif.Dist

/-- The stored values of a square matrix are symmetric. -/
def IsSymm {n : Nat} (S : Stored n n) : Prop := ∀ i j, S i j = S j i

/-- The number of points and of features of an array as the documentation describes it, `(n_samples, n_features)`. -/
def HasShape (s : Shape) (n d : Nat) : Prop := s = [n, d]
instance (s : Shape) (n d : Nat) : Decidable (HasShape s n d) := inferInstanceAs (Decidable (s = [n, d]))

/-! ### Lemmas -/

theorem ensureKmin_symm {n : Nat} (kmin : Nat) (D : Fin n → Fin n → ℝ) (S S' : Stored n n) (hS : IsSymm S) (hD : ∀ i j, D i j = D j i) (h : EnsureKmin true (fun _ => rfl) kmin D S (.ok S')) :
    IsSymm S' := by
  classical
  unfold EnsureKmin at h
  split at h
  · split at h
    · cases h
    · obtain ⟨I, _, h⟩ := h
      simp only [Fin.cast_eq_self, dite_true, Except.ok.injEq] at h
      subst h
      intro i j
      simp only [hD j i, hS j i]
      split_ifs <;> rfl
  · cases h; exact hS

theorem handleKmin_symm {n : Nat} (kmin : Option Nat) (dense : Bool) (D : Fin n → Fin n → ℝ) (S S' : Stored n n) (hS : IsSymm S) (hD : ∀ i j, D i j = D j i)
    (h : HandleKmin true (fun _ => rfl) kmin dense D S (.ok S')) : IsSymm S' := by
  unfold HandleKmin at h
  cases kmin with
  | none => cases h; exact hS
  | some k =>
    simp only at h
    split at h
    · split at h
      · cases h
      · exact ensureKmin_symm k D S S' hS hD h
    · cases h; exact hS

variable {P : Type}

theorem radiusQuery_symm (e : P → P → ℝ) (he : IsDist e) (mt : Metric) (r : Option ℝ) (X : Cloud P) : IsSymm (radiusQuery e mt r X X) := by
  intro i j
  cases r with
  | none => simp [radiusQuery, he.symm (X.pt i) (X.pt j)]
  | some r => simp only [radiusQuery, he.symm (X.pt i) (X.pt j)]

theorem setZeros_symm {n : Nat} (S : Stored n n) (hS : IsSymm S) : IsSymm (setZerosDiagonal S) := by
  intro i j
  unfold setZerosDiagonal
  by_cases h : i = j
  · subst h; rfl
  · have h' : j ≠ i := fun h2 => h h2.symm
    simp only [if_neg h, if_neg h', hS i j]

/-! ### Property theorems -/

/-- **C197 (symmetry, brute force).** What `is_symmetric` promises: the pair-wise distances are symmetric, with and without a cut-off, for every symmetric metric. -/
theorem C197_symmetric_brute (dm : P → P → ℝ) (cut : Option ℝ) (X : Cloud P) (hX : 1 < X.n) :
    ∃ S : Stored X.n X.n, bruteCall dm cut X none = .ok ⟨X.n, X.n, S⟩ ∧ IsSymm S := by
  refine ⟨applyCutOff cut (pdistMatrix dm X), ?_, ?_⟩
  · unfold bruteCall; rw [if_neg (by omega)]
  · have hp : ∀ i j, pdistMatrix dm X i j = pdistMatrix dm X j i := by
      intro i j
      unfold pdistMatrix
      by_cases h : i = j
      · subst h; rfl
      · have h' : j ≠ i := fun h2 => h h2.symm
        rw [if_neg h, if_neg h', min_comm, max_comm]
    intro i j
    unfold applyCutOff
    cases cut with
    | none => simp only [hp i j]
    | some c => simp only [dense2csr, hp i j]

/-- **C197 (symmetry, trees).** The same for the tree algorithms with and without cut-off, also after the distances for `kmin` neighbours have been inserted and whatever points the
object has seen before. -/
theorem C197_symmetric_tree (t : Tree) (e : P → P → ℝ) (he : IsDist e) (mt : Metric) (cut : Option ℝ) (st : Option (Cloud P)) (X : Cloud P) (hX : 1 < X.n) (kmin : Option Nat) (dense : Bool) :
    ∃ S : Stored X.n X.n, (treeCall t e mt cut st X none).1 = .ok ⟨X.n, X.n, S⟩ ∧
      ∀ S', HandleKmin true (fun _ => rfl) kmin dense (fun i j => e (X.pt i) (X.pt j)) S (.ok S') → IsSymm S' := by
  have hr := radiusQuery_symm e he mt (radius mt cut) X
  cases t with
  | scipyKdTree =>
    refine ⟨radiusQuery e mt (radius mt cut) X X, ?_, fun S' h => handleKmin_symm kmin dense _ _ S' hr (fun i j => he.symm _ _) h⟩
    unfold treeCall; rw [if_neg (by omega)]
  | sklearnBalltree =>
    refine ⟨setZerosDiagonal (fun i j => if i = j then none else radiusQuery e mt (radius mt cut) X X i j), ?_,
      fun S' h => handleKmin_symm kmin dense _ _ S' (setZeros_symm _ ?_) (fun i j => he.symm _ _) h⟩
    · unfold treeCall; rw [if_neg (by omega)]
    · intro i j
      by_cases h : i = j
      · subst h; rfl
      · have h' : j ≠ i := fun h2 => h h2.symm
        simp only [if_neg h, if_neg h', hr i j]

/-- Three points on a line at 0, 1 and 3. -/
def exLineD : Fin 3 → Fin 3 → ℝ := ![![0, 1, 3], ![1, 0, 2], ![3, 2, 0]]

/-- **C197 (nearest neighbours).** Nearest neighbour objects rightly do not promise a symmetric matrix: for these points every result is unsymmetric. -/
theorem C197_knn_unsymmetric (S : Stored 3 3) (h : KnnPdist 2 exLineD (.ok S)) : ¬ IsSymm S := by
  classical
  intro hs
  unfold KnnPdist at h
  rw [if_neg (by omega)] at h
  obtain ⟨I, hI, h⟩ := h
  cases h
  have hc : ∀ a b c : Fin 3, a ≠ b → a ≠ c → b ≠ c → exLineD a b < exLineD a c → b ∈ I a ∧ c ∉ I a := by
    intro a b c hab hac hbc hlt
    obtain ⟨h1, h2, h3⟩ := hI a
    have hmem : ∀ x, x ∈ I a → x = b ∨ x = c := by
      intro x hx
      have : x ≠ a := fun hxa => h1 (hxa ▸ hx)
      have key : ∀ a b c x : Fin 3, a ≠ b → a ≠ c → b ≠ c → x ≠ a → x = b ∨ x = c := by decide
      exact key a b c x hab hac hbc this
    obtain ⟨x, hx⟩ := Finset.card_eq_one.1 h2
    have hxm : x ∈ I a := by rw [hx]; exact Finset.mem_singleton_self x
    have hxb : x = b := by
      rcases hmem x hxm with h | h
      · exact h
      · exfalso
        subst h
        have hb : b ∉ I a := by rw [hx, Finset.mem_singleton]; exact hbc
        have := h3 x hxm b hb (fun h => hab h.symm)
        linarith
    subst hxb
    exact ⟨hxm, by rw [hx, Finset.mem_singleton]; exact fun h => hbc h.symm⟩
  have h1 := hc 2 1 0 (by decide) (by decide) (by decide) (show (2 : ℝ) < 3 by norm_num)
  have h2 := hc 1 0 2 (by decide) (by decide) (by decide) (show (1 : ℝ) < 2 by norm_num)
  have := hs 2 1
  unfold setZerosDiagonal at this
  simp only [if_pos h1.1, if_neg h2.2, if_neg (show ¬ (2 : Fin 3) = 1 by decide), if_neg (show ¬ (1 : Fin 3) = 2 by decide), Option.map_some, Option.map_none] at this
  exact absurd this (by simp)

/-- A result exists. -/
example : ∃ S, KnnPdist 2 exLineD (.ok S) := by
  have hn : ∀ i : Fin 3, i ∉ (![{1}, {0}, {1}] : Fin 3 → Finset (Fin 3)) i := by decide
  have hc : ∀ i : Fin 3, ((![{1}, {0}, {1}] : Fin 3 → Finset (Fin 3)) i).card = 2 - 1 := by decide
  have hj : ∀ i j j' : Fin 3, j ∈ (![{1}, {0}, {1}] : Fin 3 → Finset (Fin 3)) i → j' ∉ (![{1}, {0}, {1}] : Fin 3 → Finset (Fin 3)) i → j' ≠ i →
      (i = 0 ∧ j = 1 ∧ j' = 2) ∨ (i = 1 ∧ j = 0 ∧ j' = 2) ∨ (i = 2 ∧ j = 1 ∧ j' = 0) := by decide
  have h : ∀ S, S = setZerosDiagonal (fun i j => open Classical in if j ∈ (![{1}, {0}, {1}] : Fin 3 → Finset (Fin 3)) i then some (exLineD i j) else none) → KnnPdist 2 exLineD (.ok S) := by
    rintro S rfl
    unfold KnnPdist
    rw [if_neg (by omega)]
    refine ⟨![{1}, {0}, {1}], fun i => ⟨hn i, hc i, ?_⟩, rfl⟩
    intro j h1 j' h2 h3
    rcases hj i j j' h1 h2 h3 with ⟨rfl, rfl, rfl⟩ | ⟨rfl, rfl, rfl⟩ | ⟨rfl, rfl, rfl⟩
    · exact show (1 : ℝ) ≤ 3 by norm_num
    · exact show (1 : ℝ) ≤ 2 by norm_num
    · exact show (2 : ℝ) ≤ 3 by norm_num
  exact ⟨_, h _ rfl⟩

theorem initAttrs_range {a : Algorithm} {sym : Bool} {mt : Metric} {c : Option ℝ} {k : Option Int} {o : Attrs} (h : initAttrs a sym mt (some c) k = .ok o) :
    (∀ x, c = some x → 0 < x) ∧ (∀ q, k = some q → 0 < q) ∧ o = ⟨a, sym, some (c.map mt.apply), k, k⟩ := by
  unfold initAttrs setRange setKnn at h
  cases c with
  | none =>
    cases k with
    | none => cases h; simp
    | some q =>
      simp only at h
      split at h
      · cases h
      · rename_i e q' hq
        split at hq
        · cases hq
        · cases hq; cases h; simp; omega
  | some x =>
    simp only at h
    split at h
    · cases h
    · rename_i c' hc
      split at hc
      · cases hc
      · rename_i hx
        cases hc
        cases k with
        | none => cases h; simp only [Option.some.injEq]; exact ⟨fun y hy => hy ▸ not_le.1 hx, fun q hq => (nomatch hq), rfl⟩
        | some q =>
          simp only at h
          split at h
          · cases h
          · rename_i q' hq
            split at hq
            · cases hq
            · cases hq; cases h
              simp only [Option.some.injEq]
              exact ⟨fun y hy => hy ▸ not_le.1 hx, fun y hy => by omega, rfl⟩

/-- **C197 (format).** `is_sparse` is right for every object with a cut-off and for nearest neighbour objects. -/
theorem C197_sparse_partial (a : Algorithm) (mt : Metric) (cut : Option ℝ) (kn : Option Int) (o : Attrs) (h : newAlgorithm a mt cut kn = .ok o) (hc : a = .knn ∨ ∃ c, cut = some c ∧ c ≠ 0) :
    o.isSparse = true ∧ o.returnsSparse = true := by
  rcases hc with rfl | ⟨c, rfl, hc⟩
  · unfold newAlgorithm at h
    cases kn with
    | none => cases h
    | some k =>
      unfold initAttrs setKnn at h
      simp only at h
      split at h
      · cases h
      · cases h; exact ⟨rfl, rfl⟩
  · have ho : orInf (some c) = some c := by unfold orInf; simp only; rw [if_neg hc]
    cases a with
    | brute =>
      unfold newAlgorithm at h
      rw [ho] at h
      obtain ⟨_, _, rfl⟩ := initAttrs_range h
      exact ⟨rfl, rfl⟩
    | tree t =>
      unfold newAlgorithm at h
      rw [ho] at h
      obtain ⟨_, _, rfl⟩ := initAttrs_range h
      exact ⟨rfl, rfl⟩
    | knn =>
      unfold newAlgorithm at h
      cases kn with
      | none => cases h
      | some k =>
        unfold initAttrs setKnn at h
        simp only at h
        split at h
        · cases h
        · cases h; exact ⟨rfl, rfl⟩

/-- **C197 is violated without a cut-off**: every brute force or tree object without one states that its matrices are sparse, but they are arrays. -/
theorem C197_sparse_violated (a : Algorithm) (ha : a ≠ .knn) (mt : Metric) (cut : Option ℝ) (hc : cut = none ∨ cut = some 0) :
    ∃ o, newAlgorithm a mt cut none = .ok o ∧ o.isSparse = true ∧ o.returnsSparse = false := by
  have ho : orInf cut = none := by
    rcases hc with rfl | rfl
    · rfl
    · unfold orInf; simp
  cases a with
  | brute => exact ⟨⟨.brute, true, some none, none, none⟩, by unfold newAlgorithm; rw [ho]; rfl, rfl, rfl⟩
  | tree t => exact ⟨⟨.tree t, true, some none, none, none⟩, by unfold newAlgorithm; rw [ho]; rfl, rfl, rfl⟩
  | knn => exact absurd rfl ha

/-- **C197 (constructor).** Tree objects are made exactly for cut-offs that are not negative (zero means none) and for positive numbers of neighbours or none. -/
theorem C197_constructor (t : Tree) (mt : Metric) (cut : Option ℝ) (kmin : Option Int) :
    (∃ o, newAlgorithm (.tree t) mt cut kmin = .ok o) ↔ (∀ c, cut = some c → 0 ≤ c) ∧ ∀ k, kmin = some k → 1 ≤ k := by
  constructor
  · rintro ⟨o, h⟩
    obtain ⟨h1, h2, _⟩ := initAttrs_range (show initAttrs (.tree t) true mt (some (orInf cut)) kmin = .ok o from h)
    refine ⟨?_, fun k hk => h2 k hk⟩
    rintro c rfl
    by_cases hc : c = 0
    · exact hc.ge
    · exact (h1 c (by unfold orInf; simp only; rw [if_neg hc])).le
  · rintro ⟨h1, h2⟩
    have hr : ∃ c', setRange mt (orInf cut) = .ok c' := by
      cases cut with
      | none => exact ⟨none, rfl⟩
      | some c =>
        by_cases hc : c = 0
        · exact ⟨none, by unfold orInf; simp only; rw [if_pos hc]; rfl⟩
        · refine ⟨some (mt.apply c), ?_⟩
          unfold orInf; simp only; rw [if_neg hc]
          unfold setRange; simp only
          rw [if_neg (not_le.2 (lt_of_le_of_ne (h1 c rfl) (Ne.symm hc)))]
    obtain ⟨c', hr⟩ := hr
    cases kmin with
    | none => exact ⟨⟨.tree t, true, some c', none, none⟩, by unfold newAlgorithm initAttrs; simp only [hr]⟩
    | some k =>
      have hk : setKnn k = .ok k := by unfold setKnn; rw [if_neg (by have := h2 k rfl; omega)]
      exact ⟨⟨.tree t, true, some c', some k, some k⟩, by unfold newAlgorithm initAttrs; simp only [hr, hk]⟩

/-- **C197 (attributes).** What an object says about itself: nearest neighbours are the only distances that are not declared symmetric and the only ones of type "knn", they have no cut-off and
the number of neighbours of the constructor; brute force has no number of neighbours; a tree has the `kmin` of the constructor. -/
theorem C197_attributes {a : Algorithm} {mt : Metric} {cut : Option ℝ} {kn : Option Int} {o : Attrs} (h : newAlgorithm a mt cut kn = .ok o) :
    o.algorithm = a ∧ (o.isSymmetric = true ↔ a ≠ .knn) ∧ (o.distType = .knn ↔ a = .knn) ∧ (o.distType = .range ↔ a ≠ .knn) ∧
      (a = .knn → ∃ k, kn = some k ∧ 0 < k ∧ o.cutOff = none ∧ o.kOut = some k ∧ o.kmin = none) ∧ (a = .brute → o.kmin = none ∧ o.kOut = none) ∧ (∀ t, a = .tree t → o.kmin = kn ∧ o.kOut = kn) := by
  cases a with
  | brute =>
    obtain ⟨-, -, rfl⟩ := initAttrs_range (show initAttrs .brute true mt (some (orInf cut)) none = .ok o from h)
    simp [Attrs.distType]
  | tree t =>
    obtain ⟨-, -, rfl⟩ := initAttrs_range (show initAttrs (.tree t) true mt (some (orInf cut)) kn = .ok o from h)
    simp [Attrs.distType]
  | knn =>
    cases kn with
    | none => cases h
    | some k =>
      simp only [newAlgorithm, initAttrs, setKnn] at h
      by_cases hk : k ≤ 0
      · rw [if_pos hk] at h; cases h
      · rw [if_neg hk] at h; cases h
        simp [Attrs.distType, show 0 < k by omega]

/-- non-vacuity: one object of each kind -/
example : (∃ o, newAlgorithm .brute .euclidean (some 2) none = .ok o) ∧ (∃ o, newAlgorithm (.tree .scipyKdTree) .euclidean (some 2) (some 3) = .ok o) ∧ ∃ o, newAlgorithm .knn .euclidean none (some 3) = .ok o := by
  refine ⟨?_, (C197_constructor _ _ _ _).2 (by simp), by simp [newAlgorithm, initAttrs, setKnn]⟩
  simp [newAlgorithm, initAttrs, setRange, orInf, show ¬ (2:ℝ) ≤ 0 by norm_num]

/-- **C197 is violated for `kmin=0`**: "at least zero neighbours" holds for every matrix, and is the default of a `PCManifold`, but the tree algorithms reject it. -/
theorem C197_zero_violated (t : Tree) (mt : Metric) (cut : Option ℝ) : ¬ ∃ o, newAlgorithm (.tree t) mt cut (some 0) = .ok o := by
  rw [C197_constructor]
  rintro ⟨_, h⟩
  exact absurd (h 0 rfl) (by norm_num)

/-- **C197 (data).** Arrays of the documented shape `(n_samples, n_features)` are accepted exactly if there are at least two reference points and both have the same number of features, and are
handed to the backend as they are. -/
theorem C197_data {X : Shape} {n d : Nat} (hX : HasShape X n d) : ((∃ r, validateShapes X none = .ok r) ↔ 2 ≤ n) ∧ (2 ≤ n → validateShapes X none = .ok (X, none)) ∧
    ∀ {Y : Shape} {m d' : Nat}, HasShape Y m d' → ((∃ r, validateShapes X (some Y) = .ok r) ↔ 2 ≤ n ∧ d = d') ∧ (2 ≤ n ∧ d = d' → validateShapes X (some Y) = .ok (X, some Y)) := by
  cases hX
  refine ⟨?_, ?_, ?_⟩
  · by_cases h : n ≤ 1
    · simp [validateShapes, colvec, h]
      try omega
    · simp [validateShapes, colvec, h]
      try omega
  · intro h
    simp [validateShapes, colvec, show ¬ n ≤ 1 by omega]
  · intro Y m d' hY
    cases hY
    by_cases h : n ≤ 1
    · simp [validateShapes, colvec, h]
      try omega
    · by_cases hd : d = d'
      · simp [validateShapes, colvec, rowvec, h, hd]
        try omega
      · simp [validateShapes, colvec, rowvec, h, hd]

/-- **C197 (one query point).** A one-dimensional array of queries is one point. -/
theorem C197_query {n d d' : Nat} (hn : 2 ≤ n) : validateShapes [n, d] (some [d']) = if d = d' then .ok ([n, d], some [1, d']) else .error .value := by
  by_cases hd : d = d'
  · simp [validateShapes, colvec, rowvec, show ¬ n ≤ 1 by omega, hd]
  · simp [validateShapes, colvec, rowvec, show ¬ n ≤ 1 by omega, hd]

/-- **C197 is violated for one-dimensional arrays**: the pair-wise distances of an array of `n` numbers are computed, the same points as queries are always rejected. -/
theorem C197_vector_violated {n : Nat} (hn : 2 ≤ n) : validateShapes [n] none = .ok ([n, 1], none) ∧ validateShapes [n] (some [n]) = .error .value := by
  constructor
  · simp [validateShapes, colvec, show ¬ n ≤ 1 by omega]
  · simp [validateShapes, colvec, rowvec, show ¬ n ≤ 1 by omega, show 1 ≠ n by omega]

example : HasShape [5, 3] 5 3 ∧ validateShapes [5, 3] (some [2, 3]) = .ok ([5, 3], some [2, 3]) ∧ validateShapes [1, 3] none = .error .value := by decide

end Verif.Dist
