import Verif.Transform.RadialBasis
import Mathlib.Algebra.Module.Basic
import Mathlib.Algebra.BigOperators.Group.List.Basic
import Mathlib.Tactic.NormNum
/-!
# C131: coefficients of radial basis functions and the way back

`IsSolver` is what is used of `np.linalg.lstsq`: the result has one entry per column, and it solves the system if it has a solution.
-/

namespace Verif.Transform

open Verif.Tsc

variable {P : Type} [AddCommGroup P] [Module ℝ P]

/-- `lst K C` is a least squares solution of `K W = C`. -/
structure IsSolver (lst : List (List ℝ) → List P → List P) : Prop where
  length : ∀ (K : List (List ℝ)) (C : List P) (n : Nat), K ≠ [] → (∀ r ∈ K, r.length = n) → (lst K C).length = n
  solves : ∀ (K : List (List ℝ)) (C : List P) (n : Nat) (W : List P), (∀ r ∈ K, r.length = n) → W.length = n → K.map (fun r => combine r W) = C → K.map (fun r => combine r (lst K C)) = C

/-- The kernel interpolates at the centers: some combination of the basis functions takes the right values there (for a positive definite kernel and distinct centers this
holds always). -/
def Interpolable (k : P → P → ℝ) (c : List P) : Prop := ∃ W : List P, W.length = c.length ∧ (kernelRows k c c).map (fun r => combine r W) = c

/-- **C131 (fit_transform).** `fit_transform` gives the same estimator and the same coefficients as `fit` followed by `transform`, and raises iff `fit` raises. -/
theorem C131_fit_transform (k : P → P → ℝ) (pick : Nat → Nat → List Nat) (ct : CenterType) (s : RbfState P) (X : RbfData P) (passed : Option (List P)) :
    rbfFitTransform k pick ct s X passed =
      match rbfFit pick ct s X passed with
      | .error e => .error e
      | .ok s' => (rbfTransform k s' X).map (fun r => (s', r)) := by
  unfold rbfFitTransform
  cases h : rbfFit pick ct s X passed with
  | error e => rfl
  | ok s' =>
    simp only
    cases ct with
    | allData =>
      simp only [rbfFit, selectCenters] at h
      by_cases hp : passed.isSome = true
      · rw [if_pos hp] at h; cases h
      · rw [if_neg hp] at h
        cases h
        rfl
    | random m => simp only; cases rbfTransform k s' X <;> rfl
    | fitParams => simp only; cases rbfTransform k s' X <;> rfl
    | initialCondition => simp only; cases rbfTransform k s' X <;> rfl

/-- `transform` returns one row per sample with the kernel values of that sample with every center; the samples of a collection are its rows in their order. -/
theorem C131_transform (k : P → P → ℝ) (s : RbfState P) (c : List P) (hc : s.centers = some c) :
    (∀ X : List P, ∃ rows : List (List ℝ), rbfTransform k s (.array X) = .ok rows ∧ rows.length = X.length ∧
      ∀ (i : Nat) (x : P), X[i]? = some x → ∃ row : List ℝ, rows[i]? = some row ∧ row.length = c.length ∧ ∀ (j : Nat) (z : P), c[j]? = some z → row[j]? = some (k z x)) ∧
    ∀ X : List (Row Int P), ∃ rows : List (List ℝ), rbfTransform k s (.tsc X) = .ok rows ∧ rows.length = X.length ∧
      ∀ (i : Nat) (x : Row Int P), X[i]? = some x → ∃ row : List ℝ, rows[i]? = some row ∧ row.length = c.length ∧ ∀ (j : Nat) (z : P), c[j]? = some z → row[j]? = some (k z x.val) := by
  constructor
  · intro X
    refine ⟨kernelRows k c X, by rw [rbfTransform, hc]; rfl, by simp [kernelRows], ?_⟩
    intro i x hx
    refine ⟨c.map (fun z => k z x), by simp [kernelRows, hx], by simp, ?_⟩
    intro j z hz
    simp [hz]
  · intro X
    refine ⟨kernelRows k c (X.map (·.val)), by rw [rbfTransform, hc]; rfl, by simp [kernelRows], ?_⟩
    intro i x hx
    refine ⟨c.map (fun z => k z x.val), by simp [kernelRows, hx], by simp, ?_⟩
    intro j z hz
    simp [hz]

/-- As long as no `fit` has been accepted, `transform` and `inverse_transform` are refused. -/
theorem C131_unfitted (k : P → P → ℝ) (lst : List (List ℝ) → List P → List P) (pick : Nat → Nat → List Nat) (ct : CenterType) (ops : List (RbfOp P))
    (h : ∀ X passed, RbfOp.fit X passed ∈ ops → ∀ s s', rbfFit pick ct s X passed ≠ .ok s') (X : RbfData P) (rows : List (List ℝ)) :
    rbfTransform k (rbfRun k lst pick ct ops) X = .error .notFitted ∧ rbfInverse k lst (rbfRun k lst pick ct ops) rows = .error .notFitted := by
  have key : ∀ (ops : List (RbfOp P)) (s : RbfState P), s.centers = none → (∀ X passed, RbfOp.fit X passed ∈ ops → ∀ s s', rbfFit pick ct s X passed ≠ .ok s') →
      (ops.foldl (rbfStep k lst pick ct) s).centers = none := by
    intro ops
    induction ops with
    | nil => intro s hs _; exact hs
    | cons o ops ih =>
      intro s hs ho
      refine ih _ ?_ (fun X passed hm => ho X passed (List.mem_cons_of_mem _ hm))
      cases o with
      | fit X passed =>
        simp only [rbfStep]
        cases hf : rbfFit pick ct s X passed with
        | error e => exact hs
        | ok s' => exact absurd hf (ho X passed List.mem_cons_self s s')
      | transform X => exact hs
      | inverse r =>
        have : rbfInverse k lst s r = .error .notFitted := by rw [rbfInverse, hs]
        simp only [rbfStep, this]
        exact hs
  have hn : (rbfRun k lst pick ct ops).centers = none := key ops _ rfl h
  exact ⟨by rw [rbfTransform, hn], by rw [rbfInverse, hn]⟩

/-- Exactly these calls of `fit` are accepted. -/
theorem C131_accepts (pick : Nat → Nat → List Nat) (ct : CenterType) (s : RbfState P) (X : RbfData P) (passed : Option (List P)) :
    (∃ s', rbfFit pick ct s X passed = .ok s') ↔
      match ct with
      | .allData => passed = none
      | .random m => m ≤ X.points.length
      | .fitParams => passed ≠ none
      | .initialCondition => ∃ rows d, X = .tsc rows ∧ initialStates rows 1 = .ok d := by
  have hs : (∃ s', rbfFit pick ct s X passed = .ok s') ↔ ∃ c, selectCenters pick ct X passed = .ok c := by
    unfold rbfFit
    cases selectCenters pick ct X passed <;> simp
  rw [hs]
  unfold selectCenters
  cases ct with
  | allData => cases passed <;> simp
  | random m =>
    by_cases h : X.points.length < m
    · simp [h]
    · simp [h]; omega
  | fitParams => cases passed <;> simp
  | initialCondition =>
    cases X with
    | array l => simp
    | tsc rows => cases h : initialStates rows 1 <;> simp [h]

/-- The centers of a fitted estimator: all samples; `m` of them; the passed ones; the first sample of every series. -/
theorem C131_centers (pick : Nat → Nat → List Nat) (ct : CenterType) (s s' : RbfState P) (X : RbfData P) (passed : Option (List P))
    (hpick : ∀ n m, m ≤ n → (pick n m).Nodup ∧ (pick n m).length = m ∧ ∀ i ∈ pick n m, i < n)
    (h : rbfFit pick ct s X passed = .ok s') :
    ∃ c, s'.centers = some c ∧
      match ct with
      | .allData => passed = none ∧ c = X.points
      | .random m => c.length = m ∧ c.Subperm X.points
      | .fitParams => passed = some c
      | .initialCondition => ∃ rows d, X = .tsc rows ∧ initialStates rows 1 = .ok d ∧ c = d.map (·.val) := by
  unfold rbfFit at h
  cases hc : selectCenters pick ct X passed with
  | error e => rw [hc] at h; cases h
  | ok c =>
    rw [hc] at h
    cases h
    refine ⟨c, rfl, ?_⟩
    unfold selectCenters at hc
    cases ct with
    | allData =>
      simp only at hc ⊢
      split at hc
      · cases hc
      · rename_i hp
        cases hc
        exact ⟨by simpa using hp, rfl⟩
    | random m =>
      simp only at hc ⊢
      split at hc
      · cases hc
      · rename_i hl
        cases hc
        obtain ⟨h1, h2, h3⟩ := hpick X.points.length m (by omega)
        generalize pick X.points.length m = idx at h1 h2 h3
        have hmap : idx.filterMap (fun i => X.points[i]?) = idx.attach.map (fun i => X.points[i.1]'(h3 i.1 i.2)) := by
          rw [← List.filterMap_eq_map]
          conv_lhs => rw [← List.attach_map_subtype_val idx]
          rw [List.filterMap_map]
          apply List.filterMap_congr
          intro i _
          simp [h3 i.1 i.2]
        constructor
        · rw [hmap]; simpa using h2
        · -- a selection of distinct positions is a sub-multiset
          have hsub : idx.Subperm (List.range X.points.length) := List.subperm_of_subset h1 (fun i hi => by simpa using h3 i hi)
          have : (idx.filterMap (fun i => X.points[i]?)).Subperm ((List.range X.points.length).filterMap (fun i => X.points[i]?)) := by
            obtain ⟨l, hp, hs⟩ := hsub
            exact ⟨_, hp.filterMap _, hs.filterMap _⟩
          have hr : (List.range X.points.length).filterMap (fun i => X.points[i]?) = X.points := by
            have : (List.range X.points.length).filterMap (fun i => X.points[i]?) = (List.finRange X.points.length).map (fun i => X.points[i.1]) := by
              rw [← List.filterMap_eq_map, ← List.map_coe_finRange_eq_range, List.filterMap_map]
              apply List.filterMap_congr
              intro i _
              simp
            rw [this]
            exact List.ext_getElem (by simp) (by simp)
          rwa [hr] at this
    | fitParams =>
      simp only at hc ⊢
      split at hc
      · cases hc
      · cases hc; rfl
    | initialCondition =>
      simp only at hc ⊢
      split at hc
      · cases hc
      · rename_i rows
        split at hc
        · cases hc
        · rename_i d hd
          cases hc
          exact ⟨rows, d, rfl, hd, rfl⟩

def RbfOp.isInverse : RbfOp P → Bool
  | .inverse _ => true
  | _ => false

def RbfOp.isFit : RbfOp P → Bool
  | .fit _ _ => true
  | _ => false

/-- The stored matrix belongs to the present centers. -/
def Fresh (k : P → P → ℝ) (lst : List (List ℝ) → List P → List P) (s : RbfState P) : Prop :=
  s.invCoeff = none ∨ ∃ c, s.centers = some c ∧ s.invCoeff = some (lst (kernelRows k c c) c)

theorem run_no_inverse (k : P → P → ℝ) (lst : List (List ℝ) → List P → List P) (pick : Nat → Nat → List Nat) (ct : CenterType) :
    ∀ (ops : List (RbfOp P)) (s : RbfState P), s.invCoeff = none → (∀ o ∈ ops, o.isInverse = false) →
      (ops.foldl (rbfStep k lst pick ct) s).invCoeff = none
  | [], s, h, _ => h
  | o :: ops, s, h, hops => by
    apply run_no_inverse k lst pick ct ops
    · cases o with
      | fit X passed =>
        simp only [rbfStep, rbfFit]
        cases selectCenters pick ct X passed <;> exact h
      | transform X => exact h
      | inverse rows => simp [RbfOp.isInverse] at hops
    · exact fun o ho => hops o (List.mem_cons_of_mem _ ho)

theorem run_no_fit (k : P → P → ℝ) (lst : List (List ℝ) → List P → List P) (pick : Nat → Nat → List Nat) (ct : CenterType) :
    ∀ (ops : List (RbfOp P)) (s : RbfState P), Fresh k lst s → (∀ o ∈ ops, o.isFit = false) →
      Fresh k lst (ops.foldl (rbfStep k lst pick ct) s)
  | [], s, h, _ => h
  | o :: ops, s, h, hops => by
    apply run_no_fit k lst pick ct ops
    · cases o with
      | fit X passed => simp [RbfOp.isFit] at hops
      | transform X => exact h
      | inverse rows =>
        simp only [rbfStep, rbfInverse]
        cases hc : s.centers with
        | none => exact h
        | some c =>
          simp only
          split
          · exact h
          · refine Or.inr ⟨c, by simp [Except.toOption], ?_⟩
            rcases h with h | ⟨c', hc', h⟩
            · simp [Except.toOption, h]
            · rw [hc] at hc'; cases hc'
              simp [Except.toOption, h]
    · exact fun o ho => hops o (List.mem_cons_of_mem _ ho)

/-- **C131 (partial: no new fit after a first inverse transformation).** After any history in which all fits come before all inverse transformations, the coefficients of the centers are mapped back
to the centers. -/
theorem C131_round_trip_partial (k : P → P → ℝ) (lst : List (List ℝ) → List P → List P) (hl : IsSolver lst) (pick : Nat → Nat → List Nat) (ct : CenterType)
    (ops ops' : List (RbfOp P)) (h1 : ∀ o ∈ ops, o.isInverse = false) (h2 : ∀ o ∈ ops', o.isFit = false)
    (c : List P) (hc : (rbfRun k lst pick ct (ops ++ ops')).centers = some c) (hne : c ≠ []) (hi : Interpolable k c) :
    ∃ rows s', rbfTransform k (rbfRun k lst pick ct (ops ++ ops')) (.array c) = .ok rows ∧
      rbfInverse k lst (rbfRun k lst pick ct (ops ++ ops')) rows = .ok (s', c) := by
  have hf : Fresh k lst (rbfRun k lst pick ct (ops ++ ops')) := by
    unfold rbfRun
    rw [List.foldl_append]
    exact run_no_fit k lst pick ct ops' _ (Or.inl (run_no_inverse k lst pick ct ops _ rfl h1)) h2
  generalize rbfRun k lst pick ct (ops ++ ops') = s at hc hf
  obtain ⟨W, hW1, hW2⟩ := hi
  have hrows : ∀ r ∈ kernelRows k c c, r.length = c.length := by
    intro r hr
    obtain ⟨x, _, rfl⟩ := List.mem_map.1 hr
    simp
  have hWd : s.invCoeff.getD (lst (kernelRows k c c) c) = lst (kernelRows k c c) c := by
    rcases hf with h | ⟨c', hc', h⟩
    · simp [h]
    · rw [hc] at hc'; cases hc'; simp [h]
  have hlen := hl.length (kernelRows k c c) c c.length (by simpa [kernelRows] using hne) hrows
  refine ⟨kernelRows k c c, { s with invCoeff := some (lst (kernelRows k c c) c) }, by simp [rbfTransform, hc, RbfData.points], ?_⟩
  unfold rbfInverse
  rw [hc]
  simp only [hWd]
  rw [if_neg]
  · rw [hl.solves _ _ _ W hrows hW1 hW2]
  · rw [not_or]
    constructor
    · simp only [List.any_eq_true, decide_eq_true_eq, not_exists, not_and, not_not]
      exact hrows
    · rw [not_not]; exact hlen

/-- The stored matrix survives everything, in particular every new fit. -/
theorem C131_never_updated (k : P → P → ℝ) (lst : List (List ℝ) → List P → List P) (pick : Nat → Nat → List Nat) (ct : CenterType)
    (ops ops' : List (RbfOp P)) (W : List P) (h : (rbfRun k lst pick ct ops).invCoeff = some W) :
    (rbfRun k lst pick ct (ops ++ ops')).invCoeff = some W := by
  unfold rbfRun at h ⊢
  rw [List.foldl_append]
  generalize ops.foldl (rbfStep k lst pick ct) ⟨none, none⟩ = s at h
  induction ops' generalizing s with
  | nil => exact h
  | cons o ops' ih =>
    apply ih
    cases o with
    | fit X passed =>
      simp only [rbfStep, rbfFit]
      cases selectCenters pick ct X passed <;> exact h
    | transform X => exact h
    | inverse rows =>
      simp only [rbfStep, rbfInverse]
      cases hc : s.centers with
      | none => exact h
      | some c =>
        simp only
        split
        · exact h
        · simp [Except.toOption, h]

/-- **C131 is violated after a second fit.** For every kernel with value 1 at distance 0 and every solver: fit to the point 1, transform back once, fit to the point 2.  Now the coefficients of the (only)
center 2 are mapped to 1. -/
theorem C131_refit_violated (k : ℝ → ℝ → ℝ) (hk : ∀ x, k x x = 1) (lst : List (List ℝ) → List ℝ → List ℝ) (hl : IsSolver lst) (pick : Nat → Nat → List Nat) :
    ∃ ops : List (RbfOp ℝ), (rbfRun k lst pick .allData ops).centers = some [2] ∧ Interpolable k [2] ∧
      ∃ rows s', rbfTransform k (rbfRun k lst pick .allData ops) (.array [2]) = .ok rows ∧
        rbfInverse k lst (rbfRun k lst pick .allData ops) rows = .ok (s', [1]) := by
  have hK : ∀ x, kernelRows k [x] [x] = [[1]] := fun x => by simp [kernelRows, hk]
  have hlen : ∀ x, (lst [[1]] [x]).length = 1 := fun x => hl.length _ _ 1 (by simp) (by simp)
  have hsol : lst [[1]] [1] = [1] := by
    have h := hl.solves [[1]] [1] 1 [1] (by simp) rfl (by simp [combine])
    obtain ⟨a, ha⟩ := List.length_eq_one_iff.1 (hlen 1)
    rw [ha] at h ⊢
    simpa [combine] using h
  have hinv : rbfInverse k lst ⟨some [1], none⟩ [[1]] = .ok (⟨some [1], some [1]⟩, [1]) := by
    unfold rbfInverse
    simp [hK, hsol, combine]
  have hrun : rbfRun k lst pick .allData [.fit (.array [1]) none, .inverse [[1]], .fit (.array [2]) none] = ⟨some [2], some [1]⟩ := by
    simp only [rbfRun, List.foldl_cons, List.foldl_nil, rbfStep, rbfFit, selectCenters, RbfData.points, Option.isSome_none, Bool.false_eq_true, if_false, Except.toOption,
      Option.getD_some, hinv, Option.map_some]
  refine ⟨[.fit (.array [1]) none, .inverse [[1]], .fit (.array [2]) none], by rw [hrun], ⟨[2], rfl, by simp [hK, combine]⟩, [[1]], ⟨some [2], some [1]⟩, ?_, ?_⟩
  · rw [hrun]; simp [rbfTransform, kernelRows, RbfData.points, hk]
  · rw [hrun]; simp [rbfInverse, combine]

open Classical in
/-- non-vacuity: solvers exist -/
theorem exists_rbf_solver : ∃ lst : List (List ℝ) → List P → List P, IsSolver lst := by
  let lst : List (List ℝ) → List P → List P := fun K C =>
    if h : ∃ W : List P, W.length = (K.headD []).length ∧ K.map (fun r => combine r W) = C then h.choose else List.replicate (K.headD []).length 0
  refine ⟨lst, ?_, ?_⟩
  · intro K C n hK hr
    obtain ⟨r, l, rfl⟩ := List.ne_nil_iff_exists_cons.1 hK
    have hn : ((r :: l).headD []).length = n := hr r (by simp)
    simp only [lst]
    split
    · rename_i h
      rw [h.choose_spec.1, hn]
    · simp only [List.length_replicate, hn]
  · intro K C n W hr hW hs
    cases K with
    | nil => simpa using hs
    | cons r l =>
      have hn : ((r :: l).headD []).length = n := hr r (by simp)
      have h : ∃ W : List P, W.length = ((r :: l).headD []).length ∧ (r :: l).map (fun r => combine r W) = C := ⟨W, by rw [hW, hn], hs⟩
      simp only [lst, dif_pos h]
      exact h.choose_spec.2

/-- non-vacuity: a kernel and centers with the required property -/
example : Interpolable (fun x y : ℝ => if x = y then 1 else 0) [1, 2] := ⟨[1, 2], rfl, by norm_num [kernelRows, combine]⟩

end Verif.Transform
