import Verif.Kernel.JsfTypes
import Mathlib.Tactic.Linarith
/-!
# Types of data and number of jointly smooth functions (C187)
-/

namespace Verif.Kernel

/-- Parameters as documented: at least two splits with different names, positive numbers, a cut-off that is not negative. -/
structure JsfProper (p : JsfParams) : Prop where
  splits : 2 ≤ p.names.length
  unique : p.names.Nodup
  eig : 1 ≤ p.nEig
  req : 1 ≤ p.requested
  cut : 0 ≤ p.cutOff

/-- More than `k` of the eigenvalues lie above the cut-off. -/
def MoreThan (k : Nat) (cutOff : ℝ) (eigenvalues : List ℝ) : Prop := ∃ l : List ℝ, l.Sublist eigenvalues ∧ k < l.length ∧ ∀ x ∈ l, cutOff < x

theorem lt_jsfKept (k : Nat) (c : ℝ) (ev : List ℝ) : k < jsfKept c ev ↔ MoreThan k c ev := by
  classical
  constructor
  · intro h
    refine ⟨ev.filter (fun x => decide (c < x)), List.filter_sublist, ?_, by simp⟩
    simpa [jsfKept] using h
  · rintro ⟨l, h1, h2, h3⟩
    have h4 : l.Sublist (ev.filter (fun x => decide (c < x))) := by
      rw [← List.filter_eq_self.2 (fun x hx => decide_eq_true (h3 x hx))]
      exact h1.filter _
    have := h4.length_le
    have h5 : jsfKept c ev = (ev.filter (fun x => decide (c < x))).length := by unfold jsfKept; congr!
    omega

theorem jsfValidate_ok (p : JsfParams) : jsfValidate p = .ok () ↔ JsfProper p := by
  unfold jsfValidate
  constructor
  · intro h
    split_ifs at h with h1 h2 h3 h4 h5
    exact ⟨by omega, h2, by omega, by omega, not_lt.1 h5⟩
  · rintro ⟨h1, h2, h3, h4, h5⟩
    rw [if_neg (by omega), if_neg (not_not.2 h2), if_neg (by omega), if_neg (by omega), if_neg (not_lt.2 h5)]

theorem jsfFitColumns_ok {t : JsfData} {n : Nat} {p : JsfParams} {ev : String → List ℝ} {k : Nat} :
    jsfFitColumns t n p ev = .ok k ↔ JsfProper p ∧ p.nEig < n ∧ t ≠ .frame ∧ k = jsfColumns n p.requested.toNat (p.names.map (fun s => jsfKept p.cutOff (ev s))) ∧
      (t = .tsc → (k : Int) = p.requested) := by
  unfold jsfFitColumns
  constructor
  · intro h
    split_ifs at h with h1
    cases hv : jsfValidate p with
    | error e => rw [hv] at h; simp at h
    | ok u =>
      rw [hv] at h
      have hp := (jsfValidate_ok p).1 hv
      have hr := hp.req
      cases t with
      | frame => simp [jsfEigen] at h
      | array =>
        simp only [jsfEigen, jsfLabel, Except.ok.injEq] at h
        exact ⟨hp, by have := hp.eig; omega, by simp, h.symm, by simp⟩
      | tsc =>
        simp only [jsfEigen, jsfLabel] at h
        split_ifs at h with h2
        simp only [Except.ok.injEq] at h
        exact ⟨hp, by have := hp.eig; omega, by simp, h.symm, fun _ => by omega⟩
  · rintro ⟨hp, h1, h2, h3, h4⟩
    have he := hp.eig
    have hr := hp.req
    rw [if_neg (by omega), (jsfValidate_ok p).2 hp]
    cases t with
    | frame => simp at h2
    | array => simp [jsfEigen, jsfLabel, h3]
    | tsc =>
      simp only [jsfEigen, jsfLabel]
      have := h4 rfl
      rw [if_pos (by omega), ← h3]

/-- **C187 (collections).** For a time series collection with two splits the fit succeeds exactly for proper parameters, more samples than kernel eigenvectors, and more eigenvalues above the cut-off than requested
functions in both splits; the result has exactly the requested number of functions and the model can be used in `transform`. -/
theorem C187_collection (n : Nat) (p : JsfParams) (ev : String → List ℝ) (a b : String) (hn : p.names = [a, b]) (k : Nat) :
    jsfFitColumns .tsc n p ev = .ok k ↔ JsfProper p ∧ p.nEig < n ∧ (k : Int) = p.requested ∧ MoreThan k p.cutOff (ev a) ∧ MoreThan k p.cutOff (ev b) := by
  rw [jsfFitColumns_ok, hn, ← lt_jsfKept, ← lt_jsfKept]
  simp only [List.map_cons, List.map_nil, jsfColumns, ne_eq, reduceCtorEq, not_false_eq_true, true_and, forall_const]
  refine and_congr_right (fun hp => and_congr_right (fun _ => ?_))
  have hr := hp.req
  omega

/-- **C187 (more than two splits).** As many functions as requested, if there are so many samples and so many eigenvalues above the cut-off in all splits together. -/
theorem C187_collection_many (n : Nat) (p : JsfParams) (ev : String → List ℝ) (hn : 3 ≤ p.names.length) (k : Nat) :
    jsfFitColumns .tsc n p ev = .ok k ↔ JsfProper p ∧ p.nEig < n ∧ (k : Int) = p.requested ∧ k ≤ n ∧ k ≤ (p.names.map (fun s => jsfKept p.cutOff (ev s))).sum := by
  rw [jsfFitColumns_ok]
  have hc : jsfColumns n p.requested.toNat (p.names.map (fun s => jsfKept p.cutOff (ev s))) = min (min p.requested.toNat (p.names.map (fun s => jsfKept p.cutOff (ev s))).sum) n := by
    match hl : p.names with
    | [] => simp [hl] at hn
    | [_] => simp [hl] at hn
    | [_, _] => simp [hl] at hn
    | a :: b :: c :: l => simp [jsfColumns]
  rw [hc]
  simp only [ne_eq, reduceCtorEq, not_false_eq_true, true_and, forall_const]
  refine and_congr_right (fun hp => and_congr_right (fun _ => ?_))
  have hr := hp.req
  omega

/-- **C187 (fit and fit_transform).** Both accept the same data; a fitted model transforms exactly if it has the requested number of functions. -/
theorem C187_fit_transform (t : JsfData) (n : Nat) (p : JsfParams) (ev : String → List ℝ) (k : Nat) :
    (jsfFitTransform t n p ev = .ok k ↔ jsfFitColumns t n p ev = .ok k) ∧ (jsfFitColumns .tsc n p ev = .ok k → jsfTransformColumns k p = .ok k) := by
  constructor
  · unfold jsfFitTransform
    split_ifs with h
    · simp only [false_iff]
      intro h'
      obtain ⟨hp, h1, -⟩ := jsfFitColumns_ok.1 h'
      have := hp.eig
      omega
    · rfl
  · intro h
    obtain ⟨hp, -, -, -, h1⟩ := jsfFitColumns_ok.1 h
    have := h1 rfl
    unfold jsfTransformColumns
    rw [if_pos (by omega)]
    congr 1
    omega

/-- **C187 (frames; violated).** A `pandas.DataFrame` is never accepted, although documented. -/
theorem C187_frame_violated (n : Nat) (p : JsfParams) (ev : String → List ℝ) : ∃ e, jsfFitColumns .frame n p ev = .error e := by
  cases h : jsfFitColumns .frame n p ev with
  | error e => exact ⟨e, rfl⟩
  | ok k => exact absurd rfl (jsfFitColumns_ok.1 h).2.2.1

/-- **C187 (arrays; violated).** For an array with two splits, one of which has no more eigenvalues above the cut-off than functions are requested, the fit returns fewer functions than requested without notice (none at all
if there is one eigenvalue), and `transform` of the model always raises. -/
theorem C187_array_violated (n : Nat) (p : JsfParams) (hp : JsfProper p) (hs : p.nEig < n) (ev : String → List ℝ) (a b : String) (hn : p.names = [a, b])
    (hk : ¬ (MoreThan p.requested.toNat p.cutOff (ev a) ∧ MoreThan p.requested.toNat p.cutOff (ev b))) :
    ∃ k : Nat, jsfFitColumns .array n p ev = .ok k ∧ (k : Int) < p.requested ∧ (¬ MoreThan 1 p.cutOff (ev a) → k = 0) ∧ jsfTransformColumns k p = .error .value := by
  have hr := hp.req
  rw [← lt_jsfKept, ← lt_jsfKept] at hk
  rw [← lt_jsfKept]
  refine ⟨_, jsfFitColumns_ok.2 ⟨hp, hs, by simp, rfl, by simp⟩, ?_⟩
  rw [hn]
  simp only [List.map_cons, List.map_nil, jsfColumns]
  refine ⟨by omega, by omega, ?_⟩
  unfold jsfTransformColumns
  rw [if_neg (by omega)]

/-! ## The hypotheses can be met -/

/-- Two splits with three eigenvalues each; the cut-off removes the third. -/
example : JsfProper ⟨["a", "b"], 3, 1, 1 / 2⟩ ∧ jsfKept (1 / 2) [3, 1, 0] = 2 := by
  refine ⟨⟨by simp, by simp, by simp, by simp, by norm_num⟩, ?_⟩
  simp only [jsfKept]
  norm_num

example : jsfFitColumns .tsc 5 ⟨["a", "b"], 3, 1, 1 / 2⟩ (fun _ => [3, 1, 0]) = .ok 1 := by
  rw [C187_collection 5 _ _ "a" "b" rfl]
  have : jsfKept (1 / 2) [3, 1, 0] = 2 := by
    simp only [jsfKept]
    norm_num
  exact ⟨⟨by simp, by simp, by simp, by simp, by norm_num⟩, by simp, by simp, by rw [← lt_jsfKept, this]; omega, by rw [← lt_jsfKept, this]; omega⟩

end Verif.Kernel
