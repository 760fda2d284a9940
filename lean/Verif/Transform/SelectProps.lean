import Verif.Transform.Select
import Verif.Transform.ScalersProps
import Mathlib.Probability.Distributions.Gaussian.Real
import Mathlib.MeasureTheory.Integral.Pi
/-! # C164 and C165: feature selection and random Fourier features -/

namespace Verif.Transform

/-! ## C164 -/

/-- The position that an integer stands for in an array of length `n`: from the end if it is negative. -/
def Denotes (n : Nat) (i : Int) (k : Nat) : Prop := k < n ∧ (i = k ∨ i = (k : Int) - n)

theorem pyIndex_some {β : Type} (l : List β) (i : Int) (b : β) : pyIndex l i = some b ↔ ∃ k, Denotes l.length i k ∧ l[k]? = some b := by
  unfold pyIndex Denotes
  split
  · constructor
    · intro h
      have := (List.getElem?_eq_some_iff.1 h).1
      exact ⟨_, ⟨this, .inl (by omega)⟩, h⟩
    · rintro ⟨k, ⟨hk, h | h⟩, hb⟩
      · rw [h]; exact hb
      · omega
  · split
    · constructor
      · intro h
        have := (List.getElem?_eq_some_iff.1 h).1
        exact ⟨_, ⟨this, .inr (by omega)⟩, h⟩
      · rintro ⟨k, ⟨hk, h | h⟩, hb⟩
        · omega
        · have : ((l.length : Int) + i).toNat = k := by omega
          rw [this]
          exact hb
    · constructor
      · simp
      · rintro ⟨k, ⟨hk, h | h⟩, hb⟩ <;> omega

theorem mapM_pyIndex (a : List String) (pos : List Int) (ks : List Nat) (h : List.Forall₂ (Denotes a.length) pos ks) : pos.mapM (pyIndex a) = some (ks.map (fun k => a.getD k "")) := by
  induction h with
  | nil => rfl
  | cons h1 h2 ih =>
    rename_i i k is ks'
    have : pyIndex a i = some (a.getD k "") := by
      rw [pyIndex_some]
      exact ⟨k, h1, by simp [List.getD_eq_getElem?_getD, h1.1]⟩
    rw [List.mapM_cons, this, ih]
    rfl

theorem mapM_pyIndex_none {a : List String} {pos : List Int} {l : List String} (h : pos.mapM (pyIndex a) = some l) : ∃ ks, List.Forall₂ (Denotes a.length) pos ks := by
  induction pos generalizing l with
  | nil => exact ⟨[], .nil⟩
  | cons i is ih =>
    rw [List.mapM_cons] at h
    cases h1 : pyIndex a i with
    | none => rw [h1] at h; simp at h
    | some b =>
      cases h2 : is.mapM (pyIndex a) with
      | none => rw [h1, h2] at h; simp at h
      | some l' =>
        obtain ⟨ks, hks⟩ := ih h2
        obtain ⟨k, hk, -⟩ := (pyIndex_some _ _ _).1 h1
        exact ⟨k :: ks, .cons hk hks⟩

theorem filterMap_cols {α : Type} (a : List String) (ha : a.Nodup) (v : List α) (hv : v.length = a.length) (ks : List Nat) (hk : ∀ k ∈ ks, k < a.length) (d : α) :
    (ks.map (fun k => a.getD k "")).filterMap (fun s => v[a.idxOf s]?) = ks.map (fun k => v.getD k d) := by
  induction ks with
  | nil => rfl
  | cons k ks ih =>
    have h1 : k < a.length := hk k List.mem_cons_self
    have h2 : a.idxOf (a.getD k "") = k := by
      rw [List.getD_eq_getElem?_getD, List.getElem?_eq_getElem h1]
      exact ha.idxOf_getElem k h1
    rw [List.map_cons, List.map_cons, List.filterMap_cons, h2, List.getElem?_eq_getElem (by omega), ih (fun k hk' => hk k (List.mem_cons_of_mem _ hk'))]
    simp [List.getD_eq_getElem?_getD, hv, h1]

/-- **C164 (positions).** A selection by integers is accepted if and only if every integer denotes a column (negative ones from the end) and no column is selected twice. `transform` then returns, for all
data with the columns of the training data, the selected columns in the order of the selection. -/
theorem C164_positions_partial {α : Type} (d : α) {X : Table α} {a : List String} (hX : X.Ok) (hc : X.cols = some a) (ha : a.Nodup) (pos : List Int) :
    ((∃ st, fitSelect (.ints pos) X = .ok st) ↔ ∃ ks, List.Forall₂ (Denotes X.n) pos ks ∧ ks.Nodup) ∧
      ∀ st ks, fitSelect (.ints pos) X = .ok st → List.Forall₂ (Denotes X.n) pos ks → ∀ Y : Table α, Y.Ok → Y.cols = some a →
        ∃ Z, select (.ints pos) st Y = .ok Z ∧ Z.cols = some (ks.map (fun k => a.getD k "")) ∧ Z.n = pos.length ∧ Z.rows = Y.rows.map (fun v => ks.map (fun k => v.getD k d)) := by
  have hn : X.n = a.length := (hX.2 a hc).symm
  have hlt : ∀ {ks : List Nat}, List.Forall₂ (Denotes a.length) pos ks → ∀ k ∈ ks, k < a.length := by
    intro ks h
    induction h with
    | nil => simp
    | cons h1 _ ih =>
      intro k hk
      rcases List.mem_cons.1 hk with rfl | hk
      · exact h1.1
      · exact ih k hk
  have hnodup : ∀ ks : List Nat, (∀ k ∈ ks, k < a.length) → ((ks.map (fun k => a.getD k "")).Nodup ↔ ks.Nodup) := by
    intro ks hk
    constructor
    · exact fun h => h.of_map _
    · intro h
      refine h.map_on ?_
      intro x hx y hy hxy
      rw [List.getD_eq_getElem?_getD, List.getD_eq_getElem?_getD, List.getElem?_eq_getElem (hk x hx), List.getElem?_eq_getElem (hk y hy)] at hxy
      exact (ha.getElem_inj_iff).1 hxy
  have hmem : ∀ ks : List Nat, (∀ k ∈ ks, k < a.length) → ∀ s ∈ ks.map (fun k => a.getD k ""), s ∈ a := by
    intro ks hk s hs
    obtain ⟨k, hk', rfl⟩ := List.mem_map.1 hs
    rw [List.getD_eq_getElem?_getD, List.getElem?_eq_getElem (hk k hk')]
    exact List.getElem_mem _
  have hfit : ∀ ks, List.Forall₂ (Denotes a.length) pos ks → fitSelect (.ints pos) X = if ks.Nodup then .ok (some a, X.n) else .error .names := by
    intro ks h
    have hk := hlt h
    simp only [fitSelect, selectNames, isStrDtype, hc, mapM_pyIndex a pos ks h, locTable]
    rw [if_neg (by simp), if_neg (by simp)]
    simp only [not_not.2 (hmem ks hk), if_false, hnodup ks hk]
    by_cases hnd : ks.Nodup <;> simp [hnd]
  rw [hn]
  refine ⟨?_, ?_⟩
  · constructor
    · rintro ⟨st, h⟩
      have h0 : ∃ l, pos.mapM (pyIndex a) = some l := by
        by_contra hne
        push Not at hne
        have : pos.mapM (pyIndex a) = none := by
          cases hm : pos.mapM (pyIndex a) with
          | none => rfl
          | some l => exact absurd hm (hne l)
        simp [fitSelect, selectNames, isStrDtype, hc, this] at h
      obtain ⟨l, hl⟩ := h0
      obtain ⟨ks, hks⟩ := mapM_pyIndex_none hl
      rw [hfit ks hks] at h
      by_cases hnd : ks.Nodup
      · exact ⟨ks, hks, hnd⟩
      · rw [if_neg hnd] at h
        simp at h
    · rintro ⟨ks, hks, hnd⟩
      exact ⟨_, by rw [hfit ks hks, if_pos hnd]⟩
  · intro st ks h hks Y hY hYc
    have hk := hlt hks
    rw [hfit ks hks] at h
    by_cases hnd : ks.Nodup
    · rw [if_pos hnd, Except.ok.injEq] at h
      subst h
      have hYn : Y.n = a.length := (hY.2 a hYc).symm
      have hchk : checkInput (some a) X.n Y = .ok () := by
        rw [checkInput_iff]
        refine ⟨by omega, ?_⟩
        intro x y hx hy
        rw [hYc] at hy
        simp_all
      refine ⟨⟨some (ks.map (fun k => a.getD k "")), (ks.map (fun k => a.getD k "")).length, Y.rows.map (fun v => (ks.map (fun k => a.getD k "")).filterMap (fun s => v[a.idxOf s]?))⟩, ?_, rfl, ?_, ?_⟩
      · simp only [select, hYc, hchk, selectNames, isStrDtype, mapM_pyIndex a pos ks hks, locTable]
        rw [if_neg (by simp)]
        simp only [not_not.2 (hmem ks hk), if_false, hnodup ks hk]
        simp [hnd]
      · simp [hks.length_eq]
      · apply List.map_congr_left
        intro v hv
        exact filterMap_cols a ha v (by rw [hY.1 v hv, hYn]) ks hk d
    · rw [if_neg hnd] at h
      simp at h

theorem strLength_pos (l : List String) : 0 < strLength l := by
  unfold strLength
  induction l with
  | nil => simp
  | cons s l ih => simp only [List.foldr_cons]; omega

/-- **C164 fails for names:** a selection by names is rejected for all data, also as an array of objects. -/
theorem C164_names_violated {α : Type} (l : List String) (X : Table α) : (∃ e, fitSelect (.strings l) X = .error e) ∧ ∃ e, fitSelect (.objects l) X = .error e := by
  have := strLength_pos l
  have h : strLength l ≠ 0 := by omega
  constructor
  · exact ⟨.type, by simp [fitSelect, selectNames, isStrDtype, h]⟩
  · exact ⟨.type, by simp [fitSelect, selectNames, isStrDtype]⟩

/-- **C164 fails for arrays:** every selection is rejected for numpy arrays, although they are documented as training data, and so is the question for the names of the selected features. -/
theorem C164_array_violated {α : Type} (fs : Features) {X : Table α} (hX : X.cols = none) : (∃ e, fitSelect fs X = .error e) ∧ ∃ e, selectNames fs X.cols = .error e := by
  have h2 : ∃ e, selectNames fs X.cols = .error e := by
    rw [hX]
    cases fs with
    | strings l =>
      have := strLength_pos l
      have h : strLength l ≠ 0 := by omega
      exact ⟨.type, by simp [selectNames, isStrDtype, h]⟩
    | _ => exact ⟨_, by simp [selectNames, isStrDtype]; rfl⟩
  refine ⟨?_, h2⟩
  obtain ⟨e, he⟩ := h2
  unfold fitSelect
  split
  · exact ⟨_, rfl⟩
  · rw [he]; exact ⟨_, rfl⟩

example : ∃ st, fitSelect (.ints [-1, 0]) (⟨some ["a", "b", "c"], 3, [[1, 2, 3], [4, 5, 6]]⟩ : Table Int) = .ok st ∧
    (select (.ints [-1, 0]) st ⟨some ["a", "b", "c"], 3, [[7, 8, 9]]⟩).toOption.any (fun Z => decide (Z.cols = some ["c", "a"]) && decide (Z.rows = [[(9 : Int), 7]])) = true :=
  ⟨(some ["a", "b", "c"], 3), by decide +kernel, by decide +kernel⟩

/-! ## C165 -/

/-- **C165 (kernel).** The inner product of two transformed samples is the sum of the cosines of the frequencies applied to their difference; so it is symmetric, does not change if both samples are
shifted, and is at most the number of frequencies, which is the squared norm of each transformed sample. -/
theorem C165_kernel {n : Type} [Fintype n] {N : Nat} (w : Fin N → n → ℝ) (x y : n → ℝ) :
    ∑ q, fourier w x q * fourier w y q = ∑ d, Real.cos (∑ j, (x j - y j) * w d j) ∧ ∑ q, fourier w x q ^ 2 = N ∧ ∑ q, fourier w x q * fourier w y q ≤ N ∧
      ∀ t : n → ℝ, ∑ q, fourier w (x + t) q * fourier w (y + t) q = ∑ q, fourier w x q * fourier w y q := by
  have h1 : ∀ x y : n → ℝ, ∑ q, fourier w x q * fourier w y q = ∑ d, Real.cos (∑ j, (x j - y j) * w d j) := by
    intro x y
    rw [Fintype.sum_sum_type, ← Finset.sum_add_distrib]
    apply Finset.sum_congr rfl
    intro d _
    simp only [fourier]
    have : ∑ j, (x j - y j) * w d j = ∑ j, x j * w d j - ∑ j, y j * w d j := by
      rw [← Finset.sum_sub_distrib]
      apply Finset.sum_congr rfl
      intro j _
      ring
    rw [this, Real.cos_sub]
    ring
  refine ⟨h1 x y, ?_, ?_, ?_⟩
  · have := h1 x x
    simp only [sub_self, zero_mul, Finset.sum_const_zero, Real.cos_zero, Finset.sum_const, Finset.card_univ, Fintype.card_fin, nsmul_eq_mul, mul_one] at this
    rw [← this]
    apply Finset.sum_congr rfl
    intro q _
    ring
  · rw [h1]
    calc ∑ d, Real.cos (∑ j, (x j - y j) * w d j) ≤ ∑ _d : Fin N, (1 : ℝ) := Finset.sum_le_sum (fun d _ => Real.cos_le_one _)
      _ = N := by simp
  · intro t
    rw [h1, h1]
    simp

open MeasureTheory ProbabilityTheory in
/-- **C165 (unbiased).** With frequencies from the normal distribution with mean zero and covariance `1 / σ²` (times the identity), as `fit` draws them, the expected value of one term is the Gaussian kernel
with the scale `σ`: `exp (-|x - y|² / (2 σ²))`. -/
theorem C165_unbiased {n : Type} [Fintype n] (σ : ℝ) (v : NNReal) (hv : (v : ℝ) = 1 / σ ^ 2) (x y : n → ℝ) :
    ∫ w : n → ℝ, Real.cos (∑ j, (x j - y j) * w j) ∂(Measure.pi fun _ => gaussianReal 0 v) = Real.exp (-(∑ j, (x j - y j) ^ 2) / (2 * σ ^ 2)) := by
  have h1 : ∫ w : n → ℝ, Complex.exp ((∑ j, (x j - y j) * w j : ℝ) * Complex.I) ∂(Measure.pi fun _ => gaussianReal 0 v) = (Real.exp (-(∑ j, (x j - y j) ^ 2) / (2 * σ ^ 2)) : ℝ) := by
    have h2 : ∀ w : n → ℝ, Complex.exp ((∑ j, (x j - y j) * w j : ℝ) * Complex.I) = ∏ j, Complex.exp ((x j - y j : ℝ) * (w j : ℝ) * Complex.I) := by
      intro w
      rw [← Complex.exp_sum, Complex.ofReal_sum, Finset.sum_mul]
      congr 1
      apply Finset.sum_congr rfl
      intro j _
      push_cast
      ring
    simp only [h2]
    rw [integral_fintype_prod_eq_prod (fun j (t : ℝ) => Complex.exp ((x j - y j : ℝ) * (t : ℝ) * Complex.I))]
    have h3 : ∀ j, ∫ t : ℝ, Complex.exp ((x j - y j : ℝ) * (t : ℝ) * Complex.I) ∂(gaussianReal 0 v) = Complex.exp (-((x j - y j) ^ 2 / (2 * σ ^ 2) : ℝ)) := by
      intro j
      rw [← charFun_apply_real, charFun_gaussianReal]
      congr 1
      have : ((v : ℝ) : ℂ) = ((1 / σ ^ 2 : ℝ) : ℂ) := by rw [hv]
      rw [this]
      push_cast
      ring
    simp only [h3]
    rw [← Complex.exp_sum, Complex.ofReal_exp]
    congr 1
    rw [Finset.sum_neg_distrib, ← Complex.ofReal_sum, ← Complex.ofReal_neg, ← Finset.sum_div, neg_div]
  have hint : Integrable (fun w : n → ℝ => Complex.exp ((∑ j, (x j - y j) * w j : ℝ) * Complex.I)) (Measure.pi fun _ => gaussianReal 0 v) := by
    refine Integrable.of_bound (C := 1) ?_ ?_
    · apply Continuous.aestronglyMeasurable
      fun_prop
    · filter_upwards with w
      rw [Complex.norm_exp_ofReal_mul_I]
  have h4 := congrArg Complex.re h1
  rw [Complex.ofReal_re] at h4
  rw [← h4]
  have h5 := integral_re (𝕜 := ℂ) hint
  simp only [RCLike.re_eq_complex_re] at h5
  rw [← h5]
  congr 1
  funext w
  rw [Complex.exp_ofReal_mul_I_re]

example : ∃ v : NNReal, (v : ℝ) = 1 / (2 : ℝ) ^ 2 := ⟨1 / 4, by push_cast; norm_num⟩

/-- **C165 fails:** `fit` raises whenever it is called without keyword arguments, because `_read_fit_params` does not get its second argument. -/
theorem C165_fit_violated {n : Type} (N : Nat) (draw : Nat → n → ℝ) (kwargs : List (String × Bool)) : (∃ w, fitFourier N draw kwargs = .ok w) ↔ kwargs = [("fit_params", true)] := by
  unfold fitFourier readParamsCall
  match kwargs with
  | [] => simp
  | [(name, empty)] =>
    by_cases h : name = "fit_params" <;> cases empty <;> simp [h]
  | _ :: _ :: _ => simp

/-- **C165 fails for sampled networks:** a new estimator cannot be fitted, however often `fit` is called. -/
theorem C165_network_violated (k : Nat) : fitNetworks false k = (List.replicate k (.error .notFitted), false) := by
  induction k with
  | zero => rfl
  | succ k ih =>
    simp only [fitNetworks, fitNetwork, Bool.false_eq_true, if_false, ih]
    rfl

end Verif.Transform
