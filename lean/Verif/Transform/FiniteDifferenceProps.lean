import Verif.Transform.FiniteDifference
import Verif.Tsc.CheckProps
import Verif.Tsc.DerivativeProps
/-!
# Finite differences as a transformer (C186)
-/

namespace Verif.Transform

open Verif.Tsc Polynomial

variable {ι : Type}

theorem fd_check {c : List (Row Int (ι → ℝ))} (hc : c ≠ []) (hv : Valid c) (hm : ModerateSteps c) {cols : List String} (hcols : cols ≠ []) (d : Option Int)
    (hd : ∀ x, d = some x → x.natAbs < 10 ^ 12 - 1) (c' : List (Row Int (ι → ℝ))) :
    checkTsc .int (fun _ : ι → ℝ => true) cols.length { delta := d } c = .ok c' ↔
      c' = c ∧ (∃ h, ∀ i, HasId c i → Regular (timesOf c i) h) ∧ ∀ x, d = some x → ∀ i, HasId c i → Regular (timesOf c i) x := by
  rw [C62_check_tsc_partial hc hv hm _ _ _ hd]
  refine and_congr_right (fun _ => ⟨fun h => ⟨h.constDelta rfl, h.delta⟩, ?_⟩)
  rintro ⟨h1, h2⟩
  refine ⟨by simp, ?_, ?_, by simp, fun _ => h1, h2, by simp, by simp, by simp, by simp, by simp, ?_, by simp⟩
  · have := List.length_pos_of_ne_nil hc
    simp only
    omega
  · have := List.length_pos_of_ne_nil hcols
    simp only
    omega
  · intro _ i hi
    obtain ⟨h, hh⟩ := h1
    have := (hh i hi).1
    simp only [timesOf, List.length_map] at this
    omega

/-- **C186 (fit).** With the default spacing "dt" and orders of at least one, `fit` accepts a collection exactly if all series are sampled with one constant interval, and keeps this interval and the feature names.
(Integer time values with intervals below `3·10¹¹`.) -/
theorem C186_fit {c : List (Row Int (ι → ℝ))} (hc : c ≠ []) (hv : Valid c) (hm : ModerateSteps c) {cols : List String} (hcols : cols ≠ []) {p : FdParams} (hp : p.spacing = .dt)
    (ho : 1 ≤ p.order) (ha : 1 ≤ p.accuracy) (f : FdFit) :
    fdFit p cols c = .ok f ↔ (∀ i, HasId c i → Regular (timesOf c i) f.spacing) ∧ f.cols = cols := by
  have hchk := fd_check hc hv hm hcols none (by simp)
  unfold fdFit
  rw [hp]
  simp only [Spacing.required]
  have hord : fdOrders p = .ok () := by unfold fdOrders; rw [if_neg (by omega), if_neg (by omega)]
  cases h : checkTsc .int (fun _ : ι → ℝ => true) cols.length { delta := none } c with
  | error e =>
    simp only [reduceCtorEq, false_iff, not_and]
    intro h1
    have := (hchk c).2 ⟨rfl, ⟨_, h1⟩, by simp⟩
    rw [h] at this
    simp at this
  | ok c' =>
    obtain ⟨-, ⟨d, hd⟩, -⟩ := (hchk c').1 h
    have hdt := C11_regular hc hv .int hd
    obtain ⟨i, hi⟩ : ∃ i, HasId c i := by
      obtain ⟨r, t, rfl⟩ := List.ne_nil_iff_exists_cons.1 hc
      exact ⟨r.id, r, by simp, rfl⟩
    have hpos := regular_pos hv (hd i hi)
    have hsp : fdSpacing p c = .ok d := by
      unfold fdSpacing
      rw [hp]
      simp only [hdt]
      rw [if_neg (by omega)]
    simp only [hsp, hord, Except.ok.injEq]
    constructor
    · rintro rfl
      exact ⟨hd, rfl⟩
    · rintro ⟨h1, rfl⟩
      have := C11_regular hc hv .int h1
      rw [hdt] at this
      simp only [PerId.one.injEq, Option.some.injEq] at this
      rw [this]

/-- **C186 (transform).** A fitted transformer accepts a collection exactly if it has the features of the fit, is sampled with the interval of the fit, and every series is longer than the samples that the scheme
needs to the left and to the right. The result holds the time derivatives, with labels that name the order. -/
theorem C186_transform {c : List (Row Int (ι → ℝ))} (hc : c ≠ []) (hv : Valid c) (hm : ModerateSteps c) {cols : List String} (hcols : cols ≠ []) (p : FdParams) (f : FdFit) (hf : f.spacing.natAbs < 10 ^ 12 - 1)
    (coef : Nat → Nat → Scheme → Stencil) {st : Stencil} (hst : coef p.order.toNat p.accuracy.toNat p.scheme = st) :
    ((∃ r, fdTransform coef p f cols c = .ok r) ↔ cols = f.cols ∧ (∀ i, HasId c i → Regular (timesOf c i) f.spacing) ∧ ∀ i, HasId c i → startSample st + endSamples st < (series c i).length) ∧
    ∀ r, fdTransform coef p f cols c = .ok r → r.1 = cols.map (fun x => x ++ "_dot" ++ toString p.order.toNat) ∧ timeDerivative p.scheme st p.order.toNat true c = .ok r.2 := by
  have hchk := fd_check hc hv hm hcols (some f.spacing) (by simpa using hf)
  have hacc := (C128_accepts hc hv p.scheme st p.order.toNat true).1 (Or.inl hm)
  unfold fdTransform
  rw [hst]
  cases h : checkTsc .int (fun _ : ι → ℝ => true) cols.length { delta := some f.spacing } c with
  | error e =>
    simp only [reduceCtorEq, exists_false, false_iff, false_implies, implies_true, and_true]
    rintro ⟨-, h1, -⟩
    have := (hchk c).2 ⟨rfl, ⟨_, h1⟩, by simpa using h1⟩
    rw [h] at this
    simp at this
  | ok c' =>
    obtain ⟨-, h1, h2⟩ := (hchk c').1 h
    have h2 := h2 _ rfl
    dsimp only
    by_cases hcl : cols = f.cols
    · rw [if_neg (by simpa using hcl)]
      cases htd : timeDerivative p.scheme st p.order.toNat true c with
      | error e =>
        simp only [reduceCtorEq, exists_false, false_iff, false_implies, implies_true, and_true]
        rintro ⟨-, -, h3⟩
        obtain ⟨d, hd⟩ := hacc.2 ⟨h1, h3⟩
        rw [htd] at hd
        simp at hd
      | ok d =>
        have h3 := (hacc.1 ⟨d, htd⟩).2
        refine ⟨⟨fun _ => ⟨hcl, h2, h3⟩, fun _ => ⟨_, rfl⟩⟩, ?_⟩
        rintro r hr
        simp only [Except.ok.injEq] at hr
        subst hr
        exact ⟨rfl, rfl⟩
    · rw [if_pos hcl]
      simp [hcl]

/-- **C186 (exact on polynomials).** If each feature of each series is a polynomial in time of degree below the sum of the orders, each value of the result is the exact derivative, at a time that lies a fixed number
of intervals (none for the scheme 'backward') before the time value it is labelled with. -/
theorem C186_exact {c : List (Row Int (ι → ℝ))} (hc : c ≠ []) (hv : Valid c) (hm : ModerateSteps c) {cols : List String} (hcols : cols ≠ []) (p : FdParams) (ha : 1 ≤ p.accuracy) (f : FdFit)
    (hf : f.spacing.natAbs < 10 ^ 12 - 1) (coef : Nat → Nat → Scheme → Stencil) {st : Stencil} (hst : coef p.order.toNat p.accuracy.toNat p.scheme = st)
    (hs : IsScheme p.scheme st p.order.toNat p.accuracy.toNat) (P : Nat → ι → ℝ[X]) (hdeg : ∀ i g, (P i g).natDegree < p.order.toNat + p.accuracy.toNat)
    (hval : ∀ r ∈ c, ∀ g, r.val g = (P r.id g).eval (r.time : ℝ)) {r : List String × List (Row Int (ι → ℝ))} (hr : fdTransform coef p f cols c = .ok r) :
    ∀ x ∈ r.2, ∀ g, x.val g = (derivative^[p.order.toNat] (P x.id g)).eval ((x.time : ℝ) - (if p.scheme = .backward then 0 else (endSamples st : ℝ) * f.spacing)) := by
  obtain ⟨h1, h2⟩ := C186_transform hc hv hm hcols p f hf coef hst
  obtain ⟨-, hreg, -⟩ := h1.1 ⟨r, hr⟩
  have := C128_exact hc hv hs (by omega) hreg P hdeg hval (h2 r hr).2
  intro x hx g
  rw [this x hx g]
  by_cases hb : p.scheme = .backward <;> simp [hb]

/-- **C186 (given spacing; violated).** If the spacing is given as a number, no data whatsoever can be fitted. -/
theorem C186_spacing_violated (p : FdParams) (v : Int) (hp : p.spacing = .float v ∨ p.spacing = .int v) (cols : List String) (c : List (Row Int (ι → ℝ))) : ∃ e, fdFit p cols c = .error e := by
  unfold fdFit
  cases checkTsc .int (fun _ : ι → ℝ => true) cols.length { delta := p.spacing.required } c with
  | error e => exact ⟨_, rfl⟩
  | ok c' =>
    have : fdSpacing p c = .error .type := by
      unfold fdSpacing
      rcases hp with h | h <;> rw [h]
    simp only [this]
    exact ⟨_, rfl⟩

/-- **C186 (further data; violated).** A second `partial_fit` accepts whatever it is given and changes nothing: data with another sampling interval or with other features are accepted here and rejected in
`transform`. -/
theorem C186_partial_fit_violated {c : List (Row Int (ι → ℝ))} (hc : c ≠ []) (hv : Valid c) (hm : ModerateSteps c) {cols : List String} (hcols : cols ≠ []) (p : FdParams) (f : FdFit)
    (hf : f.spacing.natAbs < 10 ^ 12 - 1) (hne : cols ≠ f.cols ∨ ¬ ∀ i, HasId c i → Regular (timesOf c i) f.spacing) (coef : Nat → Nat → Scheme → Stencil) :
    fdPartialFit p (some f) cols c = .ok f ∧ ∃ e, fdTransform coef p f cols c = .error e := by
  refine ⟨rfl, ?_⟩
  obtain ⟨h1, -⟩ := C186_transform hc hv hm hcols p f hf coef rfl
  cases h : fdTransform coef p f cols c with
  | error e => exact ⟨e, rfl⟩
  | ok r =>
    obtain ⟨h2, h3, -⟩ := h1.1 ⟨r, h⟩
    rcases hne with hne | hne
    · exact absurd h2 hne
    · exact absurd h3 hne

/-! ## The hypotheses can be met -/

/-- Two series with interval 2. -/
def fdData : List (Row Int (Unit → ℝ)) := [⟨0, 0, fun _ => 1⟩, ⟨0, 2, fun _ => 3⟩, ⟨1, 5, fun _ => 0⟩, ⟨1, 7, fun _ => 8⟩, ⟨1, 9, fun _ => 2⟩]

theorem fdData_valid : Valid fdData := (valid_iff _).2 ⟨by decide +kernel, by simp [Before, fdData]⟩

theorem fdData_regular : ∀ i, HasId fdData i → Regular (timesOf fdData i) 2 := by
  rintro i ⟨r, hr, rfl⟩
  simp only [fdData, List.mem_cons, List.not_mem_nil, or_false] at hr
  rcases hr with rfl | rfl | rfl | rfl | rfl <;> simp [Regular, timesOf, series, fdData, consecutive]

theorem fdData_moderate : ModerateSteps fdData := by
  intro i
  by_cases hi : HasId fdData i
  · intro p hp
    rw [(fdData_regular i hi).2 p hp]
    norm_num
  · have : series fdData i = [] := by
      rw [List.eq_nil_iff_forall_not_mem]
      intro r hr
      exact hi ⟨r, (mem_series.1 hr).1, (mem_series.1 hr).2⟩
    simp [timesOf, this, consecutive]

example : fdFit ⟨.dt, .center, 1, 2⟩ ["x"] fdData = .ok ⟨2, ["x"]⟩ :=
  (C186_fit (by simp [fdData]) fdData_valid fdData_moderate (by simp) rfl (by simp) (by simp) _).2 ⟨fdData_regular, rfl⟩

/-- The backward difference of first order can be applied; with another interval the data are rejected. -/
example : (∃ r, fdTransform (fun _ _ _ => [(-1, -1), (0, 1)]) ⟨.dt, .backward, 1, 1⟩ ⟨2, ["x"]⟩ ["x"] fdData = .ok r) ∧
    ∃ e, fdTransform (fun _ _ _ => [(-1, -1), (0, 1)]) ⟨.dt, .backward, 1, 1⟩ ⟨3, ["x"]⟩ ["x"] fdData = .error e := by
  refine ⟨(C186_transform (by simp [fdData]) fdData_valid fdData_moderate (by simp) ⟨.dt, .backward, 1, 1⟩ ⟨2, ["x"]⟩ (by simp) _ rfl).1.2 ⟨rfl, fdData_regular, ?_⟩, ?_⟩
  · rintro i ⟨r, hr, rfl⟩
    simp only [fdData, List.mem_cons, List.not_mem_nil, or_false] at hr
    rcases hr with rfl | rfl | rfl | rfl | rfl <;> simp [series, fdData, startSample, endSamples] <;> decide
  · refine (C186_partial_fit_violated (by simp [fdData]) fdData_valid fdData_moderate (by simp) ⟨.dt, .backward, 1, 1⟩ ⟨3, ["x"]⟩ (by simp) (.inr ?_) _).2
    intro h
    have := h 0 ⟨⟨0, 0, fun _ => 1⟩, by simp [fdData], rfl⟩
    simp [Regular, timesOf, series, fdData, consecutive] at this

end Verif.Transform
