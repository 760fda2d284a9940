import Verif.Dmd.ControlProps
import Verif.Dyn.LinearProps
/-!
# C254: balances of linear quantities with control

If the training data satisfies a balance `q · x_{k+1} = lam (q · x_k) + r · u_k` (a total mass with in- and outflow, say), so does the model fitted by DMD with control, and so do all its predictions.
-/

namespace Verif.Dmd

open Verif.Tsc Verif.Np Verif.Lin Verif.Dyn Matrix

variable {ι κ : Type} [Fintype ι] [Fintype κ]

/-! ## Specification -/

/-- Specification: in every step of the training data, the new value of the quantity `q · x` is the old one times `lam` plus the flow `r · u` of the control state of this step. -/
def BalancedData (q : ι → ℝ) (lam : ℝ) (r : κ → ℝ) (c : List (Row Int (ι → ℝ))) (u : List (Row Int (κ → ℝ))) : Prop :=
  ∀ p ∈ controlSteps c u, q ⬝ᵥ p.2 = lam * (q ⬝ᵥ (p.1 ∘ Sum.inl)) + r ⬝ᵥ (p.1 ∘ Sum.inr)

/-- Specification: the same for one predicted series of states `ys` from `x` with control states `us`. -/
def BalancedSeries (q : ι → ℝ) (lam : ℝ) (r : κ → ℝ) (x : ι → ℝ) (us : List (κ → ℝ)) (ys : List (ι → ℝ)) : Prop :=
  ys.length = us.length + 1 ∧ ys[0]? = some x ∧
    ∀ (k : Nat) (y y' : ι → ℝ) (v : κ → ℝ), ys[k]? = some y → ys[k + 1]? = some y' → us[k]? = some v → q ⬝ᵥ y' = lam * (q ⬝ᵥ y) + r ⬝ᵥ v

/-! ## Helper lemmas -/

theorem stepError_remove {α : Type} [Fintype α] (K : Matrix ι α ℝ) (q : ι → ℝ) (hq : q ⬝ᵥ q ≠ 0) (s : α → ℝ) (x : α → ℝ) (y : ι → ℝ) (h : q ⬝ᵥ y = s ⬝ᵥ x) :
    stepError (K - Matrix.of (fun i j => q i * ((q ᵥ* K) j - s j) / (q ⬝ᵥ q))) x y = stepError K x y - (q ⬝ᵥ (K *ᵥ x) - s ⬝ᵥ x) ^ 2 / (q ⬝ᵥ q) := by
  have hK : ∀ i, ((K - Matrix.of (fun i j => q i * ((q ᵥ* K) j - s j) / (q ⬝ᵥ q))) *ᵥ x) i = (K *ᵥ x) i - q i * (q ⬝ᵥ (K *ᵥ x) - s ⬝ᵥ x) / (q ⬝ᵥ q) := by
    intro i
    rw [Matrix.sub_mulVec, Pi.sub_apply]
    congr 1
    rw [Matrix.dotProduct_mulVec]
    simp only [Matrix.mulVec, dotProduct, Matrix.of_apply, Finset.mul_sum, ← Finset.sum_sub_distrib, Finset.sum_div]
    exact Finset.sum_congr rfl (fun j _ => by ring)
  unfold stepError
  simp only [hK]
  set ρ := q ⬝ᵥ (K *ᵥ x) - s ⬝ᵥ x with hρ
  have hs : ∑ i, q i * (y i - (K *ᵥ x) i) = -ρ := by
    simp only [mul_sub, Finset.sum_sub_distrib]
    change q ⬝ᵥ y - q ⬝ᵥ (K *ᵥ x) = -ρ
    rw [h, hρ]
    ring
  have hQ : ∑ i, q i * q i = q ⬝ᵥ q := rfl
  have e : ∀ i, (y i - ((K *ᵥ x) i - q i * ρ / (q ⬝ᵥ q))) ^ 2 = (y i - (K *ᵥ x) i) ^ 2 + (2 * ρ / (q ⬝ᵥ q)) * (q i * (y i - (K *ᵥ x) i)) + (ρ / (q ⬝ᵥ q)) ^ 2 * (q i * q i) := by
    intro i
    ring
  simp only [e, Finset.sum_add_distrib, ← Finset.mul_sum, hs, hQ]
  field_simp
  ring

theorem balanced_pairs {α : Type} [Fintype α] {ps : List ((α → ℝ) × (ι → ℝ))} {q : ι → ℝ} {s : α → ℝ} (hs : ∀ p ∈ ps, q ⬝ᵥ p.2 = s ⬝ᵥ p.1)
    {K : Matrix ι α ℝ} (hK : ∀ K', totalError (List.replicate ps.length 1) ps K ≤ totalError (List.replicate ps.length 1) ps K') :
    ∀ p ∈ ps, q ⬝ᵥ (K *ᵥ p.1) = s ⬝ᵥ p.1 := by
  by_cases hq : q ⬝ᵥ q = 0
  · intro p hp
    rw [← hs p hp, dotProduct_self_eq_zero.1 hq, zero_dotProduct, zero_dotProduct]
  have hQ : 0 < q ⬝ᵥ q := lt_of_le_of_ne (Finset.sum_nonneg (fun i _ => mul_self_nonneg (q i))) (Ne.symm hq)
  have hz := hK (K - Matrix.of (fun i j => q i * ((q ᵥ* K) j - s j) / (q ⬝ᵥ q)))
  have key : ∀ ps : List ((α → ℝ) × (ι → ℝ)), (∀ p ∈ ps, q ⬝ᵥ p.2 = s ⬝ᵥ p.1) →
      totalError (List.replicate ps.length 1) ps (K - Matrix.of (fun i j => q i * ((q ᵥ* K) j - s j) / (q ⬝ᵥ q))) =
        totalError (List.replicate ps.length 1) ps K - (ps.map (fun p => (q ⬝ᵥ (K *ᵥ p.1) - s ⬝ᵥ p.1) ^ 2 / (q ⬝ᵥ q))).sum := by
    intro ps
    induction ps with
    | nil => intro _; simp [totalError]
    | cons p ps ih =>
      intro hp
      have := ih (fun b hb => hp b (List.mem_cons_of_mem _ hb))
      unfold totalError at this ⊢
      simp only [List.length_cons, List.replicate_succ, List.zip_cons_cons, List.map_cons, List.sum_cons, this]
      rw [stepError_remove K q hq s p.1 p.2 (hp p List.mem_cons_self)]
      ring
  rw [key ps hs] at hz
  have h0 : (ps.map (fun p => (q ⬝ᵥ (K *ᵥ p.1) - s ⬝ᵥ p.1) ^ 2 / (q ⬝ᵥ q))).sum ≤ 0 := by linarith
  have hnn : ∀ a ∈ ps.map (fun p => (q ⬝ᵥ (K *ᵥ p.1) - s ⬝ᵥ p.1) ^ 2 / (q ⬝ᵥ q)), 0 ≤ a := by
    intro a ha
    obtain ⟨p, hp, rfl⟩ := List.mem_map.1 ha
    exact div_nonneg (sq_nonneg _) hQ.le
  intro p hp
  have h1 := List.single_le_sum hnn _ (List.mem_map.2 ⟨_, hp, rfl⟩)
  have h2 := hnn _ (List.mem_map.2 ⟨_, hp, rfl⟩)
  have h3 := le_antisymm (h1.trans h0) h2
  have h5 := (div_eq_zero_iff.1 h3).resolve_right hq
  exact sub_eq_zero.1 (pow_eq_zero_iff (two_ne_zero)|>.1 h5)

omit [Fintype ι] [Fintype κ] in
theorem hcat_of (K : Matrix ι (ι ⊕ κ) ℝ) : hcat (Matrix.of fun i j => K i (Sum.inl j)) (Matrix.of fun i j => K i (Sum.inr j)) = K := by
  ext i j
  cases j <;> rfl

theorem dotProduct_halves (a : ι → ℝ) (b : κ → ℝ) (x : ι ⊕ κ → ℝ) : Sum.elim a b ⬝ᵥ x = a ⬝ᵥ (x ∘ Sum.inl) + b ⬝ᵥ (x ∘ Sum.inr) := by
  simp [dotProduct, Fintype.sum_sum_type]

theorem driven_next [DecidableEq ι] (A : Matrix ι ι ℝ) (B : Matrix ι κ ℝ) (n : Nat) : ∀ (x : ι → ℝ) (u : Nat → κ → ℝ), driven A B x u (n + 1) = A *ᵥ driven A B x u n + B *ᵥ u n := by
  induction n with
  | zero => intro x u; rw [driven_step]; simp [driven]
  | succ n ih => intro x u; rw [driven_step, ih, ← driven_step]

/-! ## Property theorems -/

/-- **C254 (one step).** Whatever the rank of the data and the errors of the fit, the fitted matrices satisfy the balance at all training samples with their control states, and at all combinations of them. -/
theorem C254_step {k : TimeKind} {c : List (Row Int (ι → ℝ))} {u : List (Row Int (κ → ℝ))} (hc : c ≠ []) (hv : Valid c) (ho : IdsAscending c ∨ EqualLengths c)
    (h2 : ∀ i, HasId c i → 2 ≤ (series c i).length) {q : ι → ℝ} {lam : ℝ} {r : κ → ℝ} (hb : BalancedData q lam r c u) {A : Matrix ι ι ℝ} {B : Matrix ι κ ℝ} (h : FitsControl k c u A B)
    (x : ι → ℝ) (v : κ → ℝ) (hx : Sum.elim x v ∈ Submodule.span ℝ {z | ∃ p ∈ controlSteps c u, p.1 = z}) : q ⬝ᵥ (A *ᵥ x + B *ᵥ v) = lam * (q ⬝ᵥ x) + r ⬝ᵥ v := by
  have hmin := (C31_least_squares_partial hc hv ho h2 h.1 h.2.1 A B).1 h
  have hmin' : ∀ K', totalError (List.replicate (controlSteps c u).length 1) (controlSteps c u) (hcat A B) ≤ totalError (List.replicate (controlSteps c u).length 1) (controlSteps c u) K' := by
    intro K'
    rw [← hcat_of K']
    exact hmin _ _
  have hp : ∀ p ∈ controlSteps c u, q ⬝ᵥ (hcat A B *ᵥ p.1) = Sum.elim (lam • q) r ⬝ᵥ p.1 := fun p hp =>
    balanced_pairs (s := Sum.elim (lam • q) r) (fun p hp => by rw [dotProduct_halves, smul_dotProduct, smul_eq_mul]; exact hb p hp) hmin' p hp
  have hall : ∀ z ∈ Submodule.span ℝ {z | ∃ p ∈ controlSteps c u, p.1 = z}, q ⬝ᵥ (hcat A B *ᵥ z) = Sum.elim (lam • q) r ⬝ᵥ z := by
    intro z hz
    induction hz using Submodule.span_induction with
    | mem z hz => obtain ⟨p, hp', rfl⟩ := hz; exact hp p hp'
    | zero => simp
    | add x y _ _ hx hy => rw [Matrix.mulVec_add, dotProduct_add, dotProduct_add, hx, hy]
    | smul a x _ hx => rw [Matrix.mulVec_smul, dotProduct_smul, dotProduct_smul, hx]
  have := hall _ hx
  rw [hcat_mulVec, dotProduct_halves, smul_dotProduct, smul_eq_mul] at this
  exact this

/-- **C254 (predictions).** If the samples with their control states span the space, every prediction from all initial conditions and with all control inputs satisfies the balance in every step. -/
theorem C254_predict [DecidableEq ι] {k : TimeKind} {c : List (Row Int (ι → ℝ))} {u : List (Row Int (κ → ℝ))} (hc : c ≠ []) (hv : Valid c) (ho : IdsAscending c ∨ EqualLengths c)
    (h2 : ∀ i, HasId c i → 2 ≤ (series c i).length) {q : ι → ℝ} {lam : ℝ} {r : κ → ℝ} (hb : BalancedData q lam r c u) {A : Matrix ι ι ℝ} {B : Matrix ι κ ℝ} (h : FitsControl k c u A B)
    (hspan : Submodule.span ℝ {z | ∃ p ∈ controlSteps c u, p.1 = z} = ⊤)
    (X : List (Row Int (ι → ℝ))) (U : List (Row Int (κ → ℝ))) (hX : X ≠ []) (hXU : X.map (·.id) = ids U) (hUv : Valid U) (hUa : IdsAscending U) (hsame : isSameTimeValues U = true)
    (t0 : Int) (hXt : ∀ x ∈ X, x.time = t0) (hUt : (timeValues U).head? = some t0) (n : Nat) (hn : ∀ i, HasId U i → (vals U i).length = n) (s0 : Int) (ts : List Int)
    (hts : (s0 :: ts).Pairwise (· < ·)) (hlen : ts.length = n) :
    ∃ d, predictControlled A B X U (s0 :: ts) = .ok d ∧ ∀ x ∈ X, ∃ ys, content d x.id = (s0 :: ts).zip ys ∧ BalancedSeries q lam r x.val (vals U x.id) ys := by
  obtain ⟨d, hd, -, -, hcon⟩ := C28_controlled A B X U hX hXU hUv hUa hsame t0 hXt hUt n hn s0 ts hts hlen
  refine ⟨d, hd, fun x hx => ⟨_, hcon x hx, ?_, by simp [driven], ?_⟩⟩
  · have hid : HasId U x.id := mem_ids.1 (hXU ▸ List.mem_map_of_mem hx)
    rw [hn _ hid]
    simp
  · intro j y y' v hy hy' hvj
    rw [List.getElem?_map, Option.map_eq_some_iff] at hy hy'
    obtain ⟨a, ha, rfl⟩ := hy
    obtain ⟨b, hb', rfl⟩ := hy'
    obtain ⟨_, rfl⟩ := List.getElem?_eq_some_iff.1 ha
    obtain ⟨_, rfl⟩ := List.getElem?_eq_some_iff.1 hb'
    simp only [List.getElem_range]
    rw [driven_next, List.getD_eq_getElem?_getD, hvj, Option.getD_some]
    exact C254_step hc hv ho h2 hb h _ _ (hspan ▸ Submodule.mem_top)

/-- **C254 (totals).** A quantity with factor one: after any number of steps it is the one of the initial condition plus everything that has flown in. -/
theorem C254_total {q : ι → ℝ} {r : κ → ℝ} {x : ι → ℝ} {us : List (κ → ℝ)} {ys : List (ι → ℝ)} (h : BalancedSeries q 1 r x us ys) (k : Nat) (y : ι → ℝ) (hy : ys[k]? = some y) :
    q ⬝ᵥ y = q ⬝ᵥ x + ((us.take k).map (fun v => r ⬝ᵥ v)).sum := by
  obtain ⟨hl, h0, hs⟩ := h
  induction k generalizing y with
  | zero => rw [h0] at hy; cases hy; simp
  | succ k ih =>
    obtain ⟨hk, -⟩ := List.getElem?_eq_some_iff.1 hy
    have hk' : k < us.length := by omega
    have hk2 : k < ys.length := by omega
    rw [hs k ys[k] y us[k] (List.getElem?_eq_getElem hk2) hy (List.getElem?_eq_getElem hk'), ih _ (List.getElem?_eq_getElem hk2), List.take_succ_eq_append_getElem hk']
    rw [List.map_append, List.sum_append, List.map_singleton, List.sum_singleton]
    ring

/-! ## Example -/

/-- Two tanks: the sum of the contents grows by the inflow. -/
def exTank : List (Row Int (Fin 2 → ℝ)) := [⟨0, 0, ![1, 0]⟩, ⟨0, 1, ![0, 1]⟩, ⟨0, 2, ![0, 1]⟩, ⟨0, 3, ![2, 0]⟩]
/-- The inflow. -/
def exFlow : List (Row Int (Fin 1 → ℝ)) := [⟨0, 0, ![0]⟩, ⟨0, 1, ![0]⟩, ⟨0, 2, ![1]⟩]

theorem exTank_steps : controlSteps exTank exFlow = [(Sum.elim ![1, 0] ![0], ![0, 1]), (Sum.elim ![0, 1] ![0], ![0, 1]), (Sum.elim ![0, 1] ![1], ![2, 0])] := rfl

/-- non-vacuity: the hypotheses on the data hold for the tanks, and there is a fit. -/
example : Valid exTank ∧ IdsAscending exTank ∧ (∀ i, HasId exTank i → 2 ≤ (series exTank i).length) ∧ BalancedData ![1, 1] 1 ![1] exTank exFlow ∧
    FitsControl .int exTank exFlow !![0, 0; 1, 1] !![2; -1] ∧ Submodule.span ℝ {z | ∃ p ∈ controlSteps exTank exFlow, p.1 = z} = ⊤ := by
  have hv : Valid exTank := (valid_iff _).2 ⟨by decide +kernel, by simp [Before, exTank]⟩
  have ha : IdsAscending exTank := by simp [IdsAscending, exTank]
  have h2 : ∀ i, HasId exTank i → 2 ≤ (series exTank i).length := by
    rintro i ⟨r, hr, rfl⟩
    simp only [exTank, List.mem_cons, List.not_mem_nil, or_false] at hr
    rcases hr with rfl | rfl | rfl | rfl <;> simp [series, exTank]
  refine ⟨hv, ha, h2, ?_, ?_, ?_⟩
  · intro p hp
    rw [exTank_steps] at hp
    simp only [List.mem_cons, List.not_mem_nil, or_false] at hp
    rcases hp with rfl | rfl | rfl <;> simp [dotProduct, Fin.sum_univ_two] <;> norm_num
  · refine (C31_least_squares_partial (k := .int) (u := exFlow) (by simp [exTank]) hv (Or.inl ha) h2 (by decide) ⟨[⟨0, 0, ![1, 0]⟩, ⟨0, 1, ![0, 1]⟩, ⟨0, 2, ![0, 1]⟩], rfl, rfl⟩ _ _).2 ?_
    intro A' B'
    have hz : totalError (List.replicate (controlSteps exTank exFlow).length 1) (controlSteps exTank exFlow) (hcat !![0, 0; 1, 1] !![2; -1]) = 0 := by
      rw [exTank_steps]
      simp only [totalError, List.length_cons, List.length_nil, List.replicate_succ, List.replicate_zero, List.zip_cons_cons, List.zip_nil_left, List.map_cons, List.map_nil, stepError, hcat_mulVec]
      simp [Fin.sum_univ_two]
    rw [hz]
    refine List.sum_nonneg (fun x hx => ?_)
    obtain ⟨p, hp, rfl⟩ := List.mem_map.1 hx
    rw [List.eq_of_mem_replicate (List.of_mem_zip hp).1, one_mul]
    exact stepError_nonneg _ _ _
  · rw [exTank_steps, eq_top_iff]
    intro z _
    have e : z = z (Sum.inl 0) • (Sum.elim ![1, 0] ![0] : Fin 2 ⊕ Fin 1 → ℝ) + (z (Sum.inl 1) - z (Sum.inr 0)) • (Sum.elim ![0, 1] ![0] : Fin 2 ⊕ Fin 1 → ℝ) + z (Sum.inr 0) • (Sum.elim ![0, 1] ![1] : Fin 2 ⊕ Fin 1 → ℝ) := by
      funext j
      rcases j with j | j <;> fin_cases j <;> simp
    rw [e]
    refine Submodule.add_mem _ (Submodule.add_mem _ ?_ ?_) ?_ <;> refine Submodule.smul_mem _ _ (Submodule.subset_span ?_)
    · exact ⟨_, List.mem_cons_self, rfl⟩
    · exact ⟨_, List.mem_cons_of_mem _ List.mem_cons_self, rfl⟩
    · exact ⟨_, List.mem_cons_of_mem _ (List.mem_cons_of_mem _ List.mem_cons_self), rfl⟩

end Verif.Dmd
