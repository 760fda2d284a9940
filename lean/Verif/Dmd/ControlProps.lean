import Verif.Dmd.StandardProps
import Mathlib.Data.Fintype.Sum
/-!
# C31: DMD with control
-/

namespace Verif.Dmd

open Verif.Tsc Verif.Np Verif.Lin Verif.Dyn Matrix

variable {ι κ : Type} [Fintype ι] [Fintype κ]

/-! ### Specification -/

/-- The pairs of consecutive rows of one series. -/
def rowPairs {V : Type} (c : List (Row Int V)) : List (Row Int V × Row Int V) := (consecutive c).filter (fun p => p.1.id == p.2.id)

/-- All steps `((x_k, u_k), x_{k+1})`: consecutive samples of a series together with the control state that has the ID and the time of the first sample. -/
def controlSteps (c : List (Row Int (ι → ℝ))) (u : List (Row Int (κ → ℝ))) : List ((ι ⊕ κ → ℝ) × (ι → ℝ)) :=
  (rowPairs c).filterMap (fun p => (u.find? (fun q => decide (q.key = p.1.key))).map (fun q => (Sum.elim p.1.val q.val, p.2.val)))

/-- `[A B]` as one matrix. -/
def hcat (A : Matrix ι ι ℝ) (B : Matrix ι κ ℝ) : Matrix ι (ι ⊕ κ) ℝ := Matrix.of (fun i => Sum.elim (A i) (B i))

/-! ### Lemmas -/

theorem rowPairs_eq {V : Type} {c : List (Row Int V)} (hv : Valid c) :
    rowPairs c = (newIds (c.map (·.id))).flatMap (fun i => consecutive (series c i)) := by
  unfold rowPairs
  conv_lhs => rw [← hv.eq_flatMap]
  have hn := hv.nodup
  have hf : ∀ i ∈ newIds (c.map (·.id)), ∀ r ∈ series c i, r.id = i := fun i _ r hr => (mem_series.1 hr).2
  generalize newIds (c.map (·.id)) = is at hn hf
  induction is with
  | nil => simp [consecutive]
  | cons i is ih =>
    rw [List.flatMap_cons, filter_consecutive_append i _ _ (hf i (by simp)), ih hn.of_cons (fun j hj => hf j (by simp [hj])), List.flatMap_cons]
    intro x hx
    obtain ⟨j, hj, hx⟩ := List.mem_flatMap.1 hx
    rw [hf j (by simp [hj]) x hx]
    rintro rfl
    exact (List.nodup_cons.1 hn).1 hj

theorem snapshotPairs_rowPairs {V : Type} (c : List (Row Int V)) : snapshotPairs c = (rowPairs c).map (fun p => (p.1.val, p.2.val)) := rfl

theorem consecutive_map_fst {α : Type} (l : List α) : (consecutive l).map (·.1) = l.dropLast := by
  fun_induction consecutive l with
  | case1 a b l ih => simp_all
  | case2 l h =>
    match l, h with
    | [], _ => rfl
    | [a], _ => rfl
    | a :: b :: l, h => exact absurd rfl (h a b l)

/-- The rows kept by `drop_last_n_samples(1)` are the rows that have a successor, in the same order. -/
theorem dropLast_rowPairs {V : Type} {c d : List (Row Int V)} (hv : Valid c) (h : dropLastN c 1 = .ok d) :
    d = (rowPairs c).map (·.1) := by
  unfold dropLastN at h
  split at h
  · cases h
  · obtain ⟨rfl, _, _⟩ := build_ok_iff.1 h
    rw [rowPairs_eq hv, List.map_flatMap]
    simp only [consecutive_map_fst]
    have hs : ∀ i, (series c i).dropLast = series (dropKeys c ((groupTail 1 c).map (·.key))) i := by
      intro i
      rw [series_dropKeys_tail hv, List.dropLast_eq_take]
    simp only [hs]
    conv_lhs => rw [dropKeys, ← hv.eq_flatMap, List.filter_flatMap]
    apply List.flatMap_congr
    intro i _
    simp only [series, dropKeys, List.filter_filter]
    apply List.filter_congr
    intro r hr
    rw [hv.eq_flatMap]
    exact Bool.and_comm _ _

theorem filterMap_aligned {α β γ K : Type} [DecidableEq K] (f : α → β → γ) (ka : α → K) (kb : β → K) :
    ∀ (l : List α) (m : List β), l.map ka = m.map kb → (m.map kb).Nodup →
      l.filterMap (fun a => (m.find? (fun b => decide (kb b = ka a))).map (f a)) = List.zipWith f l m
  | [], [], _, _ => by simp
  | [], _ :: _, h, _ => by simp at h
  | _ :: _, [], h, _ => by simp at h
  | a :: l, b :: m, h, hn => by
    simp only [List.map_cons, List.cons.injEq] at h
    rw [List.map_cons, List.nodup_cons] at hn
    have ih := filterMap_aligned f ka kb l m h.2 hn.2
    have h1 : (b :: m).find? (fun b => decide (kb b = ka a)) = some b := by simp [h.1]
    rw [List.zipWith_cons_cons, List.filterMap_cons, h1]
    simp only [Option.map_some]
    congr 1
    rw [← ih]
    apply List.filterMap_congr
    intro x hx
    have hne : kb b ≠ ka x := by
      intro e
      apply hn.1
      rw [e, ← h.2]
      exact List.mem_map.2 ⟨x, hx, rfl⟩
    rw [List.find?_cons_of_neg (by simpa using hne)]

/-- The rows the code stacks are the steps of the specification. -/
theorem controlSteps_eq {c : List (Row Int (ι → ℝ))} {u : List (Row Int (κ → ℝ))} (hv : Valid c) (hm : controlIndexMatches c u) {L R : List (ι → ℝ)}
    (hz : L.zip R = snapshotPairs c) (hl : L.length = R.length) :
    ((L.zip (u.map (·.val))).map (fun p => Sum.elim p.1 p.2)).zip R = controlSteps c u ∧ u.length = (rowPairs c).length := by
  obtain ⟨d, hd, hk⟩ := hm
  have hd' := dropLast_rowPairs hv hd
  have hkeys : (rowPairs c).map (fun p => p.1.key) = u.map (·.key) := by
    rw [← hk, hd', List.map_map]; rfl
  have hlen : u.length = (rowPairs c).length := by
    have := congrArg List.length hkeys; simpa using this.symm
  refine ⟨?_, hlen⟩
  have hnd : (u.map (·.key)).Nodup := by
    rw [← hk]
    have hsub : (d.map (·.key)).Sublist (c.map (·.key)) := by
      unfold dropLastN at hd
      split at hd
      · cases hd
      · obtain ⟨rfl, _, _⟩ := build_ok_iff.1 hd
        exact List.filter_sublist.map _
    exact (nodup_keys_of_pairwise c ((valid_iff c).1 hv).2).sublist hsub
  unfold controlSteps
  rw [filterMap_aligned (fun p q => (Sum.elim p.1.val q.val, p.2.val)) (fun p => p.1.key) (fun q => q.key) (rowPairs c) u hkeys hnd]
  have hL : L = (rowPairs c).map (fun p => p.1.val) := by
    have := congrArg (List.map Prod.fst) hz
    rw [List.map_fst_zip (by omega), snapshotPairs_rowPairs, List.map_map] at this
    exact this
  have hR : R = (rowPairs c).map (fun p => p.2.val) := by
    have := congrArg (List.map Prod.snd) hz
    rw [List.map_snd_zip (by omega), snapshotPairs_rowPairs, List.map_map] at this
    exact this
  rw [hL, hR]
  clear hL hR hz hl hkeys hnd hd' hk
  generalize rowPairs c = l at hlen
  induction l generalizing u with
  | nil => simp
  | cons p l ih =>
    cases u with
    | nil => simp at hlen
    | cons q u =>
      have := ih (u := u) (by simpa using hlen)
      simp [this]

theorem isControlMatrices_iff (n : Nat) (hn : n ≠ 0) (ps : List ((ι ⊕ κ → ℝ) × (ι → ℝ))) (A : Matrix ι ι ℝ) (B : Matrix ι κ ℝ) :
    IsControlMatrices n ps A B ↔ ∀ A' B', totalError (List.replicate ps.length 1) ps (hcat A B) ≤ totalError (List.replicate ps.length 1) ps (hcat A' B') := by
  have ha : (1 / (n : ℝ)) ≠ 0 := by simp [hn]
  have hMu : IsControlMatrices n ps A B ↔ IsLstsqM (startM ps) (endM ps) (hcat A B)ᵀ := by
    rw [← lstsq_normal ha]
    unfold IsControlMatrices
    have e1 : ((1 / (n : ℝ)) • ((startM ps)ᵀ * startM ps))ᵀ = (1 / (n : ℝ)) • ((startM ps)ᵀ * startM ps) := by
      rw [Matrix.transpose_smul, Matrix.transpose_mul, Matrix.transpose_transpose]
    have e2 : ((1 / (n : ℝ)) • ((endM ps)ᵀ * startM ps))ᵀ = (1 / (n : ℝ)) • ((startM ps)ᵀ * endM ps) := by
      rw [Matrix.transpose_smul, Matrix.transpose_mul, Matrix.transpose_transpose]
    rw [e1, e2]
    constructor
    · rintro ⟨Mu, h, rfl, rfl⟩
      have : (hcat (Matrix.of (fun i j => Mu (Sum.inl j) i)) (Matrix.of (fun i j => Mu (Sum.inr j) i)))ᵀ = Mu := by
        ext (j | j) i <;> rfl
      rw [this]; exact h
    · intro h
      exact ⟨_, h, by ext i j; rfl, by ext i j; rfl⟩
  have hone : ∀ K : Matrix ι (ι ⊕ κ) ℝ, sqSum (startM ps * Kᵀ - endM ps) = totalError (List.replicate ps.length 1) ps K := by
    intro K
    rw [totalError_eq _ _ (by simp)]
    have := sqSum_scaled ps (fun _ => 1) (fun _ => zero_le_one) K
    have h1 : ∀ {α : Type} (X : Matrix (Fin ps.length) α ℝ), scaled (fun _ => 1) X = X := by
      intro α X; unfold scaled; simp
    rw [h1, h1] at this
    rw [this]
    apply Finset.sum_congr rfl
    intro k _
    simp [List.getD_eq_getElem?_getD]
  rw [hMu]
  constructor
  · intro h A' B'
    have := h (hcat A' B')ᵀ
    rwa [hone, hone] at this
  · intro h Z'
    have := h (Matrix.of (fun i j => Z' (Sum.inl j) i)) (Matrix.of (fun i j => Z' (Sum.inr j) i))
    rw [← hone, ← hone] at this
    have e : (hcat (Matrix.of (fun i j => Z' (Sum.inl j) i)) (Matrix.of (fun i j => Z' (Sum.inr j) i)))ᵀ = Z' := by
      ext (j | j) i <;> rfl
    rwa [e] at this

theorem hcat_mulVec (A : Matrix ι ι ℝ) (B : Matrix ι κ ℝ) (x : ι → ℝ) (v : κ → ℝ) : hcat A B *ᵥ Sum.elim x v = A *ᵥ x + B *ᵥ v := by
  funext i
  simp [hcat, Matrix.mulVec, dotProduct, Fintype.sum_sum_type]

/-! ### Property theorems -/

/-- **C31 (least squares).** The matrices `A, B` computed by `DMDControl.fit(X, U)` have the smallest one step prediction error `Σ ‖x_{k+1} - A x_k - B u_k‖²` over all
steps, where `u_k` is the control state with the ID and time of `x_k`. -/
theorem C31_least_squares_partial {k : TimeKind} {c : List (Row Int (ι → ℝ))} {u : List (Row Int (κ → ℝ))} (hc : c ≠ []) (hv : Valid c)
    (hs : IdsAscending c ∨ EqualLengths c) (h2 : ∀ i, HasId c i → 2 ≤ (series c i).length) (hk : isConstDeltaTime k c = true)
    (hm : controlIndexMatches c u) (A : Matrix ι ι ℝ) (B : Matrix ι κ ℝ) :
    FitsControl k c u A B ↔ ∀ A' B', totalError (List.replicate (controlSteps c u).length 1) (controlSteps c u) (hcat A B) ≤
      totalError (List.replicate (controlSteps c u).length 1) (controlSteps c u) (hcat A' B') := by
  obtain ⟨L, R, hLR, hl, hz⟩ := C03_shift_matrices_partial hc hv h2 hs
  have hn : c.length ≠ 0 := by simpa using hc
  have hcs := (controlSteps_eq hv hm hz hl).1
  rw [← isControlMatrices_iff c.length hn, ← hcs]
  unfold FitsControl
  constructor
  · rintro ⟨_, _, L', R', h', h⟩
    rw [hLR] at h'
    cases h'
    exact h
  · intro h; exact ⟨hk, hm, L, R, hLR, h⟩

/-- **C31 (recovery).** If `x_{k+1} = A x_k + B u_k` for all steps and the stacked vectors `(x_k, u_k)` span the whole space, the fitted matrices are `A` and
`B`. -/
theorem C31_recovery_partial {k : TimeKind} {c : List (Row Int (ι → ℝ))} {u : List (Row Int (κ → ℝ))} (hc : c ≠ []) (hv : Valid c)
    (hs : IdsAscending c ∨ EqualLengths c) (h2 : ∀ i, HasId c i → 2 ≤ (series c i).length)
    {A A₀ : Matrix ι ι ℝ} {B B₀ : Matrix ι κ ℝ} (h : FitsControl k c u A B)
    (hA : ∀ p ∈ controlSteps c u, p.2 = A₀ *ᵥ (p.1 ∘ Sum.inl) + B₀ *ᵥ (p.1 ∘ Sum.inr))
    (hspan : Submodule.span ℝ {x | ∃ p ∈ controlSteps c u, p.1 = x} = ⊤) : A = A₀ ∧ B = B₀ := by
  classical
  have hmin := (C31_least_squares_partial hc hv hs h2 h.1 h.2.1 A B).1 h A₀ B₀
  generalize hps : controlSteps c u = ps at hmin hA hspan
  have hA' : ∀ p ∈ ps, p.2 = hcat A₀ B₀ *ᵥ p.1 := by
    intro p hp
    rw [hA p hp, ← hcat_mulVec]
    congr 1
    funext j
    cases j <;> rfl
  have hz : totalError (List.replicate ps.length 1) ps (hcat A₀ B₀) = 0 := by
    unfold totalError
    apply List.sum_eq_zero
    intro x hx
    obtain ⟨q, hq, rfl⟩ := List.mem_map.1 hx
    rw [stepError_eq_zero.2 (hA' q.2 (List.of_mem_zip hq).2).symm, mul_zero]
  rw [hz, totalError_eq _ _ (by simp)] at hmin
  have hone : ∀ i : Fin ps.length, (List.replicate ps.length (1 : ℝ)).getD i 0 = 1 := by
    intro i; simp [List.getD_eq_getElem?_getD]
  simp only [hone, one_mul] at hmin
  have hs0 := le_antisymm hmin (Finset.sum_nonneg (fun i _ => stepError_nonneg _ _ _))
  rw [Finset.sum_eq_zero_iff_of_nonneg (fun i _ => stepError_nonneg _ _ _)] at hs0
  have hlin : (hcat A B).mulVecLin = (hcat A₀ B₀).mulVecLin := by
    apply LinearMap.ext_on (s := {x | ∃ p ∈ ps, p.1 = x}) hspan
    rintro x ⟨p, hp, rfl⟩
    obtain ⟨j, hj, rfl⟩ := List.getElem_of_mem hp
    have h1 := stepError_eq_zero.1 (hs0 ⟨j, hj⟩ (Finset.mem_univ _))
    have h3 := hA' ps[j] (List.getElem_mem hj)
    show hcat A B *ᵥ ps[j].1 = hcat A₀ B₀ *ᵥ ps[j].1
    rw [← h3]; exact h1
  have heq : hcat A B = hcat A₀ B₀ := by
    apply Matrix.mulVec_injective
    funext x
    exact LinearMap.congr_fun hlin x
  constructor
  · ext i j; exact congrFun (congrFun heq i) (Sum.inl j)
  · ext i j; exact congrFun (congrFun heq i) (Sum.inr j)

/-- **C31 (rejection).** Control data whose index is not the index of the states without the last sample of each series are rejected. -/
theorem C31_rejects {k : TimeKind} {c : List (Row Int (ι → ℝ))} {u : List (Row Int (κ → ℝ))} {d : List (Row Int (ι → ℝ))} (hd : dropLastN c 1 = .ok d)
    (hne : d.map (·.key) ≠ u.map (·.key)) (A : Matrix ι ι ℝ) (B : Matrix ι κ ℝ) : ¬ FitsControl k c u A B := by
  rintro ⟨_, ⟨d', hd', hk⟩, _⟩
  rw [hd] at hd'
  cases hd'
  exact hne hk

/-- One series of a scalar controlled system `x' = 2 x + 3 u`. -/
def exCX : List (Row Int (Fin 1 → ℝ)) := [⟨4, 0, ![1]⟩, ⟨4, 1, ![2]⟩, ⟨4, 2, ![7]⟩]

/-- Its control input. -/
def exCU : List (Row Int (Fin 1 → ℝ)) := [⟨4, 0, ![0]⟩, ⟨4, 1, ![1]⟩]

theorem exC_steps : controlSteps exCX exCU = [(Sum.elim ![1] ![0], ![2]), (Sum.elim ![2] ![1], ![7])] := rfl

theorem exCX_valid : Valid exCX := by
  rw [valid_iff]; constructor
  · decide
  · unfold Before; decide

/-- non-vacuity of `C31_recovery_partial`: all hypotheses hold for this data, including the existence of a fit. -/
example : Valid exCX ∧ IdsAscending exCX ∧ (∀ i, HasId exCX i → 2 ≤ (series exCX i).length) ∧ FitsControl .int exCX exCU !![2] !![3] ∧
    (∀ p ∈ controlSteps exCX exCU, p.2 = !![2] *ᵥ (p.1 ∘ Sum.inl) + !![3] *ᵥ (p.1 ∘ Sum.inr)) ∧
    Submodule.span ℝ {x | ∃ p ∈ controlSteps exCX exCU, p.1 = x} = ⊤ := by
  have h2 : ∀ i, HasId exCX i → 2 ≤ (series exCX i).length := by
    rintro i ⟨r, hr, rfl⟩
    simp only [exCX, List.mem_cons, List.not_mem_nil, or_false] at hr
    rcases hr with rfl | rfl | rfl <;> decide
  have hA : ∀ p ∈ controlSteps exCX exCU, p.2 = (!![2] : Matrix (Fin 1) (Fin 1) ℝ) *ᵥ (p.1 ∘ Sum.inl) + (!![3] : Matrix (Fin 1) (Fin 1) ℝ) *ᵥ (p.1 ∘ Sum.inr) := by
    rw [exC_steps]
    intro p hp
    simp only [List.mem_cons, List.not_mem_nil, or_false] at hp
    rcases hp with rfl | rfl <;> funext i <;> fin_cases i <;> simp [Matrix.mulVec, dotProduct] <;> norm_num
  have ha : IdsAscending exCX := by unfold IdsAscending; decide
  refine ⟨exCX_valid, ha, h2, ?_, hA, ?_⟩
  · refine (C31_least_squares_partial (k := .int) (u := exCU) (by simp [exCX]) exCX_valid (Or.inl ha) h2 (by decide) ⟨[⟨4, 0, ![1]⟩, ⟨4, 1, ![2]⟩], rfl, rfl⟩ _ _).2 ?_
    intro A' B'
    have hz : totalError (List.replicate (controlSteps exCX exCU).length 1) (controlSteps exCX exCU) (hcat !![2] !![3]) = 0 := by
      unfold totalError
      apply List.sum_eq_zero
      intro x hx
      obtain ⟨q, hq, rfl⟩ := List.mem_map.1 hx
      have := hA q.2 (List.of_mem_zip hq).2
      rw [stepError_eq_zero.2, mul_zero]
      rw [this, ← hcat_mulVec]
      congr 1
      funext j
      cases j <;> rfl
    rw [hz]
    unfold totalError
    apply List.sum_nonneg
    intro x hx
    obtain ⟨q, hq, rfl⟩ := List.mem_map.1 hx
    rw [List.eq_of_mem_replicate (List.of_mem_zip hq).1, one_mul]
    exact stepError_nonneg _ _ _
  · rw [exC_steps, Submodule.eq_top_iff']
    intro x
    have : x = (x (Sum.inl 0) - 2 * x (Sum.inr 0)) • (Sum.elim ![1] ![0] : Fin 1 ⊕ Fin 1 → ℝ) + (x (Sum.inr 0)) • (Sum.elim ![2] ![1] : Fin 1 ⊕ Fin 1 → ℝ) := by
      funext j
      rcases j with j | j <;> fin_cases j <;> simp <;> ring
    rw [this]
    refine Submodule.add_mem _ (Submodule.smul_mem _ _ (Submodule.subset_span ?_)) (Submodule.smul_mem _ _ (Submodule.subset_span ?_))
    · exact ⟨_, List.mem_cons_self, rfl⟩
    · exact ⟨_, List.mem_cons_of_mem _ List.mem_cons_self, rfl⟩

/-- Samples of `x' = 2 x + 3 u`: three samples of series 1, followed by two samples of series 0. -/
def exCOrder : List (Row Int (Fin 1 → ℝ)) := [⟨1, 0, ![1]⟩, ⟨1, 1, ![2]⟩, ⟨1, 2, ![7]⟩, ⟨0, 0, ![1]⟩, ⟨0, 1, ![2]⟩]

/-- Its control input. -/
def exCOrderU : List (Row Int (Fin 1 → ℝ)) := [⟨1, 0, ![0]⟩, ⟨1, 1, ![1]⟩, ⟨0, 0, ![0]⟩]

/-- **C31 is violated for IDs that do not ascend.** The samples follow `x_{k+1} = 2 x_k + 3 u_k` exactly, states and controls span the whole space and the index of the control fits, but the fit does not
return the matrices 2 and 3: snapshots of different series are paired (cf. `C03_violated`). -/
theorem C31_order_violated : ∃ (c u : List (Row Int (Fin 1 → ℝ))) (A B : Matrix (Fin 1) (Fin 1) ℝ), Valid c ∧ (∀ i, HasId c i → 2 ≤ (series c i).length) ∧ isConstDeltaTime .int c = true ∧
    controlIndexMatches c u ∧ (∀ p ∈ controlSteps c u, p.2 = A *ᵥ (p.1 ∘ Sum.inl) + B *ᵥ (p.1 ∘ Sum.inr)) ∧ Submodule.span ℝ {x | ∃ p ∈ controlSteps c u, p.1 = x} = ⊤ ∧
    ¬ FitsControl .int c u A B := by
  have hp : controlSteps exCOrder exCOrderU = [(Sum.elim ![1] ![0], ![2]), (Sum.elim ![2] ![1], ![7]), (Sum.elim ![1] ![0], ![2])] := rfl
  refine ⟨exCOrder, exCOrderU, !![2], !![3], ?_, ?_, by decide, ⟨[⟨1, 0, ![1]⟩, ⟨1, 1, ![2]⟩, ⟨0, 0, ![1]⟩], rfl, rfl⟩, ?_, ?_, ?_⟩
  · rw [valid_iff]; constructor
    · decide
    · unfold Before; decide
  · rintro i ⟨r, hr, rfl⟩
    simp only [exCOrder, List.mem_cons, List.not_mem_nil, or_false] at hr
    rcases hr with rfl | rfl | rfl | rfl | rfl <;> decide
  · rw [hp]
    intro p hp
    simp only [List.mem_cons, List.not_mem_nil, or_false] at hp
    rcases hp with rfl | rfl | rfl <;> funext i <;> fin_cases i <;> simp [Matrix.mulVec, dotProduct] <;> norm_num
  · rw [hp, Submodule.eq_top_iff']
    intro x
    have : x = (x (Sum.inl 0) - 2 * x (Sum.inr 0)) • (Sum.elim ![1] ![0] : Fin 1 ⊕ Fin 1 → ℝ) + (x (Sum.inr 0)) • (Sum.elim ![2] ![1] : Fin 1 ⊕ Fin 1 → ℝ) := by
      funext j
      rcases j with j | j <;> fin_cases j <;> simp <;> ring
    rw [this]
    refine Submodule.add_mem _ (Submodule.smul_mem _ _ (Submodule.subset_span ?_)) (Submodule.smul_mem _ _ (Submodule.subset_span ?_))
    · exact ⟨_, List.mem_cons_self, rfl⟩
    · exact ⟨_, List.mem_cons_of_mem _ List.mem_cons_self, rfl⟩
  · rintro ⟨-, -, L, R, h, hK⟩
    have hs : shiftMatrices exCOrder = .ok ([![1], ![7], ![1]], [![2], ![1], ![2]]) := rfl
    rw [hs] at h
    cases h
    have hK' : IsControlMatrices exCOrder.length [((Sum.elim ![1] ![0] : Fin 1 ⊕ Fin 1 → ℝ), (![2] : Fin 1 → ℝ)), (Sum.elim ![7] ![1], ![1]), (Sum.elim ![1] ![0], ![2])] !![2] !![3] := hK
    have := (isControlMatrices_iff _ (by simp [exCOrder]) _ _ _).1 hK' !![2] !![-13]
    simp [totalError, stepError, hcat, Matrix.mulVec, dotProduct] at this
    norm_num at this

end Verif.Dmd
