import Verif.Mpc.KmpcLemmas
import Mathlib.Topology.Order.Compact
import Mathlib.Topology.MetricSpace.ProperSpace
import Mathlib.Topology.Instances.Matrix
import Mathlib.Topology.Algebra.Ring.Real
import Mathlib.Analysis.Normed.Group.Basic
import Mathlib.Data.Fin.VecNotation
import Mathlib.Algebra.BigOperators.Field
/-! # Properties C38, C39, C40: the quadratic program of Koopman MPC -/

namespace Verif.Mpc

open Matrix

variable {ν : Type} [Fintype ν] {nq nu : Nat}

/-! ## Specification -/

/-- The states of the lifted controlled system `z_{i+1} = A z_i + B u_i`. -/
def trajectory (A : Matrix ν ν ℝ) (B : Matrix ν (Fin nu) ℝ) (z₀ : ν → ℝ) (u : Nat → Fin nu → ℝ) : Nat → ν → ℝ
  | 0 => z₀
  | i + 1 => A *ᵥ trajectory A B z₀ u i + B *ᵥ u i

/-- The documented cost (mpc.py 66-69, with the reference): the running weights for the predicted states 1, …, horizon-1, the terminal weights for the last state, the input
weights for all inputs.  `ref i` is the target for the state after step `i`. -/
def trackingCost (A : Matrix ν ν ℝ) (B : Matrix ν (Fin nu) ℝ) (C : Matrix (Fin nq) ν ℝ) (horizon : Nat) (running terminal : Fin nq → ℝ) (input : Fin nu → ℝ)
    (z₀ : ν → ℝ) (ref : Nat → Fin nq → ℝ) (u : Nat → Fin nu → ℝ) : ℝ :=
  ∑ i ∈ Finset.range horizon, (∑ r, (if i + 1 < horizon then running r else terminal r) * ((C *ᵥ trajectory A B z₀ u (i + 1)) r - ref i r) ^ 2 + ∑ c, input c * u i c ^ 2)

/-- A cost parameter stands for the non-negative weights `w`. -/
def CostIs {n : Nat} (cost : Cost) (w : Fin n → ℝ) : Prop :=
  (∀ r, 0 ≤ w r) ∧ ((∃ c, 0 ≤ c ∧ cost = .number c ∧ ∀ r, w r = c) ∨ cost = .array (List.ofFn w))

/-- All inputs and all predicted states stay within the bounds (lists of pairs lower, upper). -/
def WithinBounds (A : Matrix ν ν ℝ) (B : Matrix ν (Fin nu) ℝ) (C : Matrix (Fin nq) ν ℝ) (horizon : Nat) (stateBounds inputBounds : Option (List (ℝ × ℝ)))
    (z₀ : ν → ℝ) (u : Nat → Fin nu → ℝ) : Prop :=
  (∀ b ∈ stateBounds, ∀ i < horizon, ∀ r : Fin nq, (b.getD r 0).1 ≤ (C *ᵥ trajectory A B z₀ u (i + 1)) r ∧ (C *ᵥ trajectory A B z₀ u (i + 1)) r ≤ (b.getD r 0).2) ∧
  (∀ b ∈ inputBounds, ∀ i < horizon, ∀ c : Fin nu, (b.getD c 0).1 ≤ u i c ∧ u i c ≤ (b.getD c 0).2)

/-! ## C38 -/

theorem trajectory_congr (A : Matrix ν ν ℝ) (B : Matrix ν (Fin nu) ℝ) (z₀ : ν → ℝ) (u v : Nat → Fin nu → ℝ) (i : Nat) (h : ∀ k < i, u k = v k) :
    trajectory A B z₀ u i = trajectory A B z₀ v i := by
  induction i with
  | zero => rfl
  | succ i ih => rw [trajectory, trajectory, ih (fun k hk => h k (by omega)), h i (by omega)]

theorem trajectory_eq [DecidableEq ν] (A : Matrix ν ν ℝ) (B : Matrix ν (Fin nu) ℝ) (z₀ : ν → ℝ) (u : Nat → Fin nu → ℝ) (i : Nat) :
    trajectory A B z₀ u i = A ^ i *ᵥ z₀ + ∑ k ∈ Finset.range i, A ^ (i - 1 - k) *ᵥ (B *ᵥ u k) := by
  induction i with
  | zero => simp [trajectory]
  | succ i ih =>
    rw [trajectory, ih, Matrix.mulVec_add, Matrix.mulVec_mulVec, ← pow_succ', Finset.sum_range_succ, add_assoc]
    congr 1
    simp only [Nat.add_sub_cancel, Nat.sub_self, pow_zero, one_mulVec]
    congr 1
    rw [Matrix.mulVec_sum]
    refine Finset.sum_congr rfl fun k hk => ?_
    have hk := Finset.mem_range.1 hk
    rw [Matrix.mulVec_mulVec, ← pow_succ']
    congr 2
    omega

/-- **C38.** For every horizon the block `i` of `Ab z₀ + Bb U` is `C z_{i+1}`, where `z` is the trajectory of the controlled system under the inputs `U`. -/
theorem C38_prediction (A : Matrix ν ν ℝ) (B : Matrix ν (Fin nu) ℝ) (C : Matrix (Fin nq) ν ℝ) (horizon : Nat) (z₀ : ν → ℝ) (u : Nat → Fin nu → ℝ)
    (i : Fin horizon) (r : Fin nq) :
    (matAb C A horizon *ᵥ z₀ + matBb C A B horizon *ᵥ (fun p => u p.1 p.2)) (i, r) = (C *ᵥ trajectory A B z₀ u (i + 1)) r := by
  classical
  rw [trajectory_eq, Matrix.mulVec_add, Pi.add_apply, Pi.add_apply]
  congr 1
  · rw [Matrix.mulVec_mulVec, ← evolutionA_eq]; rfl
  · rw [Matrix.mulVec_sum, Finset.sum_apply]
    have h1 : (matBb C A B horizon *ᵥ (fun p => u p.1 p.2)) (i, r) = ∑ k : Fin horizon, (evolutionB C A B horizon i k *ᵥ u k) r := by
      simp only [mulVec, dotProduct, matBb, Matrix.of_apply]
      rw [Fintype.sum_prod_type]
    rw [h1, Fin.sum_univ_eq_sum_range (fun k => (evolutionB C A B horizon i k *ᵥ u k) r)]
    have h2 : ∀ k ∈ Finset.range horizon, k ∉ Finset.range (i + 1) → (evolutionB C A B horizon i k *ᵥ u k) r = 0 := by
      intro k _ hk
      have hk := Finset.mem_range.not.1 hk
      rw [evolutionB_eq, if_neg (by omega), Matrix.zero_mulVec]; rfl
    rw [← Finset.sum_subset (Finset.range_subset_range.2 (by omega)) h2]
    refine Finset.sum_congr rfl fun k hk => ?_
    have hk := Finset.mem_range.1 hk
    rw [evolutionB_eq, if_pos (by omega), ← Matrix.mulVec_mulVec, ← Matrix.mulVec_mulVec]
    rfl

/-! ## Helpers -/

theorem costToArray_ok {n : Nat} {cost : Cost} {w : Fin n → ℝ} (h : CostIs cost w) : costToArray cost n = .ok (List.ofFn w) := by
  obtain ⟨h0, ⟨c, hc, rfl, hw⟩ | rfl⟩ := h
  · have : w = fun _ => c := funext hw
    rw [this]
    simp [costToArray, hc]
  · have h2 : ¬ ∃ i, w i < 0 := fun ⟨i, hi⟩ => absurd (h0 i) (not_le.2 hi)
    simp [costToArray, List.mem_ofFn, h2]

theorem ofFn_getD {n : Nat} (w : Fin n → ℝ) (r : Fin n) : (List.ofFn w).getD r 0 = w r := by
  rw [List.getD_eq_getElem?_getD, List.getElem?_eq_getElem (by simp)]
  simp

theorem unstack_tile {n : Nat} (horizon : Nat) (l : List ℝ) (hl : l.length = n) (p : Fin horizon × Fin n) : unstack horizon n (tile l horizon) p = l.getD p.2 0 := by
  unfold unstack
  subst hl
  exact tile_getD l horizon p.1 p.2 0 p.1.2 p.2.2

theorem unstack_diag {n : Nat} (horizon : Nat) (r t : List ℝ) (hr : r.length = n) (ht : t.length = n) (p : Fin horizon × Fin n) :
    unstack horizon n (tile r (horizon - 1) ++ t) p = if (p.1 : Nat) + 1 < horizon then r.getD p.2 0 else t.getD p.2 0 := by
  unfold unstack
  have hp := p.1.2
  have hp2 := p.2.2
  rw [List.getD_eq_getElem?_getD]
  by_cases h : (p.1 : Nat) + 1 < horizon
  · rw [if_pos h, ← tile_getD r (horizon - 1) p.1 p.2 0 (by omega) (by omega), List.getD_eq_getElem?_getD, hr, List.getElem?_append_left]
    rw [tile_length, hr]
    calc (p.1 : Nat) * n + p.2 < p.1 * n + n := by omega
      _ = (p.1 + 1) * n := by rw [Nat.succ_mul]
      _ ≤ (horizon - 1) * n := Nat.mul_le_mul_right _ (by omega)
  · rw [if_neg h, List.getElem?_append_right (by rw [tile_length, hr]; have : horizon - 1 = p.1 := by omega
                                                 rw [this]; omega)]
    have : (p.1 : Nat) * n + p.2 - (tile r (horizon - 1)).length = p.2 := by
      rw [tile_length, hr]
      have : horizon - 1 = p.1 := by omega
      rw [this]; omega
    rw [this, List.getD_eq_getElem?_getD]

/-- The terminal weights that are really used. -/
theorem terminalCost_is {running terminal : Cost} {wt : Fin nq → ℝ} (h : CostIs terminal wt) (h0 : ∃ r, wt r ≠ 0) : terminalCost running terminal = terminal := by
  obtain ⟨r, hr⟩ := h0
  obtain ⟨-, ⟨c, -, rfl, hw⟩ | rfl⟩ := h
  · have : c ≠ 0 := by rw [← hw r]; exact hr
    simp [terminalCost, this]
  · have : ¬ ∀ i, wt i = 0 := fun h => hr (h r)
    simp [terminalCost, List.mem_ofFn, this]

/-- Bounds have one pair per row. -/
def BoundsShape (k : Kmpc ν nq nu) : Prop := (∀ b ∈ k.stateBounds, b.length = nq) ∧ ∀ b ∈ k.inputBounds, b.length = nu

theorem setup_eq (k : Kmpc ν nq nu) (hh : 2 ≤ k.horizon) (hb : BoundsShape k) {wr wt : Fin nq → ℝ} {wu : Fin nu → ℝ} (hr : CostIs k.running wr)
    (ht : CostIs (terminalCost k.running k.terminal) wt) (hu : CostIs k.input wu) :
    kmpcSetup k = .ok
      ⟨(2 : ℝ) • ((matBb k.C k.A k.B k.horizon)ᵀ * diagonal (fun p => if (p.1 : Nat) + 1 < k.horizon then wr p.2 else wt p.2)) * matBb k.C k.A k.B k.horizon +
          (2 : ℝ) • diagonal (fun p => wu p.2),
        (2 : ℝ) • ((matBb k.C k.A k.B k.horizon)ᵀ * diagonal (fun p => if (p.1 : Nat) + 1 < k.horizon then wr p.2 else wt p.2)) * matAb k.C k.A k.horizon,
        (2 : ℝ) • ((matBb k.C k.A k.B k.horizon)ᵀ * diagonal (fun p => if (p.1 : Nat) + 1 < k.horizon then wr p.2 else wt p.2)),
        matAb k.C k.A k.horizon, k.stateBounds.map (stateConstraint k.horizon (matBb k.C k.A k.B k.horizon)), k.inputBounds.map (inputBox k.horizon nu)⟩ := by
  unfold kmpcSetup stateDiag inputDiag
  rw [if_neg (by omega), if_neg (by rintro ⟨b, h1, h2⟩; exact h2 (hb.2 b h1)), if_neg (by rintro ⟨b, h1, h2⟩; exact h2 (hb.1 b h1)), costToArray_ok hr, costToArray_ok ht,
    costToArray_ok hu]
  simp only
  have e1 : unstack k.horizon nq (tile (List.ofFn wr) (k.horizon - 1) ++ List.ofFn wt) = fun p => if (p.1 : Nat) + 1 < k.horizon then wr p.2 else wt p.2 := by
    funext p
    rw [unstack_diag _ _ _ (by simp) (by simp), ofFn_getD, ofFn_getD]
  have e2 : unstack k.horizon nu (tile (List.ofFn wu) k.horizon) = fun p => wu p.2 := by
    funext p
    rw [unstack_tile _ _ (by simp), ofFn_getD]
  rw [e1, e2]

theorem cost_stacked (A : Matrix ν ν ℝ) (B : Matrix ν (Fin nu) ℝ) (C : Matrix (Fin nq) ν ℝ) (horizon : Nat) (wr wt : Fin nq → ℝ) (wu : Fin nu → ℝ)
    (z₀ : ν → ℝ) (ref : Nat → Fin nq → ℝ) (u : Nat → Fin nu → ℝ) :
    ∑ p : Fin horizon × Fin nq, (if (p.1 : Nat) + 1 < horizon then wr p.2 else wt p.2) *
        ((matAb C A horizon *ᵥ z₀ + matBb C A B horizon *ᵥ (fun p => u p.1 p.2)) p - ref p.1 p.2) ^ 2 + ∑ c : Fin horizon × Fin nu, wu c.2 * (u c.1 c.2) ^ 2 =
      trackingCost A B C horizon wr wt wu z₀ ref u := by
  unfold trackingCost
  rw [Finset.sum_add_distrib, Fintype.sum_prod_type, Fintype.sum_prod_type,
    ← Fin.sum_univ_eq_sum_range (fun i => ∑ r, (if i + 1 < horizon then wr r else wt r) * ((C *ᵥ trajectory A B z₀ u (i + 1)) r - ref i r) ^ 2),
    ← Fin.sum_univ_eq_sum_range (fun i => ∑ c, wu c * u i c ^ 2)]
  congr 1
  refine Finset.sum_congr rfl fun i _ => Finset.sum_congr rfl fun r _ => ?_
  rw [C38_prediction]

/-! ## C39 -/

/-- **C39 (true part).** If the terminal weights are not all zero, the objective of the quadratic program differs from the documented tracking cost only by a number that does not
depend on the inputs. Missing: terminal weights zero, see `C39_violated`. -/
theorem C39_objective_partial (k : Kmpc ν nq nu) (hh : 2 ≤ k.horizon) (hb : BoundsShape k) {wr wt : Fin nq → ℝ} {wu : Fin nu → ℝ} (hr : CostIs k.running wr)
    (ht : CostIs k.terminal wt) (hu : CostIs k.input wu) (h0 : ∃ r, wt r ≠ 0) (z₀ : ν → ℝ) (ref : Nat → Fin nq → ℝ) :
    ∃ s, kmpcSetup k = .ok s ∧ ∃ c, ∀ u : Nat → Fin nu → ℝ, (s.qp z₀ (fun p => ref p.1 p.2)).objective (fun p => u p.1 p.2) =
      trackingCost k.A k.B k.C k.horizon wr wt wu z₀ ref u + c := by
  refine ⟨_, setup_eq k hh hb hr (by rw [terminalCost_is ht h0]; exact ht) hu,
    -∑ p : Fin k.horizon × Fin nq, (if (p.1 : Nat) + 1 < k.horizon then wr p.2 else wt p.2) * ((matAb k.C k.A k.horizon *ᵥ z₀) p - ref p.1 p.2) ^ 2, fun u => ?_⟩
  unfold Qp.objective Setup.qp
  simp only
  rw [objective_sum, cost_stacked]
  ring

/-- **C39 (no terminal cost).** Without a terminal cost, or with a zero one, the running weights are used for the last state. -/
theorem C39_default (k : Kmpc ν nq nu) (hh : 2 ≤ k.horizon) (hb : BoundsShape k) {wr : Fin nq → ℝ} {wu : Fin nu → ℝ} (hr : CostIs k.running wr)
    (ht : k.terminal = .absent ∨ k.terminal = .number 0) (hu : CostIs k.input wu) (z₀ : ν → ℝ) (ref : Nat → Fin nq → ℝ) :
    ∃ s, kmpcSetup k = .ok s ∧ ∃ c, ∀ u : Nat → Fin nu → ℝ, (s.qp z₀ (fun p => ref p.1 p.2)).objective (fun p => u p.1 p.2) =
      trackingCost k.A k.B k.C k.horizon wr wr wu z₀ ref u + c := by
  have ht' : terminalCost k.running k.terminal = k.running := by rcases ht with h | h <;> simp [h, terminalCost]
  refine ⟨_, setup_eq k hh hb hr (by rw [ht']; exact hr) hu,
    -∑ p : Fin k.horizon × Fin nq, (if (p.1 : Nat) + 1 < k.horizon then wr p.2 else wr p.2) * ((matAb k.C k.A k.horizon *ᵥ z₀) p - ref p.1 p.2) ^ 2, fun u => ?_⟩
  unfold Qp.objective Setup.qp
  simp only
  rw [objective_sum, cost_stacked]
  ring

/-! ## C40 -/

theorem constraint_iff (k : Kmpc ν nq nu) (hb : BoundsShape k) (s : Setup ν k.horizon nq nu) (hA : s.Ab = matAb k.C k.A k.horizon)
    (hG : s.G = k.stateBounds.map (stateConstraint k.horizon (matBb k.C k.A k.B k.horizon))) (hx : s.box = k.inputBounds.map (inputBox k.horizon nu))
    (z₀ : ν → ℝ) (ref : Fin k.horizon × Fin nq → ℝ) (u : Nat → Fin nu → ℝ) :
    (s.qp z₀ ref).Feasible (fun p => u p.1 p.2) ↔ WithinBounds k.A k.B k.C k.horizon k.stateBounds k.inputBounds z₀ u := by
  have hfst : ∀ (b : List (ℝ × ℝ)) (r : Nat), (b.map (·.1)).getD r 0 = (b.getD r 0).1 := by
    intro b r; rw [List.getD_eq_getElem?_getD, List.getD_eq_getElem?_getD, List.getElem?_map]; cases b[r]? <;> rfl
  have hsnd : ∀ (b : List (ℝ × ℝ)) (r : Nat), (b.map (·.2)).getD r 0 = (b.getD r 0).2 := by
    intro b r; rw [List.getD_eq_getElem?_getD, List.getD_eq_getElem?_getD, List.getElem?_map]; cases b[r]? <;> rfl
  unfold Qp.Feasible WithinBounds Setup.qp
  refine and_congr ?_ ?_
  · rw [hG]
    cases hs : k.stateBounds with
    | none => simp
    | some b =>
      have hl := hb.1 b (by rw [hs]; rfl)
      simp only [Option.map_some, Option.mem_def, Option.some.injEq, forall_eq']
      rw [Pi.le_def, Sum.forall]
      have e1 : ∀ p : Fin k.horizon × Fin nq, ((Matrix.of (Sum.elim (fun p => matBb k.C k.A k.B k.horizon p) (fun p => -matBb k.C k.A k.B k.horizon p)) :
          Matrix ((Fin k.horizon × Fin nq) ⊕ (Fin k.horizon × Fin nq)) (Fin k.horizon × Fin nu) ℝ) *ᵥ (fun p => u p.1 p.2)) (Sum.inl p) =
          (matBb k.C k.A k.B k.horizon *ᵥ (fun p => u p.1 p.2)) p := fun p => rfl
      have e2 : ∀ p : Fin k.horizon × Fin nq, ((Matrix.of (Sum.elim (fun p => matBb k.C k.A k.B k.horizon p) (fun p => -matBb k.C k.A k.B k.horizon p)) :
          Matrix ((Fin k.horizon × Fin nq) ⊕ (Fin k.horizon × Fin nq)) (Fin k.horizon × Fin nu) ℝ) *ᵥ (fun p => u p.1 p.2)) (Sum.inr p) =
          -(matBb k.C k.A k.B k.horizon *ᵥ (fun p => u p.1 p.2)) p := fun p => neg_dotProduct _ _
      simp only [stateConstraint, e1, e2, Pi.add_apply, Sum.elim_inl, Sum.elim_inr, hA]
      have e3 : ∀ p : Fin k.horizon × Fin nq, unstack k.horizon nq (tile (b.map (·.2)) k.horizon) p = (b.getD p.2 0).2 := fun p => by
        rw [unstack_tile _ _ (by simpa using hl), hsnd]
      have e4 : ∀ p : Fin k.horizon × Fin nq, unstack k.horizon nq (tile (b.map (·.1)) k.horizon) p = (b.getD p.2 0).1 := fun p => by
        rw [unstack_tile _ _ (by simpa using hl), hfst]
      simp only [e3, e4]
      constructor
      · rintro ⟨h1, h2⟩ i hi r
        have hc := C38_prediction k.A k.B k.C k.horizon z₀ u ⟨i, hi⟩ r
        rw [Pi.add_apply] at hc
        have a1 := h1 (⟨i, hi⟩, r)
        have a2 := h2 (⟨i, hi⟩, r)
        rw [← hc]
        constructor <;> linarith
      · intro h
        have hc : ∀ p : Fin k.horizon × Fin nq, _ := fun p => C38_prediction k.A k.B k.C k.horizon z₀ u p.1 p.2
        constructor
        · intro p
          have a := h p.1 p.1.2 p.2
          have hc := hc p
          rw [Pi.add_apply] at hc
          rw [← hc] at a
          linarith [a.2]
        · intro p
          have a := h p.1 p.1.2 p.2
          have hc := hc p
          rw [Pi.add_apply] at hc
          rw [← hc] at a
          linarith [a.1]
  · rw [hx]
    cases hs : k.inputBounds with
    | none => simp
    | some b =>
      have hl := hb.2 b (by rw [hs]; rfl)
      simp only [Option.map_some, Option.mem_def, Option.some.injEq, forall_eq', inputBox, Pi.le_def]
      have e3 : ∀ p : Fin k.horizon × Fin nu, unstack k.horizon nu (tile (b.map (·.2)) k.horizon) p = (b.getD p.2 0).2 := fun p => by
        rw [unstack_tile _ _ (by simpa using hl), hsnd]
      have e4 : ∀ p : Fin k.horizon × Fin nu, unstack k.horizon nu (tile (b.map (·.1)) k.horizon) p = (b.getD p.2 0).1 := fun p => by
        rw [unstack_tile _ _ (by simpa using hl), hfst]
      simp only [e3, e4]
      constructor
      · rintro ⟨h1, h2⟩ i hi c
        exact ⟨h1 (⟨i, hi⟩, c), h2 (⟨i, hi⟩, c)⟩
      · intro h
        exact ⟨fun p => (h p.1 p.1.2 p.2).1, fun p => (h p.1 p.1.2 p.2).2⟩

/-- **C40.** With bounds given as (lower, upper) pairs, an input sequence satisfies the constraints of the quadratic program iff all inputs lie within the input bounds and all
predicted states within the state bounds, for every horizon. -/
theorem C40_feasible_partial (k : Kmpc ν nq nu) (s : Setup ν k.horizon nq nu) (hs : kmpcSetup k = .ok s) (z₀ : ν → ℝ) (ref : Fin k.horizon × Fin nq → ℝ)
    (u : Nat → Fin nu → ℝ) : (s.qp z₀ ref).Feasible (fun p => u p.1 p.2) ↔ WithinBounds k.A k.B k.C k.horizon k.stateBounds k.inputBounds z₀ u := by
  unfold kmpcSetup at hs
  split at hs
  · simp at hs
  split at hs
  · simp at hs
  split at hs
  · simp at hs
  rename_i _ h1 h2
  split at hs
  · simp at hs
  split at hs
  · simp at hs
  cases hs
  have hb : BoundsShape k := ⟨fun b h => by by_contra hn; exact h2 ⟨b, h, hn⟩, fun b h => by by_contra hn; exact h1 ⟨b, h, hn⟩⟩
  exact constraint_iff k hb _ rfl rfl rfl z₀ ref u

/-- **C40 fails** for the documented layout of the bounds, (max, min): if some input has `min < max`, no input sequence at all is feasible and an exception is raised, for every
horizon, state and reference. -/
theorem C40_violated (k : Kmpc ν nq nu) (s : Setup ν k.horizon nq nu) (hs : kmpcSetup k = .ok s) (b : List (ℝ × ℝ)) (hb : k.inputBounds = some b) (c : Fin nu)
    (hlt : (b.getD c 0).2 < (b.getD c 0).1) (dt t₀ : Int) (z₀ : ν → ℝ) (ref : List (Int × (Fin nq → ℝ))) (out : List (Int × (Fin nu → ℝ))) :
    (¬ ∃ U, (s.qp z₀ (fun p => (ref.getD p.1 (0, fun _ => 0)).2 p.2)).Feasible U) ∧ ¬ IsControlSequence k dt t₀ z₀ ref (.ok out) := by
  have hn : ¬ ∃ U, (s.qp z₀ (fun p => (ref.getD p.1 (0, fun _ => 0)).2 p.2)).Feasible U := by
    rintro ⟨U, hU⟩
    have h2 : 0 < k.horizon := by
      by_contra h
      unfold kmpcSetup at hs
      rw [if_pos (by omega)] at hs
      simp at hs
    have hU' : U = fun p : Fin k.horizon × Fin nu => (fun i c => if h : i < k.horizon then U (⟨i, h⟩, c) else 0 : Nat → Fin nu → ℝ) p.1 p.2 := by
      funext p; simp
    rw [hU'] at hU
    have := ((C40_feasible_partial k s hs z₀ _ (fun i c => if h : i < k.horizon then U (⟨i, h⟩, c) else 0)).1 hU).2 b (by rw [hb]; rfl) 0 h2 c
    linarith [this.1, this.2]
  refine ⟨hn, fun h => ?_⟩
  unfold IsControlSequence at h
  rw [hs] at h
  simp only at h
  split at h
  · simp at h
  split at h
  · simp at h
  rcases h with ⟨U, hU, -⟩ | ⟨-, h⟩
  · exact hn ⟨U, hU.1⟩
  · simp at h

/-! ## C39: what is returned -/

theorem isControl_ok {k : Kmpc ν nq nu} {s : Setup ν k.horizon nq nu} (hs : kmpcSetup k = .ok s) {dt t₀ : Int} {z₀ : ν → ℝ} {ref : List (Int × (Fin nq → ℝ))}
    {out : List (Int × (Fin nu → ℝ))} :
    IsControlSequence k dt t₀ z₀ ref (.ok out) ↔ (ref.map (·.1)).head? = some (t₀ + dt) ∧ ref.length = k.horizon ∧
      ∃ U, (s.qp z₀ (fun i => (ref.getD i.1 (0, fun _ => 0)).2 i.2)).IsSolution U ∧
        out = List.zip (t₀ :: (ref.map (·.1)).dropLast) ((List.finRange k.horizon).map (fun i c => U (i, c))) := by
  unfold IsControlSequence
  rw [hs]
  simp only
  split
  · rename_i h
    constructor
    · intro h2; simp at h2
    · intro h2; exact absurd h2.1 h
  · rename_i h
    rw [not_not] at h
    split
    · rename_i h2; simp [h2]
    · rename_i h2
      rw [not_not] at h2
      simp [h, h2]

/-- The input applied in step `i` of a returned sequence. -/
def inputAt (out : List (Int × (Fin nu → ℝ))) (i : Nat) : Fin nu → ℝ := (out.getD i (0, fun _ => 0)).2

theorem out_shape {k : Kmpc ν nq nu} {t₀ : Int} {ref : List (Int × (Fin nq → ℝ))} (hh : 0 < k.horizon) (hl : ref.length = k.horizon) (U : Fin k.horizon × Fin nu → ℝ) :
    let out := List.zip (t₀ :: (ref.map (·.1)).dropLast) ((List.finRange k.horizon).map (fun i c => U (i, c)))
    out.map (·.1) = t₀ :: (ref.map (·.1)).dropLast ∧ (fun p : Fin k.horizon × Fin nu => inputAt out p.1 p.2) = U := by
  have e : (t₀ :: (ref.map (·.1)).dropLast).length = k.horizon := by simp; omega
  refine ⟨?_, ?_⟩
  · rw [List.map_fst_zip (by rw [e]; simp)]
  · funext p
    unfold inputAt
    rw [List.getD_eq_getElem?_getD, List.getElem?_eq_getElem (by rw [List.length_zip, e]; simp)]
    simp

/-- **C39 (what is returned, true part).** The returned sequence has the time of the initial state and the times of the reference without the last one; its inputs and the
predicted states stay within the bounds, and no other input sequence within the bounds has a smaller documented tracking cost. -/
theorem C39_optimal_partial (k : Kmpc ν nq nu) (hh : 2 ≤ k.horizon) (hb : BoundsShape k) {wr wt : Fin nq → ℝ} {wu : Fin nu → ℝ} (hr : CostIs k.running wr)
    (ht : CostIs k.terminal wt) (hu : CostIs k.input wu) (h0 : ∃ r, wt r ≠ 0) (dt t₀ : Int) (z₀ : ν → ℝ) (ref : List (Int × (Fin nq → ℝ)))
    (out : List (Int × (Fin nu → ℝ))) (h : IsControlSequence k dt t₀ z₀ ref (.ok out)) :
    out.map (·.1) = t₀ :: (ref.map (·.1)).dropLast ∧ WithinBounds k.A k.B k.C k.horizon k.stateBounds k.inputBounds z₀ (inputAt out) ∧
      ∀ u, WithinBounds k.A k.B k.C k.horizon k.stateBounds k.inputBounds z₀ u →
        trackingCost k.A k.B k.C k.horizon wr wt wu z₀ (fun i => (ref.getD i (0, fun _ => 0)).2) (inputAt out) ≤
        trackingCost k.A k.B k.C k.horizon wr wt wu z₀ (fun i => (ref.getD i (0, fun _ => 0)).2) u := by
  obtain ⟨s, hs, c, hc⟩ := C39_objective_partial k hh hb hr ht hu h0 z₀ (fun i => (ref.getD i (0, fun _ => 0)).2)
  obtain ⟨-, hl, U, hU, rfl⟩ := (isControl_ok hs).1 h
  obtain ⟨e1, e2⟩ := out_shape (k := k) (t₀ := t₀) (by omega) hl U
  refine ⟨e1, ?_, fun u hu' => ?_⟩
  · rw [← C40_feasible_partial k s hs z₀ (fun i => (ref.getD i.1 (0, fun _ => 0)).2 i.2), e2]; exact hU.1
  · have := hU.2 (fun p => u p.1 p.2) ((C40_feasible_partial k s hs z₀ _ u).2 hu')
    rw [← e2, hc, hc] at this
    linarith

theorem quad_pos (k : Kmpc ν nq nu) {wr wt : Fin nq → ℝ} {wu : Fin nu → ℝ} (hr : ∀ r, 0 ≤ wr r) (ht : ∀ r, 0 ≤ wt r) (z₀ : ν → ℝ)
    (ref : Nat → Fin nq → ℝ) (u : Nat → Fin nu → ℝ) : ∑ i ∈ Finset.range k.horizon, ∑ c, wu c * u i c ^ 2 ≤ trackingCost k.A k.B k.C k.horizon wr wt wu z₀ ref u := by
  unfold trackingCost
  refine Finset.sum_le_sum fun i _ => ?_
  have : 0 ≤ ∑ r, (if i + 1 < k.horizon then wr r else wt r) * ((k.C *ᵥ trajectory k.A k.B z₀ u (i + 1)) r - ref i r) ^ 2 := by
    refine Finset.sum_nonneg fun r _ => mul_nonneg ?_ (sq_nonneg _)
    split
    · exact hr r
    · exact ht r
  linarith

theorem midpoint_trajectory (A : Matrix ν ν ℝ) (B : Matrix ν (Fin nu) ℝ) (z₀ : ν → ℝ) (u v : Nat → Fin nu → ℝ) (i : Nat) :
    trajectory A B z₀ (fun k c => (u k c + v k c) / 2) i = (1 / 2 : ℝ) • (trajectory A B z₀ u i + trajectory A B z₀ v i) := by
  induction i with
  | zero => ext; simp [trajectory]; ring
  | succ i ih =>
    have : (fun c => (u i c + v i c) / 2) = (1 / 2 : ℝ) • (u i + v i) := by ext; simp; ring
    rw [trajectory, ih, this, trajectory, trajectory, Matrix.mulVec_smul, Matrix.mulVec_smul, Matrix.mulVec_add, Matrix.mulVec_add, ← smul_add]
    congr 1
    abel

theorem midpoint_within {A : Matrix ν ν ℝ} {B : Matrix ν (Fin nu) ℝ} {C : Matrix (Fin nq) ν ℝ} {horizon : Nat} {sb ib : Option (List (ℝ × ℝ))} {z₀ : ν → ℝ}
    {u v : Nat → Fin nu → ℝ} (hu : WithinBounds A B C horizon sb ib z₀ u) (hv : WithinBounds A B C horizon sb ib z₀ v) :
    WithinBounds A B C horizon sb ib z₀ (fun k c => (u k c + v k c) / 2) := by
  refine ⟨fun b hb i hi r => ?_, fun b hb i hi c => ?_⟩
  · have h1 := hu.1 b hb i hi r
    have h2 := hv.1 b hb i hi r
    rw [midpoint_trajectory, Matrix.mulVec_smul, Matrix.mulVec_add]
    simp only [Pi.smul_apply, Pi.add_apply, smul_eq_mul]
    constructor <;> linarith [h1.1, h1.2, h2.1, h2.2]
  · have h1 := hu.2 b hb i hi c
    have h2 := hv.2 b hb i hi c
    constructor <;> linarith [h1.1, h1.2, h2.1, h2.2]

theorem midpoint_cost {A : Matrix ν ν ℝ} {B : Matrix ν (Fin nu) ℝ} {C : Matrix (Fin nq) ν ℝ} {horizon : Nat} {wr wt : Fin nq → ℝ} {wu : Fin nu → ℝ}
    (hr : ∀ r, 0 ≤ wr r) (ht : ∀ r, 0 ≤ wt r) (z₀ : ν → ℝ) (ref : Nat → Fin nq → ℝ) (u v : Nat → Fin nu → ℝ) :
    trackingCost A B C horizon wr wt wu z₀ ref (fun k c => (u k c + v k c) / 2) + ∑ i ∈ Finset.range horizon, ∑ c, wu c * ((u i c - v i c) / 2) ^ 2 ≤
      (trackingCost A B C horizon wr wt wu z₀ ref u + trackingCost A B C horizon wr wt wu z₀ ref v) / 2 := by
  unfold trackingCost
  rw [← Finset.sum_add_distrib, ← Finset.sum_add_distrib, Finset.sum_div]
  refine Finset.sum_le_sum fun i _ => ?_
  have h1 : ∑ r, (if i + 1 < horizon then wr r else wt r) * ((C *ᵥ trajectory A B z₀ (fun k c => (u k c + v k c) / 2) (i + 1)) r - ref i r) ^ 2 ≤
      (∑ r, (if i + 1 < horizon then wr r else wt r) * ((C *ᵥ trajectory A B z₀ u (i + 1)) r - ref i r) ^ 2 +
        ∑ r, (if i + 1 < horizon then wr r else wt r) * ((C *ᵥ trajectory A B z₀ v (i + 1)) r - ref i r) ^ 2) / 2 := by
    rw [← Finset.sum_add_distrib, Finset.sum_div]
    refine Finset.sum_le_sum fun r _ => ?_
    have hw : 0 ≤ (if i + 1 < horizon then wr r else wt r) := by split; exacts [hr r, ht r]
    rw [midpoint_trajectory, Matrix.mulVec_smul, Matrix.mulVec_add]
    simp only [Pi.smul_apply, Pi.add_apply, smul_eq_mul]
    generalize (if i + 1 < horizon then wr r else wt r) = w at hw
    generalize (C *ᵥ trajectory A B z₀ u (i + 1)) r = a
    generalize (C *ᵥ trajectory A B z₀ v (i + 1)) r = b
    nlinarith [mul_nonneg hw (sq_nonneg (a - b))]
  have h2 : ∑ c, wu c * ((u i c + v i c) / 2) ^ 2 + ∑ c, wu c * ((u i c - v i c) / 2) ^ 2 = (∑ c, wu c * u i c ^ 2 + ∑ c, wu c * v i c ^ 2) / 2 := by
    rw [← Finset.sum_add_distrib, ← Finset.sum_add_distrib, Finset.sum_div]
    exact Finset.sum_congr rfl fun c _ => by ring
  linarith

/-- **C39 (uniqueness).** With positive input weights the control sequence is determined by the state and the reference: no two different sequences can be returned. -/
theorem C39_unique (k : Kmpc ν nq nu) (hh : 2 ≤ k.horizon) (hb : BoundsShape k) {wr wt : Fin nq → ℝ} {wu : Fin nu → ℝ} (hr : CostIs k.running wr)
    (ht : CostIs k.terminal wt) (hu : CostIs k.input wu) (h0 : ∃ r, wt r ≠ 0) (hpos : ∀ c, 0 < wu c) (dt t₀ : Int) (z₀ : ν → ℝ) (ref : List (Int × (Fin nq → ℝ)))
    (out out' : List (Int × (Fin nu → ℝ))) (h : IsControlSequence k dt t₀ z₀ ref (.ok out)) (h' : IsControlSequence k dt t₀ z₀ ref (.ok out')) : out = out' := by
  obtain ⟨-, w1, m1⟩ := C39_optimal_partial k hh hb hr ht hu h0 dt t₀ z₀ ref out h
  obtain ⟨-, w2, m2⟩ := C39_optimal_partial k hh hb hr ht hu h0 dt t₀ z₀ ref out' h'
  have m3 := m1 _ (midpoint_within w1 w2)
  have m4 := m2 _ w1
  have m5 := midpoint_cost (A := k.A) (B := k.B) (C := k.C) (horizon := k.horizon) (wu := wu) hr.1 ht.1 z₀ (fun i => (ref.getD i (0, fun _ => 0)).2) (inputAt out) (inputAt out')
  have m6 := m1 _ w2
  have hz : ∑ i ∈ Finset.range k.horizon, ∑ c, wu c * ((inputAt out i c - inputAt out' i c) / 2) ^ 2 = 0 := by
    refine le_antisymm (by linarith) (Finset.sum_nonneg fun i _ => Finset.sum_nonneg fun c _ => mul_nonneg (hpos c).le (sq_nonneg _))
  have he : ∀ i < k.horizon, ∀ c, inputAt out i c = inputAt out' i c := by
    intro i hi c
    have h1 := (Finset.sum_eq_zero_iff_of_nonneg (fun i _ => Finset.sum_nonneg fun c _ => mul_nonneg (hpos c).le (sq_nonneg _))).1 hz i (Finset.mem_range.2 hi)
    have h2 := (Finset.sum_eq_zero_iff_of_nonneg (fun c _ => mul_nonneg (hpos c).le (sq_nonneg _))).1 h1 c (Finset.mem_univ _)
    rcases mul_eq_zero.1 h2 with h3 | h3
    · exact absurd h3 (hpos c).ne'
    · have := pow_eq_zero_iff (two_ne_zero) |>.1 h3
      linarith
  obtain ⟨s, hs, -⟩ := C39_objective_partial k hh hb hr ht hu h0 z₀ (fun i => (ref.getD i (0, fun _ => 0)).2)
  obtain ⟨-, hl, U, -, rfl⟩ := (isControl_ok hs).1 h
  obtain ⟨-, -, U', -, rfl⟩ := (isControl_ok hs).1 h'
  have e1 := (out_shape (k := k) (t₀ := t₀) (by omega) hl U).2
  have e2 := (out_shape (k := k) (t₀ := t₀) (by omega) hl U').2
  have : U = U' := by
    rw [← e1, ← e2]
    funext p
    exact he p.1 p.1.2 p.2
  rw [this]

/-- **C39 (existence).** With positive input weights a sequence is returned whenever some input sequence satisfies the bounds; the reference has to start one step after the
initial state and to have one row per step. -/
theorem C39_exists (k : Kmpc ν nq nu) (hh : 2 ≤ k.horizon) (hb : BoundsShape k) {wr wt : Fin nq → ℝ} {wu : Fin nu → ℝ} (hr : CostIs k.running wr)
    (ht : CostIs k.terminal wt) (hu : CostIs k.input wu) (h0 : ∃ r, wt r ≠ 0) (hpos : ∀ c, 0 < wu c) (dt t₀ : Int) (z₀ : ν → ℝ) (ref : List (Int × (Fin nq → ℝ)))
    (hhead : (ref.map (·.1)).head? = some (t₀ + dt)) (hl : ref.length = k.horizon)
    (hf : ∃ u, WithinBounds k.A k.B k.C k.horizon k.stateBounds k.inputBounds z₀ u) : ∃ out, IsControlSequence k dt t₀ z₀ ref (.ok out) := by
  obtain ⟨s, hs, c, hc⟩ := C39_objective_partial k hh hb hr ht hu h0 z₀ (fun i => (ref.getD i (0, fun _ => 0)).2)
  obtain ⟨u, hu'⟩ := hf
  set p := s.qp z₀ (fun i => (ref.getD i.1 (0, fun _ => 0)).2 i.2) with hp
  have hcont : Continuous p.objective := by
    unfold Qp.objective
    exact (continuous_const.mul (continuous_id.dotProduct (continuous_const.matrix_mulVec continuous_id))).add (continuous_const.dotProduct continuous_id)
  have hclosed : IsClosed {U | p.Feasible U} := by
    have : {U | p.Feasible U} = (⋂ g ∈ p.G, {U | g.1 *ᵥ U ≤ g.2}) ∩ ⋂ b ∈ p.box, ({U | b.1 ≤ U} ∩ {U | U ≤ b.2}) := by
      ext U; simp [Qp.Feasible]
    rw [this]
    refine IsClosed.inter ?_ ?_
    · exact isClosed_iInter fun g => isClosed_iInter fun _ => isClosed_le (continuous_const.matrix_mulVec continuous_id) continuous_const
    · exact isClosed_iInter fun b => isClosed_iInter fun _ => IsClosed.inter (isClosed_le continuous_const continuous_id) (isClosed_le continuous_id continuous_const)
  -- the objective is bounded below by a positive multiple of each squared component
  have hlow : ∀ U : Fin k.horizon × Fin nu → ℝ, ∀ q, wu q.2 * U q ^ 2 + c ≤ p.objective U := by
    intro U q
    have hU : U = fun p : Fin k.horizon × Fin nu => (fun i c => if h : i < k.horizon then U (⟨i, h⟩, c) else 0 : Nat → Fin nu → ℝ) p.1 p.2 := by
      funext p; simp
    have h1 := hc (fun i c => if h : i < k.horizon then U (⟨i, h⟩, c) else 0)
    rw [← hU] at h1
    rw [hp, h1]
    have h2 := quad_pos k (wu := wu) hr.1 ht.1 z₀ (fun i => (ref.getD i (0, fun _ => 0)).2) (fun i c => if h : i < k.horizon then U (⟨i, h⟩, c) else 0)
    have h3 : wu q.2 * U q ^ 2 ≤ ∑ i ∈ Finset.range k.horizon, ∑ c, wu c * ((if h : i < k.horizon then U (⟨i, h⟩, c) else 0) ^ 2) := by
      refine le_trans ?_ (Finset.single_le_sum (f := fun i => ∑ c, wu c * ((if h : i < k.horizon then U (⟨i, h⟩, c) else 0) ^ 2))
        (fun i _ => Finset.sum_nonneg fun c _ => mul_nonneg (hpos c).le (sq_nonneg _)) (Finset.mem_range.2 q.1.2))
      refine le_trans ?_ (Finset.single_le_sum (f := fun c => wu c * ((if h : (q.1 : Nat) < k.horizon then U (⟨q.1, h⟩, c) else 0) ^ 2))
        (fun c _ => mul_nonneg (hpos c).le (sq_nonneg _)) (Finset.mem_univ q.2))
      simp
    linarith
  set U₀ : Fin k.horizon × Fin nu → ℝ := fun p => u p.1 p.2 with hU₀
  have hfeas : p.Feasible U₀ := (C40_feasible_partial k s hs z₀ _ u).2 hu'
  set S : Set (Fin k.horizon × Fin nu → ℝ) := {U | p.Feasible U} ∩ {U | p.objective U ≤ p.objective U₀} with hS
  have hScl : IsClosed S := hclosed.inter (isClosed_le hcont continuous_const)
  have hsub : S ⊆ Set.Icc (fun q => -((p.objective U₀ - c) / wu q.2 + 1)) (fun q => (p.objective U₀ - c) / wu q.2 + 1) := by
    rintro U ⟨-, hU⟩
    have hU : p.objective U ≤ p.objective U₀ := hU
    have hq : ∀ q, U q ^ 2 ≤ (p.objective U₀ - c) / wu q.2 := by
      intro q
      rw [le_div_iff₀ (hpos q.2)]
      have := hlow U q
      nlinarith
    constructor <;> intro q
    · have := hq q
      simp only
      nlinarith [sq_nonneg (U q + 1)]
    · have := hq q
      simp only
      nlinarith [sq_nonneg (U q - 1)]
  have hcomp : IsCompact S := isCompact_Icc.of_isClosed_subset hScl hsub
  obtain ⟨U, hU, hmin⟩ := hcomp.exists_isMinOn ⟨U₀, hfeas, le_refl (p.objective U₀)⟩ hcont.continuousOn
  refine ⟨_, (isControl_ok hs).2 ⟨hhead, hl, U, ⟨hU.1, fun U' hU' => ?_⟩, rfl⟩⟩
  by_cases h : p.objective U' ≤ p.objective U₀
  · exact hmin ⟨hU', h⟩
  · exact hU.2.trans (not_le.1 h).le

/-- **C39 fails** for a terminal cost of zero: the running weights are used for the last state.  With a horizon of two steps, `z_{i+1} = z_i + u_i` from `z_0 = 0`, reference 0 and 1,
terminal weight 0 and unit weights otherwise, not moving is optimal for the documented cost, but the quadratic program prefers other inputs. -/
theorem C39_violated : ∃ (k : Kmpc (Fin 1) 1 1) (s : Setup (Fin 1) k.horizon 1 1), kmpcSetup k = .ok s ∧ k.horizon = 2 ∧ CostIs k.running (fun _ : Fin 1 => 1) ∧
    CostIs k.terminal (fun _ : Fin 1 => 0) ∧ CostIs k.input (fun _ : Fin 1 => 1) ∧ ∃ (ref : Nat → Fin 1 → ℝ) (u v : Nat → Fin 1 → ℝ),
      trackingCost k.A k.B k.C k.horizon (fun _ => 1) (fun _ => 0) (fun _ => 1) 0 ref u < trackingCost k.A k.B k.C k.horizon (fun _ => 1) (fun _ => 0) (fun _ => 1) 0 ref v ∧
      (s.qp 0 (fun p => ref p.1 p.2)).objective (fun p => v p.1 p.2) < (s.qp 0 (fun p => ref p.1 p.2)).objective (fun p => u p.1 p.2) := by
  set k : Kmpc (Fin 1) 1 1 := ⟨2, 1, 1, 1, none, none, .number 1, .number 0, .number 1⟩ with hk
  have h1 : CostIs k.running (fun _ : Fin 1 => 1) := ⟨fun _ => zero_le_one, Or.inl ⟨1, zero_le_one, rfl, fun _ => rfl⟩⟩
  have h2 : CostIs k.input (fun _ : Fin 1 => 1) := ⟨fun _ => zero_le_one, Or.inl ⟨1, zero_le_one, rfl, fun _ => rfl⟩⟩
  obtain ⟨s, hs, c, hc⟩ := C39_default k le_rfl ⟨by simp [hk], by simp [hk]⟩ h1 (Or.inr rfl) h2 0 (fun i _ => (i : ℝ))
  refine ⟨k, s, hs, rfl, h1, ⟨fun _ => le_rfl, Or.inl ⟨0, le_rfl, rfl, fun _ => rfl⟩⟩, h2, fun i _ => (i : ℝ), fun _ _ => 0, fun i _ => (i : ℝ) / 2, ?_, ?_⟩
  · simp [trackingCost, hk, trajectory, Finset.sum_range_succ]
  · have e1 := hc (fun i _ => (i : ℝ) / 2)
    have e2 := hc (fun _ _ => 0)
    refine lt_of_eq_of_lt e1 (lt_of_lt_of_eq ?_ e2.symm)
    simp [trackingCost, hk, trajectory, Finset.sum_range_succ]
    norm_num

/-- A controller with state and input bounds: two states, one input, horizon 3, first state controlled. -/
noncomputable def exK : Kmpc (Fin 2) 1 1 :=
  ⟨3, !![1, 1; 0, 1], !![0; 1], !![1, 0], some [(-10, 10)], some [(-1, 1)], .number 1, .array [5], .number (1 / 10)⟩

/-- The hypotheses of the theorems above are met: costs, shapes, a feasible input (none at all from rest), hence a result exists. -/
example : ∃ out, IsControlSequence exK 2 0 (fun _ => 0) [(2, fun _ => 1), (4, fun _ => 1), (6, fun _ => 2)] (.ok out) := by
  refine C39_exists exK (by simp [exK]) ⟨by simp [exK], by simp [exK]⟩ (wr := fun _ => 1) (wt := fun _ => 5) (wu := fun _ => 1 / 10) ?_ ?_ ?_ ⟨0, by norm_num⟩
    (fun _ => by norm_num) 2 0 _ _ rfl rfl ⟨fun _ _ => 0, ?_⟩
  · exact ⟨fun _ => zero_le_one, Or.inl ⟨1, zero_le_one, rfl, fun _ => rfl⟩⟩
  · exact ⟨fun _ => by norm_num, Or.inr (by simp [exK])⟩
  · exact ⟨fun _ => by norm_num, Or.inl ⟨1 / 10, by norm_num, rfl, fun _ => rfl⟩⟩
  · have h : ∀ i, trajectory exK.A exK.B (fun _ => 0) (fun _ _ => 0) i = 0 := by
      intro i
      induction i with
      | zero => rfl
      | succ i ih =>
        rw [trajectory, ih, Matrix.mulVec_zero, zero_add]
        exact Matrix.mulVec_zero _
    refine ⟨fun b hb i hi r => ?_, fun b hb i hi c => ?_⟩
    · rw [h, Matrix.mulVec_zero]
      simp only [exK, Option.mem_def, Option.some.injEq] at hb
      subst hb
      fin_cases r
      simp
    · simp only [exK, Option.mem_def, Option.some.injEq] at hb
      subst hb
      fin_cases c
      simp

end Verif.Mpc
