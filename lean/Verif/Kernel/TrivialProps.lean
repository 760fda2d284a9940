import Verif.Kernel.DefiniteProps
/-!
# C221: the trivial coordinate of a diffusion map
-/

namespace Verif.Kernel

open Matrix

variable {m n d : Type} [Fintype m] [Fintype n] [Fintype d]

/-! ## Specification -/

/-- `v` has the same value on both sides of every edge, i.e. of every pair of samples with a positive kernel value. -/
def EdgeConstant (K : Matrix n n ℝ) (v : n → ℝ) : Prop := ∀ i j, 0 < K i j → v i = v j

/-- Any two samples are joined by a path of edges. -/
def PathConnected (K : Matrix n n ℝ) : Prop := ∀ i j, Relation.ReflTransGen (fun a b => 0 < K a b) i j

/-! ## Helper lemmas -/

omit [Fintype n] in
theorem EdgeConstant.path {K : Matrix n n ℝ} {v : n → ℝ} (h : EdgeConstant K v) {i j : n} (hp : Relation.ReflTransGen (fun a b => 0 < K a b) i j) : v i = v j := by
  induction hp with
  | refl => rfl
  | tail _ hbc ih => exact ih.trans (h _ _ hbc)

/-- The functions with eigenvalue one of the stochastic kernel are those that are constant on edges. -/
theorem stochastic_harmonic (k : DmapKernel) (hk : k.Admissible) (hst : k.isStochastic = true) (hc : k.isConjugate = false) (K : Matrix n n ℝ) (hK : Connected K) (hsym : Kᵀ = K)
    (P : Matrix n n ℝ) (f : Fitted n) (h1 : evalPdist k none K = .ok (P, f)) (v : n → ℝ) : P *ᵥ v = v ↔ EdgeConstant K v := by
  have hs := hK.rowSums_pos
  have hsym' : ∀ i j, K i j = K j i := fun i j => by rw [← congrFun (congrFun hsym i) j]; rfl
  have e := evalPdist_stochastic hk hst hc hK.1 hs (fun _ => hsym')
  rw [h1] at e
  obtain ⟨rfl, -⟩ := Prod.mk.inj (Except.ok.inj e)
  set S := densityMatrix k K with hS
  have hp := densityMatrix_rowSums (k := k) hK.1 hs
  have hform : ∀ i j, diffusion k.alpha (rowSums K) K i j = S i j / rowSums S i := by
    intro i j
    rw [densityMatrix_diffusion hk hK.1 hs]
    rfl
  obtain ⟨u, hu0, hu⟩ : ∃ u : n → ℝ, (∀ i, 0 < u i) ∧ ∀ i j, S i j = u i * K i j * u j := by
    rw [hS]
    unfold densityMatrix
    split
    · exact ⟨fun i => (rowSums K i ^ k.alpha)⁻¹, fun i => inv_pos.2 (Real.rpow_pos_of_pos (hs i) _), fun i j => rfl⟩
    · exact ⟨fun _ => 1, fun _ => one_pos, fun i j => by ring⟩
  have hSnn : ∀ i j, 0 ≤ S i j := fun i j => by rw [hu]; exact mul_nonneg (mul_nonneg (hu0 i).le (hK.1 i j)) (hu0 j).le
  have hSs : ∀ i j, S i j = S j i := fun i j => by rw [hu, hu, hsym' i j]; ring
  have hrow : ∀ i, (diffusion k.alpha (rowSums K) K *ᵥ v) i = (∑ j, S i j * v j) / rowSums S i := by
    intro i
    simp only [mulVec, dotProduct, hform]
    rw [Finset.sum_div]
    exact Finset.sum_congr rfl (fun j _ => by ring)
  constructor
  · intro h i j hij
    have hSv : ∀ i, ∑ j, S i j * v j = rowSums S i * v i := by
      intro i
      have := congrFun h i
      rw [hrow, div_eq_iff (hp i).ne'] at this
      rw [this, mul_comm]
    have hsum : ∑ i, ∑ j, S i j * (v i - v j) ^ 2 = 0 := by
      have e1 : ∑ i, ∑ j, S i j * (v i - v j) ^ 2 = (∑ i, v i * (v i * rowSums S i - ∑ j, S i j * v j)) + ∑ j, v j * (v j * ∑ i, S i j - ∑ i, S i j * v i) := by
        have e2 : ∑ j, v j * (v j * ∑ i, S i j - ∑ i, S i j * v i) = ∑ i, ∑ j, (v j * (v j * S i j) - v j * (S i j * v i)) := by
          rw [Finset.sum_comm]
          refine Finset.sum_congr rfl (fun j _ => ?_)
          rw [mul_sub, Finset.mul_sum, Finset.mul_sum, Finset.mul_sum, Finset.sum_sub_distrib]
        rw [e2, ← Finset.sum_add_distrib]
        refine Finset.sum_congr rfl (fun i _ => ?_)
        simp only [rowSums, mul_sub, Finset.mul_sum]
        rw [← Finset.sum_sub_distrib, ← Finset.sum_add_distrib]
        exact Finset.sum_congr rfl (fun j _ => by ring)
      rw [e1]
      have z1 : ∀ i, v i * (v i * rowSums S i - ∑ j, S i j * v j) = 0 := fun i => by rw [hSv]; ring
      have z2 : ∀ j, v j * (v j * ∑ i, S i j - ∑ i, S i j * v i) = 0 := fun j => by
        have a1 : ∑ i, S i j = rowSums S j := Finset.sum_congr rfl (fun i _ => hSs i j)
        have a2 : ∑ i, S i j * v i = ∑ i, S j i * v i := Finset.sum_congr rfl (fun i _ => by rw [hSs i j])
        rw [a1, a2, hSv]
        ring
      simp only [z1, z2, Finset.sum_const_zero, add_zero]
    have h2 := (Finset.sum_eq_zero_iff_of_nonneg (fun i _ => Finset.sum_nonneg (fun j _ => mul_nonneg (hSnn i j) (sq_nonneg _)))).1 hsum i (Finset.mem_univ _)
    have h3 := (Finset.sum_eq_zero_iff_of_nonneg (fun j _ => mul_nonneg (hSnn i j) (sq_nonneg _))).1 h2 j (Finset.mem_univ _)
    have hSp : 0 < S i j := by rw [hu]; exact mul_pos (mul_pos (hu0 i) hij) (hu0 j)
    have := pow_eq_zero_iff (two_ne_zero) |>.1 ((mul_eq_zero.1 h3).resolve_left hSp.ne')
    linarith
  · intro h
    funext i
    rw [hrow, div_eq_iff (hp i).ne', mul_comm]
    simp only [rowSums, Finset.sum_mul]
    refine Finset.sum_congr rfl (fun j _ => ?_)
    by_cases hij : 0 < K i j
    · rw [h i j hij]
    · have : K i j = 0 := le_antisymm (not_lt.1 hij) (hK.1 i j)
      have hz : S i j = 0 := by rw [hu, this]; ring
      change S i j * v j = S i j * v i
      rw [hz]
      ring

theorem normalizeVec_norm {v : n → ℝ} (hv : v ≠ 0) : ∑ i, normalizeVec v i * normalizeVec v i = 1 := by
  have hpos : 0 < ∑ j, v j * v j := by
    obtain ⟨i, hi⟩ : ∃ i, v i ≠ 0 := by
      by_contra h
      push Not at h
      exact hv (funext h)
    exact Finset.sum_pos' (fun j _ => mul_self_nonneg _) ⟨i, Finset.mem_univ _, mul_self_pos.mpr hi⟩
  have h2 : Real.sqrt (∑ j, v j * v j) * Real.sqrt (∑ j, v j * v j) = ∑ j, v j * v j := Real.mul_self_sqrt hpos.le
  simp only [normalizeVec, div_mul_div_comm, h2]
  rw [← Finset.sum_div, div_self hpos.ne']

/-- The computed pairs are normalised eigenpairs of the stochastic kernel without symmetrisation. -/
theorem pairs_stochastic (k : DmapKernel) (hk : k.Admissible) (hst : k.isStochastic = true) (K : Matrix n n ℝ) (hK : Connected K) (hsym : Kᵀ = K) (A : Matrix n n ℝ) (f : Fitted n)
    (h1 : evalPdist k none K = .ok (A, f)) (N : Nat) (pairs : List (Pair n)) (h2 : Solves A f.basisChange N pairs) :
    ∃ k' : DmapKernel, ∃ P g, k'.Admissible ∧ k'.isStochastic = true ∧ k'.isConjugate = false ∧ evalPdist k' none K = .ok (P, g) ∧
      ∀ p ∈ pairs, P *ᵥ p.2 = p.1 • p.2 ∧ ∑ i, p.2 i * p.2 i = 1 := by
  obtain ⟨raw, -, hraw, rfl⟩ := h2
  cases hc : k.isConjugate with
  | false =>
    refine ⟨k, A, f, hk, hst, hc, h1, ?_⟩
    have hb : f.basisChange = none := by
      have e := evalPdist_stochastic hk hst hc hK.1 hK.rowSums_pos (fun _ i j => by rw [← congrFun (congrFun hsym i) j]; rfl)
      rw [h1] at e
      obtain ⟨-, rfl⟩ := Prod.mk.inj (Except.ok.inj e)
      rfl
    intro p hp
    obtain ⟨q, hq, rfl⟩ := List.mem_map.mp hp
    simp only [hb, changeBasis]
    exact ⟨normalizeVec_eig (hraw q hq).2, normalizeVec_norm (hraw q hq).1⟩
  | true =>
    have hc' := hc
    rw [isConjugate_eq] at hc'
    simp only [Bool.and_eq_true] at hc'
    obtain ⟨A', f', b, P, g, e1, e2, e3, -, e5, -, -⟩ := C43_conjugate k hk hst hc'.1.2 hc'.2 K hK hsym
    rw [h1] at e1
    obtain ⟨rfl, rfl⟩ := Prod.mk.inj (Except.ok.inj e1)
    refine ⟨{ k with symmetrize := false }, P, g, hk, hst, by simp [isConjugate_eq], e3, ?_⟩
    intro p hp
    obtain ⟨q, hq, rfl⟩ := List.mem_map.mp hp
    simp only [e2, changeBasis]
    have := (e5 q.1 q.2).1 (hraw q hq)
    exact ⟨normalizeVec_eig this.2, normalizeVec_norm this.1⟩

/-! ## C221 -/

/-- C221: for every symmetric non-negative kernel matrix (with or without cut-off, every density normalisation, symmetrised or not) the computed eigenvalues of the diffusion kernel are at most one in
absolute value, and the coordinates with eigenvalue one are exactly those that are constant on edges. -/
theorem C221_harmonic [Nonempty n] (k : DmapKernel) (hk : k.Admissible) (hst : k.isStochastic = true) (K : Matrix n n ℝ) (hK : Connected K) (hsym : Kᵀ = K) (A : Matrix n n ℝ) (f : Fitted n)
    (h1 : evalPdist k none K = .ok (A, f)) (N : Nat) (pairs : List (Pair n)) (h2 : Solves A f.basisChange N pairs) :
    ∀ p ∈ pairs, |p.1| ≤ 1 ∧ (p.1 = 1 ↔ EdgeConstant K p.2) := by
  obtain ⟨k', P, g, a1, a2, a3, a4, a5⟩ := pairs_stochastic k hk hst K hK hsym A f h1 N pairs h2
  intro p hp
  obtain ⟨b1, b2⟩ := a5 p hp
  have hne : p.2 ≠ 0 := fun h => by rw [h] at b2; simp at b2
  obtain ⟨P', f', e1, e2, -⟩ := C91_spectrum k' a1 a2 a3 K hK (fun _ => hsym)
  rw [a4] at e1
  obtain ⟨rfl, -⟩ := Prod.mk.inj (Except.ok.inj e1)
  refine ⟨e2 p.1 p.2 ⟨hne, b1⟩, ?_⟩
  rw [← stochastic_harmonic k' a1 a2 a3 K hK hsym P g a4, b1]
  constructor
  · intro h
    rw [h, one_smul]
  · intro h
    obtain ⟨i, hi⟩ : ∃ i, p.2 i ≠ 0 := by
      by_contra h
      push Not at h
      exact hne (funext h)
    have := congrFun h i
    simp only [Pi.smul_apply, smul_eq_mul] at this
    exact mul_right_cancel₀ hi (this.trans (one_mul _).symm)

/-- C221: if any two samples are joined by a path then the only coordinate with eigenvalue one is the constant one, `±1/√n`. -/
theorem C221_trivial [Nonempty n] (k : DmapKernel) (hk : k.Admissible) (hst : k.isStochastic = true) (K : Matrix n n ℝ) (hK : Connected K) (hsym : Kᵀ = K) (hpath : PathConnected K)
    (A : Matrix n n ℝ) (f : Fitted n) (h1 : evalPdist k none K = .ok (A, f)) (N : Nat) (pairs : List (Pair n)) (h2 : Solves A f.basisChange N pairs) :
    ∀ p ∈ pairs, p.1 = 1 ↔ ∃ s : ℝ, s ^ 2 * Fintype.card n = 1 ∧ p.2 = fun _ => s := by
  intro p hp
  obtain ⟨-, h⟩ := C221_harmonic k hk hst K hK hsym A f h1 N pairs h2 p hp
  obtain ⟨k', P, g, a1, a2, a3, a4, a5⟩ := pairs_stochastic k hk hst K hK hsym A f h1 N pairs h2
  rw [h]
  constructor
  · intro he
    obtain ⟨i0⟩ := ‹Nonempty n›
    refine ⟨p.2 i0, ?_, funext (fun i => he.path (hpath i i0))⟩
    have h3 := (a5 p hp).2
    rw [Finset.sum_congr rfl (fun i _ => by rw [he.path (hpath i i0)])] at h3
    rw [Finset.sum_const, Finset.card_univ, nsmul_eq_mul] at h3
    rw [← h3]
    ring
  · rintro ⟨s, -, hs⟩ i j -
    rw [hs]

/-- C221: the first computed coordinate is the constant one and all others belong to smaller eigenvalues, if the eigenvalues are sorted (C136), include the eigenvalue one, and the coordinates are
pairwise not proportional. -/
theorem C221_first [Nonempty n] (k : DmapKernel) (hk : k.Admissible) (hst : k.isStochastic = true) (K : Matrix n n ℝ) (hK : Connected K) (hsym : Kᵀ = K) (hpath : PathConnected K)
    (A : Matrix n n ℝ) (f : Fitted n) (h1 : evalPdist k none K = .ok (A, f)) (N : Nat) (p : Pair n) (rest : List (Pair n)) (h2 : Solves A f.basisChange N (p :: rest))
    (hsort : (p :: rest).Pairwise (fun a b => b.1 ≤ a.1)) (hone : ∃ q ∈ p :: rest, q.1 = 1) (hind : (p :: rest).Pairwise (fun a b => ∀ s : ℝ, b.2 ≠ s • a.2)) :
    (p.1 = 1 ∧ ∃ s : ℝ, s ^ 2 * Fintype.card n = 1 ∧ p.2 = fun _ => s) ∧ ∀ q ∈ rest, q.1 < 1 := by
  have hle := C221_harmonic k hk hst K hK hsym A f h1 N _ h2
  have htr := C221_trivial k hk hst K hK hsym hpath A f h1 N _ h2
  rw [List.pairwise_cons] at hsort hind
  have hp1 : p.1 = 1 := by
    obtain ⟨q, hq, hq1⟩ := hone
    rcases List.mem_cons.1 hq with rfl | hq
    · exact hq1
    · exact le_antisymm (abs_le.1 (hle p (by simp)).1).2 (hq1 ▸ hsort.1 q hq)
  obtain ⟨s, hs, hps⟩ := (htr p (by simp)).1 hp1
  refine ⟨⟨hp1, s, hs, hps⟩, fun q hq => lt_of_le_of_ne (abs_le.1 (hle q (by simp [hq])).1).2 (fun h => ?_)⟩
  obtain ⟨s', hs', hqs⟩ := (htr q (by simp [hq])).1 h
  have hs0 : s ≠ 0 := fun h0 => by rw [h0] at hs; simp at hs
  refine hind.1 q hq (s' / s) ?_
  rw [hqs, hps]
  funext i
  simp [hs0]

example : PathConnected exK ∧ (∃ A f, evalPdist exKernel none exK = .ok (A, f) ∧ Solves A f.basisChange 2 exPairs) ∧ exPairs.Pairwise (fun a b => b.1 ≤ a.1) ∧ (∃ q ∈ exPairs, q.1 = 1) ∧
    exPairs.Pairwise (fun a b => ∀ s : ℝ, b.2 ≠ s • a.2) := by
  obtain ⟨A, f, h1, h2, -⟩ := exFit
  refine ⟨fun i j => .single ?_, ⟨A, f, h1, h2⟩, ?_, ⟨_, List.mem_cons_self, rfl⟩, ?_⟩
  · fin_cases i <;> fin_cases j <;> norm_num [exK]
  · simp only [exPairs, List.pairwise_cons, List.mem_singleton, forall_eq, List.not_mem_nil, false_implies, implies_true, List.Pairwise.nil, and_true]
    norm_num
  · simp only [exPairs, List.pairwise_cons, List.mem_singleton, forall_eq, List.not_mem_nil, false_implies, implies_true, List.Pairwise.nil, and_true]
    intro s h
    have a := congrFun h 0
    have b := congrFun h 1
    simp at a b
    have := exS_pos
    nlinarith

/-- C221: with a kernel that falls with the distance and no cut-off, all samples are joined; for distinct samples all further eigenvalues lie strictly between zero and one. -/
theorem C221_falling [Nonempty n] (r : Radial) (hr : Falling r) (X : n → d → ℝ) (hX : Function.Injective X) (k : DmapKernel) (hk : k.Admissible) (hst : k.isStochastic = true) (K : Matrix n n ℝ)
    (hK : r.call X X = .ok K) (A : Matrix n n ℝ) (f : Fitted n) (h1 : evalPdist k none K = .ok (A, f)) (N : Nat) (pairs : List (Pair n)) (h2 : Solves A f.basisChange N pairs) :
    ∀ p ∈ pairs, (p.1 = 1 ∧ ∃ s : ℝ, s ^ 2 * Fintype.card n = 1 ∧ p.2 = fun _ => s) ∨ (0 < p.1 ∧ p.1 < 1 ∧ ∃ i j, p.2 i ≠ p.2 j) := by
  obtain ⟨K', g1, hv, hsym, hcon⟩ := falling_fn hr X
  rw [hK] at g1
  obtain rfl := Except.ok.inj g1
  have hpos : ∀ i j, 0 < K i j := by
    intro i j
    rw [hv]
    have hD := sqDist_nonneg (X i) (X j)
    obtain ⟨eps, he, rfl | rfl | rfl⟩ := hr <;> simp only [Radial.fn] <;> positivity
  have htr := C221_trivial k hk hst K hcon hsym (fun i j => .single (hpos i j)) A f h1 N pairs h2
  have hh := C221_harmonic k hk hst K hcon hsym A f h1 N pairs h2
  have hp := C220_eigenvalues r hr X hX k hk K hK A f h1 N pairs h2
  intro p hpm
  by_cases h : p.1 = 1
  · exact .inl ⟨h, (htr p hpm).1 h⟩
  · refine .inr ⟨(hp p hpm).1, lt_of_le_of_ne ((hp p hpm).2 hst) h, ?_⟩
    by_contra hc
    push Not at hc
    exact h ((hh p hpm).2.2 (fun i j _ => hc i j))

/-- C221 is violated for kernels with a cut-off: as soon as two samples are not joined by a path, a coordinate that is not constant has the eigenvalue one, too, so that the eigenvalue does not tell the trivial coordinate
from the others. -/
theorem C221_disconnected_violated [Nonempty n] (k : DmapKernel) (hk : k.Admissible) (hst : k.isStochastic = true) (K : Matrix n n ℝ) (hK : Connected K) (hsym : Kᵀ = K) (hpath : ¬ PathConnected K) :
    ∃ A f pairs, evalPdist k none K = .ok (A, f) ∧ Solves A f.basisChange 1 pairs ∧ ∀ p ∈ pairs, p.1 = 1 ∧ ∃ i j, p.2 i ≠ p.2 j := by
  classical
  unfold PathConnected at hpath
  push Not at hpath
  obtain ⟨i0, j0, hij⟩ := hpath
  let w : n → ℝ := fun j => if Relation.ReflTransGen (fun a b => 0 < K a b) i0 j then 1 else 0
  have hsym' : ∀ i j, K i j = K j i := fun i j => by rw [← congrFun (congrFun hsym i) j]; rfl
  have hw : EdgeConstant K w := by
    intro i j h
    simp only [w]
    by_cases hi : Relation.ReflTransGen (fun a b => 0 < K a b) i0 i
    · rw [if_pos hi, if_pos (hi.tail h)]
    · rw [if_neg hi, if_neg (fun hj => hi (hj.tail (by rw [hsym']; exact h)))]
  have hwi : w i0 = 1 := if_pos .refl
  have hwj : w j0 = 0 := if_neg hij
  have hw0 : w ≠ 0 := fun h => by rw [h] at hwi; exact zero_ne_one hwi
  have hnz : Real.sqrt (∑ j, w j * w j) ≠ 0 := by
    rw [Real.sqrt_ne_zero']
    exact Finset.sum_pos' (fun j _ => mul_self_nonneg _) ⟨i0, Finset.mem_univ _, by rw [hwi]; norm_num⟩
  have hfin : ∃ i j, normalizeVec w i ≠ normalizeVec w j := by
    refine ⟨i0, j0, ?_⟩
    simp only [normalizeVec, hwi, hwj, zero_div]
    exact div_ne_zero one_ne_zero hnz
  cases hc : k.isConjugate with
  | false =>
    obtain ⟨P, f, e1, -⟩ := C42_pairwise k hk hst hc K hK (fun _ => hsym)
    have hb : f.basisChange = none := by
      have e := evalPdist_stochastic hk hst hc hK.1 hK.rowSums_pos (fun _ => hsym')
      rw [e1] at e
      obtain ⟨-, rfl⟩ := Prod.mk.inj (Except.ok.inj e)
      rfl
    refine ⟨P, f, _, e1, ⟨[(1, w)], rfl, ?_, rfl⟩, ?_⟩
    · intro p hp
      obtain rfl := List.mem_singleton.1 hp
      exact ⟨hw0, by rw [one_smul]; exact (stochastic_harmonic k hk hst hc K hK hsym P f e1 w).2 hw⟩
    · intro p hp
      obtain rfl := List.mem_singleton.1 hp
      refine ⟨rfl, ?_⟩
      rw [hb]
      exact hfin
  | true =>
    have hc' := hc
    rw [isConjugate_eq] at hc'
    simp only [Bool.and_eq_true] at hc'
    obtain ⟨A, f, b, P, g, g1, g2, g3, g4⟩ := C43_onto k hk hst hc'.1.2 hc'.2 K hK hsym
    obtain ⟨v, hv, hvw⟩ := g4 1 w ⟨hw0, by
      rw [one_smul]
      exact (stochastic_harmonic { k with symmetrize := false } hk hst (by simp [isConjugate_eq]) K hK hsym P g g3 w).2 hw⟩
    refine ⟨A, f, _, g1, ⟨[(1, v)], rfl, ?_, rfl⟩, ?_⟩
    · intro p hp
      obtain rfl := List.mem_singleton.1 hp
      exact hv
    · intro p hp
      obtain rfl := List.mem_singleton.1 hp
      refine ⟨rfl, ?_⟩
      simp only [g2, changeBasis]
      rw [← hvw]
      exact hfin

/-- Two samples that are farther apart than the cut-off: they are not joined. -/
theorem C221_cutoff_example : ∃ S : Dist.Stored 2 2, Dist.bruteCall (fun x y : ℝ => (x - y) ^ 2) (some 1) ⟨2, fun i => 3 * (i : ℝ)⟩ none = .ok ⟨2, 2, S⟩ ∧
    ∀ eps : ℝ, 0 < eps → ∃ S', (Radial.gaussian eps).evaluateSparse S = .ok S' ∧ Connected (Matrix.of (fun i j => (S' i j).getD 0)) ∧ ¬ PathConnected (Matrix.of (fun i j => (S' i j).getD 0)) := by
  let C : Dist.Cloud ℝ := ⟨2, fun i => 3 * (i : ℝ)⟩
  let S : Dist.Stored 2 2 := Dist.applyCutOff (some 1) (Dist.pdistMatrix (fun x y : ℝ => (x - y) ^ 2) C)
  have hp : (Dist.pdistMatrix (fun x y : ℝ => (x - y) ^ 2) C : Fin 2 → Fin 2 → ℝ) = ![![0, 9], ![9, 0]] := by
    funext (i : Fin 2) (j : Fin 2)
    change (if i = j then (0 : ℝ) else (3 * ((min i j : Fin 2) : ℕ) - 3 * ((max i j : Fin 2) : ℕ) : ℝ) ^ 2) = _
    fin_cases i <;> fin_cases j <;> simp <;> norm_num
  have hS : S = ![![some 0, none], ![none, some 0]] := by
    have hS' : S = Dist.applyCutOff (some 1) (![![0, 9], ![9, 0]] : Fin 2 → Fin 2 → ℝ) := by rw [← hp]
    rw [hS']
    funext i j
    fin_cases i <;> fin_cases j <;> norm_num [Dist.applyCutOff, Dist.dense2csr, Dist.invalid]
  refine ⟨S, rfl, fun eps he => ⟨![![some 1, none], ![none, some 1]], ?_, ?_, ?_⟩⟩
  · simp only [Radial.evaluateSparse, Radial.check, Radial.epsilon, if_pos he]
    congr 1
    funext i j
    rw [hS]
    fin_cases i <;> fin_cases j <;> simp [Radial.fn]
  · refine ⟨?_, fun i => ⟨i, ?_⟩⟩
    · intro i j
      fin_cases i <;> fin_cases j <;> simp
    · fin_cases i <;> simp
  · intro h
    have hE : EdgeConstant (Matrix.of (fun i j => ((![![some 1, none], ![none, some 1]] : Fin 2 → Fin 2 → Option ℝ) i j).getD 0)) ![0, 1] := by
      intro i j
      fin_cases i <;> fin_cases j <;> simp
    have := hE.path (h 0 1)
    simp at this

end Verif.Kernel
