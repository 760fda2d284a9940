import Verif.Kernel.Variable
import Verif.Kernel.NeighborProps
import Verif.Kernel.NormalizeProps
import Verif.Kernel.CutoffProps
/-!
# C135: the variable bandwidth kernel
-/

namespace Verif.Kernel

open Matrix

/-! ## Specification -/

/-- The estimated density with the ad hoc bandwidth `rho0` (eq. 10 in the reference of kernels.py 2478). -/
noncomputable def vbDensity {n : Nat} (D : Matrix (Fin n) (Fin n) ℝ) (dim : ℝ) (rho0 : Fin n → ℝ) (i : Fin n) : ℝ :=
  (2 * Real.pi * vecMean rho0 ^ 2) ^ (-dim / 2) / (rho0 i ^ dim * n) * ∑ j, Real.exp (-D i j / (2 * rho0 i * rho0 j))

/-- The bandwidth: a power of the density, with mean one. -/
noncomputable def vbBandwidth {n : Nat} (D : Matrix (Fin n) (Fin n) ℝ) (p : VbParam) (i : Fin n) : ℝ := vbRho p.beta (vbDensity D p.dim (vbRho0 D p.k.toNat)) i

/-- The kernel with variable bandwidth. -/
noncomputable def vbKs {n : Nat} (D : Matrix (Fin n) (Fin n) ℝ) (p : VbParam) : Matrix (Fin n) (Fin n) ℝ := fun i j => Real.exp (-D i j / (4 * p.eps * vbBandwidth D p i * vbBandwidth D p j))

/-- The kernel after the normalisation with the power `alpha` of its density. -/
noncomputable def vbKa {n : Nat} (D : Matrix (Fin n) (Fin n) ℝ) (p : VbParam) : Matrix (Fin n) (Fin n) ℝ := fun i j =>
  vbKs D p i j / (vbQs (vbKs D p) (vbBandwidth D p) p.dim i ^ p.alpha * vbQs (vbKs D p) (vbBandwidth D p) p.dim j ^ p.alpha)

/-! ## Helper lemmas -/

theorem divideSquare_entries {n : Nat} (M : Matrix (Fin n) (Fin n) ℝ) (v : Fin n → ℝ) (hv : ∀ i, v i ≠ 0) (hM : ∀ i j, M i j = M j i) :
    divideSquare M v true = .ok (fun i j => (v i)⁻¹ * M i j * (v j)⁻¹) := by
  unfold divideSquare divide
  rw [if_neg (by push Not; exact hv), if_neg (by push Not; exact hv)]
  simp only [if_true]
  congr 1
  funext i j
  simp only [removeNoise, Matrix.of_apply]
  rw [hM j i]; ring

theorem divideScaled_ok {n : Nat} (M : Matrix (Fin n) (Fin n) ℝ) (v : Fin n → ℝ) (s : ℝ) (hv : ∀ i, v i ≠ 0) (hM : ∀ i j, M i j = M j i) :
    divideScaled M v s = .ok (fun i j => (v i)⁻¹ * M i j * (v j)⁻¹ * (1 / s)) := by
  unfold divideScaled
  rw [divideSquare_entries M v hv hM]

theorem vecMean_pos {n : Nat} {v : Fin n → ℝ} (hn : 0 < n) (hv : ∀ i, 0 < v i) : 0 < vecMean v := by
  unfold vecMean
  have : Nonempty (Fin n) := ⟨⟨0, hn⟩⟩
  have : 0 < ∑ i, v i := Finset.sum_pos (fun i _ => hv i) Finset.univ_nonempty
  have : (0 : ℝ) < n := by exact_mod_cast hn
  positivity

theorem vbRho_pos {n : Nat} (hn : 0 < n) (beta : ℝ) {q0 : Fin n → ℝ} (hq : ∀ i, 0 < q0 i) (i : Fin n) : 0 < vbRho beta q0 i :=
  div_pos (Real.rpow_pos_of_pos (hq i) _) (vecMean_pos hn fun j => Real.rpow_pos_of_pos (hq j) _)

/-- The evaluation succeeds if every point has a positive ad hoc bandwidth: the bandwidth and the kernel are the ones of the specification. -/
theorem vbEvaluate_ok {n : Nat} (p : VbParam) (D : Matrix (Fin n) (Fin n) ℝ) (hD : IsDistance D) (hn : 0 < n) (hk : p.k ≤ n) (he : p.eps ≠ 0) (hne : ∀ i, nearestDists D p.k.toNat i ≠ [])
    (hpos : ∀ i, 0 < vbRho0 D p.k.toNat i) :
    vbEvaluate p D = .ok (if p.symmetrize then
        ⟨vbConjugate (vbKa D p) (vbBandwidth D p) (rowSums (vbKa D p)), some (vbSinv (vbBandwidth D p) (rowSums (vbKa D p))), vbBandwidth D p, vbKa D p,
          vbQs (vbKs D p) (vbBandwidth D p) p.dim⟩
      else ⟨vbMatrixL (vbKa D p) (vbBandwidth D p) p.eps, none, vbBandwidth D p, vbKa D p, vbQs (vbKs D p) (vbBandwidth D p) p.dim⟩) ∧
      (∀ i, 0 < vbBandwidth D p i) ∧ (∀ i j, 0 < vbKa D p i j) ∧ ∀ i j, vbKa D p i j = vbKa D p j i := by
  classical
  have : Nonempty (Fin n) := ⟨⟨0, hn⟩⟩
  have hnr : (0 : ℝ) < n := by exact_mod_cast hn
  have hm := vecMean_pos hn hpos
  have hq0 : ∀ i, 0 < vbDensity D p.dim (vbRho0 D p.k.toNat) i := by
    intro i
    refine mul_pos (div_pos (Real.rpow_pos_of_pos ?_ _) (mul_pos (Real.rpow_pos_of_pos (hpos i) _) hnr)) (Finset.sum_pos (fun j _ => Real.exp_pos _) Finset.univ_nonempty)
    have := Real.pi_pos
    positivity
  have hr : ∀ i, 0 < vbBandwidth D p i := fun i => vbRho_pos hn p.beta hq0 i
  have hKsym : ∀ i j, vbKs D p i j = vbKs D p j i := fun i j => by
    unfold vbKs
    rw [hD.2.1 i j]
    congr 2
    ring
  have hqs : ∀ i, 0 < vbQs (vbKs D p) (vbBandwidth D p) p.dim i ^ p.alpha := fun i =>
    Real.rpow_pos_of_pos (Finset.sum_pos (fun j _ => div_pos (Real.exp_pos _) (Real.rpow_pos_of_pos (hr i) _)) Finset.univ_nonempty) _
  refine ⟨?_, hr, ?_, ?_⟩
  · have e1 : vbQ0 D p.dim (vbRho0 D p.k.toNat) = .ok (vbDensity D p.dim (vbRho0 D p.k.toNat)) := by
      unfold vbQ0
      rw [divideScaled_ok _ _ _ (fun i => (div_pos (hpos i) hm).ne') (fun i j => by rw [Matrix.neg_apply, Matrix.neg_apply, hD.2.1])]
      refine congrArg Except.ok (funext fun i => ?_)
      unfold vbDensity
      congr 1
      refine Finset.sum_congr rfl fun j _ => congrArg Real.exp ?_
      have h1 := hpos i
      have h2 := hpos j
      change (vbRho0 D p.k.toNat i / vecMean (vbRho0 D p.k.toNat))⁻¹ * (-D i j) * (vbRho0 D p.k.toNat j / vecMean (vbRho0 D p.k.toNat))⁻¹ * (1 / (2 * vecMean (vbRho0 D p.k.toNat) ^ 2)) = _
      field_simp
    have e2 : vbKernelS D (vbBandwidth D p) p.eps = .ok (vbKs D p) := by
      unfold vbKernelS
      rw [divideScaled_ok _ _ _ (fun i => (hr i).ne') hD.2.1]
      refine congrArg Except.ok (funext fun i => funext fun j => congrArg Real.exp ?_)
      have h1 := (hr i).ne'
      have h2 := (hr j).ne'
      field_simp
    have e3 : divideSquare (vbKs D p) (fun i => vbQs (vbKs D p) (vbBandwidth D p) p.dim i ^ p.alpha) true = .ok (vbKa D p) := by
      rw [divideSquare_entries _ _ (fun i => (hqs i).ne') hKsym]
      refine congrArg Except.ok (funext fun i => funext fun j => ?_)
      unfold vbKa
      have h1 := (hqs i).ne'
      have h2 := (hqs j).ne'
      field_simp
    unfold vbEvaluate
    rw [if_neg (not_lt.mpr hk), if_neg (not_not.mpr ⟨hD.2.1, hD.2.2⟩), if_neg (by push Not; exact hne), if_neg hm.ne', e1, bindOk, if_neg he, show vbRho p.beta (vbDensity D p.dim (vbRho0 D p.k.toNat)) = vbBandwidth D p from rfl, e2, bindOk, e3, bindOk]
  · intro i j
    exact div_pos (Real.exp_pos _) (mul_pos (hqs i) (hqs j))
  · intro i j
    unfold vbKa
    rw [hKsym i j, mul_comm (_ ^ _)]

theorem vbConjugate_apply {n : Nat} (Ka : Matrix (Fin n) (Fin n) ℝ) (rho q : Fin n → ℝ) (hK : ∀ i j, Ka i j = Ka j i) (i j : Fin n) :
    vbConjugate Ka rho q i j = vbSinv rho q i * Ka i j * vbSinv rho q j - if i = j then (rho i ^ 2)⁻¹ - 1 else 0 := by
  unfold vbConjugate removeNoise
  simp only [Matrix.of_apply]
  rw [hK j i]
  by_cases h : i = j
  · subst h; ring
  · rw [if_neg h, if_neg (Ne.symm h)]; ring

/-! ## C135 -/

/-- C135, the true part: with `symmetrize_kernel=True`, for every cloud in which each point has a positive mean distance to its nearest neighbours, the operator matrix is symmetric; none of its eigenvalues is larger than one
(its quadratic form is bounded by the squared norm); the operator after undoing the basis change has row sums one (the constant function is an eigenfunction with eigenvalue one), and equals
`1 + P⁻²(D⁻¹K - 1)` for the positive symmetric kernel `K`, its row sums `D` and the bandwidth `P`. -/
theorem C135_operator_partial {n : Nat} (p : VbParam) (hs : p.symmetrize = true) (D : Matrix (Fin n) (Fin n) ℝ) (hD : IsDistance D) (hn : 0 < n) (hk : p.k ≤ n) (he : p.eps ≠ 0)
    (hne : ∀ i, nearestDists D p.k.toNat i ≠ []) (hpos : ∀ i, 0 < vbRho0 D p.k.toNat i) :
    ∃ r b, vbEvaluate p D = .ok r ∧ r.basis = some b ∧ (∀ i, 0 < b i) ∧ (∀ i j, r.op i j = r.op j i) ∧
      (∀ x : Fin n → ℝ, x ⬝ᵥ r.op *ᵥ x ≤ x ⬝ᵥ x) ∧ (∀ lam v, IsEigenpair r.op lam v → lam ≤ 1) ∧
      (∀ i, ∑ j, unsymmetric r.op b i j = 1) ∧ IsEigenpair r.op 1 (fun i => (b i)⁻¹) ∧
      (∀ i j, unsymmetric r.op b i j = (if i = j then 1 else 0) + (r.rho i ^ 2)⁻¹ * (r.ka i j / rowSums r.ka i - if i = j then 1 else 0)) := by
  obtain ⟨hev, hr, hKp, hKs⟩ := vbEvaluate_ok p D hD hn hk he hne hpos
  rw [hs] at hev
  simp only [if_true] at hev
  generalize hKaDef : vbKa D p = Ka at *
  generalize hrhoDef : vbBandwidth D p = rho at *
  have : Nonempty (Fin n) := ⟨⟨0, hn⟩⟩
  have hq : ∀ i, 0 < rowSums Ka i := fun i => Finset.sum_pos (fun j _ => hKp i j) Finset.univ_nonempty
  have hb : ∀ i, 0 < vbSinv rho (rowSums Ka) i := fun i => inv_pos.mpr (mul_pos (hr i) (Real.sqrt_pos.mpr (hq i)))
  have hbsq : ∀ i, vbSinv rho (rowSums Ka) i * vbSinv rho (rowSums Ka) i * rowSums Ka i = (rho i ^ 2)⁻¹ := by
    intro i
    unfold vbSinv
    have h1 := Real.mul_self_sqrt (hq i).le
    have h2 := Real.sqrt_pos.mpr (hq i)
    have h3 := hr i
    field_simp
    nlinarith
  refine ⟨_, _, hev, rfl, hb, ?_⟩
  simp only
  generalize hb' : vbSinv rho (rowSums Ka) = b at *
  have happ : ∀ i j, vbConjugate Ka rho (rowSums Ka) i j = b i * Ka i j * b j - if i = j then (rho i ^ 2)⁻¹ - 1 else 0 := fun i j => by rw [vbConjugate_apply _ _ _ hKs, hb']
  have hsym : ∀ i j, vbConjugate Ka rho (rowSums Ka) i j = vbConjugate Ka rho (rowSums Ka) j i := by
    intro i j
    rw [happ, happ, hKs j i]
    by_cases h : i = j
    · subst h; ring
    · rw [if_neg h, if_neg (Ne.symm h)]; ring
  generalize vbConjugate Ka rho (rowSums Ka) = A at *
  have hrows : ∀ i j, unsymmetric A b i j = (if i = j then 1 else 0) + (rho i ^ 2)⁻¹ * (Ka i j / rowSums Ka i - if i = j then 1 else 0) := by
    intro i j
    simp only [unsymmetric, Matrix.of_apply]
    rw [happ]
    have h1 := (hb i).ne'
    have h2 := (hb j).ne'
    have h3 := (hq i).ne'
    have h4 := hbsq i
    by_cases h : i = j
    · subst h
      simp only [if_true]
      rw [← h4]
      field_simp
      ring
    · simp only [if_neg h]
      rw [← h4]
      field_simp
      ring
  have hsum : ∀ i, ∑ j, unsymmetric A b i j = 1 := by
    intro i
    have h3 := (hq i).ne'
    simp only [hrows]
    rw [Finset.sum_add_distrib, ← Finset.mul_sum, Finset.sum_sub_distrib, ← Finset.sum_div]
    simp only [Finset.sum_ite_eq, Finset.mem_univ, if_true]
    rw [show ∑ j, Ka i j = rowSums Ka i from rfl, div_self h3]
    ring
  have hquad : ∀ x : Fin n → ℝ, x ⬝ᵥ A *ᵥ x ≤ x ⬝ᵥ x := by
    intro x
    -- with `y i = b i * x i` the difference is the Dirichlet form of `Ka`
    have key : x ⬝ᵥ x - x ⬝ᵥ A *ᵥ x = (1 / 2) * ∑ i, ∑ j, Ka i j * (b i * x i - b j * x j) ^ 2 := by
      have e1 : x ⬝ᵥ A *ᵥ x = (∑ i, ∑ j, Ka i j * (b i * x i) * (b j * x j)) - ∑ i, ((rho i ^ 2)⁻¹ - 1) * x i ^ 2 := by
        simp only [dotProduct, mulVec, happ, Finset.mul_sum]
        rw [← Finset.sum_sub_distrib]
        refine Finset.sum_congr rfl fun i _ => ?_
        have : ∀ j, x i * ((b i * Ka i j * b j - if i = j then (rho i ^ 2)⁻¹ - 1 else 0) * x j) =
            Ka i j * (b i * x i) * (b j * x j) - (if i = j then ((rho i ^ 2)⁻¹ - 1) * x i ^ 2 else 0) := by
          intro j
          by_cases h : i = j
          · subst h; simp only [if_true]; ring
          · simp only [if_neg h]; ring
        rw [Finset.sum_congr rfl fun j _ => this j, Finset.sum_sub_distrib]
        simp
      have e2 : ∑ i, ∑ j, Ka i j * (b i * x i - b j * x j) ^ 2 = 2 * (∑ i, (rho i ^ 2)⁻¹ * x i ^ 2) - 2 * ∑ i, ∑ j, Ka i j * (b i * x i) * (b j * x j) := by
        have hd : ∀ i, ∑ j, Ka i j * (b i * x i) ^ 2 = (rho i ^ 2)⁻¹ * x i ^ 2 := by
          intro i
          rw [← Finset.sum_mul, show ∑ j, Ka i j = rowSums Ka i from rfl, ← hbsq i]; ring
        have hd' : ∑ i, ∑ j, Ka i j * (b j * x j) ^ 2 = ∑ i, (rho i ^ 2)⁻¹ * x i ^ 2 := by
          rw [Finset.sum_comm]
          refine Finset.sum_congr rfl fun j _ => ?_
          rw [← hd j]
          exact Finset.sum_congr rfl fun i _ => by rw [hKs]
        have : ∀ i j, Ka i j * (b i * x i - b j * x j) ^ 2 = Ka i j * (b i * x i) ^ 2 + Ka i j * (b j * x j) ^ 2 - 2 * (Ka i j * (b i * x i) * (b j * x j)) := fun i j => by ring
        simp only [this, Finset.sum_sub_distrib, Finset.sum_add_distrib, ← Finset.mul_sum]
        rw [hd', Finset.sum_congr rfl fun i _ => hd i]; ring
      rw [e1, e2]
      have e3 : ∑ i, ((rho i ^ 2)⁻¹ - 1) * x i ^ 2 = (∑ i, (rho i ^ 2)⁻¹ * x i ^ 2) - x ⬝ᵥ x := by
        simp only [dotProduct]
        rw [← Finset.sum_sub_distrib]
        exact Finset.sum_congr rfl fun i _ => by ring
      rw [e3]; ring
    have hnn : 0 ≤ ∑ i, ∑ j, Ka i j * (b i * x i - b j * x j) ^ 2 := Finset.sum_nonneg fun i _ => Finset.sum_nonneg fun j _ => mul_nonneg (hKp i j).le (sq_nonneg _)
    linarith
  refine ⟨hsym, hquad, ?_, hsum, ?_, hrows⟩
  · intro lam v hv
    obtain ⟨hv0, hv1⟩ := hv
    have h := hquad v
    rw [hv1, dotProduct_smul, smul_eq_mul] at h
    have hvv : 0 < v ⬝ᵥ v := by
      obtain ⟨i, hi⟩ := Function.ne_iff.mp hv0
      exact Finset.sum_pos' (fun j _ => mul_self_nonneg _) ⟨i, Finset.mem_univ _, mul_self_pos.mpr hi⟩
    by_contra hlam
    nlinarith [mul_pos hvv (sub_pos.mpr (not_le.mp hlam))]
  · refine ⟨fun h => ?_, ?_⟩
    · have := congrFun h ⟨0, hn⟩
      exact (inv_pos.mpr (hb ⟨0, hn⟩)).ne' this
    · funext i
      have h := hsum i
      simp only [unsymmetric, Matrix.of_apply, mul_assoc] at h
      rw [← Finset.mul_sum] at h
      simp only [mulVec, dotProduct, one_smul]
      exact eq_inv_of_mul_eq_one_right h

/-- C135: the bandwidth and the normalised kernel are the documented expressions of the squared distances; the mean bandwidth is one. -/
theorem C135_formula {n : Nat} (p : VbParam) (D : Matrix (Fin n) (Fin n) ℝ) (hD : IsDistance D) (hn : 0 < n) (hk : p.k ≤ n) (he : p.eps ≠ 0) (hne : ∀ i, nearestDists D p.k.toNat i ≠ []) (hpos : ∀ i, 0 < vbRho0 D p.k.toNat i) :
    ∃ r, vbEvaluate p D = .ok r ∧ r.rho = vbBandwidth D p ∧ r.ka = vbKa D p ∧ (∀ i, r.qs i = (∑ j, vbKs D p i j) / r.rho i ^ p.dim) ∧ vecMean r.rho = 1 ∧ ∀ i j, 0 < r.ka i j ∧ r.ka i j = r.ka j i := by
  obtain ⟨hev, hr, hKp, hKs⟩ := vbEvaluate_ok p D hD hn hk he hne hpos
  have hmean : vecMean (vbBandwidth D p) = 1 := by
    have h1 := vecMean_pos hn hr
    unfold vbBandwidth at h1 ⊢
    generalize vbDensity D p.dim (vbRho0 D p.k.toNat) = q at *
    have e : vecMean (vbRho p.beta q) = vecMean (fun j => q j ^ p.beta) / vecMean (fun j => q j ^ p.beta) := by
      unfold vecMean vbRho
      rw [← Finset.sum_div, div_right_comm]
      rfl
    have : vecMean (vbRho p.beta q) = vecMean (fun i => vbRho p.beta q i) := rfl
    rw [← this, e] at h1 ⊢
    exact div_self fun h => by rw [h, div_zero] at h1; exact lt_irrefl _ h1
  rw [hev]
  cases p.symmetrize
  · exact ⟨_, rfl, rfl, rfl, fun i => (Finset.sum_div Finset.univ (vbKs D p i) (vbBandwidth D p i ^ p.dim)).symm, hmean, fun i j => ⟨hKp i j, hKs i j⟩⟩
  · exact ⟨_, rfl, rfl, rfl, fun i => (Finset.sum_div Finset.univ (vbKs D p i) (vbBandwidth D p i ^ p.dim)).symm, hmean, fun i j => ⟨hKp i j, hKs i j⟩⟩

/-- The row sums of the operator matrix without symmetrisation: they vanish only where the normalised kernel is stochastic by chance, because the kernel is not divided by its row sums. -/
theorem C135_unsymmetrised {n : Nat} (p : VbParam) (hs : p.symmetrize = false) (D : Matrix (Fin n) (Fin n) ℝ) (hD : IsDistance D) (hn : 0 < n) (hk : p.k ≤ n) (he : p.eps ≠ 0)
    (hne : ∀ i, nearestDists D p.k.toNat i ≠ []) (hpos : ∀ i, 0 < vbRho0 D p.k.toNat i) :
    ∃ r, vbEvaluate p D = .ok r ∧ r.basis = none ∧ ∀ i, ∑ j, r.op i j = (rowSums r.ka i - 1) / (p.eps * r.rho i ^ 2) := by
  obtain ⟨hev, hr, hKp, hKs⟩ := vbEvaluate_ok p D hD hn hk he hne hpos
  rw [hs] at hev
  simp only [Bool.false_eq_true, if_false] at hev
  refine ⟨_, hev, rfl, fun i => ?_⟩
  simp only [vbMatrixL]
  rw [← Finset.sum_div, Finset.sum_sub_distrib]
  simp [rowSums]

/-- The squared distances of two points. -/
def twoPoints (a : ℝ) : Matrix (Fin 2) (Fin 2) ℝ := fun i j => if i = j then 0 else a

theorem twoPoints_distance {a : ℝ} (ha : 0 ≤ a) : IsDistance (twoPoints a) := by
  refine ⟨fun i j => ?_, fun i j => ?_, fun i => if_pos rfl⟩
  · unfold twoPoints; split <;> linarith
  · unfold twoPoints; simp only [eq_comm]

theorem twoPoints_nearest {a : ℝ} (ha : 0 ≤ a) (i : Fin 2) : nearestDists (twoPoints a) 1 i = [Real.sqrt a] := by
  classical
  unfold nearestDists
  have hs : (List.ofFn fun j => Real.sqrt (twoPoints a i j)).mergeSort (fun a b => decide (a ≤ b)) = [0, Real.sqrt a] := by
    have hsorted : ([0, Real.sqrt a] : List ℝ).Pairwise (fun a b => decide (a ≤ b) = true) := by
      simp [Real.sqrt_nonneg]
    have hp : (List.ofFn fun j => Real.sqrt (twoPoints a i j)).Perm [0, Real.sqrt a] := by
      fin_cases i
      · simp [twoPoints, List.ofFn_succ]
      · simp only [List.ofFn_succ, List.ofFn_zero]
        simpa [twoPoints] using List.Perm.swap 0 (Real.sqrt a) []
    have h1 : ((List.ofFn fun j => Real.sqrt (twoPoints a i j)).mergeSort (fun a b => decide (a ≤ b))).Pairwise (fun a b => a ≤ b) :=
      (List.pairwise_mergeSort (le := fun a b : ℝ => decide (a ≤ b)) (fun a b c h1 h2 => by simp only [decide_eq_true_eq] at *; exact h1.trans h2)
        (fun a b => by simp only [Bool.or_eq_true, decide_eq_true_eq]; exact le_total a b) _).imp (fun h => by simpa using h)
    have h2 : ([0, Real.sqrt a] : List ℝ).Pairwise (fun a b => a ≤ b) := hsorted.imp (fun h => by simpa using h)
    exact ((List.mergeSort_perm _ _).trans hp).eq_of_pairwise (fun a b _ _ h h' => le_antisymm h h') h1 h2
  rw [hs]
  rfl

theorem twoPoints_rho0 {a : ℝ} (ha : 0 ≤ a) (i : Fin 2) : vbRho0 (twoPoints a) 1 i = Real.sqrt a := by
  unfold vbRho0
  rw [twoPoints_nearest ha]
  simp [Real.sq_sqrt ha]

theorem vecMean_const {n : Nat} (hn : 0 < n) (c : ℝ) : vecMean (fun _ : Fin n => c) = c := by
  unfold vecMean
  have : (n : ℝ) ≠ 0 := by positivity
  simp [this]

theorem twoPoints_row {a : ℝ} (f : ℝ → ℝ) (i : Fin 2) : ∑ j, f (twoPoints a i j) = f 0 + f a := by
  fin_cases i <;> simp [twoPoints, add_comm]

/-- Two points have the bandwidth one. -/
theorem twoPoints_bandwidth (p : VbParam) (hk : p.k = 1) {a : ℝ} (ha : 0 < a) (i : Fin 2) : vbBandwidth (twoPoints a) p i = 1 := by
  have hsa := Real.sqrt_pos.mpr ha
  have hr0 : vbRho0 (twoPoints a) p.k.toNat = fun _ => Real.sqrt a := by rw [hk]; exact funext fun i => twoPoints_rho0 ha.le i
  have hd : ∃ c, 0 < c ∧ vbDensity (twoPoints a) p.dim (vbRho0 (twoPoints a) p.k.toNat) = fun _ => c := by
    rw [hr0]
    refine ⟨(2 * Real.pi * vecMean (fun _ : Fin 2 => Real.sqrt a) ^ 2) ^ (-p.dim / 2) / (Real.sqrt a ^ p.dim * (2 : Nat)) * (Real.exp (-0 / (2 * Real.sqrt a * Real.sqrt a)) + Real.exp (-a / (2 * Real.sqrt a * Real.sqrt a))), ?_, ?_⟩
    · rw [vecMean_const (by omega)]
      have := Real.pi_pos
      have h1 : 0 < 2 * Real.pi * Real.sqrt a ^ 2 := by positivity
      have h2 := Real.rpow_pos_of_pos h1 (-p.dim / 2)
      have h3 := Real.rpow_pos_of_pos hsa p.dim
      positivity
    · funext i
      unfold vbDensity
      rw [← twoPoints_row (fun x => Real.exp (-x / (2 * Real.sqrt a * Real.sqrt a))) i]
  obtain ⟨c, hc, hd⟩ := hd
  unfold vbBandwidth vbRho
  rw [hd]
  simp only
  rw [vecMean_const (by omega), div_self (Real.rpow_pos_of_pos hc _).ne']

/-- C135 is violated for `symmetrize_kernel=False`: for every cloud of two different points and all positive `epsilon` and dimensions the constant function is not in the kernel of the returned operator; its image is strictly positive. -/
theorem C135_generator_violated (p : VbParam) (hs : p.symmetrize = false) (hk : p.k = 1) (he : 0 < p.eps) (hd : 0 < p.dim) (a : ℝ) (ha : 0 < a) :
    ∃ r, vbEvaluate p (twoPoints a) = .ok r ∧ ∀ i, 0 < ∑ j, r.op i j := by
  have hne : ∀ i, nearestDists (twoPoints a) p.k.toNat i ≠ [] := fun i => by rw [hk]; exact (twoPoints_nearest ha.le i) ▸ by simp
  have hpos : ∀ i, 0 < vbRho0 (twoPoints a) p.k.toNat i := fun i => by rw [hk]; exact (twoPoints_rho0 ha.le i).symm ▸ Real.sqrt_pos.mpr ha
  have hD := twoPoints_distance ha.le
  obtain ⟨hev, hr, hKp, hKs⟩ := vbEvaluate_ok p (twoPoints a) hD (by omega) (by rw [hk]; norm_num) he.ne' hne hpos
  rw [hs] at hev
  simp only [Bool.false_eq_true, if_false] at hev
  refine ⟨_, hev, fun i => ?_⟩
  simp only [vbMatrixL]
  rw [← Finset.sum_div, Finset.sum_sub_distrib]
  have hb := twoPoints_bandwidth p hk ha
  have e := Real.exp_pos (-a / (4 * p.eps * 1 * 1))
  have hq : ∀ i, vbQs (vbKs (twoPoints a) p) (vbBandwidth (twoPoints a) p) p.dim i = 1 + Real.exp (-a / (4 * p.eps * 1 * 1)) := by
    intro i
    unfold vbQs vbKs
    simp only [hb, Real.one_rpow, div_one]
    rw [twoPoints_row (fun x => Real.exp (-x / (4 * p.eps * 1 * 1)))]
    simp
  have hsum : ∑ j, vbKa (twoPoints a) p i j = (1 + Real.exp (-a / (4 * p.eps * 1 * 1))) * ((1 + Real.exp (-a / (4 * p.eps * 1 * 1))) ^ p.alpha * (1 + Real.exp (-a / (4 * p.eps * 1 * 1))) ^ p.alpha)⁻¹ := by
    unfold vbKa
    simp only [hq]
    rw [← Finset.sum_div, div_eq_mul_inv]
    congr 1
    have := hq i
    unfold vbQs at this
    simpa only [hb, Real.one_rpow, div_one] using this
  rw [hsum]
  have hx : 1 < 1 + Real.exp (-a / (4 * p.eps * 1 * 1)) := by linarith
  generalize 1 + Real.exp (-a / (4 * p.eps * 1 * 1)) = x at hx
  have hx0 : 0 < x := by linarith
  have hα : p.alpha < 0 := by unfold VbParam.alpha; linarith
  have h1 : x ^ p.alpha < 1 := Real.rpow_lt_one_of_one_lt_of_neg hx hα
  have h0 : 0 < x ^ p.alpha := Real.rpow_pos_of_pos hx0 _
  have h2 : x ^ p.alpha * x ^ p.alpha < 1 := by nlinarith
  have h3 : 1 < (x ^ p.alpha * x ^ p.alpha)⁻¹ := (one_lt_inv₀ (mul_pos h0 h0)).mpr h2
  simp only [Finset.sum_ite_eq, Finset.mem_univ, if_true]
  rw [hb]
  refine div_pos ?_ (by positivity)
  nlinarith

/-- C135, parameters: an integer dimension `d` is accepted exactly if `(1 + d - d² + d β) / 2 + β < 0` (whatever `epsilon` and the number of neighbours); any other dimension must in addition be positive with
a positive number of neighbours and, if it is a float, come with an `epsilon` that is not negative. -/
theorem C135_parameters (p : VbParam) : p.check = .ok () ↔ (1 + p.dim - p.dim ^ 2 + p.dim * p.beta) / 2 + p.beta < 0 ∧ (p.dimIsInteger = false → 0 < p.dim ∧ 0 < p.k) ∧
    (p.dimIsFloat = true → 0 ≤ p.eps) := by
  have hc : p.c2 = (1 + p.dim - p.dim ^ 2 + p.dim * p.beta) / 2 + p.beta := by unfold VbParam.c2 VbParam.alpha; ring
  unfold VbParam.check
  rw [hc]
  by_cases h1 : p.dim ≤ 0 ∧ p.dimIsInteger = false
  · rw [if_pos h1]
    refine iff_of_false (fun h => nomatch h) (fun h => ?_)
    exact absurd h1.1 (not_le.2 (h.2.1 h1.2).1)
  rw [if_neg h1]
  by_cases h2 : p.eps < 0 ∧ p.dimIsFloat = true
  · rw [if_pos h2]
    refine iff_of_false (fun h => nomatch h) (fun h => ?_)
    exact absurd h2.1 (not_lt.2 (h.2.2 h2.2))
  rw [if_neg h2]
  by_cases h3 : p.k ≤ 0 ∧ p.dimIsInteger = false
  · rw [if_pos h3]
    refine iff_of_false (fun h => nomatch h) (fun h => ?_)
    exact absurd h3.1 (not_le.2 (h.2.1 h3.2).2)
  rw [if_neg h3]
  by_cases h4 : 0 ≤ (1 + p.dim - p.dim ^ 2 + p.dim * p.beta) / 2 + p.beta
  · rw [if_pos h4]
    exact iff_of_false (fun h => nomatch h) (fun h => absurd h4 (not_le.2 h.1))
  rw [if_neg h4]
  refine iff_of_true rfl ⟨not_le.1 h4, fun h => ⟨?_, ?_⟩, fun h => ?_⟩
  · by_contra hd; exact h1 ⟨not_lt.1 hd, h⟩
  · by_contra hd; exact h3 ⟨not_lt.1 hd, h⟩
  · by_contra hd; exact h2 ⟨not_le.1 hd, h⟩

/-- C135 is violated by the checks of the constructor: with an integer dimension every `epsilon` and every number of neighbours is accepted, negative ones included; and with the usual choice `beta = -1/2` also every negative dimension below `-2`
(all checks but the last look at the type of `expected_dim` only). -/
theorem C135_parameters_violated (eps : ℝ) (k : Int) (s : Bool) : (VbParam.mk eps k 2 true false (-1 / 2) s).check = .ok () ∧ ∀ d : Int, d < -2 → (VbParam.mk eps k d true false (-1 / 2) s).check = .ok () := by
  constructor
  · unfold VbParam.check VbParam.c2 VbParam.alpha
    simp
    norm_num
  · intro d hd
    have : (d : ℝ) < -2 := by exact_mod_cast hd
    unfold VbParam.check VbParam.c2 VbParam.alpha
    simp
    nlinarith

/-- Non-vacuity: two points at distance two, one neighbour, both modes. -/
example : ∃ r, vbEvaluate ⟨1, 1, 2, true, false, -1 / 2, false⟩ (twoPoints 4) = .ok r ∧ ∀ i, 0 < ∑ j, r.op i j :=
  C135_generator_violated _ rfl rfl (by norm_num) (by norm_num) 4 (by norm_num)

example (i : Fin 2) : 0 < vbRho0 (twoPoints 4) 1 i ∧ nearestDists (twoPoints 4) 1 i ≠ [] := by
  rw [twoPoints_rho0 (by norm_num), twoPoints_nearest (by norm_num)]
  exact ⟨by positivity, by simp⟩

end Verif.Kernel
