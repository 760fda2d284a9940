import Verif.Kernel.VariableFit
import Verif.Kernel.VariableProps
import Verif.Kernel.TrivialProps
import Mathlib.Analysis.SpecialFunctions.Gaussian.FourierTransform
/-!
# C223: diffusion maps with variable bandwidth
-/

namespace Verif.Kernel

open Matrix

variable {n : Nat}

/-! ## Helper lemmas -/

theorem nearestDists_scale (D : Matrix (Fin n) (Fin n) ℝ) {s : ℝ} (hs : 0 < s) (k : Nat) (i : Fin n) : nearestDists (fun i j => s ^ 2 * D i j) k i = (nearestDists D k i).map (s * ·) := by
  classical
  unfold nearestDists
  rw [List.map_take, List.map_drop, List.map_mergeSort (s := fun a b : ℝ => decide (a ≤ b)) (fun a _ b _ => by simp only [decide_eq_decide]; exact (mul_le_mul_iff_right₀ hs).symm)]
  congr 3
  rw [List.map_ofFn]
  congr 1
  funext j
  simp only [Function.comp]
  rw [Real.sqrt_mul (sq_nonneg s), Real.sqrt_sq hs.le]

theorem vbRho0_scale (D : Matrix (Fin n) (Fin n) ℝ) {s : ℝ} (hs : 0 < s) (k : Nat) (i : Fin n) : vbRho0 (fun i j => s ^ 2 * D i j) k i = s * vbRho0 D k i := by
  unfold vbRho0
  rw [nearestDists_scale D hs, List.length_map, List.map_map]
  have : ((fun x : ℝ => x ^ 2) ∘ fun x => s * x) = fun x => s ^ 2 * x ^ 2 := by funext x; simp only [Function.comp]; ring
  rw [this, List.sum_map_mul_left, mul_div_assoc, Real.sqrt_mul (sq_nonneg s), Real.sqrt_sq hs.le]

theorem vecMean_scale (v : Fin n → ℝ) (s : ℝ) : vecMean (fun i => s * v i) = s * vecMean v := by
  unfold vecMean
  rw [← Finset.mul_sum, mul_div_assoc]

theorem vbRho_scale (beta : ℝ) {q : Fin n → ℝ} (hq : ∀ i, 0 < q i) {c : ℝ} (hc : 0 < c) (i : Fin n) : vbRho beta (fun i => c * q i) i = vbRho beta q i := by
  unfold vbRho
  have e : (fun j => (c * q j) ^ beta) = fun j => c ^ beta * q j ^ beta := funext (fun j => Real.mul_rpow hc.le (hq j).le)
  rw [e, vecMean_scale, Real.mul_rpow hc.le (hq i).le, mul_div_mul_left _ _ (Real.rpow_pos_of_pos hc _).ne']

theorem vbDensity_pos {D : Matrix (Fin n) (Fin n) ℝ} {dim : ℝ} {rho0 : Fin n → ℝ} (hn : 0 < n) (hpos : ∀ i, 0 < rho0 i) (i : Fin n) : 0 < vbDensity D dim rho0 i := by
  have : Nonempty (Fin n) := ⟨⟨0, hn⟩⟩
  have hnr : (0 : ℝ) < n := by exact_mod_cast hn
  have hm := vecMean_pos hn hpos
  refine mul_pos (div_pos (Real.rpow_pos_of_pos ?_ _) (mul_pos (Real.rpow_pos_of_pos (hpos i) _) hnr)) (Finset.sum_pos (fun j _ => Real.exp_pos _) Finset.univ_nonempty)
  have := Real.pi_pos
  positivity

theorem vbBandwidth_scale (D : Matrix (Fin n) (Fin n) ℝ) (p : VbParam) (hn : 0 < n) (hpos : ∀ i, 0 < vbRho0 D p.k.toNat i) {s : ℝ} (hs : 0 < s) (i : Fin n) :
    vbBandwidth (fun i j => s ^ 2 * D i j) { p with eps := s ^ 2 * p.eps } i = vbBandwidth D p i := by
  unfold vbBandwidth
  simp only
  have hm := vecMean_pos hn hpos
  have hr : vbRho0 (fun i j => s ^ 2 * D i j) p.k.toNat = fun i => s * vbRho0 D p.k.toNat i := funext (vbRho0_scale D hs _)
  have e : vbDensity (fun i j => s ^ 2 * D i j) p.dim (vbRho0 (fun i j => s ^ 2 * D i j) p.k.toNat) = fun i => ((s ^ 2) ^ (-p.dim / 2) / s ^ p.dim) * vbDensity D p.dim (vbRho0 D p.k.toNat) i := by
    funext i
    rw [hr]
    unfold vbDensity
    rw [vecMean_scale]
    have e1 : 2 * Real.pi * (s * vecMean (vbRho0 D p.k.toNat)) ^ 2 = s ^ 2 * (2 * Real.pi * vecMean (vbRho0 D p.k.toNat) ^ 2) := by ring
    rw [e1, Real.mul_rpow (sq_nonneg s) (by have := Real.pi_pos; positivity), Real.mul_rpow hs.le (hpos i).le]
    have e2 : ∀ j, -(s ^ 2 * D i j) / (2 * (s * vbRho0 D p.k.toNat i) * (s * vbRho0 D p.k.toNat j)) = -D i j / (2 * vbRho0 D p.k.toNat i * vbRho0 D p.k.toNat j) := by
      intro j
      have h1 := (hpos i).ne'
      have h2 := (hpos j).ne'
      have h3 := hs.ne'
      field_simp
    simp only [e2]
    have h1 := (Real.rpow_pos_of_pos hs p.dim).ne'
    have h2 := (Real.rpow_pos_of_pos (hpos i) p.dim).ne'
    field_simp
  rw [e]
  exact vbRho_scale _ (vbDensity_pos hn hpos) (div_pos (Real.rpow_pos_of_pos (pow_pos hs 2) _) (Real.rpow_pos_of_pos hs _)) i

theorem vbKs_scale (D : Matrix (Fin n) (Fin n) ℝ) (p : VbParam) (hn : 0 < n) (hpos : ∀ i, 0 < vbRho0 D p.k.toNat i) {s : ℝ} (hs : 0 < s) :
    vbKs (fun i j => s ^ 2 * D i j) { p with eps := s ^ 2 * p.eps } = vbKs D p := by
  funext i j
  unfold vbKs
  rw [vbBandwidth_scale D p hn hpos hs, vbBandwidth_scale D p hn hpos hs]
  congr 1
  have h3 := (pow_pos hs 2).ne'
  rw [show -(s ^ 2 * D i j) = s ^ 2 * -D i j by ring, show 4 * (s ^ 2 * p.eps) * vbBandwidth D p i * vbBandwidth D p j = s ^ 2 * (4 * p.eps * vbBandwidth D p i * vbBandwidth D p j) by ring,
    mul_div_mul_left _ _ h3]

theorem vbScale_pos {eps : ℝ} {pairs : List (Pair (Fin n))} (h : ∀ q ∈ pairs, 0 < q.1) :
    pairs.mapM (vbScale eps) = .ok (pairs.map (fun q => (q.1 ^ (1 / eps), fun i => q.2 i * Real.sqrt n))) := by
  induction pairs with
  | nil => rfl
  | cons a l ih =>
    have ha : 0 < a.1 := h a (by simp)
    have : vbScale eps a = .ok (a.1 ^ (1 / eps), fun i => a.2 i * Real.sqrt n) := by
      unfold vbScale npPower
      rw [if_neg (by rintro ⟨h1, -⟩; exact absurd ha (not_lt.mpr h1.le)), if_neg (by rintro ⟨h1, -⟩; exact ha.ne' h1)]
    rw [List.mapM_cons, ih (fun x hx => h x (by simp [hx])), this]
    rfl

/-- The functions that the operator does not change are the constant ones. -/
theorem vbOperator_harmonic {K L : Matrix (Fin n) (Fin n) ℝ} {rho : Fin n → ℝ} (hn : 0 < n) (hK : ∀ i j, 0 < K i j ∧ K i j = K j i) (hr : ∀ i, 0 < rho i)
    (hL : ∀ i j, L i j = (if i = j then 1 else 0) + (rho i ^ 2)⁻¹ * (K i j / rowSums K i - if i = j then 1 else 0)) (w : Fin n → ℝ) :
    L *ᵥ w = w ↔ ∃ c : ℝ, w = fun _ => c := by
  have hne : Nonempty (Fin n) := ⟨⟨0, hn⟩⟩
  have hcon : Connected K := ⟨fun i j => (hK i j).1.le, fun i => ⟨i, (hK i i).1⟩⟩
  have hsym : Kᵀ = K := by
    ext i j
    exact (hK i j).2.symm
  have hadm : DmapKernel.Admissible ⟨true, 0, false, true⟩ := ⟨le_refl _, by simp⟩
  obtain ⟨P, f, e1, -, hM, -⟩ := C42_pairwise ⟨true, 0, false, true⟩ hadm rfl rfl K hcon (fun _ => hsym)
  have hh := stochastic_harmonic ⟨true, 0, false, true⟩ hadm rfl rfl K hcon hsym P f e1 w
  have hP : ∀ i j, P i j = K i j / rowSums K i := by
    intro i j
    rw [hM i j]
    simp [rowSums]
  have hrow : ∀ i, (L *ᵥ w) i = w i + (rho i ^ 2)⁻¹ * ((P *ᵥ w) i - w i) := by
    intro i
    simp only [mulVec, dotProduct, hL, hP]
    have : ∀ j, ((if i = j then (1 : ℝ) else 0) + (rho i ^ 2)⁻¹ * (K i j / rowSums K i - if i = j then 1 else 0)) * w j =
        (if i = j then w j else 0) + (rho i ^ 2)⁻¹ * (K i j / rowSums K i * w j - if i = j then w j else 0) := by
      intro j
      split <;> ring
    simp only [this]
    rw [Finset.sum_add_distrib, ← Finset.mul_sum, Finset.sum_sub_distrib, Finset.sum_ite_eq Finset.univ i w, if_pos (Finset.mem_univ i)]
  have hiff : L *ᵥ w = w ↔ P *ᵥ w = w := by
    rw [funext_iff, funext_iff]
    refine forall_congr' (fun i => ?_)
    rw [hrow, add_eq_left, mul_eq_zero, sub_eq_zero]
    exact or_iff_right (inv_ne_zero (pow_pos (hr i) 2).ne')
  rw [hiff, hh]
  constructor
  · intro h
    exact ⟨w ⟨0, hn⟩, funext (fun i => h i _ (hK i _).1)⟩
  · rintro ⟨c, rfl⟩ i j -
    rfl

/-! ## C223 -/

/-- C223: scaling the data by `s` and `epsilon` by `s ^ 2` changes neither the bandwidth nor the kernel nor, with `symmetrize_kernel=True`, the operator and the basis change; without symmetrisation the operator is divided by `s ^ 2`. The estimated
equilibrium density is divided by `s ^ expected_dim`, as a density must be. -/
theorem C223_scaling (p : VbParam) (D : Matrix (Fin n) (Fin n) ℝ) (hD : IsDistance D) (hn : 0 < n) (hk : p.k ≤ n) (he : 0 < p.eps) (hne : ∀ i, nearestDists D p.k.toNat i ≠ [])
    (hpos : ∀ i, 0 < vbRho0 D p.k.toNat i) (s : ℝ) (hs : 0 < s) :
    ∃ r r', vbEvaluate p D = .ok r ∧ vbEvaluate { p with eps := s ^ 2 * p.eps } (fun i j => s ^ 2 * D i j) = .ok r' ∧ r'.rho = r.rho ∧ r'.ka = r.ka ∧ r'.basis = r.basis ∧
      (∀ i j, r'.op i j = if p.symmetrize then r.op i j else r.op i j / s ^ 2) ∧
      ∀ i, vbPeq { p with eps := s ^ 2 * p.eps } r' i = vbPeq p r i / s ^ p.dim := by
  have hs2 : 0 < s ^ 2 := pow_pos hs 2
  have hD' : IsDistance (fun i j => s ^ 2 * D i j) := ⟨fun i j => mul_nonneg hs2.le (hD.1 i j), fun i j => by simp only [hD.2.1 i j], fun i => by simp only [hD.2.2 i, mul_zero]⟩
  obtain ⟨h1, -⟩ := vbEvaluate_ok p D hD hn hk he.ne' hne hpos
  obtain ⟨h2, -⟩ := vbEvaluate_ok { p with eps := s ^ 2 * p.eps } (fun i j => s ^ 2 * D i j) hD' hn hk (mul_pos hs2 he).ne'
    (fun i h => hne i (by simp only [nearestDists_scale D hs, List.map_eq_nil_iff] at h; exact h))
    (fun i => by simp only [vbRho0_scale D hs]; exact mul_pos hs (hpos i))
  have hb : vbBandwidth (fun i j => s ^ 2 * D i j) { p with eps := s ^ 2 * p.eps } = vbBandwidth D p := funext (vbBandwidth_scale D p hn hpos hs)
  have hK := vbKs_scale D p hn hpos hs
  have hKa : vbKa (fun i j => s ^ 2 * D i j) { p with eps := s ^ 2 * p.eps } = vbKa D p := by
    unfold vbKa
    rw [hb, hK]
    rfl
  rw [hb, hK, hKa] at h2
  have hpeq : ∀ q : ℝ, q / (n * (4 * Real.pi * (s ^ 2 * p.eps)) ^ (p.dim / 2)) = q / (n * (4 * Real.pi * p.eps) ^ (p.dim / 2)) / s ^ p.dim := by
    intro q
    rw [show 4 * Real.pi * (s ^ 2 * p.eps) = s ^ 2 * (4 * Real.pi * p.eps) by ring, Real.mul_rpow hs2.le (by have := Real.pi_pos; positivity)]
    have : (s ^ 2) ^ (p.dim / 2) = s ^ p.dim := by
      rw [← Real.rpow_natCast s 2, ← Real.rpow_mul hs.le]
      congr 1
      push_cast
      ring
    rw [this, div_div]
    congr 1
    ring
  refine ⟨_, _, h1, h2, ?_⟩
  cases p.symmetrize
  · refine ⟨rfl, rfl, rfl, fun i j => ?_, fun i => hpeq _⟩
    simp only [Bool.false_eq_true, if_false, vbMatrixL]
    rw [div_div]
    congr 1
    ring
  · exact ⟨rfl, rfl, rfl, fun i j => rfl, fun i => hpeq _⟩

/-- C223: with `symmetrize_kernel=True` the rows of the stored matrix sum to one, every stored eigenvector has mean square one and is an eigenvector of the stored matrix, with the power `epsilon` of the stored eigenvalue if that is a root of a positive number;
then the stored eigenvalues are at most one, with one only for the constant vectors of ones or minus ones. -/
theorem C223_fit_partial (p : VbParam) (hsy : p.symmetrize = true) (D : Matrix (Fin n) (Fin n) ℝ) (hD : IsDistance D) (hn : 0 < n) (hk : p.k ≤ n) (he : 0 < p.eps)
    (hne : ∀ i, nearestDists D p.k.toNat i ≠ []) (hpos : ∀ i, 0 < vbRho0 D p.k.toNat i) :
    ∃ r, vbEvaluate p D = .ok r ∧ ∀ N pairs, Solves r.op r.basis N pairs → (∀ q ∈ pairs, 0 < q.1) → ∃ f, vbFit p r pairs = .ok f ∧ f.pairs.length = N ∧
      (∀ i, ∑ j, f.generator i j = 1) ∧
      ∀ q ∈ f.pairs, (∑ i, q.2 i ^ 2) / n = 1 ∧ 0 < q.1 ∧ q.1 ≤ 1 ∧ f.generator *ᵥ q.2 = (q.1 ^ p.eps) • q.2 ∧ (q.1 = 1 ↔ (q.2 = fun _ => 1) ∨ q.2 = fun _ => -1) := by
  obtain ⟨r, b, h1, h2, h3, -, -, h6, h7, -, h9⟩ := C135_operator_partial p hsy D hD hn hk he.ne' hne hpos
  obtain ⟨r', h1', g1, -, -, -, g5⟩ := C135_formula p D hD hn hk he.ne' hne hpos
  obtain ⟨-, g6, -⟩ := vbEvaluate_ok p D hD hn hk he.ne' hne hpos
  rw [h1] at h1'
  obtain rfl := Except.ok.inj h1'
  have hnr : (0 : ℝ) < n := by exact_mod_cast hn
  have hsn : 0 < Real.sqrt n := Real.sqrt_pos.2 hnr
  have hharm := vbOperator_harmonic hn g5 (fun i => by rw [g1]; exact g6 i) h9
  refine ⟨r, h1, fun N pairs hso hp => ?_⟩
  have hgen : vbGenerator r = unsymmetric r.op b := by
    unfold vbGenerator
    rw [h2]
  refine ⟨⟨vbGenerator r, _⟩, by unfold vbFit; rw [vbScale_pos hp], ?_, ?_, ?_⟩
  · obtain ⟨raw, hl, -, rfl⟩ := hso
    simpa using hl
  · rw [hgen]
    exact h7
  · obtain ⟨raw, -, hraw, rfl⟩ := hso
    intro q hq
    simp only [List.map_map, List.mem_map] at hq
    obtain ⟨a, ha, rfl⟩ := hq
    have hapos : 0 < a.1 := hp (a.1, normalizeVec (changeBasis r.basis a.2)) (List.mem_map.2 ⟨a, ha, rfl⟩)
    have hale : a.1 ≤ 1 := h6 a.1 a.2 (hraw a ha)
    simp only [Function.comp, hgen, h2, changeBasis]
    have hbv : unsymmetric r.op b *ᵥ (fun i => b i * a.2 i) = a.1 • (fun i => b i * a.2 i) := by
      funext i
      have := congrFun (hraw a ha).2 i
      simp only [mulVec, dotProduct, Pi.smul_apply, smul_eq_mul] at this
      simp only [mulVec, dotProduct, Pi.smul_apply, smul_eq_mul, unsymmetric, of_apply]
      rw [mul_left_comm, ← this, Finset.mul_sum]
      refine Finset.sum_congr rfl (fun j _ => ?_)
      have := (h3 j).ne'
      field_simp
    have hb0 : (fun i => b i * a.2 i) ≠ 0 := by
      intro h
      refine (hraw a ha).1 (funext (fun i => ?_))
      exact (mul_eq_zero.1 (congrFun h i)).resolve_left (h3 i).ne'
    have hw := normalizeVec_eig hbv
    have hnorm := normalizeVec_norm hb0
    generalize normalizeVec (fun i => b i * a.2 i) = w at *
    have hq2 : (fun i => w i * Real.sqrt n) = Real.sqrt n • w := by
      funext i
      simp [mul_comm]
    have hone : a.1 ^ (1 / p.eps) = 1 ↔ a.1 = 1 := by
      constructor
      · intro h
        have : (a.1 ^ (1 / p.eps)) ^ p.eps = 1 := by rw [h, Real.one_rpow]
        rwa [← Real.rpow_mul hapos.le, one_div_mul_cancel he.ne', Real.rpow_one] at this
      · intro h
        rw [h, Real.one_rpow]
    refine ⟨?_, Real.rpow_pos_of_pos hapos _, Real.rpow_le_one hapos.le hale (by positivity), ?_, ?_⟩
    · have : ∀ i, (w i * Real.sqrt n) ^ 2 = w i * w i * n := fun i => by rw [mul_pow, Real.sq_sqrt hnr.le]; ring
      simp only [this]
      rw [← Finset.sum_mul, hnorm, one_mul, div_self hnr.ne']
    · rw [hq2, mulVec_smul, hw, ← Real.rpow_mul hapos.le, one_div_mul_cancel he.ne', Real.rpow_one, smul_comm]
    · rw [hone]
      have hw1 : a.1 = 1 ↔ unsymmetric r.op b *ᵥ w = w := by
        rw [hw]
        constructor
        · intro h
          rw [h, one_smul]
        · intro h
          obtain ⟨i, hi⟩ : ∃ i, w i ≠ 0 := by
            by_contra hc
            push Not at hc
            rw [show w = 0 from funext hc] at hnorm
            simp at hnorm
          have := congrFun h i
          simp only [Pi.smul_apply, smul_eq_mul] at this
          exact mul_right_cancel₀ hi (this.trans (one_mul _).symm)
      rw [hw1, hharm]
      constructor
      · rintro ⟨c, rfl⟩
        have hc : (c * Real.sqrt n) ^ 2 = 1 := by
          rw [mul_pow, Real.sq_sqrt hnr.le]
          simp only [Finset.sum_const, Finset.card_univ, Fintype.card_fin, nsmul_eq_mul] at hnorm
          linarith
        rw [sq] at hc
        rcases mul_self_eq_one_iff.1 hc with h | h
        · exact .inl (funext (fun _ => h))
        · exact .inr (funext (fun _ => h))
      · rintro (h | h)
        · exact ⟨1 / Real.sqrt n, funext (fun i => by rw [eq_div_iff hsn.ne']; exact congrFun h i)⟩
        · exact ⟨-1 / Real.sqrt n, funext (fun i => by rw [eq_div_iff hsn.ne']; exact congrFun h i)⟩

/-- The two eigenpairs of the operator of two points without symmetrisation. -/
theorem vbTwo_eigen (p : VbParam) (hs : p.symmetrize = false) (hk : p.k = 1) (he : 0 < p.eps) (hd : p.dim = 2) (a : ℝ) (ha : 0 < a) :
    ∃ r b, 0 < b ∧ b < 1 ∧ vbEvaluate p (twoPoints a) = .ok r ∧ r.basis = none ∧ IsEigenpair r.op ((2 * b + b ^ 2) / p.eps) (fun _ => 1) ∧ IsEigenpair r.op (-b ^ 2 / p.eps) ![1, -1] := by
  have hne : ∀ i, nearestDists (twoPoints a) p.k.toNat i ≠ [] := fun i => by rw [hk]; exact (twoPoints_nearest ha.le i) ▸ by simp
  have hpos : ∀ i, 0 < vbRho0 (twoPoints a) p.k.toNat i := fun i => by rw [hk]; exact (twoPoints_rho0 ha.le i).symm ▸ Real.sqrt_pos.mpr ha
  obtain ⟨hev, hr, hKp, hKs⟩ := vbEvaluate_ok p (twoPoints a) (twoPoints_distance ha.le) (by omega) (by rw [hk]; norm_num) he.ne' hne hpos
  rw [hs] at hev
  simp only [Bool.false_eq_true, if_false] at hev
  have hb := twoPoints_bandwidth p hk ha
  set b := Real.exp (-a / (4 * p.eps * 1 * 1)) with hbdef
  have hb0 : 0 < b := Real.exp_pos _
  have hb1 : b < 1 := by
    rw [hbdef, Real.exp_lt_one_iff]
    exact div_neg_of_neg_of_pos (by linarith) (by linarith)
  have hq : ∀ i, vbQs (vbKs (twoPoints a) p) (vbBandwidth (twoPoints a) p) p.dim i = 1 + b := by
    intro i
    unfold vbQs vbKs
    simp only [hb, Real.one_rpow, div_one]
    rw [twoPoints_row (fun x => Real.exp (-x / (4 * p.eps * 1 * 1)))]
    simp [hbdef]
  have hα : (1 + b) ^ p.alpha * (1 + b) ^ p.alpha = (1 + b)⁻¹ := by
    rw [← Real.rpow_add (by linarith), ← Real.rpow_neg_one]
    congr 1
    unfold VbParam.alpha
    rw [hd]
    norm_num
  have hKa : ∀ i j, vbKa (twoPoints a) p i j = (1 + b) * if i = j then 1 else b := by
    intro i j
    unfold vbKa
    rw [hq, hq, hα, div_inv_eq_mul, mul_comm]
    congr 1
    unfold vbKs
    rw [hb, hb]
    unfold twoPoints
    split
    · simp
    · rfl
  refine ⟨_, b, hb0, hb1, hev, rfl, ⟨fun h => one_ne_zero (congrFun h 0), ?_⟩, ⟨fun h => one_ne_zero (congrFun h 0), ?_⟩⟩
  · funext i
    have hen := he.ne'
    fin_cases i <;> simp [mulVec, dotProduct, Fin.sum_univ_two, vbMatrixL, hKa, hb] <;> field_simp <;> ring
  · funext i
    have hen := he.ne'
    fin_cases i <;> simp [mulVec, dotProduct, Fin.sum_univ_two, vbMatrixL, hKa, hb] <;> field_simp <;> ring

/-- C223 is violated with `symmetrize_kernel=False`, the default: for every pair of points, the default dimension two and every `epsilon` of at least three the constant vector, an eigenvector, is stored with an eigenvalue below one. -/
theorem C223_constant_violated (p : VbParam) (hs : p.symmetrize = false) (hk : p.k = 1) (he : 3 ≤ p.eps) (hd : p.dim = 2) (a : ℝ) (ha : 0 < a) :
    ∃ r pairs f, vbEvaluate p (twoPoints a) = .ok r ∧ Solves r.op r.basis 1 pairs ∧ vbFit p r pairs = .ok f ∧ ∀ q ∈ f.pairs, q.2 = (fun _ => 1) ∧ q.1 < 1 := by
  have he0 : 0 < p.eps := by linarith
  obtain ⟨r, b, hb0, hb1, h1, h2, h3, -⟩ := vbTwo_eigen p hs hk he0 hd a ha
  have hlam : 0 < (2 * b + b ^ 2) / p.eps := by positivity
  have hlt : (2 * b + b ^ 2) / p.eps < 1 := by
    rw [div_lt_one he0]
    nlinarith
  have hso : Solves r.op r.basis 1 [((2 * b + b ^ 2) / p.eps, normalizeVec (changeBasis r.basis (fun _ => 1)))] := ⟨[((2 * b + b ^ 2) / p.eps, fun _ => 1)], rfl, fun q hq => by
    obtain rfl := List.mem_singleton.1 hq
    exact h3, rfl⟩
  refine ⟨r, _, _, h1, hso, by unfold vbFit; rw [vbScale_pos (fun q hq => by obtain rfl := List.mem_singleton.1 hq; exact hlam)], fun q hq => ?_⟩
  simp only [List.map_cons, List.map_nil, List.mem_singleton] at hq
  subst hq
  refine ⟨funext (fun i => ?_), Real.rpow_lt_one hlam.le hlt (by positivity)⟩
  simp [h2, changeBasis, normalizeVec]

/-- C223 is violated by the power of the eigenvalues: with `symmetrize_kernel=False`, for every pair of points and every `epsilon` whose inverse is not an integer, one of the stored eigenvalues is `nan`. -/
theorem C223_power_violated (p : VbParam) (hs : p.symmetrize = false) (hk : p.k = 1) (he : 0 < p.eps) (hz : ¬ ∃ z : ℤ, (z : ℝ) = 1 / p.eps) (hd : p.dim = 2) (a : ℝ) (ha : 0 < a) :
    ∃ r pairs, vbEvaluate p (twoPoints a) = .ok r ∧ Solves r.op r.basis 2 pairs ∧ vbFit p r pairs = .error .notFinite := by
  obtain ⟨r, b, hb0, hb1, h1, h2, h3, h4⟩ := vbTwo_eigen p hs hk he hd a ha
  refine ⟨r, _, h1, ⟨[((2 * b + b ^ 2) / p.eps, fun _ => 1), (-b ^ 2 / p.eps, ![1, -1])], rfl, fun q hq => ?_, rfl⟩, ?_⟩
  · simp only [List.mem_cons, List.not_mem_nil, or_false] at hq
    rcases hq with rfl | rfl
    · exact h3
    · exact h4
  · have hn : -b ^ 2 / p.eps < 0 := div_neg_of_neg_of_pos (by nlinarith [pow_pos hb0 2]) he
    have hp : 0 < (2 * b + b ^ 2) / p.eps := by positivity
    have e2 : npPower (-b ^ 2 / p.eps) (1 / p.eps) = .error .notFinite := if_pos ⟨hn, hz⟩
    have e1 : npPower ((2 * b + b ^ 2) / p.eps) (1 / p.eps) = .ok (((2 * b + b ^ 2) / p.eps) ^ (1 / p.eps)) := by
      unfold npPower
      rw [if_neg (by rintro ⟨h1, -⟩; linarith), if_neg (by rintro ⟨h1, -⟩; linarith)]
    unfold vbFit
    simp only [List.map_cons, List.map_nil, List.mapM_cons, vbScale, e1, e2]
    rfl

example : ¬ ∃ z : ℤ, (z : ℝ) = 1 / (2 : ℝ) := by
  rintro ⟨z, hz⟩
  have h : ((2 * z : ℤ) : ℝ) = ((1 : ℤ) : ℝ) := by
    push_cast
    linarith
  have := Int.cast_injective h
  omega

/-- Non-vacuity of the positive theorems: two points, with the pair of the constant vector. -/
example : ∃ r pairs, vbEvaluate ⟨1, 1, 2, true, false, -1 / 2, true⟩ (twoPoints 4) = .ok r ∧ Solves r.op r.basis 1 pairs ∧ ∀ q ∈ pairs, 0 < q.1 := by
  have hpos : ∀ i, 0 < vbRho0 (twoPoints 4) 1 i := fun i => by rw [twoPoints_rho0 (by norm_num)]; exact Real.sqrt_pos.2 (by norm_num)
  have hne : ∀ i, nearestDists (twoPoints 4) 1 i ≠ [] := fun i => by rw [twoPoints_nearest (by norm_num)]; simp
  obtain ⟨r, b, h1, h2, -, -, -, -, -, h8, -⟩ := C135_operator_partial ⟨1, 1, 2, true, false, -1 / 2, true⟩ rfl (twoPoints 4) (twoPoints_distance (by norm_num)) (by norm_num) (by norm_num) one_ne_zero hne hpos
  refine ⟨r, _, h1, ⟨[(1, fun i => (b i)⁻¹)], rfl, fun q hq => ?_, rfl⟩, fun q hq => ?_⟩
  · obtain rfl := List.mem_singleton.1 hq
    exact h8
  · obtain rfl := List.mem_singleton.1 hq
    exact one_pos

/-! ## The density estimate -/

section density
open MeasureTheory

/-- The average of the Gaussian densities with variance `2 ε` in each direction around the samples. -/
noncomputable def gaussMixture {n d : Nat} (x : Fin n → EuclideanSpace ℝ (Fin d)) (eps : ℝ) (z : EuclideanSpace ℝ (Fin d)) : ℝ :=
  (∑ j, (4 * Real.pi * eps) ^ (-(d : ℝ) / 2) * Real.exp (-‖z - x j‖ ^ 2 / (4 * eps))) / n

theorem gaussMixture_integral {n d : Nat} (hn : 0 < n) (x : Fin n → EuclideanSpace ℝ (Fin d)) {eps : ℝ} (he : 0 < eps) : ∫ z, gaussMixture x eps z = 1 := by
  have hb : 0 < 1 / (4 * eps) := by positivity
  have hc : 0 < 4 * Real.pi * eps := by have := Real.pi_pos; positivity
  have key := GaussianFourier.integral_rexp_neg_mul_sq_norm (V := EuclideanSpace ℝ (Fin d)) hb
  rw [finrank_euclideanSpace_fin, show Real.pi / (1 / (4 * eps)) = 4 * Real.pi * eps by field_simp] at key
  have hint : Integrable (fun v : EuclideanSpace ℝ (Fin d) => Real.exp (-(1 / (4 * eps)) * ‖v‖ ^ 2)) := by
    refine Integrable.of_integral_ne_zero ?_
    rw [key]
    exact (Real.rpow_pos_of_pos hc _).ne'
  have hf : ∀ j, (fun z : EuclideanSpace ℝ (Fin d) => (4 * Real.pi * eps) ^ (-(d : ℝ) / 2) * Real.exp (-‖z - x j‖ ^ 2 / (4 * eps)))
      = fun z => (4 * Real.pi * eps) ^ (-(d : ℝ) / 2) * (fun v : EuclideanSpace ℝ (Fin d) => Real.exp (-(1 / (4 * eps)) * ‖v‖ ^ 2)) (z - x j) := by
    intro j
    funext z
    simp only
    congr 2
    ring
  unfold gaussMixture
  rw [integral_div, integral_finsetSum _ (fun j _ => by rw [hf]; exact (hint.comp_sub_right (x j)).const_mul _)]
  have : ∀ j, ∫ z, (4 * Real.pi * eps) ^ (-(d : ℝ) / 2) * Real.exp (-‖z - x j‖ ^ 2 / (4 * eps)) = 1 := by
    intro j
    rw [hf, integral_const_mul, integral_sub_right_eq_self (fun v : EuclideanSpace ℝ (Fin d) => Real.exp (-(1 / (4 * eps)) * ‖v‖ ^ 2)), key, ← Real.rpow_add hc]
    rw [neg_div, neg_add_cancel, Real.rpow_zero]
  simp only [this, Finset.sum_const, Finset.card_univ, Fintype.card_fin, nsmul_eq_mul, mul_one]
  exact div_self (by exact_mod_cast hn.ne')

/-- C223: without variation of the bandwidth (`beta = 0`) and with the dimension of the samples, `peq_est_` is a probability density, the average of Gaussian densities around the samples, evaluated at the samples. -/
theorem C223_density {n d : Nat} (p : VbParam) (hb : p.beta = 0) (hdim : p.dim = d) (x : Fin n → EuclideanSpace ℝ (Fin d)) (hn : 0 < n) (hk : p.k ≤ n) (he : 0 < p.eps)
    (hne : ∀ i, nearestDists (fun i j => ‖x i - x j‖ ^ 2) p.k.toNat i ≠ []) (hpos : ∀ i, 0 < vbRho0 (fun i j => ‖x i - x j‖ ^ 2) p.k.toNat i) :
    ∃ r, vbEvaluate p (fun i j => ‖x i - x j‖ ^ 2) = .ok r ∧ (∀ i, vbPeq p r i = gaussMixture x p.eps (x i)) ∧ ∫ z, gaussMixture x p.eps z = 1 := by
  have hD : IsDistance (fun i j => ‖x i - x j‖ ^ 2) := ⟨fun i j => sq_nonneg _, fun i j => by simp only [norm_sub_rev], fun i => by simp⟩
  obtain ⟨r, h1, h2, -, h4, -⟩ := C135_formula p _ hD hn hk he.ne' hne hpos
  refine ⟨r, h1, fun i => ?_, gaussMixture_integral hn x he⟩
  have hr : ∀ i, vbBandwidth (fun i j => ‖x i - x j‖ ^ 2) p i = 1 := by
    intro i
    unfold vbBandwidth vbRho vecMean
    simp only [hb, Real.rpow_zero, Finset.sum_const, Finset.card_univ, Fintype.card_fin, nsmul_eq_mul, mul_one]
    rw [div_self (by exact_mod_cast hn.ne'), div_one]
  have hc : 0 < 4 * Real.pi * p.eps := by have := Real.pi_pos; positivity
  unfold vbPeq gaussMixture
  rw [h4, h2, hr, Real.one_rpow, div_one, hdim, ← Finset.mul_sum, neg_div, Real.rpow_neg hc.le]
  have : ∀ j, vbKs (fun i j => ‖x i - x j‖ ^ 2) p i j = Real.exp (-‖x i - x j‖ ^ 2 / (4 * p.eps)) := by
    intro j
    unfold vbKs
    simp only [hr, mul_one]
    try rfl
  simp only [this]
  rw [div_mul_eq_div_div_swap, div_eq_inv_mul _ ((4 * Real.pi * p.eps) ^ ((d : ℝ) / 2))]

/-- Non-vacuity: two points in the plane. -/
example : ∃ x : Fin 2 → EuclideanSpace ℝ (Fin 2), (∀ i, nearestDists (fun i j => ‖x i - x j‖ ^ 2) 1 i ≠ []) ∧ ∀ i, 0 < vbRho0 (fun i j => ‖x i - x j‖ ^ 2) 1 i := by
  refine ⟨![0, EuclideanSpace.single 0 2], ?_⟩
  have e : (fun i j => ‖(![0, EuclideanSpace.single 0 2] : Fin 2 → EuclideanSpace ℝ (Fin 2)) i - (![0, EuclideanSpace.single 0 2] : Fin 2 → EuclideanSpace ℝ (Fin 2)) j‖ ^ 2) = twoPoints 4 := by
    funext i j
    fin_cases i <;> fin_cases j <;> norm_num [twoPoints, norm_neg]
  rw [e]
  exact ⟨fun i => by rw [twoPoints_nearest (by norm_num)]; simp, fun i => by rw [twoPoints_rho0 (by norm_num)]; exact Real.sqrt_pos.2 (by norm_num)⟩

end density

end Verif.Kernel
