import Verif.Dmd.Pseudo
import Verif.Dmd.FilterProps
import Mathlib.Analysis.Matrix.PosDef
import Mathlib.LinearAlgebra.Vandermonde
/-!
# C169-C171: pseudospectrum and spectral measure
-/

namespace Verif.Dmd

open Verif.Lin Verif.Dyn Matrix

variable {ι : Type} [Fintype ι] [DecidableEq ι]

/-- `Σ |v_i|²` -/
noncomputable def sqn (v : ι → ℂ) : ℝ := ∑ i, Complex.normSq (v i)

/-- What the residual is divided by: the mean of `|φ(x)|²` plus the regularisation. -/
noncomputable def weightOf (n : Nat) (ps : List ((ι → ℝ) × (ι → ℝ))) (delta : ℝ) (v : ι → ℂ) : ℝ :=
  (1 / (n : ℝ)) * (ps.map (fun p => Complex.normSq (toC p.1 ⬝ᵥ v))).sum + delta * sqn v

theorem dot_self (v : ι → ℂ) : star v ⬝ᵥ v = (sqn v : ℂ) := by
  unfold sqn
  rw [Complex.ofReal_sum]
  exact Finset.sum_congr rfl (fun i _ => by rw [Complex.normSq_eq_conj_mul_self]; rfl)

theorem sqn_nonneg (v : ι → ℂ) : 0 ≤ sqn v := Finset.sum_nonneg (fun _ _ => Complex.normSq_nonneg _)

theorem sqn_pos {v : ι → ℂ} (h : v ≠ 0) : 0 < sqn v := by
  obtain ⟨i, hi⟩ := Function.ne_iff.1 h
  exact Finset.sum_pos' (fun _ _ => Complex.normSq_nonneg _) ⟨i, Finset.mem_univ i, Complex.normSq_pos.2 hi⟩

open scoped ComplexOrder in
/-- The eigenvalue of smallest magnitude of a Hermitian matrix with a nonnegative form is the minimum of the form on the unit sphere. -/
theorem smallest_form {M : Matrix ι ι ℂ} (hM : M.IsHermitian) (hpos : ∀ u, 0 ≤ (star u ⬝ᵥ M *ᵥ u).re) {ev : ℂ} {f : ι → ℂ} (h : IsSmallest M ev f) :
    0 ≤ ev.re ∧ (star f ⬝ᵥ M *ᵥ f).re = ev.re * sqn f ∧ ∀ w, ev.re * sqn w ≤ (star w ⬝ᵥ M *ᵥ w).re := by
  obtain ⟨hf, he, hmin⟩ := h
  have hform : ∀ (e : ℂ) (u : ι → ℂ), M *ᵥ u = e • u → star u ⬝ᵥ M *ᵥ u = e * (sqn u : ℂ) := by
    intro e u hu
    rw [hu, dotProduct_smul, dot_self, smul_eq_mul]
  have him : ∀ u, (star u ⬝ᵥ M *ᵥ u).im = 0 := fun u => hM.im_star_dotProduct_mulVec_self u
  have hreal : ∀ (e : ℂ) (u : ι → ℂ), u ≠ 0 → M *ᵥ u = e • u → e.im = 0 ∧ 0 ≤ e.re := by
    intro e u hu heu
    have h1 := him u
    have h2 := hpos u
    rw [hform e u heu] at h1 h2
    rw [Complex.mul_im, Complex.ofReal_re, Complex.ofReal_im, mul_zero, zero_add] at h1
    rw [Complex.re_mul_ofReal] at h2
    have := sqn_pos hu
    constructor
    · rcases mul_eq_zero.1 h1 with h | h
      · exact h
      · exact absurd h this.ne'
    · exact nonneg_of_mul_nonneg_left h2 this
  obtain ⟨hi, hr⟩ := hreal ev f hf he
  have hev : ev = (ev.re : ℂ) := by
    apply Complex.ext <;> simp [hi]
  refine ⟨hr, ?_, ?_⟩
  · rw [hform ev f he, Complex.re_mul_ofReal]
  · have hN : (M - (ev.re : ℂ) • (1 : Matrix ι ι ℂ)).IsHermitian := by
      apply hM.sub
      unfold Matrix.IsHermitian
      rw [Matrix.conjTranspose_smul, Matrix.conjTranspose_one, RCLike.star_def, Complex.conj_ofReal]
    have hps : (M - (ev.re : ℂ) • (1 : Matrix ι ι ℂ)).PosSemidef := by
      rw [hN.posSemidef_iff_eigenvalues_nonneg]
      intro i
      have hb := hN.mulVec_eigenvectorBasis i
      set b : ι → ℂ := ⇑(hN.eigenvectorBasis i) with hbdef
      have hb0 : b ≠ 0 := by
        intro hz
        have : hN.eigenvectorBasis i = 0 := by
          ext j
          exact congrFun hz j
        have h1 := hN.eigenvectorBasis.orthonormal.1 i
        rw [this, norm_zero] at h1
        exact zero_ne_one h1
      have hMb : M *ᵥ b = ((hN.eigenvalues i + ev.re : ℝ) : ℂ) • b := by
        rw [Matrix.sub_mulVec, Matrix.smul_mulVec, Matrix.one_mulVec, sub_eq_iff_eq_add] at hb
        rw [hb, Complex.ofReal_add, add_smul]
        rfl
      have h1 := (hreal _ b hb0 hMb).2
      have h2 := hmin _ b hb0 hMb
      rw [Complex.ofReal_re] at h1
      rw [Complex.norm_real, Real.norm_of_nonneg h1] at h2
      have h3 : ev.re ≤ ‖ev‖ := Complex.re_le_norm ev
      change 0 ≤ hN.eigenvalues i
      linarith
    intro w
    have := (Complex.le_def.1 (hps.dotProduct_mulVec_nonneg w)).1
    rw [Matrix.sub_mulVec, Matrix.smul_mulVec, Matrix.one_mulVec, dotProduct_sub, dotProduct_smul, dot_self, smul_eq_mul, Complex.sub_re, ← Complex.ofReal_mul, Complex.ofReal_re, Complex.zero_re] at this
    linarith

theorem invRoot_symm (V : Matrix ι ι ℝ) (d : ι → ℝ) : (invRoot V d)ᵀ = invRoot V d := by
  unfold invRoot
  rw [Matrix.transpose_mul, Matrix.transpose_mul, Matrix.transpose_transpose, Matrix.diagonal_transpose, Matrix.mul_assoc]

theorem toCM_herm (A : Matrix ι ι ℝ) : (toCM A)ᴴ = toCM Aᵀ := by
  ext i j; simp [toCM, Matrix.conjTranspose_apply]

/-- For a positive definite matrix the computed `SQ` is an inverse square root. -/
theorem invRoot_spec {A V : Matrix ι ι ℝ} {d : ι → ℝ} (h : IsEigh A V d) (hpos : ∀ v : ι → ℝ, v ≠ 0 → 0 < v ⬝ᵥ A *ᵥ v) : invRoot V d * A * invRoot V d = 1 := by
  obtain ⟨hV, hA⟩ := h
  have hV' : V * Vᵀ = 1 := mul_eq_one_comm.1 hV
  have hd : ∀ i, 0 < d i := by
    intro i
    have hne : V *ᵥ Pi.single i 1 ≠ 0 := by
      intro hz
      have : Vᵀ *ᵥ (V *ᵥ Pi.single i 1) = 0 := by rw [hz, Matrix.mulVec_zero]
      rw [Matrix.mulVec_mulVec, hV, Matrix.one_mulVec] at this
      have := congrFun this i
      simp at this
    have h1 := hpos _ hne
    have h2 : V *ᵥ Pi.single i 1 ⬝ᵥ A *ᵥ (V *ᵥ Pi.single i 1) = d i := by
      rw [hA, ← Matrix.mulVec_mulVec, Matrix.mulVec_mulVec _ Vᵀ V, hV, Matrix.one_mulVec, ← Matrix.mulVec_mulVec, Matrix.dotProduct_mulVec, ← Matrix.mulVec_transpose, Matrix.mulVec_mulVec, hV,
        Matrix.one_mulVec, Matrix.mulVec_single_one]
      simp [dotProduct, Matrix.diagonal_apply, Pi.single_apply]
    rwa [h2] at h1
  have hdd : (diagonal (fun i => if d i = 0 then 0 else √(1 / |d i|)) : Matrix ι ι ℝ) * diagonal d * diagonal (fun i => if d i = 0 then 0 else √(1 / |d i|)) = 1 := by
    rw [Matrix.diagonal_mul_diagonal, Matrix.diagonal_mul_diagonal, ← Matrix.diagonal_one]
    congr 1
    funext i
    have := hd i
    rw [if_neg this.ne', abs_of_pos this, mul_right_comm, Real.mul_self_sqrt (by positivity), one_div, inv_mul_cancel₀ this.ne']
  unfold invRoot
  rw [hA]
  generalize (diagonal (fun i => if d i = 0 then 0 else √(1 / |d i|)) : Matrix ι ι ℝ) = D at hdd
  calc V * D * Vᵀ * (V * diagonal d * Vᵀ) * (V * D * Vᵀ) = V * D * (Vᵀ * V) * diagonal d * (Vᵀ * V) * D * Vᵀ := by simp only [Matrix.mul_assoc]
    _ = V * (D * diagonal d * D) * Vᵀ := by rw [hV]; simp only [Matrix.mul_assoc, Matrix.one_mul]
    _ = 1 := by rw [hdd, Matrix.mul_one, hV']

/-- Everything about the call except the source of the matrices. -/
theorem pseudo_min {G G' R : Matrix ι ι ℝ} {reg : ℝ} {z : ℂ} {res : ℝ} {f : ι → ℂ} (hG : Gᵀ = G) (hR : Rᵀ = R) (hpos : ∀ v : ι → ℝ, v ≠ 0 → 0 < v ⬝ᵥ (regularised G reg) *ᵥ v)
    (hnum : ∀ v, 0 ≤ (star v ⬝ᵥ pseudoNum G G' R z *ᵥ v).re) (h : IsPseudo G G' R reg z res f) :
    0 ≤ res ∧ (∀ v, res ^ 2 * (star v ⬝ᵥ toCM (regularised G reg) *ᵥ v).re ≤ (star v ⬝ᵥ pseudoNum G G' R z *ᵥ v).re) ∧
      ∃ V d, IsEigh (regularised G reg) V d ∧ toCM (invRoot V d) *ᵥ f ≠ 0 ∧
        res ^ 2 * (star (toCM (invRoot V d) *ᵥ f) ⬝ᵥ toCM (regularised G reg) *ᵥ (toCM (invRoot V d) *ᵥ f)).re =
          (star (toCM (invRoot V d) *ᵥ f) ⬝ᵥ pseudoNum G G' R z *ᵥ (toCM (invRoot V d) *ᵥ f)).re := by
  obtain ⟨V, d, ev, he, hs, rfl⟩ := h
  have hinv := invRoot_spec he hpos
  set S := toCM (invRoot V d) with hS
  set A := toCM (regularised G reg) with hA
  set N := pseudoNum G G' R z with hN
  have hSH : Sᴴ = S := by rw [hS, toCM_herm, invRoot_symm]
  have hNH : N.IsHermitian := by
    unfold Matrix.IsHermitian
    rw [hN]
    unfold pseudoNum
    have hT : ((toCM G')ᵀ)ᴴ = toCM G' := by
      ext i j; simp [toCM, Matrix.conjTranspose_apply]
    have hT2 : (toCM G')ᴴ = (toCM G')ᵀ := by
      ext i j; simp [toCM, Matrix.conjTranspose_apply]
    rw [Matrix.conjTranspose_add, Matrix.conjTranspose_sub, Matrix.conjTranspose_sub, Matrix.conjTranspose_smul, Matrix.conjTranspose_smul, Matrix.conjTranspose_smul, hT, hT2, toCM_herm, toCM_herm, hG, hR,
      star_star, RCLike.star_def, Complex.conj_ofReal]
    abel
  have hSAS : S * A * S = 1 := by rw [hS, hA, ← toCM_mul, ← toCM_mul, hinv, toCM_one]
  have hform : ∀ (B : Matrix ι ι ℂ) (u : ι → ℂ), star (S *ᵥ u) ⬝ᵥ B *ᵥ (S *ᵥ u) = star u ⬝ᵥ (S * B * S) *ᵥ u := by
    intro B u
    rw [Matrix.star_mulVec, hSH, ← Matrix.dotProduct_mulVec, Matrix.mulVec_mulVec, Matrix.mulVec_mulVec, Matrix.mul_assoc]
  have hMH : (S * N * S).IsHermitian := by
    unfold Matrix.IsHermitian
    rw [Matrix.conjTranspose_mul, Matrix.conjTranspose_mul, hSH, hNH, Matrix.mul_assoc]
  have hMpos : ∀ u, 0 ≤ (star u ⬝ᵥ (S * N * S) *ᵥ u).re := by
    intro u
    rw [← hform]
    exact hnum _
  obtain ⟨h0, h1, h2⟩ := smallest_form hMH hMpos hs
  have hsq : √ev.re ^ 2 = ev.re := Real.sq_sqrt h0
  have hAform : ∀ u, (star (S *ᵥ u) ⬝ᵥ A *ᵥ (S *ᵥ u)).re = sqn u := by
    intro u
    rw [hform, hSAS, Matrix.one_mulVec, dot_self, Complex.ofReal_re]
  refine ⟨Real.sqrt_nonneg _, ?_, V, d, he, ?_, ?_⟩
  · intro v
    have hv : v = S *ᵥ (A *ᵥ (S *ᵥ v)) := by rw [Matrix.mulVec_mulVec, Matrix.mulVec_mulVec, hSAS, Matrix.one_mulVec]
    rw [hv, hsq, hAform, hform N]
    exact h2 _
  · intro hz
    have : A *ᵥ (S *ᵥ f) = 0 := by rw [hz, Matrix.mulVec_zero]
    have h3 : S *ᵥ (A *ᵥ (S *ᵥ f)) = f := by
      have := congrArg (fun B => B *ᵥ f) (mul_eq_one_comm.1 hSAS)
      rw [Matrix.mulVec_mulVec, Matrix.mulVec_mulVec, hSAS, Matrix.one_mulVec]
    rw [this, Matrix.mulVec_zero] at h3
    exact hs.1 h3.symm
  · rw [hsq, hAform, hform N, h1]

theorem form_weight (n : Nat) (ps : List ((ι → ℝ) × (ι → ℝ))) (reg : ℝ) (v : ι → ℂ) :
    star v ⬝ᵥ toCM (regularised (gram n none (startM ps) (startM ps)) reg) *ᵥ v = (weightOf n ps (frob (gram n none (startM ps) (startM ps)) * reg) v : ℂ) := by
  have h1 : toCM (regularised (gram n none (startM ps) (startM ps)) reg) = toCM (gram n none (startM ps) (startM ps)) + ((frob (gram n none (startM ps) (startM ps)) * reg : ℝ) : ℂ) • 1 := by
    unfold regularised
    ext i j
    by_cases hij : i = j
    · subst hij; simp [toCM]
    · simp [toCM, hij]
  rw [h1, Matrix.add_mulVec, Matrix.smul_mulVec, Matrix.one_mulVec, dotProduct_add, dotProduct_smul, dot_self, form_gram, smul_eq_mul]
  unfold weightOf
  rw [← Fin.sum_univ_fun_getElem ps (fun p => Complex.normSq (toC p.1 ⬝ᵥ v))]
  push_cast
  congr 2
  refine Finset.sum_congr rfl (fun k _ => ?_)
  rw [Complex.normSq_eq_conj_mul_self]
  rfl

theorem violation_nonneg (n : Nat) (ps : List ((ι → ℝ) × (ι → ℝ))) (z : ℂ) (v : ι → ℂ) : 0 ≤ violation n ps z v := by
  unfold violation
  refine mul_nonneg (by positivity) (List.sum_nonneg ?_)
  intro x hx
  obtain ⟨p, _, rfl⟩ := List.mem_map.1 hx
  exact Complex.normSq_nonneg _

theorem dot_star (x : ι → ℝ) (v : ι → ℂ) : toC x ⬝ᵥ star v = star (toC x ⬝ᵥ v) := by
  simp [dotProduct, toC, star_sum]

/-- For real data the conjugate coefficients have the same violation at the conjugate point. -/
theorem violation_star (n : Nat) (ps : List ((ι → ℝ) × (ι → ℝ))) (z : ℂ) (v : ι → ℂ) : violation n ps (star z) (star v) = violation n ps z v := by
  unfold violation
  congr 2
  apply List.map_congr_left
  intro p _
  rw [dot_star, dot_star, ← star_mul', ← star_sub, RCLike.star_def, Complex.normSq_conj]

theorem weight_star (n : Nat) (ps : List ((ι → ℝ) × (ι → ℝ))) (delta : ℝ) (v : ι → ℂ) : weightOf n ps delta (star v) = weightOf n ps delta v := by
  unfold weightOf sqn
  congr 2
  · congr 1
    apply List.map_congr_left
    intro p _
    rw [dot_star, RCLike.star_def, Complex.normSq_conj]
  · exact Finset.sum_congr rfl (fun i _ => by rw [Pi.star_apply, RCLike.star_def, Complex.normSq_conj])

theorem real_pos {n : Nat} {ps : List ((ι → ℝ) × (ι → ℝ))} {reg : ℝ} (hpos : ∀ v, v ≠ 0 → 0 < weightOf n ps (frob (gram n none (startM ps) (startM ps)) * reg) v) (v : ι → ℝ) (hv : v ≠ 0) :
    0 < v ⬝ᵥ (regularised (gram n none (startM ps) (startM ps)) reg) *ᵥ v := by
  have h1 : toC v ≠ 0 := by
    intro h
    apply hv
    funext i
    have := congrFun h i
    simpa [toC] using this
  have h2 := hpos _ h1
  have h3 := form_weight n ps reg (toC v)
  have h4 : star (toC v) = toC v := by funext i; simp [toC]
  rw [h4, toCM_mulVec'] at h3
  have h5 : toC v ⬝ᵥ toC ((regularised (gram n none (startM ps) (startM ps)) reg) *ᵥ v) = ((v ⬝ᵥ (regularised (gram n none (startM ps) (startM ps)) reg) *ᵥ v : ℝ) : ℂ) := by
    simp [toC, dotProduct]
  rw [h5] at h3
  have := Complex.ofReal_injective h3
  rwa [this]

theorem gram_symm (n : Nat) {m : Nat} (X : Matrix (Fin m) ι ℝ) : (gram n none X X)ᵀ = gram n none X X := by
  unfold gram
  rw [Matrix.transpose_smul, Matrix.transpose_mul, Matrix.transpose_transpose]

theorem gram_one {m : Nat} (X Y : Matrix (Fin m) ι ℝ) : gram 1 none X Y = Xᵀ * Y := by
  simp [gram]

/-! ### Property theorems -/

/-- The regularised weight is positive if the regularisation is and some state is not zero. -/
theorem C169_positive {n : Nat} (hn : 0 < n) {ps : List ((ι → ℝ) × (ι → ℝ))} (hps : ∃ p ∈ ps, p.1 ≠ 0) {reg : ℝ} (hreg : 0 < reg) (v : ι → ℂ) (hv : v ≠ 0) :
    0 < weightOf n ps (frob (gram n none (startM ps) (startM ps)) * reg) v := by
  unfold weightOf
  have h1 : 0 ≤ (1 / (n : ℝ)) * (ps.map (fun p => Complex.normSq (toC p.1 ⬝ᵥ v))).sum := by
    refine mul_nonneg (by positivity) (List.sum_nonneg ?_)
    intro x hx
    obtain ⟨p, _, rfl⟩ := List.mem_map.1 hx
    exact Complex.normSq_nonneg _
  have h2 : 0 < frob (gram n none (startM ps) (startM ps)) := by
    obtain ⟨p, hp, hp0⟩ := hps
    obtain ⟨k, hk, rfl⟩ := List.getElem_of_mem hp
    obtain ⟨i, hi⟩ := Function.ne_iff.1 hp0
    unfold frob
    rw [Real.sqrt_pos]
    refine Finset.sum_pos' (fun _ _ => Finset.sum_nonneg (fun _ _ => sq_nonneg _)) ⟨i, Finset.mem_univ i, ?_⟩
    refine Finset.sum_pos' (fun _ _ => sq_nonneg _) ⟨i, Finset.mem_univ i, ?_⟩
    apply pow_pos
    have : gram n none (startM ps) (startM ps) i i = (1 / (n : ℝ)) * ∑ l : Fin ps.length, ps[l].1 i * ps[l].1 i := by
      simp [gram, startM, Matrix.mul_apply]
    rw [this]
    refine mul_pos (by positivity) (Finset.sum_pos' (fun _ _ => mul_self_nonneg _) ⟨⟨k, hk⟩, Finset.mem_univ _, ?_⟩)
    exact mul_self_pos.2 hi
  have h3 := sqn_pos hv
  positivity

/-- **C169 (without a rank).** The value at `z` is the least residual: its square is the minimum, over all observables, of the mean squared violation of `φ(y) = z φ(x)` divided by the (regularised) mean of `|φ(x)|²`. -/
theorem C169_full {n : Nat} {ps : List ((ι → ℝ) × (ι → ℝ))} {reg : ℝ} {z : ℂ} {res : ℝ} {f : ι → ℂ} (hpos : ∀ v, v ≠ 0 → 0 < weightOf n ps (frob (gram n none (startM ps) (startM ps)) * reg) v)
    (h : PseudoFull n ps reg z res f) :
    0 ≤ res ∧ (∀ v, res ^ 2 * weightOf n ps (frob (gram n none (startM ps) (startM ps)) * reg) v ≤ violation n ps z v) ∧
      ∃ v, v ≠ 0 ∧ res ^ 2 * weightOf n ps (frob (gram n none (startM ps) (startM ps)) * reg) v = violation n ps z v := by
  have hnum : ∀ v, (star v ⬝ᵥ pseudoNum (gram n none (startM ps) (startM ps)) (gram n none (startM ps) (endM ps)) (gram n none (endM ps) (endM ps)) z *ᵥ v).re = violation n ps z v :=
    fun v => C79_measures n ps z v
  obtain ⟨h0, h1, V, d, _, h2, h3⟩ := pseudo_min (gram_symm n _) (gram_symm n _) (real_pos hpos) (fun v => by rw [hnum]; exact violation_nonneg n ps z v) h
  simp only [hnum, form_weight, Complex.ofReal_re] at h1 h3
  exact ⟨h0, h1, _, h2, h3⟩

/-- **C169 (with a rank).** The same holds for the matrices stored by the reduced model (without the division by the number of samples), although they belong to the conjugate point. -/
theorem C169_reduced {ps : List ((ι → ℝ) × (ι → ℝ))} {reg : ℝ} {z : ℂ} {res : ℝ} {f : ι → ℂ} (hpos : ∀ v, v ≠ 0 → 0 < weightOf 1 ps (frob (gram 1 none (startM ps) (startM ps)) * reg) v)
    (h : PseudoReduced ps reg z res f) :
    0 ≤ res ∧ (∀ v, res ^ 2 * weightOf 1 ps (frob (gram 1 none (startM ps) (startM ps)) * reg) v ≤ violation 1 ps z v) ∧
      ∃ v, v ≠ 0 ∧ res ^ 2 * weightOf 1 ps (frob (gram 1 none (startM ps) (startM ps)) * reg) v = violation 1 ps z v := by
  unfold PseudoReduced at h
  have hnum : ∀ v, (star v ⬝ᵥ pseudoNum ((startM ps)ᵀ * startM ps) ((endM ps)ᵀ * startM ps) ((endM ps)ᵀ * endM ps) z *ᵥ v).re = violation 1 ps (star z) v := by
    intro v
    have := C168_reduced_measures ps z v
    change (star v ⬝ᵥ pseudoNum _ _ _ z *ᵥ v).re = _ at this
    rw [this]
    simp [violation]
  have hw := form_weight 1 ps reg
  have hp := real_pos hpos
  rw [gram_one] at hw hp
  obtain ⟨h0, h1, V, d, _, h2, h3⟩ := pseudo_min (by rw [Matrix.transpose_mul, Matrix.transpose_transpose]) (by rw [Matrix.transpose_mul, Matrix.transpose_transpose]) hp
    (fun v => by rw [hnum]; exact violation_nonneg 1 ps _ v) h
  simp only [hnum, hw, Complex.ofReal_re] at h1 h3
  rw [gram_one]
  refine ⟨h0, ?_, star (toCM (invRoot V d) *ᵥ f), ?_, ?_⟩
  · intro v
    have := h1 (star v)
    rwa [weight_star, violation_star] at this
  · simpa using h2
  · rw [weight_star, h3, ← violation_star 1 ps z, star_star]

/-- The data of the counterexample: five snapshot pairs of three observables. -/
noncomputable def exPairs : List ((Fin 3 → ℝ) × (Fin 3 → ℝ)) :=
  [(![1, 1, 0], ![2, 3, 0]), (![1, 1, 0], ![2, 1, 0]), (![2, -2, 0], ![4, -4, 0]), (![2, -2, 0], ![4, -4, 0]), (![0, 0, 1], ![0, 0, 3])]

omit [Fintype ι] [DecidableEq ι] in
theorem start_start (ps : List ((ι → ℝ) × (ι → ℝ))) (i j : ι) : ((startM ps)ᵀ * startM ps) i j = (ps.map (fun p => p.1 i * p.1 j)).sum := by
  rw [← Fin.sum_univ_fun_getElem ps (fun p => p.1 i * p.1 j)]; rfl

omit [Fintype ι] [DecidableEq ι] in
theorem end_start (ps : List ((ι → ℝ) × (ι → ℝ))) (i j : ι) : ((endM ps)ᵀ * startM ps) i j = (ps.map (fun p => p.2 i * p.1 j)).sum := by
  rw [← Fin.sum_univ_fun_getElem ps (fun p => p.2 i * p.1 j)]; rfl

omit [Fintype ι] [DecidableEq ι] in
theorem end_end (ps : List ((ι → ℝ) × (ι → ℝ))) (i j : ι) : ((endM ps)ᵀ * endM ps) i j = (ps.map (fun p => p.2 i * p.2 j)).sum := by
  rw [← Fin.sum_univ_fun_getElem ps (fun p => p.2 i * p.2 j)]; rfl

theorem exPairs_G : (startM exPairs)ᵀ * startM exPairs = !![10, -6, 0; -6, 10, 0; 0, 0, 1] := by
  ext i j
  rw [start_start]
  fin_cases i <;> fin_cases j <;> simp [exPairs] <;> norm_num

theorem exPairs_G' : (endM exPairs)ᵀ * startM exPairs = !![20, -12, 0; -12, 20, 0; 0, 0, 3] := by
  ext i j
  rw [end_start]
  fin_cases i <;> fin_cases j <;> simp [exPairs] <;> norm_num

theorem exPairs_R : (endM exPairs)ᵀ * endM exPairs = !![40, -24, 0; -24, 42, 0; 0, 0, 9] := by
  ext i j
  rw [end_end]
  fin_cases i <;> fin_cases j <;> simp [exPairs] <;> norm_num

/-- Eigenvectors of the Gram matrix. -/
noncomputable def exV : Matrix (Fin 3) (Fin 3) ℝ := !![√(1 / 2), √(1 / 2), 0; √(1 / 2), -√(1 / 2), 0; 0, 0, 1]

theorem half_sq : √(1 / 2 : ℝ) * √(1 / 2 : ℝ) = 1 / 2 := Real.mul_self_sqrt (by norm_num)

theorem exV_conj (a b c : ℝ) : exV * diagonal ![a, b, c] * exVᵀ = !![(a + b) / 2, (a - b) / 2, 0; (a - b) / 2, (a + b) / 2, 0; 0, 0, c] := by
  have h := half_sq
  unfold exV
  generalize √(1 / 2 : ℝ) = r at h
  have hD : (!![r, r, 0; r, -r, 0; 0, 0, 1] : Matrix (Fin 3) (Fin 3) ℝ) * diagonal ![a, b, c] = !![r * a, r * b, 0; r * a, -r * b, 0; 0, 0, c] := by
    ext i j
    rw [Matrix.mul_diagonal]
    fin_cases i <;> fin_cases j <;> simp
  rw [hD]
  ext i j
  fin_cases i <;> fin_cases j <;> simp [Matrix.mul_apply, Fin.sum_univ_three]
  · linear_combination (a + b) * h
  · linear_combination (a - b) * h
  · linear_combination (a - b) * h
  · linear_combination (a + b) * h

theorem exV_orth : exVᵀ * exV = 1 := by
  have h := half_sq
  ext i j
  fin_cases i <;> fin_cases j <;> simp [exV, Matrix.mul_apply, Fin.sum_univ_three] <;> simp at h <;> linarith

theorem ex_regularised : regularised (!![10, -6, 0; -6, 10, 0; 0, 0, 1] : Matrix (Fin 3) (Fin 3) ℝ) 0 = !![10, -6, 0; -6, 10, 0; 0, 0, 1] := by
  unfold regularised; rw [mul_zero, zero_smul, add_zero]

theorem ex_eigh : IsEigh (!![10, -6, 0; -6, 10, 0; 0, 0, 1] : Matrix (Fin 3) (Fin 3) ℝ) exV ![4, 16, 1] := by
  refine ⟨exV_orth, ?_⟩
  rw [exV_conj]
  norm_num

theorem ex_invRoot : invRoot exV ![4, 16, 1] = !![3 / 8, 1 / 8, 0; 1 / 8, 3 / 8, 0; 0, 0, 1] := by
  have h4 : √(1 / |4| : ℝ) = 1 / 2 := by
    rw [show (1 / |4| : ℝ) = (1 / 2) ^ 2 by norm_num, Real.sqrt_sq (by norm_num)]
  have h16 : √(1 / |16| : ℝ) = 1 / 4 := by
    rw [show (1 / |16| : ℝ) = (1 / 4) ^ 2 by norm_num, Real.sqrt_sq (by norm_num)]
  have : (fun i => if (![4, 16, 1] : Fin 3 → ℝ) i = 0 then (0 : ℝ) else √(1 / |(![4, 16, 1] : Fin 3 → ℝ) i|)) = ![1 / 2, 1 / 4, 1] := by
    funext i
    fin_cases i
    · simpa using h4
    · simpa using h16
    · simp
  unfold invRoot
  rw [this, exV_conj]
  norm_num

theorem ex_num : toCM (!![3 / 8, 1 / 8, 0; 1 / 8, 3 / 8, 0; 0, 0, 1] : Matrix (Fin 3) (Fin 3) ℝ) *
    pseudoNum (!![10, -6, 0; -6, 10, 0; 0, 0, 1]) (!![20, -12, 0; -12, 20, 0; 0, 0, 3]) (!![40, -24, 0; -24, 42, 0; 0, 0, 9]) 1 *
    toCM (!![3 / 8, 1 / 8, 0; 1 / 8, 3 / 8, 0; 0, 0, 1] : Matrix (Fin 3) (Fin 3) ℝ) = !![33 / 32, 3 / 32, 0; 3 / 32, 41 / 32, 0; 0, 0, 4] := by
  ext i j
  fin_cases i <;> fin_cases j <;> simp [pseudoNum, toCM, Matrix.mul_apply, Fin.sum_univ_three] <;> norm_num

theorem ex_smallest : IsSmallest (!![33 / 32, 3 / 32, 0; 3 / 32, 41 / 32, 0; 0, 0, 4] : Matrix (Fin 3) (Fin 3) ℂ) 1 ![3, -1, 0] := by
  refine ⟨?_, ?_, ?_⟩
  · intro h; have := congrFun h 0; simp at this
  · funext i; fin_cases i <;> simp [Matrix.mulVec, dotProduct, Fin.sum_univ_three] <;> norm_num
  · intro ev u hu he
    have h1 : (star u ⬝ᵥ (!![33 / 32, 3 / 32, 0; 3 / 32, 41 / 32, 0; 0, 0, 4] : Matrix (Fin 3) (Fin 3) ℂ) *ᵥ u).re = ev.re * sqn u := by
      rw [he, dotProduct_smul, dot_self, smul_eq_mul, Complex.re_mul_ofReal]
    have h2 : (star u ⬝ᵥ (!![33 / 32, 3 / 32, 0; 3 / 32, 41 / 32, 0; 0, 0, 4] : Matrix (Fin 3) (Fin 3) ℂ) *ᵥ u).re =
        sqn u + 1 / 32 * Complex.normSq (u 0 + 3 * u 1) + 3 * Complex.normSq (u 2) := by
      simp [Matrix.mulVec, dotProduct, Fin.sum_univ_three, sqn, Complex.normSq_apply]
      ring
    have h3 : sqn u ≤ ev.re * sqn u := by
      rw [← h1, h2]
      have := Complex.normSq_nonneg (u 0 + 3 * u 1)
      have := Complex.normSq_nonneg (u 2)
      linarith
    have h4 : 1 ≤ ev.re := by
      have := sqn_pos hu
      by_contra hc
      push Not at hc
      nlinarith
    rw [norm_one]
    exact h4.trans (Complex.re_le_norm ev)

/-- **C169, violated (pseudo eigenfunctions).** With `return_eigfuncs` the coefficients are those of an eigenvector before the back transformation with the inverse root of the Gram matrix. In this run the reported residual
at `z = 1` is 1, but the returned function has the squared residual `138/136`. (`C169_reduced` applies to the run.) -/
theorem C169_eigfuncs_violated : ∃ (ps : List ((Fin 3 → ℝ) × (Fin 3 → ℝ))) (f : Fin 3 → ℂ), PseudoReduced ps 0 1 1 f ∧ (∀ v, v ≠ 0 → 0 < weightOf 1 ps (frob (gram 1 none (startM ps) (startM ps)) * 0) v) ∧
    (1 : ℝ) ^ 2 * weightOf 1 ps (frob (gram 1 none (startM ps) (startM ps)) * 0) f < violation 1 ps 1 f := by
  refine ⟨exPairs, ![3, -1, 0], ?_, ?_, ?_⟩
  · unfold PseudoReduced IsPseudo
    rw [exPairs_G, exPairs_G', exPairs_R, ex_regularised]
    refine ⟨exV, ![4, 16, 1], 1, ex_eigh, ?_, by simp⟩
    rw [ex_invRoot, ex_num]
    exact ex_smallest
  · intro v hv
    have : weightOf 1 exPairs (frob (gram 1 none (startM exPairs) (startM exPairs)) * 0) v = 2 * Complex.normSq (v 0 + v 1) + 8 * Complex.normSq (v 0 - v 1) + Complex.normSq (v 2) := by
      simp [weightOf, exPairs, toC, dotProduct, Fin.sum_univ_three, Complex.normSq_apply]
      ring
    rw [this]
    by_contra hc
    push Not at hc
    have h1 := Complex.normSq_nonneg (v 0 + v 1)
    have h2 := Complex.normSq_nonneg (v 0 - v 1)
    have h3 := Complex.normSq_nonneg (v 2)
    have e1 : v 0 + v 1 = 0 := Complex.normSq_eq_zero.1 (by linarith)
    have e2 : v 0 - v 1 = 0 := Complex.normSq_eq_zero.1 (by linarith)
    have e3 : v 2 = 0 := Complex.normSq_eq_zero.1 (by linarith)
    apply hv
    funext i
    fin_cases i
    · change v 0 = 0; linear_combination (e1 + e2) / 2
    · change v 1 = 0; linear_combination (e1 - e2) / 2
    · exact e3
  · simp [weightOf, violation, exPairs, toC, dotProduct, Fin.sum_univ_three, Complex.normSq_apply]
    norm_num

/-- non-vacuity of `C169_full`: the same data (a collection of one row would be divided by `n = 1`) -/
example : PseudoFull 1 exPairs 0 1 1 ![3, -1, 0] := by
  have h : (startM exPairs)ᵀ * endM exPairs = !![20, -12, 0; -12, 20, 0; 0, 0, 3] := by
    have := congrArg Matrix.transpose exPairs_G'
    rw [Matrix.transpose_mul, Matrix.transpose_transpose] at this
    rw [this]
    ext i j
    fin_cases i <;> fin_cases j <;> rfl
  unfold PseudoFull IsPseudo
  rw [gram_one, gram_one, gram_one, h, exPairs_G, exPairs_R, ex_regularised]
  refine ⟨exV, ![4, 16, 1], 1, ex_eigh, ?_, by simp⟩
  rw [ex_invRoot, ex_num]
  exact ex_smallest

/-! ### When the methods can be called -/

/-- **C170** (partial: the parameters are not changed between fits): after a fit in spectral mode with `compute_pseudospectrum` and a rank or a residual filter, the pseudospectrum is that of the data of the last fit. -/
theorem C170_last_partial {δ : Type} (p : PsParams) (hp : p.spectral = true ∧ p.compute = true ∧ (p.rank = true ∨ p.filter = true)) (x : δ) (hist : List (PsParams × δ)) :
    psCall p (psFits ((p, x) :: hist)) = .ok x ∧ (p.filter = true → smCall p (psFits ((p, x) :: hist)) = .ok x) := by
  obtain ⟨h1, h2, h3⟩ := hp
  have : psFits ((p, x) :: hist) = .of x := by
    simp only [psFits, psFit, h1, h2, Bool.and_self, if_true]
    rcases h3 with h | h <;> simp [h]
  rw [this]
  constructor
  · simp [psCall, psRead, h2]
  · intro h; simp [smCall, psRead, h]

/-- **C170 (refused calls).** Whatever was fitted before, the pseudospectrum is refused while `compute_pseudospectrum` is not set, and the spectral measure while no residual filter is set. -/
theorem C170_refused {δ : Type} (p : PsParams) (s : PsStored δ) : (p.compute = false → ∃ e, psCall p s = .error e) ∧ (p.filter = false → ∃ e, smCall p s = .error e) :=
  ⟨fun h => ⟨.attribute, by simp [psCall, h]⟩, fun h => ⟨.attribute, by simp [smCall, h]⟩⟩

/-- non-vacuity: matrices are stored, but the filter has been removed since -/
example : ∃ e, smCall ⟨true, true, false, true⟩ (psFits [(⟨true, true, true, true⟩, (5 : Nat))]) = .error e := (C170_refused _ _).2 rfl

/-- **C170, violated (plain model).** `DMDStandard(compute_pseudospectrum=True)` is accepted, but after every fit the call raises an `AttributeError`. -/
theorem C170_plain_violated {δ : Type} (x : δ) (hist : List (PsParams × δ)) : psCall ⟨true, false, false, true⟩ (psFits ((⟨true, false, false, true⟩, x) :: hist)) = .error .attribute := rfl

/-- **C170, violated (filter only).** `spectral_measure` asks for a residual filter only, and then raises an `AttributeError` after the first fit. -/
theorem C170_measure_violated {δ : Type} (x : δ) (rank : Bool) : smCall ⟨false, rank, true, true⟩ (psFits [(⟨false, rank, true, true⟩, x)]) = .error .attribute := by
  cases rank <;> rfl

/-- **C170, violated (message).** Without `compute_pseudospectrum` the intended `ValueError` is never raised. -/
theorem C170_message_violated {δ : Type} (p : PsParams) (s : PsStored δ) : psCall p s ≠ .error .value := by
  unfold psCall
  cases p.compute
  · simp
  · cases s <;> simp [psRead]

/-- **C170, violated (history).** After `set_params(compute_pseudospectrum=False)` and a new fit, `spectral_measure` uses the matrices of the earlier fit. -/
theorem C170_history_violated {δ : Type} (x y : δ) : smCall ⟨false, false, true, true⟩ (psFits [(⟨false, false, true, true⟩, y), (⟨true, false, true, true⟩, x)]) = .ok x := rfl

/-! ### The spectral measure -/

/-- The value of the algorithm in terms of the matrices only: `r j` is the resolvent `(G' - λ G)⁻¹ G g` at the `j`-th pole `λ`. -/
noncomputable def measureSpec {m : Nat} (G G' : Matrix ι ι ℝ) (g : ι → ℝ) (c d lam : Fin m → ℂ) (r : Fin m → ι → ℂ) : ℝ :=
  -(1 / (2 * Real.pi)) * ∑ j, (c j * star (lam j) * (star (r j) ⬝ᵥ toC (G *ᵥ g)) + d j * (toC g ⬝ᵥ toCM G' *ᵥ r j)).re

theorem calcZ_injective (m : Nat) : Function.Injective (calcZ m) := by
  intro i j h
  unfold calcZ at h
  have hm : (m : ℂ) + 1 ≠ 0 := by exact_mod_cast Nat.succ_ne_zero m
  have h1 := mul_left_cancel₀ Complex.I_ne_zero (add_left_cancel h)
  have h2 : (2 * ((i : ℂ) + 1)) / ((m : ℂ) + 1) = (2 * ((j : ℂ) + 1)) / ((m : ℂ) + 1) := sub_left_injective h1
  rw [div_left_inj' hm] at h2
  have h3 := mul_left_cancel₀ two_ne_zero h2
  have h4 : ((i : Nat) : ℂ) = ((j : Nat) : ℂ) := add_right_cancel h3
  exact Fin.ext (by exact_mod_cast h4)

theorem calcZ_re (m : Nat) (j : Fin m) : (calcZ m j).re = 1 := by
  have h : ((2 * ((j : ℂ) + 1)) / ((m : ℂ) + 1) - 1) = (((2 * ((j : ℝ) + 1)) / ((m : ℝ) + 1) - 1 : ℝ) : ℂ) := by push_cast; rfl
  unfold calcZ
  rw [h, Complex.add_re, Complex.one_re, Complex.re_mul_ofReal, Complex.I_re, zero_mul, add_zero]

theorem weights_unique {m : Nat} {z : Fin m → ℂ} (hz : Function.Injective z) : ∃! c, IsWeights z c := by
  have hdet : IsUnit (vandermonde z)ᵀ := by
    rw [Matrix.isUnit_transpose, Matrix.isUnit_iff_isUnit_det, isUnit_iff_ne_zero]
    exact det_vandermonde_ne_zero_iff.2 hz
  have hiff : ∀ c : Fin m → ℂ, IsWeights z c ↔ (vandermonde z)ᵀ *ᵥ c = fun i : Fin m => if (i : Nat) = 0 then (1 : ℂ) else 0 := by
    intro c
    rw [funext_iff]
    rfl
  have hd := (Matrix.isUnit_iff_isUnit_det _).1 hdet
  refine ⟨((vandermonde z)ᵀ)⁻¹ *ᵥ (fun i : Fin m => if (i : Nat) = 0 then (1 : ℂ) else 0), ?_, ?_⟩
  · change IsWeights _ _
    rw [hiff, Matrix.mulVec_mulVec, Matrix.mul_nonsing_inv _ hd, Matrix.one_mulVec]
  · intro c hc
    rw [← (hiff c).1 hc, Matrix.mulVec_mulVec, Matrix.nonsing_inv_mul _ hd, Matrix.one_mulVec]

/-- **C171 (weights).** For every kernel order and every positive smoothing both linear systems for the weights have exactly one solution. -/
theorem C171_weights (m : Nat) {eps : ℝ} (he : 0 < eps) : (∃! d, IsWeights (calcZ m) d) ∧ ∃! c, IsWeights (calcSigma (calcZ m) eps) c := by
  refine ⟨weights_unique (calcZ_injective m), weights_unique ?_⟩
  intro i j h
  unfold calcSigma at h
  have he' : (eps : ℂ) ≠ 0 := by exact_mod_cast he.ne'
  have hne : ∀ k, (1 + eps * star (calcZ m k) : ℂ) ≠ 0 := by
    intro k hk
    have := congrArg Complex.re hk
    simp [calcZ_re] at this
    linarith
  rw [div_left_inj' he'] at h
  have h1 := sub_left_injective h
  rw [one_div, one_div, _root_.inv_inj] at h1
  have h2 := star_injective (mul_left_cancel₀ he' (add_left_cancel h1))
  exact calcZ_injective m h2

/-- **C171** (partial: if `Z² g = g` for the matrix `Z` of the decomposition): the value is that of the algorithm, so it does not depend on the decomposition. -/
theorem C171_value_partial {G G' S T Q Z : Matrix ι ι ℝ} (hqz : IsQz G' G S T Q Z) {g : ι → ℝ} (hZ : Z *ᵥ (Z *ᵥ g) = g) {m : Nat} {eps theta nu : ℝ} (h : MeasureWith S T Q Z g m eps theta nu)
    (hG : Gᵀ = G) (heps : 0 < eps) {c d : Fin m → ℂ} (hc : IsWeights (calcSigma (calcZ m) eps) c) (hd : IsWeights (calcZ m) d) {r : Fin m → ι → ℂ}
    (hr : ∀ (j : Fin m) (r' : ι → ℂ), (toCM G' - (Complex.exp (Complex.I * theta) * (1 + eps * calcZ m j)) • toCM G) *ᵥ r' = toC (G *ᵥ g) ↔ r' = r j) :
    nu = measureSpec G G' g c d (fun j => Complex.exp (Complex.I * theta) * (1 + eps * calcZ m j)) r := by
  obtain ⟨c', d', h, hd', hc', hh, rfl⟩ := h
  obtain rfl := (C171_weights m heps).2.unique hc' hc
  obtain rfl := (C171_weights m heps).1.unique hd' hd
  obtain ⟨hQ, hZo, hA, hB⟩ := hqz
  have hrj : ∀ j, r j = toCM Z *ᵥ h j := by
    intro j
    symm
    rw [← hr, hA, hB]
    simp only [toCM_mul]
    have hZ' : (toCM Zᵀ) * toCM Z = 1 := by rw [← toCM_mul, hZo, toCM_one]
    have e1 : (toCM Q * toCM S * toCM Zᵀ - (Complex.exp (Complex.I * theta) * (1 + eps * calcZ m j)) • (toCM Q * toCM T * toCM Zᵀ)) =
        toCM Q * (toCM S - (Complex.exp (Complex.I * theta) * (1 + eps * calcZ m j)) • toCM T) * toCM Zᵀ := by
      rw [Matrix.mul_sub, Matrix.sub_mul, Matrix.mul_smul, Matrix.smul_mul]
    rw [e1, Matrix.mulVec_mulVec, Matrix.mul_assoc, hZ', Matrix.mul_one, ← Matrix.mulVec_mulVec, hh j, toCM_mulVec']
    congr 1
    have : Zᵀ *ᵥ g = Z *ᵥ g := by
      conv_lhs => rw [← hZ]
      rw [Matrix.mulVec_mulVec, hZo, Matrix.one_mulVec]
    rw [← Matrix.mulVec_mulVec, this, ← Matrix.mulVec_mulVec]
  unfold measureRun measureSpec
  rw [Finset.mul_sum]
  refine Finset.sum_congr rfl (fun j _ => ?_)
  have e2 : star (h j) ⬝ᵥ toC (Tᵀ *ᵥ (Qᵀ *ᵥ g)) = star (r j) ⬝ᵥ toC (G *ᵥ g) := by
    have hGt : G = Z * Tᵀ * Qᵀ := by
      rw [← hG, hB, Matrix.transpose_mul, Matrix.transpose_mul, Matrix.transpose_transpose, Matrix.mul_assoc]
    rw [hrj j, Matrix.star_mulVec, toCM_herm, ← Matrix.dotProduct_mulVec, toCM_mulVec', hGt, ← Matrix.mulVec_mulVec, ← Matrix.mulVec_mulVec, Matrix.mulVec_mulVec _ Zᵀ Z, hZo, Matrix.one_mulVec]
  have e3 : star (toC (Sᵀ *ᵥ (Qᵀ *ᵥ g))) ⬝ᵥ h j = toC g ⬝ᵥ toCM G' *ᵥ r j := by
    have hs : ∀ x : ι → ℝ, star (toC x) = toC x := by intro x; funext i; simp [toC]
    rw [hs, hrj j, hA, Matrix.mulVec_mulVec (h j), ← toCM_mul, Matrix.mul_assoc, hZo, Matrix.mul_one, Matrix.dotProduct_mulVec, ← Matrix.mulVec_transpose]
    have : (toCM (Q * S))ᵀ = toCM (Sᵀ * Qᵀ) := by rw [← Matrix.transpose_mul]; rfl
    rw [this, toCM_mulVec', ← Matrix.mulVec_mulVec]
  simp only
  rw [e2, e3]
  ring

/-- **C171 (single observable).** For a single observable every result of the decomposition gives the value of the algorithm. -/
theorem C171_single_partial {G G' : Matrix (Fin 1) (Fin 1) ℝ} {g : Fin 1 → ℝ} {m : Nat} {eps theta nu : ℝ} (h : IsMeasure G G' g m eps theta nu) (heps : 0 < eps)
    {c d : Fin m → ℂ} (hc : IsWeights (calcSigma (calcZ m) eps) c) (hd : IsWeights (calcZ m) d) {r : Fin m → Fin 1 → ℂ}
    (hr : ∀ (j : Fin m) (r' : Fin 1 → ℂ), (toCM G' - (Complex.exp (Complex.I * theta) * (1 + eps * calcZ m j)) • toCM G) *ᵥ r' = toC (G *ᵥ g) ↔ r' = r j) :
    nu = measureSpec G G' g c d (fun j => Complex.exp (Complex.I * theta) * (1 + eps * calcZ m j)) r := by
  obtain ⟨S, T, Q, Z, hqz, h⟩ := h
  refine C171_value_partial hqz ?_ h (by ext i j; fin_cases i; fin_cases j; rfl) heps hc hd hr
  have h1 := hqz.2.1
  have h2 : Zᵀ = Z := by ext i j; fin_cases i; fin_cases j; rfl
  rw [h2] at h1
  rw [Matrix.mulVec_mulVec, h1, Matrix.one_mulVec]

/-- The first order kernel has the weight one. -/
theorem weights_one (z : Fin 1 → ℂ) : IsWeights z (fun _ => 1) := by
  intro i
  have : i = 0 := Subsingleton.elim _ _
  subst this
  simp

theorem calcZ_one : calcZ 1 0 = 1 := by
  unfold calcZ
  have : ((2 * (((0 : Fin 1) : Nat) : ℂ) + 1)) = 1 := by simp
  simp
  norm_num

/-- The runs for `G = G' = 1` with the decomposition `Q = Z`, `S = T = 1`. -/
theorem measure_identity {Z : Matrix ι ι ℝ} (hZ : Zᵀ * Z = 1) (g : ι → ℝ) {eps : ℝ} (he : 0 < eps) :
    IsMeasure (1 : Matrix ι ι ℝ) 1 g 1 eps 0 ((2 + eps) / (2 * Real.pi * eps) * ((Z *ᵥ g) ⬝ᵥ (Zᵀ *ᵥ g))) := by
  have hZ' : Z * Zᵀ = 1 := mul_eq_one_comm.1 hZ
  refine ⟨1, 1, Z, Z, ⟨hZ, hZ, by rw [Matrix.mul_one, hZ'], by rw [Matrix.mul_one, hZ']⟩, fun _ => 1, fun _ => 1, fun _ => (-(1 / eps) : ℂ) • toC (Z *ᵥ g), weights_one _, weights_one _, ?_, ?_⟩
  · intro j
    have : j = 0 := Subsingleton.elim _ _
    subst this
    have he' : (eps : ℂ) ≠ 0 := by exact_mod_cast he.ne'
    rw [calcZ_one, toCM_one, Matrix.one_mulVec, Matrix.sub_mulVec, Matrix.smul_mulVec, Matrix.one_mulVec]
    funext i
    simp
    field_simp
    ring
  · unfold measureRun
    have hs : ∀ x : ι → ℝ, star (toC x) = toC x := by intro x; funext i; simp [toC]
    have hd : ∀ x y : ι → ℝ, toC x ⬝ᵥ toC y = ((x ⬝ᵥ y : ℝ) : ℂ) := by intro x y; simp [toC, dotProduct]
    simp only [Finset.univ_unique, Fin.default_eq_zero, Fin.isValue, Finset.sum_singleton, calcZ_one, Matrix.transpose_one, Matrix.one_mulVec, star_smul, smul_dotProduct, dotProduct_smul, hs, hd]
    rw [dotProduct_comm (Zᵀ *ᵥ g) (Z *ᵥ g)]
    generalize (Z *ᵥ g) ⬝ᵥ (Zᵀ *ᵥ g) = t
    have : ((1 : ℂ) * star (Complex.exp (Complex.I * ((0 : ℝ) : ℂ)) * (1 + eps * 1)) * (star (-(1 / eps) : ℂ) • (t : ℂ)) + 1 * ((-(1 / eps) : ℂ) • (t : ℂ))) = ((-(2 + eps) / eps * t : ℝ) : ℂ) := by
      have he' : (eps : ℂ) ≠ 0 := by exact_mod_cast he.ne'
      simp
      field_simp
      ring
    rw [this, Complex.ofReal_re]
    have := Real.pi_ne_zero
    field_simp

/-- non-vacuity of `C171_value_partial`: the same matrices with the decomposition `Z = 1` -/
example (g : Fin 2 → ℝ) {eps : ℝ} (he : 0 < eps) : ∃ nu, MeasureWith (1 : Matrix (Fin 2) (Fin 2) ℝ) 1 1 1 g 1 eps 0 nu ∧
    nu = measureSpec 1 1 g (fun _ => 1) (fun _ => 1) (fun j => Complex.exp (Complex.I * (0 : ℝ)) * (1 + eps * calcZ 1 j)) (fun _ => (-(1 / eps) : ℂ) • toC g) := by
  have he' : (eps : ℂ) ≠ 0 := by exact_mod_cast he.ne'
  have hr : ∀ (j : Fin 1) (r' : Fin 2 → ℂ), (toCM (1 : Matrix (Fin 2) (Fin 2) ℝ) - (Complex.exp (Complex.I * (0 : ℝ)) * (1 + eps * calcZ 1 j)) • toCM 1) *ᵥ r' = toC ((1 : Matrix (Fin 2) (Fin 2) ℝ) *ᵥ g) ↔
      r' = (-(1 / eps) : ℂ) • toC g := by
    intro j r'
    have : j = 0 := Subsingleton.elim _ _
    subst this
    rw [calcZ_one, toCM_one, Matrix.one_mulVec, Matrix.sub_mulVec, Matrix.smul_mulVec, Matrix.one_mulVec, funext_iff, funext_iff]
    refine forall_congr' (fun i => ?_)
    simp
    constructor
    · intro h
      rw [← h]
      field_simp
      ring
    · intro h
      rw [h]
      field_simp
      ring
  have hm : MeasureWith (1 : Matrix (Fin 2) (Fin 2) ℝ) 1 1 1 g 1 eps 0 (measureRun (1 : Matrix (Fin 2) (Fin 2) ℝ) 1 1 g (fun _ => 1) (fun _ => 1) eps 0 (fun _ : Fin 1 => (-(1 / eps) : ℂ) • toC g)) :=
    ⟨fun _ => 1, fun _ => 1, _, weights_one _, weights_one _, fun j => by rw [(hr j _).2 rfl, Matrix.one_mulVec, Matrix.one_mulVec], rfl⟩
  exact ⟨_, hm, C171_value_partial ⟨by simp, by simp, by simp, by simp⟩ (by simp) hm (by simp) he (weights_one _) (weights_one _) hr⟩

/-- **C171, violated.** Identity dynamics, two observables: two admissible decompositions give two values of opposite sign, so one value of the measure is negative. -/
theorem C171_violated {eps : ℝ} (he : 0 < eps) : ∃ nu > 0, IsMeasure (1 : Matrix (Fin 2) (Fin 2) ℝ) 1 ![1, 0] 1 eps 0 nu ∧ IsMeasure (1 : Matrix (Fin 2) (Fin 2) ℝ) 1 ![1, 0] 1 eps 0 (-nu) := by
  have hpi := Real.pi_pos
  refine ⟨(2 + eps) / (2 * Real.pi * eps), by positivity, ?_, ?_⟩
  · have := measure_identity (Z := (1 : Matrix (Fin 2) (Fin 2) ℝ)) (by simp) ![1, 0] he
    simpa [dotProduct] using this
  · have := measure_identity (Z := (!![0, -1; 1, 0] : Matrix (Fin 2) (Fin 2) ℝ)) (by ext i j; fin_cases i <;> fin_cases j <;> simp [Matrix.mul_apply, Fin.sum_univ_two]) ![1, 0] he
    have e : ((!![0, -1; 1, 0] : Matrix (Fin 2) (Fin 2) ℝ) *ᵥ ![1, 0]) ⬝ᵥ ((!![0, -1; 1, 0] : Matrix (Fin 2) (Fin 2) ℝ)ᵀ *ᵥ ![1, 0]) = -1 := by
      simp [dotProduct, Matrix.mulVec]
    rw [e] at this
    rwa [mul_neg_one] at this

/-- **C171, violated (argument).** The caller's array is overwritten by the normed observable. -/
theorem C171_argument_violated : ∃ g : Fin 2 → ℝ, observableAfter g ≠ g := by
  refine ⟨![2, 0], fun h => ?_⟩
  have := congrFun h 0
  simp [observableAfter] at this

end Verif.Dmd
