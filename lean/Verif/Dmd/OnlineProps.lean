import Verif.Dmd.Online
import Verif.Dmd.StandardProps
import Mathlib.LinearAlgebra.Matrix.PosDef
import Mathlib.Algebra.Order.Star.Real
/-!
# `OnlineDMD` is exponentially weighted least squares, for every stream and every cut into batches
-/

namespace Verif.Dmd

open Verif.Tsc Verif.Lin Matrix

variable {ι : Type} [Fintype ι] [DecidableEq ι]

/-! ### Lemmas: weighted sums -/

/-- `Σ w x xᵀ` -/
def gramSum (ws : List ℝ) (ps : List ((ι → ℝ) × (ι → ℝ))) : Matrix ι ι ℝ := (List.zipWith (fun w p => w • vecMulVec p.1 p.1) ws ps).sum

/-- `Σ w y xᵀ` -/
def crossSum (ws : List ℝ) (ps : List ((ι → ℝ) × (ι → ℝ))) : Matrix ι ι ℝ := (List.zipWith (fun w p => w • vecMulVec p.2 p.1) ws ps).sum

/-- `Σ w |y|²` -/
def normSum (ws : List ℝ) (ps : List ((ι → ℝ) × (ι → ℝ))) : ℝ := (List.zipWith (fun w p => w * (p.2 ⬝ᵥ p.2)) ws ps).sum

omit [DecidableEq ι] in
theorem stepError_form (K : Matrix ι ι ℝ) (x y : ι → ℝ) :
    stepError K x y = y ⬝ᵥ y - 2 * (K * (vecMulVec y x)ᵀ).trace + (K * vecMulVec x x * Kᵀ).trace := by
  have h1 : (K * (vecMulVec y x)ᵀ).trace = (K *ᵥ x) ⬝ᵥ y := by
    rw [Matrix.transpose_vecMulVec, Matrix.mul_vecMulVec, Matrix.trace_vecMulVec]
  have h2 : (K * vecMulVec x x * Kᵀ).trace = (K *ᵥ x) ⬝ᵥ (K *ᵥ x) := by
    rw [Matrix.mul_vecMulVec, Matrix.vecMulVec_mul, Matrix.vecMul_transpose, Matrix.trace_vecMulVec]
  rw [h1, h2]
  unfold stepError dotProduct
  rw [Finset.mul_sum, ← Finset.sum_sub_distrib, ← Finset.sum_add_distrib]
  refine Finset.sum_congr rfl (fun i _ => ?_)
  ring

omit [DecidableEq ι] in
theorem totalError_form (K : Matrix ι ι ℝ) : ∀ (ws : List ℝ) (ps : List ((ι → ℝ) × (ι → ℝ))),
    totalError ws ps K = normSum ws ps - 2 * (K * (crossSum ws ps)ᵀ).trace + (K * gramSum ws ps * Kᵀ).trace
  | [], ps => by simp [totalError, normSum, crossSum, gramSum]
  | _ :: _, [] => by simp [totalError, normSum, crossSum, gramSum]
  | w :: ws, p :: ps => by
    have ih := totalError_form K ws ps
    have e1 : totalError (w :: ws) (p :: ps) K = w * stepError K p.1 p.2 + totalError ws ps K := by simp [totalError]
    have e2 : normSum (w :: ws) (p :: ps) = w * (p.2 ⬝ᵥ p.2) + normSum ws ps := by simp [normSum]
    have e3 : crossSum (w :: ws) (p :: ps) = w • vecMulVec p.2 p.1 + crossSum ws ps := by simp [crossSum]
    have e4 : gramSum (w :: ws) (p :: ps) = w • vecMulVec p.1 p.1 + gramSum ws ps := by simp [gramSum]
    rw [e1, e2, e3, e4, ih, stepError_form, Matrix.transpose_add, Matrix.transpose_smul, Matrix.mul_add, Matrix.mul_add, Matrix.add_mul, Matrix.mul_smul,
      Matrix.mul_smul, Matrix.smul_mul, Matrix.trace_add, Matrix.trace_add, Matrix.trace_smul, Matrix.trace_smul, smul_eq_mul, smul_eq_mul]
    ring

omit [DecidableEq ι] in
/-- `tr(D G Dᵀ) > 0` for a positive definite `G` and `D ≠ 0`. -/
theorem trace_pos {G D : Matrix ι ι ℝ} (hG : G.PosDef) (hD : D ≠ 0) : 0 < (D * G * Dᵀ).trace := by
  have h : (D * G * Dᵀ).trace = ∑ i, D i ⬝ᵥ (G *ᵥ D i) := by
    unfold Matrix.trace
    refine Finset.sum_congr rfl (fun i _ => ?_)
    rw [Matrix.diag_apply, Matrix.mul_assoc, Matrix.mul_apply]
    unfold dotProduct
    refine Finset.sum_congr rfl (fun j _ => ?_)
    rfl
  rw [h]
  obtain ⟨i, hi⟩ : ∃ i, D i ≠ 0 := by
    by_contra hcon
    push Not at hcon
    exact hD (funext hcon)
  have hnn : ∀ x : ι → ℝ, 0 ≤ x ⬝ᵥ (G *ᵥ x) := fun x => by simpa using hG.posSemidef.dotProduct_mulVec_nonneg x
  exact Finset.sum_pos' (fun j _ => hnn _) ⟨i, Finset.mem_univ i, by simpa using hG.dotProduct_mulVec_pos hi⟩

omit [DecidableEq ι] in
/-- Solving the normal equations of a positive definite quadratic form gives the unique minimiser. -/
theorem form_min {G H A : Matrix ι ι ℝ} (hG : G.PosDef) (h : A * G = H) (K : Matrix ι ι ℝ) (hK : K ≠ A) :
    - 2 * (A * Hᵀ).trace + (A * G * Aᵀ).trace < - 2 * (K * Hᵀ).trace + (K * G * Kᵀ).trace := by
  have hs : Gᵀ = G := by simpa [Matrix.IsHermitian] using hG.isHermitian
  have hp := trace_pos hG (sub_ne_zero.2 hK)
  have hH : Hᵀ = G * Aᵀ := by rw [← h, Matrix.transpose_mul, hs]
  have hc : (A * G * Kᵀ).trace = (K * G * Aᵀ).trace := by
    rw [← Matrix.trace_transpose]
    simp only [Matrix.transpose_mul, Matrix.transpose_transpose, hs, Matrix.mul_assoc]
  rw [Matrix.transpose_sub, Matrix.mul_sub, Matrix.sub_mul, Matrix.sub_mul, Matrix.sub_mul, Matrix.trace_sub, Matrix.trace_sub, Matrix.trace_sub, hc] at hp
  rw [hH, ← Matrix.mul_assoc, ← Matrix.mul_assoc]
  linarith

/-! ### The invariant -/

/-- The state solves the normal equations with the matrices `G`, `H`, and `P` is the inverse of `ρ G`. -/
structure OnlineInv (ρ : ℝ) (s : Online ι) (G H : Matrix ι ι ℝ) : Prop where
  pos : G.PosDef
  inv : s.P * (ρ • G) = 1
  sol : s.A * G = H

theorem onlineStep_inv {ρ : ℝ} (hρ : 0 < ρ) {s : Online ι} {G H : Matrix ι ι ℝ} (h : OnlineInv ρ s G H) (x y : ι → ℝ) :
    OnlineInv ρ (onlineStep ρ s (x, y)) (ρ • G + vecMulVec x x) (ρ • H + vecMulVec y x) := by
  have hs : Gᵀ = G := by simpa [Matrix.IsHermitian] using h.pos.isHermitian
  have hρG : (ρ • G).PosDef := h.pos.smul hρ
  have hPt : s.Pᵀ = s.P := by
    have h1 : (ρ • G) * s.Pᵀ = 1 := by
      have := congrArg Matrix.transpose h.inv
      rwa [Matrix.transpose_mul, Matrix.transpose_smul, hs, Matrix.transpose_one] at this
    calc s.Pᵀ = (s.P * (ρ • G)) * s.Pᵀ := by rw [h.inv, Matrix.one_mul]
      _ = s.P := by rw [Matrix.mul_assoc, h1, Matrix.mul_one]
  have hPpos : s.P.PosDef := by
    have : s.P = (ρ • G)⁻¹ := (Matrix.inv_eq_left_inv h.inv).symm
    rw [this]; exact hρG.inv
  have hq : 0 ≤ x ⬝ᵥ (s.P *ᵥ x) := by simpa using hPpos.posSemidef.dotProduct_mulVec_nonneg x
  set γ := 1 / (1 + x ⬝ᵥ (s.P *ᵥ x)) with hγ
  have hγ1 : γ * (1 + x ⬝ᵥ (s.P *ᵥ x)) = 1 := by rw [hγ]; field_simp
  set Px := s.P *ᵥ x with hPx
  have hPxG : Px ᵥ* (ρ • G) = x := by
    have : Px = x ᵥ* s.P := by rw [hPx, ← Matrix.vecMul_transpose, hPt]
    rw [this, Matrix.vecMul_vecMul, h.inv, Matrix.vecMul_one]
  have hPxG' : γ • (Px ᵥ* (ρ • G + vecMulVec x x)) = x := by
    rw [Matrix.vecMul_add, hPxG, Matrix.vecMul_vecMulVec, dotProduct_comm]
    have : x + (x ⬝ᵥ Px) • x = (1 + x ⬝ᵥ Px) • x := by rw [add_smul, one_smul]
    rw [this, smul_smul, hγ1, one_smul]
  set G' := ρ • G + vecMulVec x x with hG'
  have hG'pos : G'.PosDef := by
    rw [hG']
    apply hρG.add_posSemidef
    simpa using Matrix.posSemidef_vecMulVec_self_star x
  have hG's : G'ᵀ = G' := by simpa [Matrix.IsHermitian] using hG'pos.isHermitian
  have hinv : (s.P - γ • vecMulVec Px Px) * G' = 1 := by
    have : γ • vecMulVec Px Px * G' = vecMulVec Px x := by
      rw [Matrix.smul_mul, Matrix.vecMulVec_mul, ← Matrix.vecMulVec_smul, hPxG']
    rw [Matrix.sub_mul, this, hG', Matrix.mul_add, h.inv, Matrix.mul_vecMulVec, ← hPx, add_sub_cancel_right]
  have hsymm : (s.P - γ • vecMulVec Px Px)ᵀ = s.P - γ • vecMulVec Px Px := by
    rw [Matrix.transpose_sub, hPt, Matrix.transpose_smul, Matrix.transpose_vecMulVec]
  refine ⟨hG'pos, ?_, ?_⟩
  · have e : (onlineStep ρ s (x, y)).P = (1 / ρ) • (s.P - γ • vecMulVec Px Px) := by
      unfold onlineStep
      simp only [← hPx, ← hγ]
      rw [Matrix.transpose_smul, hsymm, ← two_smul ℝ, smul_smul]
      norm_num
    rw [e, Matrix.smul_mul, Matrix.mul_smul, hinv, smul_smul, one_div, inv_mul_cancel₀ hρ.ne', one_smul]
  · have e : (onlineStep ρ s (x, y)).A = s.A + vecMulVec (γ • (y - s.A *ᵥ x)) Px := rfl
    have e2 : vecMulVec (γ • (y - s.A *ᵥ x)) Px * G' = vecMulVec (y - s.A *ᵥ x) x := by
      rw [Matrix.vecMulVec_mul, Matrix.smul_vecMulVec, ← Matrix.vecMulVec_smul, hPxG']
    rw [e, Matrix.add_mul, e2, hG', Matrix.mul_add, Matrix.mul_smul, h.sol, Matrix.mul_vecMulVec, Matrix.sub_vecMulVec]
    abel

/-- Sums after one more pair. -/
theorem expWeights_succ (ρ : ℝ) (n : Nat) : expWeights ρ (n + 1) = (expWeights ρ n).map (ρ * ·) ++ [1] := by
  unfold expWeights
  rw [List.range_succ, List.map_append, List.map_map]
  congr 1
  · apply List.map_congr_left
    intro i hi
    have : i < n := List.mem_range.1 hi
    simp only [Function.comp_apply]
    rw [← pow_succ']
    congr 1; omega
  · simp

theorem sum_zip_scale {M : Type} [AddCommGroup M] [Module ℝ M] (f : (ι → ℝ) × (ι → ℝ) → M) (ρ : ℝ) (ws : List ℝ) (ps : List ((ι → ℝ) × (ι → ℝ)))
    (hl : ws.length = ps.length) (p : (ι → ℝ) × (ι → ℝ)) :
    (List.zipWith (fun w q => w • f q) (ws.map (ρ * ·) ++ [1]) (ps ++ [p])).sum = ρ • (List.zipWith (fun w q => w • f q) ws ps).sum + f p := by
  induction ws generalizing ps with
  | nil =>
    have : ps = [] := by simpa using hl.symm
    subst this; simp
  | cons w ws ih =>
    cases ps with
    | nil => simp at hl
    | cons q ps =>
      simp only [List.map_cons, List.cons_append, List.zipWith_cons_cons, List.sum_cons]
      rw [ih ps (by simpa using hl), smul_add, smul_smul, add_assoc]

theorem online_inv_fold {ρ : ℝ} (hρ : 0 < ρ) (ps : List ((ι → ℝ) × (ι → ℝ))) : ∀ {s : Online ι} {G H : Matrix ι ι ℝ}, OnlineInv ρ s G H →
    OnlineInv ρ (ps.foldl (onlineStep ρ) s) (ρ ^ ps.length • G + gramSum (expWeights ρ ps.length) ps) (ρ ^ ps.length • H + crossSum (expWeights ρ ps.length) ps) := by
  induction ps using List.reverseRecOn with
  | nil => intro s G H h; simpa [gramSum, crossSum] using h
  | append_singleton ps p ih =>
    intro s G H h
    rw [List.foldl_append, List.length_append]
    have := onlineStep_inv hρ (ih h) p.1 p.2
    have hl : (expWeights ρ ps.length).length = ps.length := by simp [expWeights]
    have eG : gramSum (expWeights ρ (ps.length + 1)) (ps ++ [p]) = ρ • gramSum (expWeights ρ ps.length) ps + vecMulVec p.1 p.1 := by
      unfold gramSum; rw [expWeights_succ]; exact sum_zip_scale (fun q => vecMulVec q.1 q.1) ρ _ ps hl p
    have eH : crossSum (expWeights ρ (ps.length + 1)) (ps ++ [p]) = ρ • crossSum (expWeights ρ ps.length) ps + vecMulVec p.2 p.1 := by
      unfold crossSum; rw [expWeights_succ]; exact sum_zip_scale (fun q => vecMulVec q.2 q.1) ρ _ ps hl p
    simp only [List.length_cons, List.length_nil, zero_add]
    rw [eG, eH, pow_succ', ← smul_smul, ← smul_smul]
    rw [smul_add, smul_add, add_assoc, add_assoc] at this
    exact this

theorem online_steps (ρ : ℝ) (ps : List ((ι → ℝ) × (ι → ℝ))) (s : Online ι) : (ps.foldl (onlineStep ρ) s).steps = s.steps + ps.length := by
  induction ps generalizing s with
  | nil => rfl
  | cons p ps ih => rw [List.foldl_cons, ih, List.length_cons]; simp only [onlineStep]; omega

/-! ### Lemmas: the batch fit -/

omit [Fintype ι] [DecidableEq ι] in
theorem zipWith_range {M : Type} [AddCommMonoid M] [Module ℝ M] (f : (ι → ℝ) × (ι → ℝ) → M) (ρ : ℝ) (ps : List ((ι → ℝ) × (ι → ℝ))) :
    (List.zipWith (fun w p => w • f p) (expWeights ρ ps.length) ps).sum = ∑ k : Fin ps.length, ρ ^ (ps.length - 1 - (k : Nat)) • f ps[k] := by
  rw [← Fin.sum_ofFn]
  congr 1
  apply List.ext_getElem
  · simp [expWeights]
  · intro i h1 h2
    simp [expWeights]

theorem weighted_gram {ρ : ℝ} (hρ : 0 < ρ) (ps : List ((ι → ℝ) × (ι → ℝ))) :
    (weighted ρ (startM ps))ᵀ * weighted ρ (startM ps) = gramSum (expWeights ρ ps.length) ps ∧
    (weighted ρ (endM ps))ᵀ * weighted ρ (startM ps) = crossSum (expWeights ρ ps.length) ps := by
  have hw : ∀ n : Nat, √ρ ^ n * √ρ ^ n = ρ ^ n := by
    intro n; rw [← mul_pow, Real.mul_self_sqrt hρ.le]
  constructor
  · unfold gramSum
    rw [zipWith_range (fun p => vecMulVec p.1 p.1)]
    ext i j
    rw [Matrix.mul_apply, Matrix.sum_apply]
    refine Finset.sum_congr rfl (fun k _ => ?_)
    simp only [weighted, startM, Matrix.transpose_apply, Matrix.of_apply, Matrix.smul_apply, vecMulVec_apply, smul_eq_mul]
    rw [← hw]; ring
  · unfold crossSum
    rw [zipWith_range (fun p => vecMulVec p.2 p.1)]
    ext i j
    rw [Matrix.mul_apply, Matrix.sum_apply]
    refine Finset.sum_congr rfl (fun k _ => ?_)
    simp only [weighted, startM, endM, Matrix.transpose_apply, Matrix.of_apply, Matrix.smul_apply, vecMulVec_apply, smul_eq_mul]
    rw [← hw]; ring

theorem weighted_posDef {ρ : ℝ} (hρ : 0 < ρ) (ps : List ((ι → ℝ) × (ι → ℝ))) (hspan : Submodule.span ℝ {x | ∃ p ∈ ps, p.1 = x} = ⊤) :
    (gramSum (expWeights ρ ps.length) ps).PosDef := by
  rw [← (weighted_gram hρ ps).1]
  have : (weighted ρ (startM ps))ᵀ = (weighted ρ (startM ps))ᴴ := by ext i j; simp
  rw [this]
  apply Matrix.PosDef.conjTranspose_mul_self
  change Function.Injective (weighted ρ (startM ps)).mulVecLin
  rw [injective_iff_map_eq_zero (weighted ρ (startM ps)).mulVecLin]
  intro v hv
  have hz : ∀ p ∈ ps, p.1 ⬝ᵥ v = 0 := by
    intro p hp
    obtain ⟨k, hk, rfl⟩ := List.getElem_of_mem hp
    have h1 := congrFun hv ⟨k, hk⟩
    have h2 : (weighted ρ (startM ps) *ᵥ v) ⟨k, hk⟩ = √ρ ^ (ps.length - 1 - k) * (ps[k].1 ⬝ᵥ v) := by
      simp only [Matrix.mulVec, dotProduct, weighted, startM, Matrix.of_apply, Finset.mul_sum, mul_assoc]
      rfl
    rw [Matrix.mulVecLin_apply, h2] at h1
    rcases mul_eq_zero.1 h1 with h | h
    · exact absurd h (pow_ne_zero _ (Real.sqrt_pos.2 hρ).ne')
    · exact h
  have hall : ∀ x : ι → ℝ, x ⬝ᵥ v = 0 := by
    intro x
    have hx : x ∈ Submodule.span ℝ {x | ∃ p ∈ ps, p.1 = x} := by rw [hspan]; trivial
    induction hx using Submodule.span_induction with
    | mem x hx => obtain ⟨p, hp, rfl⟩ := hx; exact hz p hp
    | zero => exact zero_dotProduct v
    | add x y _ _ h1 h2 => rw [add_dotProduct, h1, h2, add_zero]
    | smul a x _ h => rw [smul_dotProduct, h, smul_zero]
  exact dotProduct_self_eq_zero.1 (hall v)

theorem batch_inv {ρ : ℝ} (hρ : 0 < ρ) {ps : List ((ι → ℝ) × (ι → ℝ))} (hspan : Submodule.span ℝ {x | ∃ p ∈ ps, p.1 = x} = ⊤) {s : Online ι}
    (h : OnlineBatch ρ ps s) : OnlineInv ρ s (gramSum (expWeights ρ ps.length) ps) (crossSum (expWeights ρ ps.length) ps) := by
  obtain ⟨⟨hA, -⟩, ⟨hP, -⟩, -⟩ := h
  obtain ⟨e1, e2⟩ := weighted_gram hρ ps
  have hpos := weighted_posDef hρ ps hspan
  refine ⟨hpos, ?_, ?_⟩
  · rw [e1] at hP
    have hu : IsUnit (gramSum (expWeights ρ ps.length) ps).det := (Matrix.isUnit_iff_isUnit_det _).1 hpos.isUnit
    have hsol := hP.solves (Matrix.mul_nonsing_inv _ hu)
    rw [Matrix.mul_smul, ← Matrix.smul_mul]
    exact mul_eq_one_comm.1 hsol
  · rw [isLstsqM_iff] at hA
    have := congrArg Matrix.transpose hA
    rw [Matrix.transpose_mul, Matrix.transpose_transpose, Matrix.transpose_mul, Matrix.transpose_transpose, Matrix.transpose_mul, Matrix.transpose_transpose] at this
    rw [← e1, ← e2, this]

theorem sums_append {M : Type} [AddCommGroup M] [Module ℝ M] (f : (ι → ℝ) × (ι → ℝ) → M) (ρ : ℝ) (ps qs : List ((ι → ℝ) × (ι → ℝ))) :
    (List.zipWith (fun w q => w • f q) (expWeights ρ (ps ++ qs).length) (ps ++ qs)).sum =
      ρ ^ qs.length • (List.zipWith (fun w q => w • f q) (expWeights ρ ps.length) ps).sum + (List.zipWith (fun w q => w • f q) (expWeights ρ qs.length) qs).sum := by
  induction qs using List.reverseRecOn with
  | nil => simp
  | append_singleton qs p ih =>
    have hl : ∀ n, (expWeights ρ n).length = n := by intro n; simp [expWeights]
    have e1 : ps ++ (qs ++ [p]) = (ps ++ qs) ++ [p] := by rw [List.append_assoc]
    have e2 : ((ps ++ qs) ++ [p]).length = (ps ++ qs).length + 1 := by rw [List.length_append]; rfl
    have e3 : (qs ++ [p]).length = qs.length + 1 := by simp
    rw [e1, e2, e3, expWeights_succ, expWeights_succ, sum_zip_scale f ρ _ _ (hl _), sum_zip_scale f ρ _ _ (hl _), ih, smul_add, smul_smul, pow_succ', add_assoc]

/-! ### The properties -/

/-- **C32, initialised with a batch.** The model is fitted with a batch of snapshot pairs whose states span the space, and updated with any number of further pairs.  Then the system matrix
is the unique minimiser of the exponentially weighted squared error (`ρ^age`) over all pairs seen so far. -/
theorem C32_batch_partial {ρ : ℝ} (hρ : 0 < ρ) {ps : List ((ι → ℝ) × (ι → ℝ))} (hspan : Submodule.span ℝ {x | ∃ p ∈ ps, p.1 = x} = ⊤) {s : Online ι}
    (h : OnlineBatch ρ ps s) (qs : List ((ι → ℝ) × (ι → ℝ))) (K : Matrix ι ι ℝ) (hK : K ≠ (qs.foldl (onlineStep ρ) s).A) :
    totalError (expWeights ρ (ps ++ qs).length) (ps ++ qs) (qs.foldl (onlineStep ρ) s).A < totalError (expWeights ρ (ps ++ qs).length) (ps ++ qs) K := by
  have hi := online_inv_fold hρ qs (batch_inv hρ hspan h)
  have eG : gramSum (expWeights ρ (ps ++ qs).length) (ps ++ qs) = _ := sums_append (fun q => vecMulVec q.1 q.1) ρ ps qs
  have eH : crossSum (expWeights ρ (ps ++ qs).length) (ps ++ qs) = _ := sums_append (fun q => vecMulVec q.2 q.1) ρ ps qs
  have hpos := hi.pos
  have hsol := hi.sol
  unfold gramSum at eG hpos hsol
  unfold crossSum at eH hsol
  rw [← eG] at hpos hsol
  rw [← eH] at hsol
  have := form_min hpos hsol K hK
  rw [totalError_form, totalError_form]
  unfold crossSum gramSum
  linarith

/-- **C32, cutting the stream.** Feeding collections one after the other gives the same state as feeding all their snapshot pairs in one go. -/
theorem C32_cut (ρ : ℝ) (cs : List (List (Row Int (ι → ℝ)))) (h : ∀ c ∈ cs, c ≠ [] ∧ Valid c ∧ (∀ i, HasId c i → 2 ≤ (series c i).length) ∧ (IdsAscending c ∨ EqualLengths c))
    (s : Online ι) : cs.foldlM (onlinePartialFit ρ) s = .ok ((cs.flatMap snapshotPairs).foldl (onlineStep ρ) s) := by
  induction cs generalizing s with
  | nil => rfl
  | cons c cs ih =>
    obtain ⟨h1, h2, h3, h4⟩ := h c (by simp)
    obtain ⟨L, R, hs, -, hz⟩ := C03_shift_matrices_partial h1 h2 h3 h4
    rw [List.foldlM_cons, List.flatMap_cons, List.foldl_append]
    have : onlinePartialFit ρ s c = .ok ((snapshotPairs c).foldl (onlineStep ρ) s) := by
      unfold onlinePartialFit; rw [hs]; simp only; rw [hz]
    rw [this]
    exact ih (fun c' hc' => h c' (by simp [hc'])) _

/-- **C32, counter.** `timestep_` is the number of snapshot pairs, and the model is ready exactly when twice the number of features has been seen. -/
theorem C32_ready (ρ : ℝ) (s : Online ι) (qs : List ((ι → ℝ) × (ι → ℝ))) :
    onlineReady true (qs.foldl (onlineStep ρ) s) = true ↔ 2 * Fintype.card ι ≤ s.steps + qs.length := by
  unfold onlineReady; rw [online_steps]; simp

/-- **C32, default initialisation** (partial: with the ghost data).  Without a batch the system matrix is the unique minimiser of the weighted error plus the penalty
`ρ^n / (α ρ) · ‖K - A₀‖²` which pulls it to the random start matrix. -/
theorem C32_default_partial {ρ α : ℝ} (hρ : 0 < ρ) (hα : 0 < α) (A₀ : Matrix ι ι ℝ) (qs : List ((ι → ℝ) × (ι → ℝ))) (K : Matrix ι ι ℝ)
    (hK : K ≠ (qs.foldl (onlineStep ρ) (onlineInit α A₀)).A) :
    ρ ^ qs.length / (α * ρ) * sqSum ((qs.foldl (onlineStep ρ) (onlineInit α A₀)).A - A₀) + totalError (expWeights ρ qs.length) qs (qs.foldl (onlineStep ρ) (onlineInit α A₀)).A
      < ρ ^ qs.length / (α * ρ) * sqSum (K - A₀) + totalError (expWeights ρ qs.length) qs K := by
  have hε : 0 < 1 / (α * ρ) := by positivity
  have h0 : OnlineInv ρ (onlineInit α A₀) ((1 / (α * ρ)) • 1) ((1 / (α * ρ)) • A₀) := by
    refine ⟨(Matrix.PosDef.one).smul hε, ?_, ?_⟩
    · unfold onlineInit
      simp only
      rw [smul_smul, Matrix.smul_mul, Matrix.mul_smul, Matrix.one_mul, smul_smul]
      have : α * (ρ * (1 / (α * ρ))) = 1 := by field_simp
      rw [this, one_smul]
    · unfold onlineInit
      rw [Matrix.mul_smul, Matrix.mul_one]
  have hi := online_inv_fold hρ qs h0
  have := form_min hi.pos hi.sol K hK
  have hq : ∀ M : Matrix ι ι ℝ, ρ ^ qs.length / (α * ρ) * sqSum (M - A₀) + totalError (expWeights ρ qs.length) qs M =
      (-2 * (M * (ρ ^ qs.length • (1 / (α * ρ)) • A₀ + crossSum (expWeights ρ qs.length) qs)ᵀ).trace
        + (M * (ρ ^ qs.length • (1 / (α * ρ)) • 1 + gramSum (expWeights ρ qs.length) qs) * Mᵀ).trace)
        + (ρ ^ qs.length / (α * ρ) * sqSum A₀ + normSum (expWeights ρ qs.length) qs) := by
    intro M
    rw [totalError_form, sub_eq_add_neg, sqSum_add]
    have e1 : sqSum (-A₀) = sqSum A₀ := by simp [sqSum]
    have e2 : (Mᵀ * -A₀).trace = - (M * A₀ᵀ).trace := by
      rw [Matrix.mul_neg, Matrix.trace_neg, Matrix.trace_mul_comm, ← Matrix.trace_transpose, Matrix.transpose_mul, Matrix.transpose_transpose]
    have e3 : sqSum M = (M * Mᵀ).trace := by rw [sqSum_trace, Matrix.trace_mul_comm]
    rw [e1, e2, e3]
    simp only [Matrix.transpose_add, Matrix.transpose_smul, Matrix.mul_add, Matrix.add_mul, Matrix.mul_smul, Matrix.smul_mul, Matrix.trace_add, Matrix.trace_smul,
      smul_eq_mul, Matrix.mul_one]
    ring
  rw [hq, hq]
  linarith

/-- **C32, violated by the default initialisation.** One feature, one pair `1 ↦ 0`: the least squares solution is `0`, the model returns `a₀ / (1 + α)` which is not zero unless the random
number `a₀` is. -/
theorem C32_default_violated {α a₀ : ℝ} (hα : 0 < α) (ha : a₀ ≠ 0) :
    totalError (expWeights 1 1) [(![1], ![0])] (!![0] : Matrix (Fin 1) (Fin 1) ℝ) <
      totalError (expWeights 1 1) [(![1], ![0])] (([(![1], ![0])] : List ((Fin 1 → ℝ) × (Fin 1 → ℝ))).foldl (onlineStep 1) (onlineInit α !![a₀])).A := by
  have e : (([(![1], ![0])] : List ((Fin 1 → ℝ) × (Fin 1 → ℝ))).foldl (onlineStep 1) (onlineInit α !![a₀])).A 0 0 = a₀ / (1 + α) := by
    have : (1 + α) ≠ 0 := by positivity
    have e0 : ((α • (1 : Matrix (Fin 1) (Fin 1) ℝ)) *ᵥ ![1]) = ![α] := by
      funext i; fin_cases i; simp [Matrix.smul_mulVec]
    have e1 : ((!![a₀] : Matrix (Fin 1) (Fin 1) ℝ) *ᵥ ![1]) = ![a₀] := by
      funext i; fin_cases i; simp
    simp only [List.foldl_cons, List.foldl_nil, onlineStep, onlineInit, e0, e1, Matrix.add_apply, vecMulVec_apply]
    simp [dotProduct]
    field_simp
    ring
  have hne : a₀ / (1 + α) ≠ 0 := div_ne_zero ha (by positivity)
  have hp : 0 < (a₀ / (1 + α)) ^ 2 := by positivity
  rw [List.foldl_cons, List.foldl_nil] at e ⊢
  simpa [totalError, expWeights, stepError, Matrix.mulVec, dotProduct, e] using hp

/-- **C32, violated by a batch of rank deficient data.** One feature, batch `0 ↦ 0`: `_P` is zero, and no later data changes the system matrix: after `1 ↦ 5` it still is `0`. -/
theorem C32_deficient_violated {ρ : ℝ} (hρ : 0 < ρ) {s : Online (Fin 1)} (h : OnlineBatch ρ [(![0], ![0])] s) :
    (([(![1], ![5])] : List ((Fin 1 → ℝ) × (Fin 1 → ℝ))).foldl (onlineStep ρ) s).A = 0 := by
  obtain ⟨⟨-, hA⟩, ⟨-, hP⟩, -⟩ := h
  have hX : weighted ρ (startM ([(![0], ![0])] : List ((Fin 1 → ℝ) × (Fin 1 → ℝ)))) = 0 := by
    ext i j; fin_cases i; fin_cases j; simp [weighted, startM]
  have hY : weighted ρ (endM ([(![0], ![0])] : List ((Fin 1 → ℝ) × (Fin 1 → ℝ)))) = 0 := by
    ext i j; fin_cases i; fin_cases j; simp [weighted, endM]
  have hA0 : s.A = 0 := by
    have := hA 0 (by rw [hX, hY]; intro Z'; simp)
    have := le_antisymm (this.trans_eq (sqSum_eq_zero.2 rfl)) (sqSum_nonneg _)
    have := congrArg Matrix.transpose (sqSum_eq_zero.1 this)
    simpa using this
  have hP0 : s.P = 0 := by
    have := hP 0 (by rw [hX]; intro Z'; simp)
    have := le_antisymm (this.trans_eq (sqSum_eq_zero.2 rfl)) (sqSum_nonneg _)
    rcases smul_eq_zero.1 (sqSum_eq_zero.1 this) with h | h
    · exact absurd h hρ.ne'
    · exact h
  simp [onlineStep, hA0, hP0]

/-- The batch of the previous theorem has a result. -/
theorem exists_deficient (ρ : ℝ) : OnlineBatch ρ [(![0], ![0])] (⟨0, 0, 1⟩ : Online (Fin 1)) := by
  have hX : weighted ρ (startM ([(![0], ![0])] : List ((Fin 1 → ℝ) × (Fin 1 → ℝ)))) = 0 := by
    ext i j; fin_cases i; fin_cases j; simp [weighted, startM]
  have hY : weighted ρ (endM ([(![0], ![0])] : List ((Fin 1 → ℝ) × (Fin 1 → ℝ)))) = 0 := by
    ext i j; fin_cases i; fin_cases j; simp [weighted, endM]
  refine ⟨⟨?_, ?_⟩, ⟨?_, ?_⟩, rfl⟩
  · rw [hX, hY]; intro Z'; simp
  · intro Z' _; simp only [Matrix.transpose_zero]; rw [sqSum_eq_zero.2 rfl]; exact sqSum_nonneg _
  · rw [hX]; intro Z'; simp
  · intro Z' _; simp only [smul_zero]; rw [sqSum_eq_zero.2 rfl]; exact sqSum_nonneg _

theorem minNorm_of_unit {α β γ : Type} [Fintype α] [Fintype β] [Fintype γ] [DecidableEq β] {X : Matrix α β ℝ} (Y : Matrix α γ ℝ) (hu : IsUnit (Xᵀ * X).det) :
    IsMinNormLstsq X Y ((Xᵀ * X)⁻¹ * (Xᵀ * Y)) := by
  refine ⟨(isLstsqM_iff X Y _).2 (by rw [← Matrix.mul_assoc, Matrix.mul_nonsing_inv _ hu, Matrix.one_mul]), ?_⟩
  intro Z' hZ'
  rw [isLstsqM_iff] at hZ'
  rw [← hZ', ← Matrix.mul_assoc, Matrix.nonsing_inv_mul _ hu, Matrix.one_mul]

/-- Every batch whose states span the space can be fitted (the hypotheses of `C32_batch_partial` are met by all such data). -/
theorem C32_exists {ρ : ℝ} (hρ : 0 < ρ) {ps : List ((ι → ℝ) × (ι → ℝ))} (hspan : Submodule.span ℝ {x | ∃ p ∈ ps, p.1 = x} = ⊤) : ∃ s, OnlineBatch ρ ps s := by
  have hpos := weighted_posDef hρ ps hspan
  rw [← (weighted_gram hρ ps).1] at hpos
  set X := weighted ρ (startM ps)
  have hu : IsUnit (Xᵀ * X).det := (Matrix.isUnit_iff_isUnit_det _).1 hpos.isUnit
  have hu2 : IsUnit ((Xᵀ * X)ᵀ * (Xᵀ * X)).det := by
    rw [Matrix.det_mul, Matrix.det_transpose]; exact hu.mul hu
  refine ⟨⟨((Xᵀ * X)⁻¹ * (Xᵀ * weighted ρ (endM ps)))ᵀ, (1 / ρ) • (((Xᵀ * X)ᵀ * (Xᵀ * X))⁻¹ * ((Xᵀ * X)ᵀ * 1)), ps.length⟩, ?_, ?_, rfl⟩
  · rw [Matrix.transpose_transpose]; exact minNorm_of_unit _ hu
  · rw [smul_smul, mul_one_div_cancel hρ.ne', one_smul]; exact minNorm_of_unit _ hu2

/-- non-vacuity: the data of `exS` can be used as the first batch and as an update -/
example : ∃ s, OnlineBatch (1 / 2) (snapshotPairs exS) s ∧ ∃ s', [exS].foldlM (onlinePartialFit (1 / 2)) s = .ok s' := by
  obtain ⟨s, hs⟩ := C32_exists (ρ := 1 / 2) (by norm_num) exS_span
  exact ⟨s, hs, _, C32_cut _ [exS] (by
    intro c hc
    rw [List.mem_singleton.1 hc]
    exact ⟨by simp [exS], exS_valid, exS_two, Or.inl (by unfold IdsAscending; decide)⟩) s⟩

end Verif.Dmd
