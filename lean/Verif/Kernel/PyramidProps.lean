import Verif.Kernel.PyramidLemmas
import Mathlib.Analysis.SpecificLimits.Normed
import Mathlib.Tactic.Positivity
/-!
# C54, C109, C110: Laplacian pyramids

`lpFit cfg funcs X y fuel` is `fit` with at most `fuel` iterations of the loop, where `funcs` lists all target functions.  `norm2` is the Euclidean norm of a column.
-/

namespace Verif.Kernel

open Matrix

variable {m n d e : Type} [Fintype m] [Fintype n] [Fintype d] [Fintype e] [DecidableEq d] [DecidableEq n]

/-! ## C54 -/

/-- C54: whenever `fit` ends (not auto-adaptive), the prediction at the training points has for every target function a residual norm of at most the tolerance, or below `1e-15`. -/
theorem C54_residual_partial (cfg : LpConfig) (h0 : 0 ≤ cfg.alpha) (h1 : cfg.alpha ≤ 1) (ha : cfg.autoAdaptive = false) (tol : ℝ) (ht : cfg.residualTol = some tol)
    (funcs : List d) (hf : ∀ c, c ∈ funcs) (X : n → e → ℝ) (y : d → n → ℝ) (fuel : Nat) (levels : List (Level n d)) (h : lpFit cfg funcs X y fuel = .ok (some levels)) :
    ∃ yhat, lpPredict cfg X levels X = .ok yhat ∧ ∀ c, norm2 (fun i => y c i - yhat c i) ≤ tol ∨ norm2 (fun i => y c i - yhat c i) < 1 / 10 ^ 15 := by
  obtain ⟨-, -, -, hn, hloop⟩ := lpFit_ok h
  haveI : Nonempty n := Fintype.card_pos_iff.mp (by omega)
  obtain ⟨s, ⟨⟨g, hI⟩, hsum, hdone⟩, rfl, hend⟩ := lpLoop_inv cfg (lpDistance X X) y
    (fun s => (∃ g, LpInv y s g) ∧ lpSum cfg (lpDistance X X) s.levels (fun _ => 0) = .ok s.approx ∧
      ∀ c, c ∉ s.active → norm2 (y c - s.approx c) ≤ tol ∨ norm2 (y c - s.approx c) < 1 / 10 ^ 15) (by
        rintro s s' ⟨⟨g, hI⟩, hsum, hdone⟩ hc hstep
        obtain ⟨hpos, hs'⟩ := lpStep_ok h0 h1 hstep
        rw [lpDiagonal_false ha] at hs'
        obtain ⟨k1, k2, k3, -, -, -⟩ := hI.step hc hs'
        obtain ⟨j1, -, -, -, -, -, j7⟩ := lpUpdate_spec cfg y _ _ s g (hI.1 (hI.active_ne hc)) hI.2.1 s' hs'
        have hkeep : s.active.filter (fun c => s'.conds c ≠ .loocvIncreases) = s.active := by
          rw [List.filter_eq_self]
          intro c hcm
          rw [k3 c hcm]
          simpa using rule_manual ha
        rw [hkeep, if_neg (hI.active_ne hc)] at j7
        refine ⟨⟨_, k1⟩, ?_, fun c hcn => ?_⟩
        · rw [j7, lpSum_append cfg _ ⟨s.eps, _, _, _, _⟩ _ (lpQuery_ok h0 h1 hpos rfl X) _ _ _ hsum]
          congr 1
          funext c
          rw [j1 c, List.map_map]
          dsimp only
          congr 1
          exact columnOf_map s.active (fun c => levelMatrix cfg.alpha s.eps X X *ᵥ (y c - s.approx c)) c
        · by_cases hcm : c ∈ s.active
          · have hne : terminationRule cfg (norm2 (y c - s'.approx c)) (g c) ≠ .noTermination := by
              rw [← k3 c hcm]
              exact fun x => hcn ((k1.2.2 c).mpr x)
            rcases rule_stopped ha hne with ⟨t, h2, h3⟩ | h3
            · rw [ht] at h2
              cases h2
              exact Or.inl h3
            · exact Or.inr h3
          · rw [k2 c, if_neg hcm]
            exact hdone c hcm) fuel _ _ ⟨⟨_, LpInv.init cfg hf y⟩, rfl, fun c hc => absurd (hf c) hc⟩ hloop
  exact ⟨s.approx, hsum, fun c => hdone c (fun x => hend c ((hI.2.2 c).mp x))⟩

/-- C54 for tolerances of at least `1e-15`. -/
theorem C54_residual (cfg : LpConfig) (h0 : 0 ≤ cfg.alpha) (h1 : cfg.alpha ≤ 1) (ha : cfg.autoAdaptive = false) (tol : ℝ) (ht : cfg.residualTol = some tol) (htol : 1 / 10 ^ 15 ≤ tol)
    (funcs : List d) (hf : ∀ c, c ∈ funcs) (X : n → e → ℝ) (y : d → n → ℝ) (fuel : Nat) (levels : List (Level n d)) (h : lpFit cfg funcs X y fuel = .ok (some levels)) :
    ∃ yhat, lpPredict cfg X levels X = .ok yhat ∧ ∀ c, norm2 (fun i => y c i - yhat c i) ≤ tol := by
  obtain ⟨yhat, h2, h3⟩ := C54_residual_partial cfg h0 h1 ha tol ht funcs hf X y fuel levels h
  exact ⟨yhat, h2, fun c => (h3 c).elim id (fun x => (x.trans_le htol).le)⟩

/-! ## Two points -/

/-- Two points on a line. -/
def pyX (x : ℝ) : Fin 2 → Fin 1 → ℝ := ![![0], ![x]]

theorem pyX_matrix (α eps x : ℝ) (i j : Fin 2) : levelMatrix α eps (pyX x) (pyX x) i j =
    (if i = j then 1 else Real.exp (-1 / (2 * eps) * x ^ 2)) / (1 + Real.exp (-1 / (2 * eps) * x ^ 2)) := by
  have hg : 0 < Real.exp (-1 / (2 * eps) * x ^ 2) := Real.exp_pos _
  have hK : ∀ i j : Fin 2, gaussM eps (lpDistance (pyX x) (pyX x)) i j = if i = j then 1 else Real.exp (-1 / (2 * eps) * x ^ 2) := by
    intro i j
    fin_cases i <;> fin_cases j <;> simp [gaussM, lpDistance, sqDist, pyX]
  have hS : ∀ i, rowSums (gaussM eps (lpDistance (pyX x) (pyX x))) i = 1 + Real.exp (-1 / (2 * eps) * x ^ 2) := by
    intro i
    simp only [rowSums, Fin.sum_univ_two, hK]
    fin_cases i <;> simp [add_comm]
  generalize Real.exp (-1 / (2 * eps) * x ^ 2) = g at hg hK hS ⊢
  have hp : 0 < (1 + g) ^ α := Real.rpow_pos_of_pos (by linarith) α
  simp only [levelMatrix, diffusion, of_apply, hS, hK, Fin.sum_univ_two]
  generalize (1 + g) ^ α = w at hp
  fin_cases i <;> fin_cases j <;> simp <;> field_simp <;> ring

theorem norm2_two (a b : ℝ) : norm2 (![a, b] : Fin 2 → ℝ) = Real.sqrt (a ^ 2 + b ^ 2) := by
  simp [norm2, Fin.sum_univ_two]

/-- A model with the tolerance zero. -/
noncomputable def pyCfg : LpConfig := ⟨1, 2, some 0, false, 0⟩

/-- Tiny targets at two points. -/
noncomputable def pyTiny : Fin 1 → Fin 2 → ℝ := fun _ => ![1 / 10 ^ 16, -1 / 10 ^ 16]

theorem pyTiny_fit : ∃ s : LpState (Fin 2) (Fin 1), lpFit pyCfg [0] (pyX 1) pyTiny 1 = .ok (some s.levels) ∧
    lpPredict pyCfg (pyX 1) s.levels (pyX 1) = .ok s.approx ∧ ∃ g : ℝ, 0 < g ∧ g < 1 ∧ pyTiny 0 - s.approx 0 = (2 * g / (1 + g)) • pyTiny 0 := by
  have hcheck : pyCfg.check = .ok () := LpConfig.check_ok (Or.inl (by simp [pyCfg])) (by simp [pyCfg]) (by simp [pyCfg])
  have hI := LpInv.init (n := Fin 2) pyCfg (funcs := [(0 : Fin 1)]) (fun c => by simp [Subsingleton.elim c 0]) pyTiny
  have hc : ∃ c, (lpInit pyCfg [(0 : Fin 1)] pyTiny).conds c = .noTermination := ⟨0, rfl⟩
  have hstep := lpStep_eq (cfg := pyCfg) (by simp [pyCfg]) (by simp [pyCfg]) (s := lpInit pyCfg [(0 : Fin 1)] pyTiny) (by simp [lpInit, pyCfg]) (pyX 1) pyTiny
  rw [lpDiagonal_false rfl] at hstep
  generalize hs' : lpUpdate pyCfg pyTiny (levelMatrix pyCfg.alpha (lpInit pyCfg [(0 : Fin 1)] pyTiny).eps (pyX 1) (pyX 1))
    (levelFitted pyCfg (lpInit pyCfg [(0 : Fin 1)] pyTiny).eps (pyX 1)) (lpInit pyCfg [(0 : Fin 1)] pyTiny) = s' at hstep
  obtain ⟨k1, k2, k3, -, -, -⟩ := hI.step hc hs'
  have hg0 : 0 < Real.exp (-1 / (2 * (1 : ℝ)) * 1 ^ 2) := Real.exp_pos _
  have hg1 : Real.exp (-1 / (2 * (1 : ℝ)) * 1 ^ 2) < 1 := Real.exp_lt_one_iff.mpr (by norm_num)
  have hr : pyTiny 0 - s'.approx 0 = (2 * Real.exp (-1 / (2 * (1 : ℝ)) * 1 ^ 2) / (1 + Real.exp (-1 / (2 * (1 : ℝ)) * 1 ^ 2))) • pyTiny 0 := by
    rw [k2 0, if_pos (by simp [lpInit])]
    change (pyTiny 0 - (0 : Fin 2 → ℝ)) - levelMatrix 0 1 (pyX 1) (pyX 1) *ᵥ (pyTiny 0 - (0 : Fin 2 → ℝ)) = _
    rw [sub_zero]
    funext i
    simp only [Pi.sub_apply, mulVec, dotProduct, Fin.sum_univ_two, pyX_matrix, Pi.smul_apply, smul_eq_mul]
    generalize Real.exp (-1 / (2 * (1 : ℝ)) * 1 ^ 2) = g at hg0
    fin_cases i <;> simp [pyTiny] <;> field_simp <;> ring
  generalize Real.exp (-1 / (2 * (1 : ℝ)) * 1 ^ 2) = g at hg0 hg1 hr
  have hsmall : norm2 (pyTiny 0 - s'.approx 0) < 1 / 10 ^ 15 := by
    rw [hr]
    have hq : 2 * g / (1 + g) < 1 := by
      rw [div_lt_one (by linarith)]
      linarith
    have hq0 : 0 ≤ 2 * g / (1 + g) := by positivity
    generalize 2 * g / (1 + g) = q at hq hq0
    have : (q • pyTiny 0 : Fin 2 → ℝ) = ![q / 10 ^ 16, -(q / 10 ^ 16)] := by
      funext i
      fin_cases i <;> simp [pyTiny] <;> ring
    rw [this, norm2_two]
    rw [Real.sqrt_lt' (by norm_num)]
    nlinarith
  have hstop : ∀ c, s'.conds c ≠ .noTermination := by
    intro c hcn
    rw [Subsingleton.elim c 0, k3 0 (by simp [lpInit])] at hcn
    exact absurd (rule_noTermination hcn).1 (not_le.mpr hsmall)
  have hfit : lpFit pyCfg [0] (pyX 1) pyTiny 1 = .ok (some s'.levels) := by
    unfold lpFit
    simp only [hcheck, Fintype.card_fin]
    rw [if_neg (by norm_num)]
    unfold lpLoop
    rw [if_pos hc]
    simp only [hstep]
    unfold lpLoop
    rw [if_neg (fun ⟨c, hc⟩ => hstop c hc)]
  refine ⟨s', hfit, ?_, g, hg0, hg1, hr⟩
  obtain ⟨j1, j2, -, -, -, -, j7⟩ := lpUpdate_spec pyCfg pyTiny _ _ (lpInit pyCfg [(0 : Fin 1)] pyTiny) (fun _ => none) (hI.1 (by simp [lpInit])) rfl s' hs'
  have hkeep : (lpInit pyCfg [(0 : Fin 1)] pyTiny).active.filter (fun c => s'.conds c ≠ .loocvIncreases) = [0] := by
    change [(0 : Fin 1)].filter _ = _
    rw [List.filter_eq_self]
    intro c hcm
    rw [k3 c hcm]
    simpa using rule_manual (cfg := pyCfg) rfl
  rw [hkeep, if_neg (by simp)] at j7
  rw [j7]
  unfold lpPredict
  refine (lpSum_append pyCfg _ _ _ (lpQuery_ok (X := pyX 1) (by simp [pyCfg]) (by simp [pyCfg]) (by simp [lpInit, pyCfg]) rfl (pyX 1)) [] _ _ rfl).trans ?_
  congr 1
  funext c
  rw [j1 c, List.map_map]
  dsimp only
  congr 1
  exact columnOf_map [(0 : Fin 1)] (fun c => levelMatrix 0 1 (pyX 1) (pyX 1) *ᵥ (pyTiny c - (0 : Fin 2 → ℝ))) c

/-- C54 is violated for tolerances below `1e-15`: with the tolerance zero `fit` ends with a residual that is not zero. -/
theorem C54_violated : ∃ levels yhat, lpFit pyCfg [0] (pyX 1) pyTiny 1 = .ok (some levels) ∧ lpPredict pyCfg (pyX 1) levels (pyX 1) = .ok yhat ∧
    pyCfg.residualTol = some 0 ∧ ¬norm2 (fun i => pyTiny 0 i - yhat 0 i) ≤ 0 := by
  obtain ⟨s, h1, h2, g, h3, h4, h5⟩ := pyTiny_fit
  refine ⟨_, _, h1, h2, rfl, not_le.mpr ?_⟩
  refine Real.sqrt_pos.mpr ?_
  have : ∀ i, pyTiny 0 i - s.approx 0 i = (2 * g / (1 + g)) * pyTiny 0 i := fun i => congrFun h5 i
  simp only [Fin.sum_univ_two, this]
  have hq : 0 < 2 * g / (1 + g) := by positivity
  have : 0 < (2 * g / (1 + g) * pyTiny 0 0) ^ 2 := by
    refine pow_pos (mul_pos hq ?_) 2
    simp [pyTiny]
  positivity

end Verif.Kernel
