import Verif.Kernel.PyramidEnd
/-!
# C194: what Laplacian pyramids compute, and that target functions do not influence each other
-/

namespace Verif.Kernel

open Matrix

variable {m n d d' e : Type} [Fintype m] [Fintype n] [Fintype d] [Fintype d'] [Fintype e] [DecidableEq d] [DecidableEq d'] [DecidableEq n]

/-! ## Specification: one target function -/

/-- The bandwidth of level `k`. -/
noncomputable def pyrEps (cfg : LpConfig) (k : Nat) : ℝ := cfg.initialEpsilon / cfg.mu ^ k

/-- The residual of the target values `v` after `k` levels: every level subtracts the smoothed residual; an auto-adaptive model leaves the sample itself out. -/
noncomputable def pyrResidual (cfg : LpConfig) (X : n → e → ℝ) (v : n → ℝ) : Nat → n → ℝ
  | 0 => v
  | k + 1 => fun i => pyrResidual cfg X v k i -
      ∑ j, if cfg.autoAdaptive = true ∧ i = j then 0 else levelMatrix cfg.alpha (pyrEps cfg k) X X i j * pyrResidual cfg X v k j

/-- The error grows with level `k` (auto-adaptive models, not for the first level). -/
def Grows (cfg : LpConfig) (X : n → e → ℝ) (v : n → ℝ) (k : Nat) : Prop :=
  cfg.autoAdaptive = true ∧ 0 < k ∧ norm2 (pyrResidual cfg X v k) < norm2 (pyrResidual cfg X v (k + 1))

/-- Level `k` is the last one that is computed: the error grows, or it is within the tolerance, or tiny. -/
def Ends (cfg : LpConfig) (X : n → e → ℝ) (v : n → ℝ) (k : Nat) : Prop :=
  Grows cfg X v k ∨ (∃ t, cfg.residualTol = some t ∧ norm2 (pyrResidual cfg X v (k + 1)) ≤ t) ∨ norm2 (pyrResidual cfg X v (k + 1)) < 1 / 10 ^ 15

/-- Level `k` is the first one at which the target function ends. -/
def IsEnd (cfg : LpConfig) (X : n → e → ℝ) (v : n → ℝ) (k : Nat) : Prop := Ends cfg X v k ∧ ∀ j < k, ¬ Ends cfg X v j

open Classical in
/-- The value of the model at the points `Y`: all levels up to the last one, which is left out if the error grew. -/
noncomputable def pyrValue (cfg : LpConfig) (X : n → e → ℝ) (v : n → ℝ) (k : Nat) (Y : m → e → ℝ) : m → ℝ :=
  ∑ j ∈ Finset.range (if Grows cfg X v k then k else k + 1), levelMatrix cfg.alpha (pyrEps cfg j) X Y *ᵥ pyrResidual cfg X v j

/-! ## Lemmas -/

theorem IsEnd.unique {cfg : LpConfig} {X : n → e → ℝ} {v : n → ℝ} {j k : Nat} (hj : IsEnd cfg X v j) (hk : IsEnd cfg X v k) : j = k := by
  rcases lt_trichotomy j k with h | h | h
  · exact absurd hj.1 (hk.2 j h)
  · exact h
  · exact absurd hk.1 (hj.2 k h)

theorem pyrResidual_succ (cfg : LpConfig) (X : n → e → ℝ) (v : n → ℝ) (k : Nat) :
    pyrResidual cfg X v (k + 1) = pyrResidual cfg X v k - lpDiagonal cfg (levelMatrix cfg.alpha (pyrEps cfg k) X X) *ᵥ pyrResidual cfg X v k := by
  funext i
  rw [pyrResidual, Pi.sub_apply, Matrix.mulVec, dotProduct]
  refine congrArg (pyrResidual cfg X v k i - ·) (Finset.sum_congr rfl fun j _ => ?_)
  simp only [lpDiagonal, Matrix.of_apply]
  split <;> simp

theorem columnOf_map' {q : Type} (A : List d) (f : d → q → ℝ) (c : d) : columnOf A (A.map f) c = if c ∈ A then f c else 0 := by
  unfold columnOf
  rw [find_zip_map]
  by_cases h : c ∈ A <;> simp [h]

/-- The last error that the loop knows before level `k`. -/
noncomputable def pyrLast (cfg : LpConfig) (X : n → e → ℝ) (v : n → ℝ) (k : Nat) : Option ℝ := if k = 0 then none else some (norm2 (pyrResidual cfg X v k))

theorem rule_ends {cfg : LpConfig} {X : n → e → ℝ} {v : n → ℝ} {k : Nat} :
    terminationRule cfg (norm2 (pyrResidual cfg X v (k + 1))) (pyrLast cfg X v k) ≠ .noTermination ↔ Ends cfg X v k := by
  constructor
  · intro h
    by_contra hc
    unfold Ends at hc
    push Not at hc
    refine h (rule_of_large hc.2.2 hc.2.1 (fun ha l hl => ?_))
    by_contra hlt
    refine hc.1 ⟨ha, ?_, ?_⟩
    · by_contra hk
      have : k = 0 := by omega
      simp [pyrLast, this] at hl
    · unfold pyrLast at hl
      split at hl
      · cases hl
      · rw [Option.some.inj hl]; exact not_le.1 hlt
  · intro h hc
    obtain ⟨h1, h2, h3⟩ := rule_noTermination hc
    rcases h with ⟨ha, hk, hlt⟩ | ⟨t, ht, hle⟩ | hlt
    · exact absurd (h3 ha _ (by unfold pyrLast; rw [if_neg (by omega)])) (not_le.2 hlt)
    · exact absurd (h2 t ht) (not_lt.2 hle)
    · exact absurd h1 (not_le.2 hlt)

theorem rule_grows {cfg : LpConfig} {X : n → e → ℝ} {v : n → ℝ} {k : Nat} :
    terminationRule cfg (norm2 (pyrResidual cfg X v (k + 1))) (pyrLast cfg X v k) = .loocvIncreases ↔ Grows cfg X v k := by
  constructor
  · intro h
    unfold terminationRule at h
    simp only at h
    by_cases hg : cfg.autoAdaptive = true ∧ ∃ l, pyrLast cfg X v k = some l ∧ l < norm2 (pyrResidual cfg X v (k + 1))
    · obtain ⟨ha, l, hl, hlt⟩ := hg
      unfold pyrLast at hl
      split at hl
      · cases hl
      · rename_i hk
        exact ⟨ha, by omega, by rw [Option.some.inj hl]; exact hlt⟩
    · rw [if_neg hg] at h
      split_ifs at h
  · rintro ⟨ha, hk, hlt⟩
    by_contra hc
    exact absurd (rule_not_loocv hc ha _ (by unfold pyrLast; rw [if_neg (by omega)])) (not_le.2 hlt)

open Classical in
/-- What is known of the loop variables before iteration `k`. -/
structure PyrInv (cfg : LpConfig) (X : n → e → ℝ) (y : d → n → ℝ) (k : Nat) (s : LpState n d) : Prop where
  inv : LpInv y s (fun c => pyrLast cfg X (y c) k)
  eps : s.active ≠ [] → s.eps = pyrEps cfg k
  residual : ∀ c ∈ s.active, y c - s.approx c = pyrResidual cfg X (y c) k
  running : ∀ c ∈ s.active, ∀ j < k, ¬ Ends cfg X (y c) j
  ended : ∀ c, c ∉ s.active → ∃ j < k, IsEnd cfg X (y c) j
  value : ∀ {m : Type} [Fintype m] (Y : m → e → ℝ), ∃ r, lpSum cfg (lpDistance X Y) s.levels (fun _ => 0) = .ok r ∧ ∀ c,
    (c ∈ s.active → r c = ∑ j ∈ Finset.range k, levelMatrix cfg.alpha (pyrEps cfg j) X Y *ᵥ pyrResidual cfg X (y c) j) ∧
    (∀ j, c ∉ s.active → IsEnd cfg X (y c) j → r c = pyrValue cfg X (y c) j Y)

theorem PyrInv.init (cfg : LpConfig) {funcs : List d} (hf : ∀ c, c ∈ funcs) (X : n → e → ℝ) (y : d → n → ℝ) : PyrInv cfg X y 0 (lpInit cfg funcs y) := by
  refine ⟨?_, fun _ => by simp [lpInit, pyrEps], fun c _ => ?_, fun c _ j hj => by omega, fun c hc => absurd (hf c) hc, fun Y => ⟨_, rfl, fun c => ⟨fun _ => by simp, fun j hc => absurd (hf c) hc⟩⟩⟩
  · have := LpInv.init cfg hf y
    exact this
  · simp [lpInit, pyrResidual]

theorem PyrInv.step [Nonempty n] {cfg : LpConfig} (h0 : 0 ≤ cfg.alpha) (h1 : cfg.alpha ≤ 1) {X : n → e → ℝ} {y : d → n → ℝ} {k : Nat} {s s' : LpState n d} (h : PyrInv cfg X y k s)
    (hc : ∃ c, s.conds c = .noTermination) (hstep : lpStep cfg (lpDistance X X) y s = .ok s') : PyrInv cfg X y (k + 1) s' := by
  obtain ⟨hpos, hs'⟩ := lpStep_ok h0 h1 hstep
  have hne := h.inv.active_ne hc
  obtain ⟨k1, k2, k3, k4, k5, k6⟩ := h.inv.step hc hs'
  obtain ⟨-, -, -, -, -, -, j7⟩ := lpUpdate_spec cfg y _ _ s _ (h.inv.1 hne) h.inv.2.1 s' hs'
  have hres : ∀ c ∈ s.active, y c - s'.approx c = pyrResidual cfg X (y c) (k + 1) := by
    intro c hcm
    rw [k2 c, if_pos hcm, h.residual c hcm, h.eps hne, pyrResidual_succ]
  have hcond : ∀ c ∈ s.active, s'.conds c = terminationRule cfg (norm2 (pyrResidual cfg X (y c) (k + 1))) (pyrLast cfg X (y c) k) := by
    intro c hcm
    rw [k3 c hcm, hres c hcm]
  have hmem : ∀ c, c ∈ s'.active ↔ c ∈ s.active ∧ ¬ Ends cfg X (y c) k := by
    intro c
    constructor
    · intro hcm
      have hcs := k5 c hcm
      refine ⟨hcs, fun he => ?_⟩
      have := (k1.2.2 c).1 hcm
      rw [hcond c hcs] at this
      exact rule_ends.2 he this
    · rintro ⟨hcs, he⟩
      rw [k1.2.2 c, hcond c hcs]
      by_contra hx
      exact he (rule_ends.1 hx)
  refine ⟨?_, ?_, ?_, ?_, ?_, ?_⟩
  · refine ⟨k1.1, ?_, k1.2.2⟩
    rw [k1.2.1]
    refine List.map_congr_left (fun c hcm => ?_)
    rw [hres c (k5 c hcm)]
    simp [pyrLast]
  · intro hne'
    rw [k6, if_neg hne', h.eps hne, pyrEps, pyrEps, pow_succ, div_div]
  · exact fun c hcm => hres c (k5 c hcm)
  · intro c hcm j hj
    rcases Nat.lt_succ_iff_lt_or_eq.1 hj with hj | rfl
    · exact h.running c (k5 c hcm) j hj
    · exact ((hmem c).1 hcm).2
  · intro c hcn
    by_cases hcs : c ∈ s.active
    · refine ⟨k, by omega, ?_, h.running c hcs⟩
      by_contra he
      exact hcn ((hmem c).2 ⟨hcs, he⟩)
    · obtain ⟨j, hj, hE⟩ := h.ended c hcs
      exact ⟨j, by omega, hE⟩
  · intro m _ Y
    obtain ⟨r, hr, hrc⟩ := h.value Y
    set kept := s.active.filter (fun c => s'.conds c ≠ .loocvIncreases) with hkept
    have hmk : ∀ c, c ∈ kept ↔ c ∈ s.active ∧ ¬ Grows cfg X (y c) k := by
      intro c
      rw [hkept, List.mem_filter]
      constructor
      · rintro ⟨x, y⟩
        refine ⟨x, fun hg => ?_⟩
        rw [hcond c x, rule_grows.2 hg] at y
        simp at y
      · rintro ⟨x, hg⟩
        refine ⟨x, ?_⟩
        rw [hcond c x]
        simpa using fun hx => hg (rule_grows.1 hx)
    have hr' : lpSum cfg (lpDistance X Y) s'.levels (fun _ => 0) = .ok (fun c => r c + if c ∈ kept then levelMatrix cfg.alpha (pyrEps cfg k) X Y *ᵥ pyrResidual cfg X (y c) k else 0) := by
      rw [j7]
      split
      · rename_i hk
        rw [List.append_nil, hr]
        simp [hk]
      · rw [lpSum_append cfg _ ⟨s.eps, _, _, _, _⟩ _ (lpQuery_ok h0 h1 hpos rfl Y) _ _ _ hr]
        congr 1
        funext c
        rw [List.map_map]
        dsimp only
        congr 1
        refine (columnOf_map' kept (fun c => levelMatrix cfg.alpha s.eps X Y *ᵥ (y c - s.approx c)) c).trans ?_
        split
        · rename_i hck
          rw [h.residual c ((hmk c).1 hck).1, h.eps hne]
        · rfl
    refine ⟨_, hr', fun c => ⟨fun hcm => ?_, fun j hcn hE => ?_⟩⟩
    · obtain ⟨hcs, he⟩ := (hmem c).1 hcm
      rw [if_pos ((hmk c).2 ⟨hcs, fun hg => he (Or.inl hg)⟩), (hrc c).1 hcs, Finset.sum_range_succ]
    · by_cases hcs : c ∈ s.active
      · have hk : IsEnd cfg X (y c) k := by
          refine ⟨?_, h.running c hcs⟩
          by_contra he
          exact hcn ((hmem c).2 ⟨hcs, he⟩)
        have := hE.unique hk
        subst this
        rw [(hrc c).1 hcs, pyrValue]
        by_cases hg : Grows cfg X (y c) j
        · rw [if_neg (fun hx => ((hmk c).1 hx).2 hg), if_pos hg, add_zero]
        · rw [if_pos ((hmk c).2 ⟨hcs, hg⟩), if_neg hg, Finset.sum_range_succ]
      · rw [if_neg (fun hx => hcs ((hmk c).1 hx).1), add_zero]
        exact (hrc c).2 j hcs hE

/-! ## C194 -/

/-- **C194 (what is computed).** Whenever `fit` ends, every target function `c` has a first level at which it ends, and the prediction at any points is the sum over the levels up to there of the smoothed residuals of
this target function alone. -/
theorem C194_formula (cfg : LpConfig) (h0 : 0 ≤ cfg.alpha) (h1 : cfg.alpha ≤ 1) (funcs : List d) (hf : ∀ c, c ∈ funcs) (X : n → e → ℝ) (y : d → n → ℝ) (fuel : Nat) (levels : List (Level n d))
    (h : lpFit cfg funcs X y fuel = .ok (some levels)) (Y : m → e → ℝ) : ∃ yhat, lpPredict cfg X levels Y = .ok yhat ∧ ∀ c, ∃ k, IsEnd cfg X (y c) k ∧ yhat c = pyrValue cfg X (y c) k Y := by
  obtain ⟨-, -, -, hn, hloop⟩ := lpFit_ok h
  have : Nonempty n := Fintype.card_pos_iff.mp (by omega)
  obtain ⟨s, ⟨k, hI⟩, rfl, hend⟩ := lpLoop_inv cfg (lpDistance X X) y (fun s => ∃ k, PyrInv cfg X y k s) (fun s s' hs hc hstep => by
    obtain ⟨k, hk⟩ := hs
    exact ⟨k + 1, hk.step h0 h1 hc hstep⟩) fuel _ _ ⟨0, PyrInv.init cfg hf X y⟩ hloop
  obtain ⟨r, hr, hrc⟩ := hI.value Y
  refine ⟨r, hr, fun c => ?_⟩
  have hca : c ∉ s.active := fun hx => hend c ((hI.inv.2.2 c).1 hx)
  obtain ⟨j, -, hE⟩ := hI.ended c hca
  exact ⟨j, hE, (hrc c).2 j hca hE⟩

/-- **C194 (when the fit ends).** With valid parameters, `fit` ends exactly if every single target function ends. -/
theorem C194_terminates (cfg : LpConfig) (h0 : 0 ≤ cfg.alpha) (h1 : cfg.alpha ≤ 1) (hp : cfg.residualTol ≠ none ∨ cfg.autoAdaptive = true) (htol : ∀ t, cfg.residualTol = some t → 0 ≤ t) (hmu : 1 ≤ cfg.mu)
    (heps : 0 < cfg.initialEpsilon) (funcs : List d) (hf : ∀ c, c ∈ funcs) (X : n → e → ℝ) (hn : 2 ≤ Fintype.card n) (y : d → n → ℝ) :
    (∃ fuel levels, lpFit cfg funcs X y fuel = .ok (some levels)) ↔ ∀ c, ∃ k, IsEnd cfg X (y c) k := by
  have : Nonempty n := Fintype.card_pos_iff.mp (by omega)
  constructor
  · rintro ⟨fuel, levels, h⟩ c
    obtain ⟨yhat, -, hy⟩ := C194_formula cfg h0 h1 funcs hf X y fuel levels h X
    obtain ⟨k, hk, -⟩ := hy c
    exact ⟨k, hk⟩
  · intro hend
    choose K hK using hend
    have hfit : ∀ fuel, lpFit cfg funcs X y fuel = lpLoop cfg (lpDistance X X) y fuel (lpInit cfg funcs y) := by
      intro fuel
      unfold lpFit
      rw [LpConfig.check_ok hp htol hmu]
      simp only
      rw [if_neg (by omega)]
    have hloop : ∀ j k (s : LpState n d), PyrInv cfg X y k s → (∀ c, K c < k + j) → ∃ levels, lpLoop cfg (lpDistance X X) y j s = .ok (some levels) := by
      intro j
      induction j with
      | zero =>
        intro k s hI hk
        unfold lpLoop
        rw [if_neg]
        · exact ⟨_, rfl⟩
        · rintro ⟨c, hc⟩
          exact hI.running c ((hI.inv.2.2 c).2 hc) (K c) (hk c) (hK c).1
      | succ j ih =>
        intro k s hI hk
        unfold lpLoop
        split
        · rename_i hc
          have hpos : 0 < s.eps := by
            rw [hI.eps (hI.inv.active_ne hc)]
            exact div_pos heps (pow_pos (by linarith) k)
          have hstep := lpStep_eq h0 h1 hpos X y
          simp only [hstep]
          exact ih (k + 1) _ (hI.step h0 h1 hc hstep) (fun c => by have := hk c; omega)
        · exact ⟨_, rfl⟩
    obtain ⟨levels, hl⟩ := hloop ((Finset.univ.sup K) + 1) 0 _ (PyrInv.init cfg hf X y) (fun c => by
      have := Finset.le_sup (f := K) (Finset.mem_univ c)
      omega)
    exact ⟨_, levels, (hfit _).trans hl⟩

/-- **C194 (independence).** Predictions of a target function do not depend on the other target functions and on its position: models fitted to any selection `ι` of the target functions, in any order, give the same
values. -/
theorem C194_independent (cfg : LpConfig) (h0 : 0 ≤ cfg.alpha) (h1 : cfg.alpha ≤ 1) (funcs : List d) (hf : ∀ c, c ∈ funcs) (funcs' : List d') (hf' : ∀ c, c ∈ funcs') (ι : d' → d) (X : n → e → ℝ) (y : d → n → ℝ)
    (fuel fuel' : Nat) (levels : List (Level n d)) (levels' : List (Level n d')) (h : lpFit cfg funcs X y fuel = .ok (some levels)) (h' : lpFit cfg funcs' X (y ∘ ι) fuel' = .ok (some levels')) (Y : m → e → ℝ) :
    ∃ yhat yhat', lpPredict cfg X levels Y = .ok yhat ∧ lpPredict cfg X levels' Y = .ok yhat' ∧ ∀ c, yhat' c = yhat (ι c) := by
  obtain ⟨r, hr, hrc⟩ := C194_formula cfg h0 h1 funcs hf X y fuel levels h Y
  obtain ⟨r', hr', hrc'⟩ := C194_formula cfg h0 h1 funcs' hf' X (y ∘ ι) fuel' levels' h' Y
  refine ⟨r, r', hr, hr', fun c => ?_⟩
  obtain ⟨k, hk, e⟩ := hrc (ι c)
  obtain ⟨k', hk', e'⟩ := hrc' c
  have := hk'.unique hk
  subst this
  rw [e, e']
  rfl

/-- non-vacuity: two points, two target functions, one ends with the first level, and both end. -/
example : ∃ fuel levels, lpFit ⟨1, 2, some (1 / 10), false, 1 / 2⟩ [0, 1] (pyX 4) (![![0, 0], ![1, -3]] : Fin 2 → Fin 2 → ℝ) fuel = .ok (some levels) :=
  C109_distinct_partial ⟨1, 2, some (1 / 10), false, 1 / 2⟩ (by norm_num) (by norm_num) rfl (1 / 10) rfl (by norm_num) (by norm_num) (by norm_num) [0, 1] (fun c => by fin_cases c <;> simp) (pyX 4)
    (fun i j hij => by
      have := congrFun hij 0
      fin_cases i <;> fin_cases j <;> simp_all [pyX]) (by simp) _

end Verif.Kernel
