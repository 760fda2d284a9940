import Verif.Kernel.Pyramid
import Verif.Kernel.RadialProps
/-!
# Lemmas on the loop of the Laplacian pyramids
-/

namespace Verif.Kernel

open Matrix

variable {m n d e : Type} [Fintype m] [Fintype n] [Fintype d] [Fintype e] [DecidableEq d] [DecidableEq n]

theorem find_zip_map {α : Type} (A : List d) (f : d → α) (c : d) :
    (A.zip (A.map f)).find? (fun p => p.1 = c) = if c ∈ A then some (c, f c) else none := by
  induction A with
  | nil => simp
  | cons a A ih =>
    rw [List.map_cons, List.zip_cons_cons, List.find?_cons]
    by_cases h : a = c
    · subst h
      simp
    · have h' : c ≠ a := fun x => h x.symm
      simp [h, h', ih]

theorem columnOf_map (A : List d) (f : d → n → ℝ) (c : d) : columnOf A (A.map f) c = if c ∈ A then f c else 0 := by
  unfold columnOf
  rw [find_zip_map]
  by_cases h : c ∈ A <;> simp [h]

theorem assign_map {α : Type} (A : List d) (f old : d → α) (c : d) : assign A (A.map f) old c = if c ∈ A then f c else old c := by
  unfold assign
  rw [find_zip_map]
  by_cases h : c ∈ A <;> simp [h]

theorem masked_map {α β : Type} (A : List α) (p : α → Bool) (f : α → β) : masked (A.map p) (A.map f) = (A.filter p).map f := by
  unfold masked
  induction A with
  | nil => rfl
  | cons a A ih =>
    rw [List.map_cons, List.map_cons, List.zip_cons_cons, List.filter_cons, List.filter_cons]
    cases h : p a <;> simp [ih]

theorem masked_self {α : Type} (A : List α) (p : α → Bool) : masked (A.map p) A = A.filter p := by
  simpa using masked_map A p id

/-- The loop body, with the columns of the arrays given by functions. -/
theorem lpUpdate_spec (cfg : LpConfig) (y : d → n → ℝ) (P : Matrix n n ℝ) (f : Fitted n) (s : LpState n d) (g : d → Option ℝ)
    (ht : s.target = s.active.map (fun c => y c - s.approx c)) (hg : s.norms = s.active.map g) (s' : LpState n d) (hs' : lpUpdate cfg y P f s = s') :
    (∀ c, s'.approx c = s.approx c + if c ∈ s.active then P *ᵥ (y c - s.approx c) else 0) ∧
    (∀ c, s'.conds c = if c ∈ s.active then terminationRule cfg (norm2 (y c - s'.approx c)) (g c) else s.conds c) ∧
    s'.active = s.active.filter (fun c => s'.conds c = .noTermination) ∧
    (s'.active ≠ [] → s'.target = s'.active.map (fun c => y c - s'.approx c)) ∧
    s'.norms = s'.active.map (fun c => some (norm2 (y c - s'.approx c))) ∧
    s'.eps = (if s'.active = [] then s.eps else s.eps / cfg.mu) ∧
    s'.levels = s.levels ++ (if s.active.filter (fun c => s'.conds c ≠ .loocvIncreases) = [] then [] else
      [⟨s.eps, f, (s.active.filter (fun c => s'.conds c ≠ .loocvIncreases)).map (fun c => y c - s.approx c),
        (s.active.filter (fun c => s'.conds c ≠ .loocvIncreases)).map (fun c => norm2 (y c - s'.approx c)), s.active.filter (fun c => s'.conds c ≠ .loocvIncreases)⟩]) := by
  have hap : ∀ c, s'.approx c = s.approx c + if c ∈ s.active then P *ᵥ (y c - s.approx c) else 0 := by
    intro c
    rw [← hs']
    change s.approx c + columnOf s.active (s.target.map (fun t => P *ᵥ t)) c = _
    rw [ht, List.map_map, columnOf_map]
    rfl
  have hcurr : List.zipWith (terminationRule cfg) ((s.active.map (fun c => y c - s'.approx c)).map norm2) s.norms =
      s.active.map (fun c => terminationRule cfg (norm2 (y c - s'.approx c)) (g c)) := by
    rw [hg, List.map_map, List.zipWith_map, List.zipWith_self]
    rfl
  have hcd : ∀ c, s'.conds c = if c ∈ s.active then terminationRule cfg (norm2 (y c - s'.approx c)) (g c) else s.conds c := by
    intro c
    have : s'.conds c = assign s.active (List.zipWith (terminationRule cfg) ((s.active.map (fun c => y c - s'.approx c)).map norm2) s.norms) s.conds c := by
      rw [← hs']
      rfl
    rw [this, hcurr, assign_map]
  have hcurr' : List.zipWith (terminationRule cfg) ((s.active.map (fun c => y c - s'.approx c)).map norm2) s.norms = s.active.map s'.conds := by
    rw [hcurr]
    refine List.map_congr_left (fun c hc => ?_)
    rw [hcd c, if_pos hc]
  have hkeep : (s.active.map s'.conds).map (fun b => b != .loocvIncreases) = s.active.map (fun c => s'.conds c != .loocvIncreases) := by
    rw [List.map_map]
    rfl
  have hfil : s.active.filter (fun c => s'.conds c != .loocvIncreases) = s.active.filter (fun c => s'.conds c ≠ .loocvIncreases) := by
    refine List.filter_congr (fun c _ => ?_)
    simp [bne, decide_not]
    rfl
  set kept := s.active.filter (fun c => s'.conds c ≠ .loocvIncreases) with hkept
  have hcurr1 : (s.active.map s'.conds).filter (fun b => b != .loocvIncreases) = kept.map s'.conds := by
    rw [List.filter_map, ← hfil]
    rfl
  have hstop : (((kept.map s'.conds).map (fun b => b == .belowResTol || b == .tinyRes)).map not) = kept.map (fun c => !(s'.conds c == .belowResTol || s'.conds c == .tinyRes)) := by
    rw [List.map_map, List.map_map]
    rfl
  have hact2 : kept.filter (fun c => !(s'.conds c == .belowResTol || s'.conds c == .tinyRes)) = s.active.filter (fun c => s'.conds c = .noTermination) := by
    rw [hkept, List.filter_filter]
    refine List.filter_congr (fun c _ => ?_)
    cases s'.conds c <;> decide
  have hnot : (.noTermination ∈ s.active.map s'.conds) ↔ s.active.filter (fun c => s'.conds c = .noTermination) ≠ [] := by
    rw [List.mem_map, ne_eq, List.filter_eq_nil_iff]
    simp only [decide_eq_true_eq, not_forall, not_not]
    exact ⟨fun ⟨a, h1, h2⟩ => ⟨a, h1, h2⟩, fun ⟨a, h1, h2⟩ => ⟨a, h1, h2⟩⟩
  have hm1 : masked ((s.active.map s'.conds).map (fun b => b != .loocvIncreases)) s.active = kept := by
    rw [hkeep, masked_self, hfil]
  have hm2 : ∀ {β : Type} (h : d → β), masked ((s.active.map s'.conds).map (fun b => b != .loocvIncreases)) (s.active.map h) = kept.map h := by
    intro β h
    rw [hkeep, masked_map, hfil]
  have hm3 : ∀ {β : Type} (h : d → β), masked (((kept.map s'.conds).map (fun b => b == .belowResTol || b == .tinyRes)).map not) (kept.map h) =
      (s.active.filter (fun c => s'.conds c = .noTermination)).map h := by
    intro β h
    rw [hstop, masked_map, hact2]
  have hm4 : masked (((kept.map s'.conds).map (fun b => b == .belowResTol || b == .tinyRes)).map not) kept = s.active.filter (fun c => s'.conds c = .noTermination) := by
    rw [hstop, masked_self, hact2]
  have hsub : kept = [] → s.active.filter (fun c => s'.conds c = .noTermination) = [] := by
    intro h
    rw [← hact2, h]
    rfl
  have hmm : (s.active.map (fun c => y c - s'.approx c)).map norm2 = s.active.map (fun c => norm2 (y c - s'.approx c)) := by
    rw [List.map_map]
    rfl
  have hac : s'.active = s.active.filter (fun c => s'.conds c = .noTermination) := by
    have : s'.active = (if masked ((List.zipWith (terminationRule cfg) ((s.active.map (fun c => y c - s'.approx c)).map norm2) s.norms).map (fun b => b != .loocvIncreases)) s.active ≠ []
        then masked ((((List.zipWith (terminationRule cfg) ((s.active.map (fun c => y c - s'.approx c)).map norm2) s.norms).filter (fun b => b != .loocvIncreases)).map
          (fun b => b == .belowResTol || b == .tinyRes)).map not)
          (masked ((List.zipWith (terminationRule cfg) ((s.active.map (fun c => y c - s'.approx c)).map norm2) s.norms).map (fun b => b != .loocvIncreases)) s.active)
        else masked ((List.zipWith (terminationRule cfg) ((s.active.map (fun c => y c - s'.approx c)).map norm2) s.norms).map (fun b => b != .loocvIncreases)) s.active) := by
      rw [← hs']
      rfl
    rw [this, hcurr', hm1, hcurr1, hm4]
    split
    · rfl
    · rename_i h
      rw [hsub (not_not.mp h)]
      exact not_not.mp h
  refine ⟨hap, hcd, hac, ?_, ?_, ?_, ?_⟩
  · intro hne
    have : s'.target = (if .noTermination ∈ List.zipWith (terminationRule cfg) ((s.active.map (fun c => y c - s'.approx c)).map norm2) s.norms then
        (if masked ((List.zipWith (terminationRule cfg) ((s.active.map (fun c => y c - s'.approx c)).map norm2) s.norms).map (fun b => b != .loocvIncreases)) s.active ≠ []
        then masked ((((List.zipWith (terminationRule cfg) ((s.active.map (fun c => y c - s'.approx c)).map norm2) s.norms).filter (fun b => b != .loocvIncreases)).map
          (fun b => b == .belowResTol || b == .tinyRes)).map not)
          (masked ((List.zipWith (terminationRule cfg) ((s.active.map (fun c => y c - s'.approx c)).map norm2) s.norms).map (fun b => b != .loocvIncreases)) (s.active.map (fun c => y c - s'.approx c)))
        else masked ((List.zipWith (terminationRule cfg) ((s.active.map (fun c => y c - s'.approx c)).map norm2) s.norms).map (fun b => b != .loocvIncreases)) (s.active.map (fun c => y c - s'.approx c)))
        else masked ((List.zipWith (terminationRule cfg) ((s.active.map (fun c => y c - s'.approx c)).map norm2) s.norms).map (fun b => b != .loocvIncreases)) s.target) := by
      rw [← hs']
      rfl
    rw [hac] at hne
    rw [this, hcurr', hm1, hcurr1, hm2, hm3, if_pos (hnot.mpr hne), if_pos (fun h => hne (hsub h)), hac]
  · have : s'.norms = (if masked ((List.zipWith (terminationRule cfg) ((s.active.map (fun c => y c - s'.approx c)).map norm2) s.norms).map (fun b => b != .loocvIncreases)) s.active ≠ []
        then masked ((((List.zipWith (terminationRule cfg) ((s.active.map (fun c => y c - s'.approx c)).map norm2) s.norms).filter (fun b => b != .loocvIncreases)).map
          (fun b => b == .belowResTol || b == .tinyRes)).map not)
          (masked ((List.zipWith (terminationRule cfg) ((s.active.map (fun c => y c - s'.approx c)).map norm2) s.norms).map (fun b => b != .loocvIncreases)) ((s.active.map (fun c => y c - s'.approx c)).map norm2))
        else masked ((List.zipWith (terminationRule cfg) ((s.active.map (fun c => y c - s'.approx c)).map norm2) s.norms).map (fun b => b != .loocvIncreases)) ((s.active.map (fun c => y c - s'.approx c)).map norm2)).map some := by
      rw [← hs']
      rfl
    rw [this, hcurr', hm1, hcurr1, hmm, hm2, hm3, hac]
    split
    · rw [List.map_map]
      rfl
    · rename_i h
      rw [hsub (not_not.mp h), not_not.mp h]
      rfl
  · have : s'.eps = (if .noTermination ∈ List.zipWith (terminationRule cfg) ((s.active.map (fun c => y c - s'.approx c)).map norm2) s.norms then s.eps / cfg.mu else s.eps) := by
      rw [← hs']
      rfl
    rw [this, hcurr', hac]
    by_cases h : s.active.filter (fun c => s'.conds c = .noTermination) = []
    · rw [if_neg (fun x => hnot.mp x h), if_pos h]
    · rw [if_pos (hnot.mpr h), if_neg h]
  · have : s'.levels = (if masked ((List.zipWith (terminationRule cfg) ((s.active.map (fun c => y c - s'.approx c)).map norm2) s.norms).map (fun b => b != .loocvIncreases)) s.active ≠ []
        then s.levels ++ [⟨s.eps, f, masked ((List.zipWith (terminationRule cfg) ((s.active.map (fun c => y c - s'.approx c)).map norm2) s.norms).map (fun b => b != .loocvIncreases)) s.target,
          masked ((List.zipWith (terminationRule cfg) ((s.active.map (fun c => y c - s'.approx c)).map norm2) s.norms).map (fun b => b != .loocvIncreases)) ((s.active.map (fun c => y c - s'.approx c)).map norm2),
          masked ((List.zipWith (terminationRule cfg) ((s.active.map (fun c => y c - s'.approx c)).map norm2) s.norms).map (fun b => b != .loocvIncreases)) s.active⟩]
        else s.levels) := by
      rw [← hs']
      rfl
    rw [this, hcurr', hm1, hmm, hm2, ht, hm2]
    by_cases h : kept = []
    · rw [if_neg (not_not.mpr h), if_pos h, List.append_nil]
    · rw [if_pos h, if_neg h]

/-! ## The kernel of a level -/

/-- The Gaussian of all entries. -/
noncomputable def gaussM (eps : ℝ) (D : Matrix m n ℝ) : Matrix m n ℝ := Matrix.of (fun i j => Real.exp ((-1 / (2 * eps)) * D i j))

/-- The kernel matrix of a level between the training points `X` and the points `Y`. -/
noncomputable def levelMatrix (α eps : ℝ) (X : n → e → ℝ) (Y : m → e → ℝ) : Matrix m n ℝ :=
  diffusion α (rowSums (gaussM eps (lpDistance X X))) (gaussM eps (lpDistance X Y))

/-- The attributes of the kernel after the evaluation on the training points. -/
noncomputable def levelFitted (cfg : LpConfig) (eps : ℝ) (X : n → e → ℝ) : Fitted n := ⟨alphaAttr (lpKernel cfg) (gaussM eps (lpDistance X X)), none⟩

theorem gaussM_pos (eps : ℝ) (D : Matrix m n ℝ) (i : m) (j : n) : 0 < gaussM eps D i j := Real.exp_pos _

theorem gaussM_rowSums [Nonempty n] (eps : ℝ) (D : Matrix m n ℝ) (i : m) : 0 < rowSums (gaussM eps D) i :=
  Finset.sum_pos (fun j _ => gaussM_pos eps D i j) Finset.univ_nonempty

theorem gaussian_evaluate {eps : ℝ} (h : 0 < eps) (D : Matrix m n ℝ) : (Radial.gaussian eps).evaluate D = .ok (gaussM eps D) := by
  simp only [Radial.evaluate, Radial.check, Radial.epsilon, if_pos h]
  rfl

theorem gaussian_evaluate_neg {eps : ℝ} (h : ¬0 < eps) (D : Matrix m n ℝ) : (Radial.gaussian eps).evaluate D = .error .value := by
  simp only [Radial.evaluate, Radial.check, Radial.epsilon, if_neg h]

theorem lpMatrix_ok [Nonempty n] {cfg : LpConfig} (h0 : 0 ≤ cfg.alpha) (h1 : cfg.alpha ≤ 1) {eps : ℝ} (h : 0 < eps) (X : n → e → ℝ) :
    lpMatrix cfg eps (lpDistance X X) = .ok (levelMatrix cfg.alpha eps X X, levelFitted cfg eps X) := by
  unfold lpMatrix
  rw [gaussian_evaluate h]
  exact evalPdist_stochastic (k := lpKernel cfg) ⟨h0, h1⟩ rfl rfl (fun i j => (gaussM_pos _ _ i j).le) (gaussM_rowSums _ _)
    (fun _ i j => by simp only [gaussM, lpDistance, of_apply, sqDist_comm])

theorem lpMatrix_pos {cfg : LpConfig} {eps : ℝ} {D : Matrix n n ℝ} {r : Matrix n n ℝ × Fitted n} (h : lpMatrix cfg eps D = .ok r) : 0 < eps := by
  by_contra hc
  unfold lpMatrix at h
  rw [gaussian_evaluate_neg hc] at h
  cases h

theorem lpQuery_ok [Nonempty n] {cfg : LpConfig} (h0 : 0 ≤ cfg.alpha) (h1 : cfg.alpha ≤ 1) {l : Level n d} {X : n → e → ℝ} (h : 0 < l.eps) (hf : l.fitted = levelFitted cfg l.eps X)
    (Y : m → e → ℝ) : lpQuery cfg l (lpDistance X Y) = .ok (levelMatrix cfg.alpha l.eps X Y) := by
  unfold lpQuery
  rw [gaussian_evaluate h, hf]
  exact evalCdist_stochastic (k := lpKernel cfg) ⟨h0, h1⟩ rfl (gaussM_rowSums _ _) (fun i j => (gaussM_pos _ _ i j).le) (gaussM_rowSums _ _)

theorem levelMatrix_stochastic [Nonempty n] (α eps : ℝ) (X : n → e → ℝ) (Y : m → e → ℝ) : RowStochastic (levelMatrix α eps X Y) :=
  ⟨diffusion_nonneg (fun i j => (gaussM_pos _ _ i j).le) (gaussM_rowSums _ _), fun _ => diffusion_sum (fun i j => (gaussM_pos _ _ i j).le) (gaussM_rowSums _ _) (gaussM_rowSums _ _ _)⟩

theorem lpDiagonal_false {cfg : LpConfig} (h : cfg.autoAdaptive = false) (P : Matrix n n ℝ) : lpDiagonal cfg P = P := by
  ext i j
  simp [lpDiagonal, h]

theorem lpStep_eq [Nonempty n] {cfg : LpConfig} (h0 : 0 ≤ cfg.alpha) (h1 : cfg.alpha ≤ 1) {s : LpState n d} (h : 0 < s.eps) (X : n → e → ℝ) (y : d → n → ℝ) :
    lpStep cfg (lpDistance X X) y s = .ok (lpUpdate cfg y (lpDiagonal cfg (levelMatrix cfg.alpha s.eps X X)) (levelFitted cfg s.eps X) s) := by
  unfold lpStep
  rw [lpMatrix_ok h0 h1 h]

theorem lpStep_ok [Nonempty n] {cfg : LpConfig} (h0 : 0 ≤ cfg.alpha) (h1 : cfg.alpha ≤ 1) {s s' : LpState n d} {X : n → e → ℝ} {y : d → n → ℝ} (h : lpStep cfg (lpDistance X X) y s = .ok s') :
    0 < s.eps ∧ lpUpdate cfg y (lpDiagonal cfg (levelMatrix cfg.alpha s.eps X X)) (levelFitted cfg s.eps X) s = s' := by
  have hp : 0 < s.eps := by
    unfold lpStep at h
    split at h
    · cases h
    · rename_i hm
      exact lpMatrix_pos hm
  rw [lpStep_eq h0 h1 hp] at h
  exact ⟨hp, Except.ok.inj h⟩

theorem lpSum_append (cfg : LpConfig) (D : Matrix m n ℝ) (l : Level n d) (P : Matrix m n ℝ) (hl : lpQuery cfg l D = .ok P) :
    ∀ (ls : List (Level n d)) (acc r : d → m → ℝ), lpSum cfg D ls acc = .ok r →
      lpSum cfg D (ls ++ [l]) acc = .ok (fun c => r c + columnOf l.active (l.target.map (fun t => P *ᵥ t)) c) := by
  intro ls
  induction ls with
  | nil =>
    intro acc r h
    simp only [lpSum, Except.ok.injEq] at h
    subst h
    simp only [List.nil_append, lpSum, hl]
  | cons a ls ih =>
    intro acc r h
    simp only [lpSum, List.cons_append] at h ⊢
    split at h
    · cases h
    · exact ih _ _ h

/-! ## The termination rules -/

theorem rule_noTermination {cfg : LpConfig} {cur : ℝ} {last : Option ℝ} (h : terminationRule cfg cur last = .noTermination) :
    1 / 10 ^ 15 ≤ cur ∧ (∀ t, cfg.residualTol = some t → t < cur) ∧ (cfg.autoAdaptive = true → ∀ l, last = some l → cur ≤ l) := by
  unfold terminationRule at h
  simp only at h
  split_ifs at h with h1 h2 h3 h4 h5 <;> simp_all <;> grind

theorem rule_of_large {cfg : LpConfig} {cur : ℝ} {last : Option ℝ} (h1 : 1 / 10 ^ 15 ≤ cur) (h2 : ∀ t, cfg.residualTol = some t → t < cur)
    (h3 : cfg.autoAdaptive = true → ∀ l, last = some l → cur ≤ l) : terminationRule cfg cur last = .noTermination := by
  unfold terminationRule
  have a : ¬(cfg.autoAdaptive = true ∧ ∃ l, last = some l ∧ l < cur) := fun ⟨x, l, hl, hlt⟩ => absurd (h3 x l hl) (not_le.mpr hlt)
  have b : ¬∃ t, cfg.residualTol = some t ∧ cur ≤ t := fun ⟨t, ht, hlt⟩ => absurd (h2 t ht) (not_lt.mpr hlt)
  simp only [if_neg a, true_and, if_neg b, if_neg (not_lt.mpr h1)]

theorem rule_not_loocv {cfg : LpConfig} {cur : ℝ} {last : Option ℝ} (h : terminationRule cfg cur last ≠ .loocvIncreases) (ha : cfg.autoAdaptive = true) (l : ℝ) (hl : last = some l) :
    cur ≤ l := by
  by_contra hc
  refine h ?_
  unfold terminationRule
  have a : cfg.autoAdaptive = true ∧ ∃ l, last = some l ∧ l < cur := ⟨ha, l, hl, not_le.mp hc⟩
  simp [if_pos a]

theorem rule_manual {cfg : LpConfig} {cur : ℝ} {last : Option ℝ} (ha : cfg.autoAdaptive = false) : terminationRule cfg cur last ≠ .loocvIncreases := by
  unfold terminationRule
  have a : ¬(cfg.autoAdaptive = true ∧ ∃ l, last = some l ∧ l < cur) := by simp [ha]
  simp only [if_neg a]
  split_ifs <;> simp

theorem rule_stopped {cfg : LpConfig} {cur : ℝ} {last : Option ℝ} (ha : cfg.autoAdaptive = false) (h : terminationRule cfg cur last ≠ .noTermination) :
    (∃ t, cfg.residualTol = some t ∧ cur ≤ t) ∨ cur < 1 / 10 ^ 15 := by
  by_contra hc
  push Not at hc
  exact h (rule_of_large hc.2 hc.1 (fun x => by rw [ha] at x; cases x))

/-! ## Executions -/

/-- A loop that never ends: an invariant that implies that some function has not terminated and is kept by every iteration. -/
theorem lpLoop_forever (cfg : LpConfig) (D : Matrix n n ℝ) (y : d → n → ℝ) (I : Nat → LpState n d → Prop) (h1 : ∀ k s, I k s → ∃ c, s.conds c = .noTermination)
    (h2 : ∀ k s, I k s → ∃ s', lpStep cfg D y s = .ok s' ∧ I (k + 1) s') : ∀ fuel k s, I k s → lpLoop cfg D y fuel s = .ok none := by
  intro fuel
  induction fuel with
  | zero =>
    intro k s hs
    unfold lpLoop
    rw [if_pos (h1 k s hs)]
  | succ fuel ih =>
    intro k s hs
    obtain ⟨s', hs', hI⟩ := h2 k s hs
    unfold lpLoop
    rw [if_pos (h1 k s hs)]
    simp only [hs']
    exact ih (k + 1) s' hI

/-- Invariants of a loop that ends. -/
theorem lpLoop_inv (cfg : LpConfig) (D : Matrix n n ℝ) (y : d → n → ℝ) (I : LpState n d → Prop)
    (h2 : ∀ s s', I s → (∃ c, s.conds c = .noTermination) → lpStep cfg D y s = .ok s' → I s') :
    ∀ fuel s levels, I s → lpLoop cfg D y fuel s = .ok (some levels) → ∃ s', I s' ∧ s'.levels = levels ∧ ∀ c, s'.conds c ≠ .noTermination := by
  intro fuel
  induction fuel with
  | zero =>
    intro s levels hs h
    unfold lpLoop at h
    split at h
    · cases h
    · rename_i hc
      exact ⟨s, hs, Option.some.inj (Except.ok.inj h), fun c x => hc ⟨c, x⟩⟩
  | succ fuel ih =>
    intro s levels hs h
    unfold lpLoop at h
    split at h
    · rename_i hc
      simp only at h
      split at h
      · cases h
      · rename_i s' hs'
        exact ih s' levels (h2 s s' hs hc hs') h
    · rename_i hc
      exact ⟨s, hs, Option.some.inj (Except.ok.inj h), fun c x => hc ⟨c, x⟩⟩

theorem LpConfig.check_ok {cfg : LpConfig} (h1 : cfg.residualTol ≠ none ∨ cfg.autoAdaptive = true) (h2 : ∀ t, cfg.residualTol = some t → 0 ≤ t) (h3 : 1 ≤ cfg.mu) : cfg.check = .ok () := by
  unfold LpConfig.check
  rw [if_neg, if_neg, if_neg (not_lt.mpr h3)]
  · rintro ⟨t, ht, hlt⟩
    exact absurd (h2 t ht) (not_le.mpr hlt)
  · rintro ⟨ha, hb⟩
    rcases h1 with h1 | h1
    · exact h1 ha
    · rw [hb] at h1
      cases h1

theorem lpFit_ok {cfg : LpConfig} {funcs : List d} {X : n → e → ℝ} {y : d → n → ℝ} {fuel : Nat} {r : Option (List (Level n d))} (h : lpFit cfg funcs X y fuel = .ok r) :
    (cfg.residualTol ≠ none ∨ cfg.autoAdaptive = true) ∧ (∀ t, cfg.residualTol = some t → 0 ≤ t) ∧ 1 ≤ cfg.mu ∧ 2 ≤ Fintype.card n ∧
      lpLoop cfg (lpDistance X X) y fuel (lpInit cfg funcs y) = .ok r := by
  unfold lpFit at h
  split at h
  · cases h
  rename_i hcheck
  split at h
  · cases h
  rename_i hn
  unfold LpConfig.check at hcheck
  split_ifs at hcheck with a b c
  refine ⟨?_, ?_, not_lt.mp c, not_lt.mp hn, h⟩
  · by_contra hc
    push Not at hc
    refine a ⟨hc.1, ?_⟩
    simpa using hc.2
  · intro t ht
    by_contra hc
    exact b ⟨t, ht, not_le.mp hc⟩

/-- What holds of the variables of the loop at the start of every iteration. -/
def LpInv (y : d → n → ℝ) (s : LpState n d) (g : d → Option ℝ) : Prop :=
  (s.active ≠ [] → s.target = s.active.map (fun c => y c - s.approx c)) ∧ s.norms = s.active.map g ∧ ∀ c, c ∈ s.active ↔ s.conds c = .noTermination

theorem LpInv.init (cfg : LpConfig) {funcs : List d} (hf : ∀ c, c ∈ funcs) (y : d → n → ℝ) : LpInv y (lpInit cfg funcs y) (fun _ => none) := by
  refine ⟨fun _ => ?_, rfl, fun c => ?_⟩
  · change funcs.map y = funcs.map (fun c => y c - (0 : n → ℝ))
    simp
  · simp [lpInit, hf c]

theorem LpInv.active_ne {y : d → n → ℝ} {s : LpState n d} {g : d → Option ℝ} (h : LpInv y s g) (hc : ∃ c, s.conds c = .noTermination) : s.active ≠ [] := by
  obtain ⟨c, hc⟩ := hc
  exact List.ne_nil_of_mem ((h.2.2 c).mpr hc)

/-- One iteration, in terms of functions. -/
theorem LpInv.step {cfg : LpConfig} {y : d → n → ℝ} {s s' : LpState n d} {g : d → Option ℝ} (h : LpInv y s g) (hc : ∃ c, s.conds c = .noTermination) {P : Matrix n n ℝ} {f : Fitted n}
    (hs' : lpUpdate cfg y P f s = s') :
    LpInv y s' (fun c => some (norm2 (y c - s'.approx c))) ∧
    (∀ c, y c - s'.approx c = if c ∈ s.active then (y c - s.approx c) - P *ᵥ (y c - s.approx c) else y c - s.approx c) ∧
    (∀ c ∈ s.active, s'.conds c = terminationRule cfg (norm2 (y c - s'.approx c)) (g c)) ∧ (∀ c, c ∉ s.active → s'.conds c = s.conds c) ∧
    (∀ c ∈ s'.active, c ∈ s.active) ∧ s'.eps = (if s'.active = [] then s.eps else s.eps / cfg.mu) := by
  obtain ⟨h1, h2, h3, h4, h5, h6, -⟩ := lpUpdate_spec cfg y P f s g (h.1 (h.active_ne hc)) h.2.1 s' hs'
  refine ⟨⟨h4, h5, fun c => ?_⟩, fun c => ?_, fun c hcm => ?_, fun c hcm => ?_, fun c hcm => ?_, h6⟩
  · rw [h3, List.mem_filter]
    simp only [decide_eq_true_eq]
    refine ⟨fun x => x.2, fun x => ⟨?_, x⟩⟩
    by_contra hn
    rw [h2 c, if_neg hn] at x
    exact hn ((h.2.2 c).mpr x)
  · rw [h1 c]
    split
    · abel
    · rw [add_zero]
  · rw [h2 c, if_pos hcm]
  · rw [h2 c, if_neg hcm]
  · rw [h3, List.mem_filter] at hcm
    exact hcm.1

end Verif.Kernel
