import Verif.Kernel.Fit
import Verif.Kernel.DmapProps
import Verif.Kernel.PyramidFormula
/-!
# C195: kernel models depend on the geometry of the samples only, not on their order, the coordinate frame, the units or the other query points
-/

namespace Verif.Kernel

open Matrix

set_option linter.unusedSectionVars false

variable {m m' n n' d d' e c : Type} [Fintype m] [Fintype m'] [Fintype n] [Fintype n'] [Fintype d] [Fintype d'] [Fintype e] [Fintype c]

/-! ## Specification -/

/-- The results with rows taken from other places. -/
def takeRows (τ : m' → m) (res : Except KErr (List (m → ℝ))) : Except KErr (List (m' → ℝ)) := res.map (fun cols => cols.map (fun v => v ∘ τ))

/-- The map preserves distances. -/
def Isometric (g : (d → ℝ) → d' → ℝ) : Prop := ∀ x y, sqDist (g x) (g y) = sqDist x y

/-! ## Lemmas -/

/-- The attributes of a kernel for reordered samples. -/
def Fitted.reorder (f : Fitted n) (σ : n' → n) : Fitted n' := ⟨f.rowSumsAlpha.map (· ∘ σ), f.basisChange.map (· ∘ σ)⟩

/-- Eigenpairs for reordered samples. -/
def reorderPairs (σ : n' → n) (pairs : List (Pair n)) : List (Pair n') := pairs.map (fun p => (p.1, p.2 ∘ σ))

theorem rowSums_sub (K : Matrix m n ℝ) (τ : m' → m) (σ : n' ≃ n) : rowSums (K.submatrix τ σ) = rowSums K ∘ τ := by
  funext i
  exact Equiv.sum_comp σ (fun j => K (τ i) j)

theorem removeNoise_sub (K : Matrix n n ℝ) (σ : n' ≃ n) : removeNoise (K.submatrix σ σ) = (removeNoise K).submatrix σ σ := by
  ext i j; rfl

theorem stochastic_sub (K : Matrix m n ℝ) (τ : m' → m) (σ : n' ≃ n) : stochastic (K.submatrix τ σ) = (stochastic K).submatrix τ σ := by
  ext i j
  unfold stochastic
  rw [rowSums_sub]
  rfl

theorem divide_sub {K R : Matrix m n ℝ} {v : m → ℝ} {w : n → ℝ} (h : divide K v w = .ok R) (τ : m' → m) (σ : n' ≃ n) : divide (K.submatrix τ σ) (v ∘ τ) (w ∘ σ) = .ok (R.submatrix τ σ) := by
  unfold divide at h ⊢
  split at h
  · cases h
  · rename_i h1
    split at h
    · cases h
    · rename_i h2
      rw [if_neg (fun ⟨i, hi⟩ => h1 ⟨τ i, hi⟩), if_neg (fun ⟨j, hj⟩ => h2 ⟨σ j, hj⟩)]
      injection h with h
      rw [← h]
      rfl

theorem divide_sub_square (K : Matrix n n ℝ) (v : n → ℝ) (σ : n' ≃ n) : divide (K.submatrix σ σ) (v ∘ σ) (v ∘ σ) = (divide K v v).map (fun R => R.submatrix σ σ) := by
  unfold divide
  by_cases h : ∃ i, v i = 0
  · rw [if_pos h]
    obtain ⟨i, hi⟩ := h
    rw [if_pos ⟨σ.symm i, by simpa using hi⟩]
    rfl
  · rw [if_neg h, if_neg h, if_neg (fun ⟨i, hi⟩ => h ⟨σ i, hi⟩), if_neg (fun ⟨i, hi⟩ => h ⟨σ i, hi⟩)]
    rfl

theorem divideSquare_sub (K : Matrix n n ℝ) (v : n → ℝ) (b : Bool) (σ : n' ≃ n) : divideSquare (K.submatrix σ σ) (v ∘ σ) b = (divideSquare K v b).map (fun R => R.submatrix σ σ) := by
  unfold divideSquare
  rw [divide_sub_square]
  cases divide K v v with
  | error er => rfl
  | ok R =>
    simp only [Except.map]
    cases b
    · rfl
    · simp only [if_true, removeNoise_sub]

theorem powSums_sub (k : DmapKernel) (s : n → ℝ) (σ : n' ≃ n) : powSums k (s ∘ σ) = (powSums k s).map (· ∘ σ) := by
  unfold powSums
  split
  · by_cases h : ∃ i, s i < 0
    · rw [if_pos h]
      obtain ⟨i, hi⟩ := h
      rw [if_pos ⟨σ.symm i, by simpa using hi⟩]
      rfl
    · rw [if_neg h, if_neg (fun ⟨i, hi⟩ => h ⟨σ i, hi⟩)]
      rfl
  · rfl

theorem powSums_comp {k : DmapKernel} {s v : m → ℝ} (h : powSums k s = .ok v) (τ : m' → m) : powSums k (s ∘ τ) = .ok (v ∘ τ) := by
  unfold powSums at h ⊢
  split at h
  · rename_i ha
    rw [if_pos ha]
    split at h
    · cases h
    · rename_i hs
      rw [if_neg (fun ⟨i, hi⟩ => hs ⟨τ i, hi⟩)]
      injection h with h
      rw [← h]
      rfl
  · rename_i ha
    rw [if_neg ha]
    injection h with h
    rw [h]

theorem alphaPdist_sub (k : DmapKernel) (K : Matrix n n ℝ) (σ : n' ≃ n) :
    alphaPdist k (K.submatrix σ σ) = (alphaPdist k K).map (fun p => (p.1.submatrix σ σ, p.2.map (· ∘ σ))) := by
  unfold alphaPdist
  split
  · unfold densityPdist
    rw [rowSums_sub, powSums_sub]
    cases powSums k (rowSums K) with
    | error er => rfl
    | ok v =>
      simp only [Except.map, divideSquare_sub]
      cases divideSquare K v k.distSymmetric <;> rfl
  · rfl

theorem conjugate_sub (K : Matrix n n ℝ) (σ : n' ≃ n) : conjugateStochastic (K.submatrix σ σ) = (conjugateStochastic K).map (fun p => (p.1.submatrix σ σ, p.2 ∘ σ)) := by
  unfold conjugateStochastic
  rw [rowSums_sub]
  by_cases h : ∃ i, rowSums K i < 0
  · rw [if_pos h]
    obtain ⟨i, hi⟩ := h
    rw [if_pos ⟨σ.symm i, by simpa using hi⟩]
    rfl
  · rw [if_neg h, if_neg (fun ⟨i, hi⟩ => h ⟨σ i, hi⟩)]
    have e : (fun i => Real.sqrt ((rowSums K ∘ σ) i)) = (fun i => Real.sqrt (rowSums K i)) ∘ σ := rfl
    rw [e, divideSquare_sub]
    cases divideSquare K (fun i => Real.sqrt (rowSums K i)) true <;> rfl

theorem evalPdist_sub (k : DmapKernel) (K : Matrix n n ℝ) (σ : n' ≃ n) :
    evalPdist k none (K.submatrix σ σ) = (evalPdist k none K).map (fun p => (p.1.submatrix σ σ, p.2.reorder σ)) := by
  unfold evalPdist
  dsimp only
  split
  · rw [alphaPdist_sub]
    cases alphaPdist k K with
    | error er => rfl
    | ok p =>
      simp only [Except.map]
      split
      · rw [conjugate_sub]
        cases conjugateStochastic p.1 <;> rfl
      · rw [stochastic_sub]
        rfl
  · rfl

theorem evalCdist_sub {k : DmapKernel} {f : Fitted n} {K P : Matrix m n ℝ} (h : evalCdist k (some f) K = .ok P) (τ : m' → m) (σ : n' ≃ n) :
    evalCdist k (some (f.reorder σ)) (K.submatrix τ σ) = .ok (P.submatrix τ σ) := by
  unfold evalCdist at h ⊢
  dsimp only at h ⊢
  split at h
  · rename_i hst
    rw [if_pos hst]
    unfold alphaCdist at h ⊢
    by_cases ha : 0 < k.alpha
    · rw [if_pos ha] at h ⊢
      cases hw : f.rowSumsAlpha with
      | none => rw [hw] at h; cases h
      | some w =>
        rw [hw] at h
        simp only [Fitted.reorder, hw, Option.map_some] at h ⊢
        unfold densityCdist at h ⊢
        rw [rowSums_sub]
        cases hv : powSums k (rowSums K) with
        | error er => rw [hv] at h; cases h
        | ok v =>
          rw [hv] at h
          rw [powSums_comp hv τ]
          dsimp only at h ⊢
          cases hR : divide K v w with
          | error er => rw [hR] at h; cases h
          | ok R =>
            rw [hR] at h
            rw [divide_sub hR τ σ]
            injection h with h
            rw [← h, ← stochastic_sub]
    · rw [if_neg ha] at h ⊢
      injection h with h
      rw [← h, ← stochastic_sub]
  · rename_i hst
    rw [if_neg hst]
    injection h with h
    rw [h]

theorem mulVec_sub (P : Matrix m n ℝ) (v : n → ℝ) (τ : m' → m) (σ : n' ≃ n) : P.submatrix τ σ *ᵥ (v ∘ σ) = (P *ᵥ v) ∘ τ := by
  funext i
  exact Equiv.sum_comp σ (fun j => P (τ i) j * v j)

theorem normalizeVec_sub (v : n → ℝ) (σ : n' ≃ n) : normalizeVec (v ∘ σ) = normalizeVec v ∘ σ := by
  funext i
  unfold normalizeVec
  rw [show (∑ j, (v ∘ σ) j * (v ∘ σ) j) = ∑ j, v j * v j from Equiv.sum_comp σ (fun j => v j * v j)]
  rfl

theorem changeBasis_sub (b : Option (n → ℝ)) (v : n → ℝ) (σ : n' → n) : changeBasis (b.map (· ∘ σ)) (v ∘ σ) = changeBasis b v ∘ σ := by
  cases b <;> rfl

theorem Solves.sub {A : Matrix n n ℝ} {b : Option (n → ℝ)} {N : Nat} {pairs : List (Pair n)} (h : Solves A b N pairs) (σ : n' ≃ n) :
    Solves (A.submatrix σ σ) (b.map (· ∘ σ)) N (reorderPairs σ pairs) := by
  obtain ⟨raw, h1, h2, rfl⟩ := h
  refine ⟨reorderPairs σ raw, by simpa [reorderPairs] using h1, fun p hp => ?_, ?_⟩
  · obtain ⟨q, hq, rfl⟩ := List.mem_map.1 hp
    obtain ⟨hne, he⟩ := h2 q hq
    refine ⟨fun h0 => hne ?_, ?_⟩
    · funext i
      have := congrFun h0 (σ.symm i)
      simpa using this
    · dsimp only
      rw [mulVec_sub, he]
      rfl
  · simp only [reorderPairs, List.map_map]
    refine List.map_congr_left fun p _ => ?_
    simp only [Function.comp_def]
    have e1 := changeBasis_sub b p.2 σ
    have e2 := normalizeVec_sub (changeBasis b p.2) σ
    simp only [Function.comp_def] at e1 e2
    rw [e1, e2]

theorem selectPairs_sub (coords : Option (List Nat)) (pairs : List (Pair n)) (σ : n' → n) : selectPairs coords (reorderPairs σ pairs) = reorderPairs σ (selectPairs coords pairs) := by
  cases coords with
  | none => rfl
  | some l =>
    simp only [selectPairs, reorderPairs, List.map_filterMap]
    refine List.filterMap_congr fun i _ => ?_
    rw [List.getElem?_map]

theorem nystrom_sub (P : Matrix m n ℝ) (sel : List (Pair n)) (τ : m' → m) (σ : n' ≃ n) : nystrom (P.submatrix τ σ) (reorderPairs σ sel) = takeRows τ (nystrom P sel) := by
  unfold nystrom takeRows
  by_cases h : ∃ p ∈ sel, p.1 = 0
  · rw [if_pos h]
    obtain ⟨p, hp, h0⟩ := h
    rw [if_pos ⟨_, List.mem_map_of_mem hp, h0⟩]
    rfl
  · rw [if_neg h, if_neg]
    · simp only [Except.map, reorderPairs, List.map_map]
      congr 1
      refine List.map_congr_left fun p _ => ?_
      exact mulVec_sub P (fun j => p.1⁻¹ * p.2 j) τ σ
    · rintro ⟨p, hp, h0⟩
      obtain ⟨q, hq, rfl⟩ := List.mem_map.1 hp
      exact h ⟨q, hq, h0⟩

theorem matDotDiag_sub (cols : List (m → ℝ)) (diag : List ℝ) (τ : m' → m) : matDotDiag (cols.map (· ∘ τ)) diag = takeRows τ (matDotDiag cols diag) := by
  unfold matDotDiag takeRows
  rw [List.length_map]
  split
  · simp only [Except.map, List.map_zipWith, List.zipWith_map_left]
    rfl
  · match cols, diag with
    | [], [] => rfl
    | [], [_] => rfl
    | [], _ :: _ :: _ => rfl
    | [_], [] => rfl
    | [_], [_] => rfl
    | [_], _ :: _ :: _ => simp [Except.map, Function.comp_def]
    | _ :: _ :: _, [] => rfl
    | _ :: _ :: _, [_] => simp [Except.map, Function.comp_def]
    | _ :: _ :: _, _ :: _ :: _ => rfl

theorem embed_sub (t : ℝ) (l : List ℝ) (cols : List (m → ℝ)) (τ : m' → m) : embed t l (cols.map (· ∘ τ)) = takeRows τ (embed t l cols) := by
  unfold embed
  split
  · rfl
  · cases l.mapM (fun x => npPower x t) with
    | error er => rfl
    | ok p => exact matDotDiag_sub cols p τ

theorem fst_reorder (σ : n' → n) (pairs : List (Pair n)) : (reorderPairs σ pairs).map Prod.fst = pairs.map Prod.fst := by
  simp [reorderPairs, Function.comp_def]

theorem transform_sub {k : DmapKernel} {f : Fitted n} {t : ℝ} {coords : Option (List Nat)} {pairs : List (Pair n)} {K : Matrix m n ℝ} {cols : List (m → ℝ)} (h : transform k f t coords pairs K = .ok cols)
    (τ : m' → m) (σ : n' ≃ n) : transform k (f.reorder σ) t coords (reorderPairs σ pairs) (K.submatrix τ σ) = .ok (cols.map (· ∘ τ)) := by
  unfold transform at h ⊢
  cases hP : evalCdist k (some f) K with
  | error er => rw [hP] at h; cases h
  | ok P =>
    rw [hP] at h
    rw [evalCdist_sub hP τ σ]
    dsimp only at h ⊢
    rw [selectPairs_sub, nystrom_sub]
    cases hN : nystrom P (selectPairs coords pairs) with
    | error er => rw [hN] at h; cases h
    | ok cs =>
      rw [hN] at h
      simp only [takeRows, Except.map] at h ⊢
      have := embed_sub t (pairs.map Prod.fst) cs τ
      rw [fst_reorder, this, h]
      rfl

theorem fitTransform_sub (t : ℝ) (coords : Option (List Nat)) (pairs : List (Pair n)) (σ : n' → n) : fitTransform t coords (reorderPairs σ pairs) = takeRows σ (fitTransform t coords pairs) := by
  unfold fitTransform
  rw [fst_reorder, selectPairs_sub]
  have : (reorderPairs σ (selectPairs coords pairs)).map Prod.snd = ((selectPairs coords pairs).map Prod.snd).map (· ∘ σ) := by
    simp [reorderPairs, Function.comp_def]
  rw [this]
  exact embed_sub t _ _ σ

theorem call_sub (r : Radial) (X : n → d → ℝ) (Y : m → d → ℝ) (τ : m' → m) (σ : n' → n) : r.call (X ∘ σ) (Y ∘ τ) = (r.call X Y).map (fun K => K.submatrix τ σ) := by
  unfold Radial.call Radial.evaluate
  cases r.check <;> rfl

theorem call_isometric (r : Radial) {g : (d → ℝ) → d' → ℝ} (hg : Isometric g) (X : n → d → ℝ) (Y : m → d → ℝ) : r.call (fun j => g (X j)) (fun i => g (Y i)) = r.call X Y := by
  unfold Radial.call
  congr 2
  ext i j
  cases r.metric <;> simp only [of_apply, Metric.dist, hg (Y i) (X j)]

theorem reorder_reorder (f : Fitted n) (σ : n' ≃ n) : (f.reorder σ).reorder σ.symm = f := by
  cases f with
  | mk a b => cases a <;> cases b <;> simp [Fitted.reorder, Function.comp_def]

theorem reorderPairs_reorder (pairs : List (Pair n)) (σ : n' ≃ n) : reorderPairs σ.symm (reorderPairs σ pairs) = pairs := by
  simp [reorderPairs, Function.comp_def]

theorem IsDmapFit.sub {r : Radial} {k : DmapKernel} {N : Nat} {X : n → d → ℝ} {f : Fitted n} {pairs : List (Pair n)} (h : IsDmapFit r k N X f pairs) (σ : n' ≃ n) :
    IsDmapFit r k N (X ∘ σ) (f.reorder σ) (reorderPairs σ pairs) := by
  obtain ⟨K, A, h1, h2, h3⟩ := h
  refine ⟨K.submatrix σ σ, A.submatrix σ σ, ?_, ?_, ?_⟩
  · rw [call_sub, h1]; rfl
  · rw [evalPdist_sub, h2]; rfl
  · exact h3.sub σ

theorem dmapTransform_sub {r : Radial} {k : DmapKernel} {f : Fitted n} {t : ℝ} {coords : Option (List Nat)} {pairs : List (Pair n)} {X : n → d → ℝ} {Y : m → d → ℝ} {cols : List (m → ℝ)}
    (h : dmapTransform r k f t coords pairs X Y = .ok cols) (τ : m' → m) (σ : n' ≃ n) :
    dmapTransform r k (f.reorder σ) t coords (reorderPairs σ pairs) (X ∘ σ) (Y ∘ τ) = .ok (cols.map (· ∘ τ)) := by
  unfold dmapTransform at h ⊢
  rw [call_sub]
  cases hK : r.call X Y with
  | error er => rw [hK] at h; cases h
  | ok K =>
    rw [hK] at h
    exact transform_sub h τ σ

theorem takeRows_ok {τ : m' → m} {res : Except KErr (List (m → ℝ))} : (∃ c, takeRows τ res = .ok c) ↔ ∃ c, res = .ok c := by
  cases res with
  | error er => simp [takeRows, Except.map]
  | ok v => simp [takeRows, Except.map]

theorem transform_rows {k : DmapKernel} {f : Fitted n} {t : ℝ} {coords : Option (List Nat)} {pairs : List (Pair n)} {K P : Matrix m n ℝ} (hP : evalCdist k (some f) K = .ok P) (τ : m' → m) :
    transform k f t coords pairs (K.submatrix τ id) = takeRows τ (transform k f t coords pairs K) := by
  have h1 := evalCdist_sub hP τ (Equiv.refl n)
  have h2 := nystrom_sub P (selectPairs coords pairs) τ (Equiv.refl n)
  have e1 : f.reorder (Equiv.refl n) = f := by
    cases f with
    | mk a b => cases a <;> cases b <;> rfl
  have e2 : ∀ l : List (Pair n), reorderPairs (Equiv.refl n) l = l := fun l => by simp [reorderPairs]
  rw [e1] at h1
  rw [e2] at h2
  have e3 : K.submatrix τ (Equiv.refl n) = K.submatrix τ id := rfl
  rw [e3] at h1
  unfold transform
  rw [h1, hP]
  dsimp only
  rw [h2]
  cases nystrom P (selectPairs coords pairs) with
  | error er => rfl
  | ok cs => exact embed_sub t _ cs τ

open Classical in
/-- When a component-wise evaluation is accepted. -/
theorem evalCdist_ok_iff {k : DmapKernel} {f : Fitted n} {K : Matrix m n ℝ} : (∃ P, evalCdist k (some f) K = .ok P) ↔
    (k.isStochastic = true → 0 < k.alpha → ∃ w, f.rowSumsAlpha = some w ∧ (∀ j, w j ≠ 0) ∧ ∀ i, (k.alpha < 1 → 0 ≤ rowSums K i) ∧ (if k.alpha < 1 then rowSums K i ^ k.alpha else rowSums K i) ≠ 0) := by
  unfold evalCdist
  dsimp only
  by_cases hst : k.isStochastic = true
  swap
  · simp [hst]
  rw [if_pos hst]
  unfold alphaCdist
  by_cases ha : 0 < k.alpha
  swap
  · simp [ha]
  rw [if_pos ha]
  simp only [hst, ha, true_imp_iff]
  cases hw : f.rowSumsAlpha with
  | none => simp
  | some w =>
    simp only [Option.some.injEq, exists_eq_left']
    unfold densityCdist powSums
    by_cases h1 : k.alpha < 1
    · simp only [h1, if_true, true_imp_iff]
      by_cases hneg : ∃ i, rowSums K i < 0
      · rw [if_pos hneg]
        refine ⟨fun ⟨_, h⟩ => (nomatch h), fun ⟨_, h⟩ => ?_⟩
        obtain ⟨i, hi⟩ := hneg
        exact absurd (h i).1 (not_le.2 hi)
      · rw [if_neg hneg]
        dsimp only
        unfold divide
        push Not at hneg
        by_cases hz : ∃ i, rowSums K i ^ k.alpha = 0
        · rw [if_pos hz]
          refine ⟨fun ⟨_, h⟩ => (nomatch h), fun ⟨_, h⟩ => ?_⟩
          obtain ⟨i, hi⟩ := hz
          exact absurd hi (h i).2
        · rw [if_neg hz]
          push Not at hz
          by_cases hw0 : ∃ j, w j = 0
          · rw [if_pos hw0]
            refine ⟨fun ⟨_, h⟩ => (nomatch h), fun ⟨h, _⟩ => ?_⟩
            obtain ⟨j, hj⟩ := hw0
            exact absurd hj (h j)
          · rw [if_neg hw0]
            push Not at hw0
            exact ⟨fun _ => ⟨hw0, fun i => ⟨hneg i, hz i⟩⟩, fun _ => ⟨_, rfl⟩⟩
    · simp only [h1, if_false, false_imp_iff, true_and]
      unfold divide
      by_cases hz : ∃ i, rowSums K i = 0
      · rw [if_pos hz]
        refine ⟨fun ⟨_, h⟩ => (nomatch h), fun ⟨_, h⟩ => ?_⟩
        obtain ⟨i, hi⟩ := hz
        exact absurd hi (h i)
      · rw [if_neg hz]
        push Not at hz
        by_cases hw0 : ∃ j, w j = 0
        · rw [if_pos hw0]
          refine ⟨fun ⟨_, h⟩ => (nomatch h), fun ⟨h, _⟩ => ?_⟩
          obtain ⟨j, hj⟩ := hw0
          exact absurd hj (h j)
        · rw [if_neg hw0]
          push Not at hw0
          exact ⟨fun _ => ⟨hw0, hz⟩, fun _ => ⟨_, rfl⟩⟩

theorem evalCdist_points [Nonempty m] {k : DmapKernel} {f : Fitted n} {K : Matrix m n ℝ} :
    (∃ P, evalCdist k (some f) K = .ok P) ↔ ∀ i, ∃ P, evalCdist k (some f) (K.submatrix (fun _ : Unit => i) id) = .ok P := by
  constructor
  · rintro ⟨P, hP⟩ i
    have h1 := evalCdist_sub hP (fun _ : Unit => i) (Equiv.refl n)
    have e1 : f.reorder (Equiv.refl n) = f := by
      cases f with
      | mk a b => cases a <;> cases b <;> rfl
    rw [e1] at h1
    exact ⟨_, h1⟩
  · intro h
    rw [evalCdist_ok_iff]
    intro hst ha
    obtain ⟨w, hw, hw0, -⟩ := evalCdist_ok_iff.1 (h (Classical.arbitrary m)) hst ha
    refine ⟨w, hw, hw0, fun i => ?_⟩
    obtain ⟨w', -, -, hi⟩ := evalCdist_ok_iff.1 (h i) hst ha
    exact hi ()

theorem precomputeAux_sub (pairs : List (Pair n)) (y : Matrix n e ℝ) (σ : n' ≃ n) : precomputeAux (reorderPairs σ pairs) (y.submatrix σ id) = (precomputeAux pairs y).map (fun M => M.submatrix σ id) := by
  unfold precomputeAux
  by_cases h : ∃ p ∈ pairs, p.1 = 0
  · rw [if_pos h]
    obtain ⟨p, hp, h0⟩ := h
    rw [if_pos ⟨_, List.mem_map_of_mem hp, h0⟩]
    rfl
  · rw [if_neg h, if_neg]
    · simp only [Except.map]
      congr 1
      ext i a
      simp only [of_apply, submatrix_apply, id]
      rw [reorderPairs, List.map_map]
      refine congrArg List.sum (List.map_congr_left fun p _ => ?_)
      exact congrArg (p.2 (σ i) * p.1⁻¹ * ·) (Equiv.sum_comp σ (fun j => p.2 j * y j a))
    · rintro ⟨p, hp, h0⟩
      obtain ⟨q, hq, rfl⟩ := List.mem_map.1 hp
      exact h ⟨q, hq, h0⟩

theorem ghModel_sub {r : Radial} {k : DmapKernel} {f : Fitted n} {pairs : List (Pair n)} {X : n → d → ℝ} {y : Matrix n e ℝ} {Y : m → d → ℝ} {M : Matrix m e ℝ}
    (h : ghModel r k f pairs X y Y = .ok M) (τ : m' → m) (σ : n' ≃ n) :
    ghModel r k (f.reorder σ) (reorderPairs σ pairs) (X ∘ σ) (y.submatrix σ id) (Y ∘ τ) = .ok (M.submatrix τ id) := by
  unfold ghModel at h ⊢
  rw [call_sub, precomputeAux_sub]
  cases hA : precomputeAux pairs y with
  | error er => rw [hA] at h; cases h
  | ok aux =>
    rw [hA] at h
    dsimp only [Except.map] at h ⊢
    cases hK : r.call X Y with
    | error er => rw [hK] at h; cases h
    | ok K =>
      rw [hK] at h
      dsimp only at h ⊢
      unfold ghPredict at h ⊢
      cases hP : evalCdist k (some f) K with
      | error er => rw [hP] at h; cases h
      | ok P =>
        rw [hP] at h
        rw [evalCdist_sub hP τ σ]
        injection h with h
        dsimp only
        rw [← h]
        congr 1
        exact Matrix.submatrix_mul_equiv P aux τ σ id

/-! ## C195 -/

/-- C195, order: a model fitted to samples in another order has the same eigenvalues, the eigenvectors and training coordinates in that order, and maps all query points to the same coordinates. -/
theorem C195_order {r : Radial} {k : DmapKernel} {N : Nat} {X : n → d → ℝ} {f : Fitted n} {pairs : List (Pair n)} (h : IsDmapFit r k N X f pairs) (σ : n' ≃ n) :
    ∃ f' pairs', IsDmapFit r k N (X ∘ σ) f' pairs' ∧ pairs' = pairs.map (fun p => (p.1, p.2 ∘ σ)) ∧
      (∀ t coords, fitTransform t coords pairs' = takeRows σ (fitTransform t coords pairs)) ∧
      ∀ t coords (Y : m → d → ℝ) cols, dmapTransform r k f' t coords pairs' (X ∘ σ) Y = .ok cols ↔ dmapTransform r k f t coords pairs X Y = .ok cols := by
  refine ⟨_, _, h.sub σ, rfl, fun t coords => fitTransform_sub t coords pairs σ, fun t coords Y cols => ⟨fun hc => ?_, fun hc => ?_⟩⟩
  · have := dmapTransform_sub hc (id : m → m) σ.symm
    rw [reorder_reorder, reorderPairs_reorder] at this
    simpa [Function.comp_def] using this
  · have := dmapTransform_sub hc (id : m → m) σ
    simpa [Function.comp_def] using this

/-- C195, order: and these are all models that a fit to the samples in the other order can have. -/
theorem C195_order_iff (r : Radial) (k : DmapKernel) (N : Nat) (X : n → d → ℝ) (pairs' : List (Pair n')) (σ : n' ≃ n) :
    (∃ f', IsDmapFit r k N (X ∘ σ) f' pairs') ↔ ∃ f pairs, IsDmapFit r k N X f pairs ∧ pairs' = pairs.map (fun p => (p.1, p.2 ∘ σ)) := by
  constructor
  · rintro ⟨f', h⟩
    have h1 := h.sub σ.symm
    have e : (X ∘ σ) ∘ σ.symm = X := by funext i; simp
    rw [e] at h1
    refine ⟨_, _, h1, ?_⟩
    have := reorderPairs_reorder pairs' σ.symm
    exact this.symm
  · rintro ⟨f, pairs, h, rfl⟩
    exact ⟨_, h.sub σ⟩

/-- C195, coordinate frame: translations, rotations, reflections and every other map that preserves distances change neither the model nor the coordinates of query points. -/
theorem C195_isometry (r : Radial) (k : DmapKernel) (N : Nat) (X : n → d → ℝ) (f : Fitted n) (pairs : List (Pair n)) (g : (d → ℝ) → d' → ℝ) (hg : Isometric g) :
    (IsDmapFit r k N (fun i => g (X i)) f pairs ↔ IsDmapFit r k N X f pairs) ∧
      (∀ t coords (Y : m → d → ℝ), dmapTransform r k f t coords pairs (fun i => g (X i)) (fun i => g (Y i)) = dmapTransform r k f t coords pairs X Y) ∧
      ∀ (y : Matrix n e ℝ) (Y : m → d → ℝ), ghModel r k f pairs (fun i => g (X i)) y (fun i => g (Y i)) = ghModel r k f pairs X y Y := by
  refine ⟨?_, fun t coords Y => ?_, fun y Y => ?_⟩
  · unfold IsDmapFit
    rw [call_isometric r hg]
  · unfold dmapTransform
    rw [call_isometric r hg]
  · unfold ghModel
    rw [call_isometric r hg]

theorem call_scale (eps : ℝ) {a : ℝ} (ha : a ≠ 0) (X : n → d → ℝ) (Y : m → d → ℝ) : (Radial.gaussian (a ^ 2 * eps)).call (fun i => a • X i) (fun i => a • Y i) = (Radial.gaussian eps).call X Y := by
  have ha2 : 0 < a ^ 2 := by positivity
  have hc : (Radial.gaussian (a ^ 2 * eps)).check = (Radial.gaussian eps).check := by
    unfold Radial.check Radial.epsilon
    simp only [mul_pos_iff_of_pos_left ha2]
  unfold Radial.call Radial.evaluate
  rw [hc]
  cases hk : (Radial.gaussian eps).check with
  | error er => rfl
  | ok u =>
    dsimp only
    congr 1
    ext i j
    simp only [of_apply, Radial.fn, Radial.metric, Metric.dist]
    have e : sqDist (a • Y i) (a • X j) = a ^ 2 * sqDist (Y i) (X j) := by
      unfold sqDist
      rw [Finset.mul_sum]
      refine Finset.sum_congr rfl fun l _ => ?_
      simp only [Pi.smul_apply, smul_eq_mul]
      ring
    rw [e]
    congr 1
    by_cases he : eps = 0
    · simp [he]
    · field_simp

/-- C195, units: with a Gaussian kernel, samples in other units and the bandwidth in the square of these units give the same model. -/
theorem C195_units (eps a : ℝ) (ha : a ≠ 0) (k : DmapKernel) (N : Nat) (X : n → d → ℝ) (f : Fitted n) (pairs : List (Pair n)) :
    (IsDmapFit (.gaussian (a ^ 2 * eps)) k N (fun i => a • X i) f pairs ↔ IsDmapFit (.gaussian eps) k N X f pairs) ∧
      (∀ t coords (Y : m → d → ℝ), dmapTransform (.gaussian (a ^ 2 * eps)) k f t coords pairs (fun i => a • X i) (fun i => a • Y i) = dmapTransform (.gaussian eps) k f t coords pairs X Y) ∧
      ∀ (y : Matrix n e ℝ) (Y : m → d → ℝ), ghModel (.gaussian (a ^ 2 * eps)) k f pairs (fun i => a • X i) y (fun i => a • Y i) = ghModel (.gaussian eps) k f pairs X y Y := by
  refine ⟨?_, fun t coords Y => ?_, fun y Y => ?_⟩
  · unfold IsDmapFit
    rw [call_scale eps ha]
  · unfold dmapTransform
    rw [call_scale eps ha]
  · unfold ghModel
    rw [call_scale eps ha]

/-- C195, query points: the coordinates of a query point do not depend on the other query points, their order or repetitions. -/
theorem C195_points {r : Radial} {k : DmapKernel} {f : Fitted n} {t : ℝ} {coords : Option (List Nat)} {pairs : List (Pair n)} {X : n → d → ℝ} {Y : m → d → ℝ} {cols : List (m → ℝ)}
    (h : dmapTransform r k f t coords pairs X Y = .ok cols) (τ : m' → m) : dmapTransform r k f t coords pairs X (Y ∘ τ) = takeRows τ (.ok cols) := by
  have := dmapTransform_sub h τ (Equiv.refl n)
  have e1 : f.reorder (Equiv.refl n) = f := by
    cases f with
    | mk a b => cases a <;> cases b <;> rfl
  have e2 : reorderPairs (Equiv.refl n) pairs = pairs := by simp [reorderPairs]
  rw [e1, e2] at this
  exact this

/-- C195, query points: and a set of query points is refused exactly if one of them alone is refused. -/
theorem C195_points_iff [Nonempty m] (r : Radial) (k : DmapKernel) (f : Fitted n) (t : ℝ) (coords : Option (List Nat)) (pairs : List (Pair n)) (X : n → d → ℝ) (Y : m → d → ℝ) :
    (∃ cols, dmapTransform r k f t coords pairs X Y = .ok cols) ↔ ∀ i, ∃ cols, dmapTransform r k f t coords pairs X (fun _ : Unit => Y i) = .ok cols := by
  constructor
  · rintro ⟨cols, h⟩ i
    exact ⟨_, C195_points h (fun _ : Unit => i)⟩
  · intro h
    have hcall : ∀ i, r.call X (fun _ : Unit => Y i) = (r.call X Y).map (fun K => K.submatrix (fun _ : Unit => i) id) := fun i => call_sub r X Y (fun _ : Unit => i) (id : n → n)
    unfold dmapTransform at h ⊢
    cases hK : r.call X Y with
    | error er =>
      obtain ⟨c, hc⟩ := h (Classical.arbitrary m)
      rw [hcall, hK] at hc
      cases hc
    | ok K =>
      simp only [hcall, hK, Except.map] at h ⊢
      have hev : ∃ P, evalCdist k (some f) K = .ok P := by
        rw [evalCdist_points]
        intro i
        obtain ⟨c, hc⟩ := h i
        unfold transform at hc
        cases hP : evalCdist k (some f) (K.submatrix (fun _ : Unit => i) id) with
        | error er => rw [hP] at hc; cases hc
        | ok P => exact ⟨P, rfl⟩
      obtain ⟨P, hP⟩ := hev
      obtain ⟨c, hc⟩ := h (Classical.arbitrary m)
      rw [transform_rows hP] at hc
      exact takeRows_ok.1 ⟨c, hc⟩

/-- C195, geometric harmonics: reordered training samples and target values give the same predictions at all query points, and the prediction at a query point does not depend on the other ones. -/
theorem C195_harmonics {r : Radial} {k : DmapKernel} {N : Nat} {X : n → d → ℝ} {f : Fitted n} {pairs : List (Pair n)} (h : IsDmapFit r k N X f pairs) (σ : n' ≃ n) :
    ∃ f' pairs', IsDmapFit r k N (X ∘ σ) f' pairs' ∧ ∀ (y : Matrix n e ℝ) (Y : m → d → ℝ) (M : Matrix m e ℝ), ghModel r k f pairs X y Y = .ok M →
      ∀ τ : m' → m, ghModel r k f' pairs' (X ∘ σ) (fun i => y (σ i)) (Y ∘ τ) = .ok (fun i => M (τ i)) :=
  ⟨_, _, h.sub σ, fun _ _ _ hM τ => ghModel_sub hM τ σ⟩

/-! ## Laplacian pyramids -/

theorem lpDistance_sub (X : n → d → ℝ) (Y : m → d → ℝ) {g : (d → ℝ) → d' → ℝ} (hg : Isometric g) (σ : n' → n) (τ : m' → m) :
    lpDistance (fun i => g (X (σ i))) (fun i => g (Y (τ i))) = (lpDistance X Y).submatrix τ σ := by
  ext i j
  exact hg (Y (τ i)) (X (σ j))

theorem levelMatrix_sub (α eps : ℝ) (X : n → d → ℝ) (Y : m → d → ℝ) {g : (d → ℝ) → d' → ℝ} (hg : Isometric g) (σ : n' ≃ n) (τ : m' → m) :
    levelMatrix α eps (fun i => g (X (σ i))) (fun i => g (Y (τ i))) = (levelMatrix α eps X Y).submatrix τ σ := by
  unfold levelMatrix
  have e1 : gaussM eps (lpDistance (fun i => g (X (σ i))) (fun i => g (X (σ i)))) = (gaussM eps (lpDistance X X)).submatrix σ σ := by
    rw [lpDistance_sub X X hg σ σ]; rfl
  have e2 : gaussM eps (lpDistance (fun i => g (X (σ i))) (fun i => g (Y (τ i)))) = (gaussM eps (lpDistance X Y)).submatrix τ σ := by
    rw [lpDistance_sub X Y hg σ τ]; rfl
  rw [e1, e2, rowSums_sub]
  ext i j
  simp only [diffusion, of_apply, submatrix_apply, Function.comp]
  rw [Equiv.sum_comp σ (fun l => gaussM eps (lpDistance X Y) (τ i) l / rowSums (gaussM eps (lpDistance X X)) l ^ α)]

theorem pyrResidual_sub [DecidableEq n] [DecidableEq n'] (cfg : LpConfig) (X : n → d → ℝ) (v : n → ℝ) {g : (d → ℝ) → d' → ℝ} (hg : Isometric g) (σ : n' ≃ n) (k : Nat) :
    pyrResidual cfg (fun i => g (X (σ i))) (v ∘ σ) k = pyrResidual cfg X v k ∘ σ := by
  induction k with
  | zero => rfl
  | succ k ih =>
    funext i
    rw [pyrResidual, Function.comp, pyrResidual, ih, levelMatrix_sub _ _ X X hg σ σ]
    refine congrArg (pyrResidual cfg X v k (σ i) - ·) ?_
    rw [← Equiv.sum_comp σ]
    refine Finset.sum_congr rfl fun j _ => ?_
    simp only [submatrix_apply, Function.comp, EmbeddingLike.apply_eq_iff_eq]

theorem norm2_sub (v : n → ℝ) (σ : n' ≃ n) : norm2 (v ∘ σ) = norm2 v := congrArg Real.sqrt (Equiv.sum_comp σ (fun j => v j ^ 2))

theorem grows_sub [DecidableEq n] [DecidableEq n'] (cfg : LpConfig) (X : n → d → ℝ) (v : n → ℝ) {g : (d → ℝ) → d' → ℝ} (hg : Isometric g) (σ : n' ≃ n) (k : Nat) :
    Grows cfg (fun i => g (X (σ i))) (v ∘ σ) k ↔ Grows cfg X v k := by
  unfold Grows
  simp only [pyrResidual_sub cfg X v hg σ, norm2_sub]

theorem isEnd_sub [DecidableEq n] [DecidableEq n'] (cfg : LpConfig) (X : n → d → ℝ) (v : n → ℝ) {g : (d → ℝ) → d' → ℝ} (hg : Isometric g) (σ : n' ≃ n) (k : Nat) :
    IsEnd cfg (fun i => g (X (σ i))) (v ∘ σ) k ↔ IsEnd cfg X v k := by
  unfold IsEnd Ends
  simp only [grows_sub cfg X v hg σ, pyrResidual_sub cfg X v hg σ, norm2_sub]

open Classical in
theorem pyrValue_sub [DecidableEq n] [DecidableEq n'] (cfg : LpConfig) (X : n → d → ℝ) (v : n → ℝ) {g : (d → ℝ) → d' → ℝ} (hg : Isometric g) (σ : n' ≃ n) (k : Nat) (Y : m → d → ℝ) (τ : m' → m) :
    pyrValue cfg (fun i => g (X (σ i))) (v ∘ σ) k (fun i => g (Y (τ i))) = pyrValue cfg X v k Y ∘ τ := by
  unfold pyrValue
  have hs : (if Grows cfg (fun i => g (X (σ i))) (v ∘ σ) k then k else k + 1) = if Grows cfg X v k then k else k + 1 := by
    by_cases h : Grows cfg X v k
    · rw [if_pos h, if_pos ((grows_sub cfg X v hg σ k).2 h)]
    · rw [if_neg h, if_neg (fun h' => h ((grows_sub cfg X v hg σ k).1 h'))]
  rw [hs]
  funext i
  rw [Function.comp, Finset.sum_apply, Finset.sum_apply]
  refine Finset.sum_congr rfl fun j _ => ?_
  rw [levelMatrix_sub _ _ X Y hg σ τ, pyrResidual_sub cfg X v hg σ, mulVec_sub]
  rfl

/-- C195, Laplacian pyramids: reordered training samples and target values in another coordinate frame give the same predictions, and the prediction at a query point does not depend on the other ones. -/
theorem C195_pyramids [DecidableEq n] [DecidableEq n'] [DecidableEq c] (cfg : LpConfig) (h0 : 0 ≤ cfg.alpha) (h1 : cfg.alpha ≤ 1) (funcs : List c) (hf : ∀ a, a ∈ funcs) (X : n → d → ℝ) (y : c → n → ℝ)
    (g : (d → ℝ) → d' → ℝ) (hg : Isometric g) (σ : n' ≃ n) (fuel fuel' : Nat) (levels : List (Level n c)) (levels' : List (Level n' c)) (h : lpFit cfg funcs X y fuel = .ok (some levels))
    (h' : lpFit cfg funcs (fun i => g (X (σ i))) (fun a => y a ∘ σ) fuel' = .ok (some levels')) (Y : m → d → ℝ) (τ : m' → m) :
    ∃ yhat, lpPredict cfg X levels Y = .ok yhat ∧ lpPredict cfg (fun i => g (X (σ i))) levels' (fun i => g (Y (τ i))) = .ok (fun a => yhat a ∘ τ) := by
  obtain ⟨r, hr, hrc⟩ := C194_formula cfg h0 h1 funcs hf X y fuel levels h Y
  obtain ⟨r', hr', hrc'⟩ := C194_formula cfg h0 h1 funcs hf _ _ fuel' levels' h' (fun i => g (Y (τ i)))
  refine ⟨r, hr, ?_⟩
  rw [hr']
  congr 1
  funext a
  obtain ⟨k, hk, e⟩ := hrc a
  obtain ⟨k', hk', e'⟩ := hrc' a
  have hk2 := (isEnd_sub cfg X (y a) hg σ k').1 hk'
  rw [e', e, hk2.unique hk, pyrValue_sub cfg X (y a) hg σ k Y τ]

/-- C195, Laplacian pyramids: the fit to the samples in the other order and frame ends exactly if the fit to the given samples does. -/
theorem C195_pyramids_end [DecidableEq n] [DecidableEq n'] [DecidableEq c] (cfg : LpConfig) (h0 : 0 ≤ cfg.alpha) (h1 : cfg.alpha ≤ 1) (hp : cfg.residualTol ≠ none ∨ cfg.autoAdaptive = true)
    (htol : ∀ t, cfg.residualTol = some t → 0 ≤ t) (hmu : 1 ≤ cfg.mu) (heps : 0 < cfg.initialEpsilon) (funcs : List c) (hf : ∀ a, a ∈ funcs) (X : n → d → ℝ) (hn : 2 ≤ Fintype.card n) (y : c → n → ℝ)
    (g : (d → ℝ) → d' → ℝ) (hg : Isometric g) (σ : n' ≃ n) :
    (∃ fuel levels, lpFit cfg funcs (fun i => g (X (σ i))) (fun a => y a ∘ σ) fuel = .ok (some levels)) ↔ ∃ fuel levels, lpFit cfg funcs X y fuel = .ok (some levels) := by
  rw [C194_terminates cfg h0 h1 hp htol hmu heps funcs hf X hn y, C194_terminates cfg h0 h1 hp htol hmu heps funcs hf _ (by rw [Fintype.card_congr σ]; exact hn) _]
  exact forall_congr' fun a => exists_congr fun k => isEnd_sub cfg X (y a) hg σ k

/-! ## Examples -/

/-- Similarity of two points at distance one. -/
noncomputable def exSim : ℝ := Real.exp (-1 / 2)

/-- Two points on a line. -/
def exLine : Fin 2 → Fin 1 → ℝ := ![![0], ![1]]

theorem exLine_call : (Radial.gaussian 1).call exLine exLine = .ok !![1, exSim; exSim, 1] := by
  unfold Radial.call Radial.evaluate Radial.check Radial.epsilon
  simp only [zero_lt_one, if_true]
  congr 1
  ext i j
  fin_cases i <;> fin_cases j <;> simp [Radial.fn, Radial.metric, Metric.dist, sqDist, exLine, exSim]

/-- non-vacuity: a fit to two points with two eigenpairs; rotations by 180 degrees are isometric, the order can be reversed. -/
theorem exLine_fit : ∃ f, IsDmapFit (.gaussian 1) ⟨false, 0, false, true⟩ 2 exLine f [(1 + exSim, normalizeVec ![1, 1]), (1 - exSim, normalizeVec ![1, -1])] := by
  refine ⟨⟨none, none⟩, _, _, exLine_call, rfl, [(1 + exSim, ![1, 1]), (1 - exSim, ![1, -1])], rfl, ?_, rfl⟩
  intro p hp
  simp only [List.mem_cons, List.not_mem_nil, or_false] at hp
  rcases hp with rfl | rfl
  · refine ⟨fun h => by simpa using congrFun h 0, ?_⟩
    ext i
    fin_cases i <;> simp [mulVec, dotProduct, Fin.sum_univ_two] <;> ring
  · refine ⟨fun h => by simpa using congrFun h 0, ?_⟩
    ext i
    fin_cases i <;> simp [mulVec, dotProduct, Fin.sum_univ_two] <;> ring

example : Isometric (fun x : Fin 1 → ℝ => fun i => 3 - x i) := by
  intro x y
  unfold sqDist
  refine Finset.sum_congr rfl fun i _ => ?_
  ring

example : ∃ f cols, dmapTransform (.gaussian 1) ⟨false, 0, false, true⟩ f 0 none [(1 + exSim, normalizeVec ![1, 1]), (1 - exSim, normalizeVec ![1, -1])] exLine exLine = .ok cols := by
  obtain ⟨f, -⟩ := exLine_fit
  refine ⟨f, ?_⟩
  unfold dmapTransform
  rw [exLine_call]
  dsimp only
  unfold transform evalCdist
  simp only [Bool.false_eq_true, if_false, selectPairs]
  unfold nystrom
  have h1 : exSim < 1 := by
    unfold exSim
    rw [Real.exp_lt_one_iff]
    norm_num
  have h2 : 0 < exSim := Real.exp_pos _
  rw [if_neg]
  · dsimp only
    unfold embed
    rw [if_pos rfl]
    exact ⟨_, rfl⟩
  · rintro ⟨p, hp, h0⟩
    simp only [List.mem_cons, List.not_mem_nil, or_false] at hp
    rcases hp with rfl | rfl <;> dsimp only at h0 <;> linarith

end Verif.Kernel
