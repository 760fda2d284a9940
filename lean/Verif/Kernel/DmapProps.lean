import Verif.Kernel.Dmap
import Verif.Kernel.NormalizeProps
import Mathlib.Tactic.IntervalCases
/-!
# C44, C92, C93, C94: diffusion map embeddings of training points, target coordinates and pre-images
-/

namespace Verif.Kernel

open Matrix

variable {m n d : Type} [Fintype m] [Fintype n] [Fintype d]

/-! ## Helper lemmas -/

theorem normalizeVec_eig {A : Matrix n n ℝ} {lam : ℝ} {v : n → ℝ} (h : A *ᵥ v = lam • v) : A *ᵥ normalizeVec v = lam • normalizeVec v := by
  have e : normalizeVec v = (Real.sqrt (∑ j, v j * v j))⁻¹ • v := by
    funext i
    simp only [normalizeVec, Pi.smul_apply, smul_eq_mul, div_eq_inv_mul]
  rw [e, mulVec_smul, h, smul_comm]

theorem Solves.length {A : Matrix n n ℝ} {b : Option (n → ℝ)} {k : Nat} {pairs : List (Pair n)} (h : Solves A b k pairs) : pairs.length = k := by
  obtain ⟨raw, h1, -, rfl⟩ := h
  simpa using h1

theorem selectPairs_mem {coords : Option (List Nat)} {pairs : List (Pair n)} {p : Pair n} (h : p ∈ selectPairs coords pairs) : p ∈ pairs := by
  unfold selectPairs at h
  split at h
  · exact h
  · simp only [List.mem_filterMap] at h
    obtain ⟨i, -, hi⟩ := h
    exact List.mem_of_getElem? hi

/-- The internal kernel matrix for which the fit is defined: any matrix without stochastic normalisation, otherwise a non-negative one with a positive entry in every row,
symmetric if the distance is. -/
def Fittable (k : DmapKernel) (K : Matrix n n ℝ) : Prop := k.isStochastic = true → Connected K ∧ (k.distSymmetric = true → Kᵀ = K)

/-- The kernel evaluated at the training points has the computed eigenpairs. -/
theorem pairs_eig {k : DmapKernel} (hk : k.Admissible) {K : Matrix n n ℝ} (hK : Fittable k K) {A : Matrix n n ℝ} {f : Fitted n} (h1 : evalPdist k none K = .ok (A, f)) {N : Nat}
    {pairs : List (Pair n)} (h2 : Solves A f.basisChange N pairs) : ∃ P, evalCdist k (some f) K = .ok P ∧ ∀ p ∈ pairs, P *ᵥ p.2 = p.1 • p.2 := by
  obtain ⟨raw, -, hraw, rfl⟩ := h2
  cases hst : k.isStochastic with
  | false =>
    have e : evalPdist k none K = .ok (K, ⟨none, none⟩) := by
      unfold evalPdist
      simp [hst]
    rw [e] at h1
    obtain ⟨rfl, rfl⟩ := Prod.mk.inj (Except.ok.inj h1)
    refine ⟨K, by simp [evalCdist, hst], ?_⟩
    intro p hp
    obtain ⟨q, hq, rfl⟩ := List.mem_map.mp hp
    exact normalizeVec_eig (hraw q hq).2
  | true =>
    obtain ⟨hc0, hsym⟩ := hK hst
    have hs := hc0.rowSums_pos
    cases hc : k.isConjugate with
    | false =>
      have e := evalPdist_stochastic hk hst hc hc0.1 hs (fun h i j => by rw [← congrFun (congrFun (hsym h) i) j]; rfl)
      rw [e] at h1
      obtain ⟨rfl, rfl⟩ := Prod.mk.inj (Except.ok.inj h1)
      refine ⟨_, evalCdist_stochastic hk hst hs hc0.1 hs, ?_⟩
      intro p hp
      obtain ⟨q, hq, rfl⟩ := List.mem_map.mp hp
      exact normalizeVec_eig (hraw q hq).2
    | true =>
      have hc' := hc
      rw [isConjugate_eq] at hc'
      simp only [Bool.and_eq_true] at hc'
      obtain ⟨A', f', b, P, g, g1, g2, g3, -, g5, -, -⟩ := C43_conjugate k hk hst hc'.1.2 hc'.2 K hc0 (hsym hc'.2)
      rw [h1] at g1
      obtain ⟨rfl, rfl⟩ := Prod.mk.inj (Except.ok.inj g1)
      have e := evalPdist_stochastic (k := { k with symmetrize := false }) hk hst (by simp [isConjugate_eq]) hc0.1 hs
        (fun h i j => by rw [← congrFun (congrFun (hsym h) i) j]; rfl)
      rw [e] at g3
      obtain ⟨rfl, rfl⟩ := Prod.mk.inj (Except.ok.inj g3)
      have e2 := evalPdist_conjugate hk hc hc0.1 hs (fun i j => by rw [← congrFun (congrFun (hsym hc'.2) i) j]; rfl)
      rw [h1] at e2
      obtain ⟨-, hf⟩ := Prod.mk.inj (Except.ok.inj e2)
      refine ⟨diffusion k.alpha (rowSums K) K, ?_, ?_⟩
      · rw [hf]
        exact evalCdist_stochastic hk hst hs hc0.1 hs
      · intro p hp
        obtain ⟨q, hq, rfl⟩ := List.mem_map.mp hp
        have := ((g5 q.1 q.2).mp (hraw q hq)).2
        simp only [g2, changeBasis]
        exact normalizeVec_eig this

theorem mapM_npPower {l : List ℝ} {t : ℝ} (h : ∀ x ∈ l, 0 < x) : l.mapM (fun x => npPower x t) = .ok (l.map (fun x => x ^ t)) := by
  induction l with
  | nil => rfl
  | cons a l ih =>
    have ha : 0 < a := h a (by simp)
    rw [List.mapM_cons, ih (fun x hx => h x (by simp [hx]))]
    have : npPower a t = .ok (a ^ t) := by
      unfold npPower
      rw [if_neg (by rintro ⟨h1, -⟩; exact absurd ha (not_lt.mpr h1.le)), if_neg (by rintro ⟨h1, -⟩; exact ha.ne' h1)]
    rw [this]
    rfl

/-! ## C44 -/

/-- C44: `transform` at the training points and `fit_transform` have the same outcome, for every setting of `alpha`, `is_stochastic`, `symmetrize_kernel`, the time exponent and
the target coordinates, and for every set of computed eigenpairs with non-zero eigenvalues. -/
theorem C44_agree (k : DmapKernel) (hk : k.Admissible) (K : Matrix n n ℝ) (hK : Fittable k K) (A : Matrix n n ℝ) (f : Fitted n) (h1 : evalPdist k none K = .ok (A, f)) (N : Nat)
    (pairs : List (Pair n)) (h2 : Solves A f.basisChange N pairs) (hne : ∀ p ∈ pairs, p.1 ≠ 0) (t : ℝ) (coords : Option (List Nat)) :
    transform k f t coords pairs K = fitTransform t coords pairs := by
  obtain ⟨P, hP, he⟩ := pairs_eig hk hK h1 h2
  unfold transform fitTransform
  rw [hP]
  simp only
  have hn : nystrom P (selectPairs coords pairs) = .ok ((selectPairs coords pairs).map Prod.snd) := by
    unfold nystrom
    rw [if_neg (by push Not; exact fun p hp => hne p (selectPairs_mem hp))]
    congr 1
    refine List.map_congr_left (fun p hp => ?_)
    have e : (fun j => p.1⁻¹ * p.2 j) = p.1⁻¹ • p.2 := rfl
    rw [e, mulVec_smul, he p (selectPairs_mem hp), smul_smul, inv_mul_cancel₀ (hne p (selectPairs_mem hp)), one_smul]
  rw [hn]

/-- C44, the true part of "for all settings": without target coordinates, or with time exponent zero, the embedding has one column `λ^t ψ` per selected eigenpair. -/
theorem C44_embedding_partial (t : ℝ) (coords : Option (List Nat)) (pairs : List (Pair n)) (hpos : ∀ p ∈ pairs, 0 < p.1) (h : t = 0 ∨ coords = none) :
    fitTransform t coords pairs = .ok ((selectPairs coords pairs).map (fun p => fun i => p.1 ^ t * p.2 i)) := by
  unfold fitTransform embed
  by_cases ht : t = 0
  · rw [if_pos ht, ht]
    congr 1
    refine List.map_congr_left (fun p _ => ?_)
    funext i
    simp
  · rw [if_neg ht]
    obtain rfl : coords = none := h.resolve_left ht
    rw [mapM_npPower (by simpa using fun a x hx => hpos (a, x) hx)]
    simp only [selectPairs, matDotDiag, List.length_map, if_true]
    congr 1
    rw [List.map_map, List.zipWith_map, List.zipWith_self]
    rfl

/-- C44 is violated for time exponents other than zero with target coordinates: if between two and `n_eigenpairs - 1` coordinates are selected, both `fit_transform` and `transform`
raise because all eigenvalues are multiplied to the selected columns. -/
theorem C44_violated (t : ℝ) (ht : t ≠ 0) (c : List Nat) (pairs : List (Pair n)) (hpos : ∀ p ∈ pairs, 0 < p.1) (hc : ∀ i ∈ c, i < pairs.length)
    (h2 : 2 ≤ c.length) (hlt : c.length < pairs.length) : fitTransform t (some c) pairs = .error .shape := by
  have hl : ((selectPairs (some c) pairs).map Prod.snd).length = c.length := by
    rw [List.length_map]
    unfold selectPairs
    clear h2 hlt
    induction c with
    | nil => rfl
    | cons a c ih =>
      simp only [List.filterMap_cons]
      rw [List.getElem?_eq_getElem (hc a (by simp))]
      simp only [List.length_cons]
      rw [← ih (fun i hi => hc i (by simp [hi]))]
  unfold fitTransform embed
  rw [if_neg ht, mapM_npPower (by simpa using fun a x hx => hpos (a, x) hx)]
  simp only [matDotDiag]
  rw [if_neg (by rw [hl, List.length_map, List.length_map]; omega)]
  generalize hA : (selectPairs (some c) pairs).map Prod.snd = cols at *
  generalize hB : (pairs.map Prod.fst).map (fun x => x ^ t) = dg at *
  have hdg : dg.length = pairs.length := by rw [← hB]; simp
  match cols, dg, hl, hdg with
  | [], dg, hl, hdg => simp at hl; omega
  | [_], dg, hl, hdg => simp at hl; omega
  | _ :: _ :: _, [], hl, hdg => simp at hdg; omega
  | _ :: _ :: _, [_], hl, hdg => simp at hdg; omega
  | _ :: _ :: _, _ :: _ :: _, hl, hdg => rfl

/-- C44 is violated silently if one coordinate is selected: the result has `n_eigenpairs` columns, all multiples of the same eigenvector. -/
theorem C44_violated_silent (t : ℝ) (ht : t ≠ 0) (i : Nat) (pairs : List (Pair n)) (hpos : ∀ p ∈ pairs, 0 < p.1) (hi : i < pairs.length) (h2 : 2 ≤ pairs.length) :
    ∃ cols, fitTransform t (some [i]) pairs = .ok cols ∧ cols.length = pairs.length ∧ ∀ c ∈ cols, ∃ x : ℝ, c = fun j => x * pairs[i].2 j := by
  refine ⟨((pairs.map Prod.fst).map (fun x => x ^ t)).map (fun x => fun j => x * pairs[i].2 j), ?_, by simp, ?_⟩
  · unfold fitTransform embed
    rw [if_neg ht, mapM_npPower (by simpa using fun a x hx => hpos (a, x) hx)]
    simp only [selectPairs, List.filterMap_cons, List.filterMap_nil, List.getElem?_eq_getElem hi, List.map_cons, List.map_nil, matDotDiag]
    rw [if_neg (by simp; omega)]
  · intro c hc
    obtain ⟨x, -, rfl⟩ := List.mem_map.mp hc
    exact ⟨x, rfl⟩

/-- A Gaussian-like kernel matrix of two points. -/
noncomputable def exS : ℝ := (Real.sqrt 2)⁻¹

theorem exS_sq : exS * exS = 1 / 2 := by
  unfold exS
  rw [← mul_inv, Real.mul_self_sqrt (by norm_num)]
  norm_num

theorem exS_pos : 0 < exS := inv_pos.mpr (Real.sqrt_pos.mpr (by norm_num))

/-- The normalised eigenpairs of the Markov matrix of `exK`. -/
noncomputable def exPairs : List (Pair (Fin 2)) := [(1, ![exS, exS]), (1 / 3, ![exS, -exS])]

/-- The diffusion kernel with `alpha=0` and without conjugation. -/
def exKernel : DmapKernel := ⟨true, 0, false, true⟩

theorem exFit : ∃ A f, evalPdist exKernel none exK = .ok (A, f) ∧ Solves A f.basisChange 2 exPairs ∧ ∀ p ∈ exPairs, 0 < p.1 := by
  have hsym : ∀ i j, exK i j = exK j i := by
    intro i j
    fin_cases i <;> fin_cases j <;> rfl
  have hk : exKernel.Admissible := ⟨le_refl _, by simp [exKernel]⟩
  refine ⟨_, _, evalPdist_stochastic hk rfl rfl exK_connected.1 exK_connected.rowSums_pos (fun _ => hsym), ⟨exPairs, rfl, ?_, ?_⟩, ?_⟩
  · intro p hp
    simp only [exPairs, List.mem_cons, List.not_mem_nil, or_false] at hp
    have hP : diffusion exKernel.alpha (rowSums exK) exK = !![2 / 3, 1 / 3; 1 / 3, 2 / 3] := by
      ext i j
      change diffusion 0 (rowSums exK) exK i j = _
      rw [diffusion_zero]
      fin_cases i <;> fin_cases j <;> norm_num [exK, rowSums, Fin.sum_univ_two]
    rw [hP]
    rcases hp with rfl | rfl
    · refine ⟨fun h => exS_pos.ne' (by simpa using congrFun h 0), ?_⟩
      ext i
      fin_cases i <;> simp [mulVec, dotProduct, Fin.sum_univ_two] <;> ring
    · refine ⟨fun h => exS_pos.ne' (by simpa using congrFun h 0), ?_⟩
      ext i
      fin_cases i <;> simp [mulVec, dotProduct, Fin.sum_univ_two] <;> ring
  · simp only [exPairs, List.map_cons, List.map_nil, changeBasis]
    have h := exS_sq
    have e1 : normalizeVec ![exS, exS] = ![exS, exS] := by
      funext i
      simp only [normalizeVec, Fin.sum_univ_two]
      rw [show (![exS, exS] 0 * ![exS, exS] 0 + ![exS, exS] 1 * ![exS, exS] 1 : ℝ) = 1 by simp; linarith, Real.sqrt_one, div_one]
    have e2 : normalizeVec ![exS, -exS] = ![exS, -exS] := by
      funext i
      simp only [normalizeVec, Fin.sum_univ_two]
      rw [show (![exS, -exS] 0 * ![exS, -exS] 0 + ![exS, -exS] 1 * ![exS, -exS] 1 : ℝ) = 1 by simp; linarith, Real.sqrt_one, div_one]
    rw [e1, e2]
  · intro p hp
    simp only [exPairs, List.mem_cons, List.not_mem_nil, or_false] at hp
    rcases hp with rfl | rfl <;> norm_num

example : Fittable exKernel exK ∧ exKernel.Admissible ∧ ∀ p ∈ exPairs, p.1 ≠ 0 := by
  obtain ⟨-, -, -, -, h⟩ := exFit
  refine ⟨fun _ => ⟨exK_connected, fun _ => ?_⟩, ⟨le_refl _, by simp [exKernel]⟩, fun p hp => (h p hp).ne'⟩
  ext i j
  fin_cases i <;> fin_cases j <;> rfl

/-! ## C94 -/

/-- C94: `set_target_coords` accepts exactly the non-empty lists of indices of computed eigenpairs; the coordinates are the given indices in ascending order. -/
theorem C94_target_coords (N : Nat) (indices : List Int) :
    (∃ c, setTargetCoords N indices = .ok c) ↔ indices ≠ [] ∧ ∀ i ∈ indices, 0 ≤ i ∧ i < N := by
  unfold setTargetCoords
  have hperm := List.mergeSort_perm indices (fun a b => decide (a ≤ b))
  have hsorted := List.pairwise_mergeSort (le := fun a b : Int => decide (a ≤ b)) (by intro a b c; simp; exact le_trans) (by intro a b; simp; exact le_total a b) indices
  generalize hs : indices.mergeSort (fun a b => decide (a ≤ b)) = s at *
  simp only
  constructor
  · rintro ⟨c, hc⟩
    split at hc
    · rename_i a b ha hb
      split at hc
      · cases hc
      · rename_i hab
        push Not at hab
        refine ⟨fun h => ?_, fun i hi => ?_⟩
        · rw [h] at hperm
          rw [hperm.eq_nil] at ha
          simp at ha
        · have hi' : i ∈ s := hperm.mem_iff.mpr hi
          constructor
          · cases s with
            | nil => simp at ha
            | cons x s =>
              simp only [List.head?_cons, Option.some.injEq] at ha
              rcases List.mem_cons.mp hi' with rfl | h
              · omega
              · have := List.rel_of_pairwise_cons hsorted h
                simp at this
                omega
          · obtain ⟨l, rfl⟩ := List.getLast?_eq_some_iff.mp hb
            rcases List.mem_append.mp hi' with h | h
            · have := (List.pairwise_append.mp hsorted).2.2 i h b (by simp)
              simp at this
              omega
            · simp at h
              omega
    · cases hc
  · rintro ⟨hne, hall⟩
    have hs0 : s ≠ [] := fun h => hne (by rw [h] at hperm; exact hperm.symm.eq_nil)
    obtain ⟨a, ha⟩ : ∃ a, s.head? = some a := ⟨s.head hs0, List.head?_eq_some_head hs0⟩
    obtain ⟨b, hb⟩ : ∃ b, s.getLast? = some b := ⟨s.getLast hs0, List.getLast?_eq_some_getLast hs0⟩
    have ha' := hall a (hperm.mem_iff.mp (List.mem_of_head? ha))
    have hb' := hall b (hperm.mem_iff.mp (List.mem_of_getLast? hb))
    rw [ha, hb]
    exact ⟨_, if_neg (by omega)⟩

/-- C94: the accepted coordinates are sorted, are the given indices with multiplicity, and select exactly one eigenpair each. -/
theorem C94_sorted (pairs : List (Pair n)) (indices : List Int) (c : List Nat) (h : setTargetCoords pairs.length indices = .ok c) :
    c.Pairwise (· ≤ ·) ∧ (c.map Int.ofNat).Perm indices ∧ selectPairs (some c) pairs = c.map (fun i => pairs.getD i (0, 0)) := by
  have hall := (C94_target_coords pairs.length indices).mp ⟨c, h⟩
  have hperm := List.mergeSort_perm indices (fun a b => decide (a ≤ b))
  have hsorted := List.pairwise_mergeSort (le := fun a b : Int => decide (a ≤ b)) (by intro a b c; simp; exact le_trans) (by intro a b; simp; exact le_total a b) indices
  have hc : c = (indices.mergeSort (fun a b => decide (a ≤ b))).map Int.toNat := by
    unfold setTargetCoords at h
    simp only at h
    split at h
    · split at h
      · cases h
      · exact (Except.ok.inj h).symm
    · cases h
  generalize hs : indices.mergeSort (fun a b => decide (a ≤ b)) = s at *
  have hnn : ∀ i ∈ s, 0 ≤ i ∧ i < pairs.length := fun i hi => hall.2 i (hperm.mem_iff.mp hi)
  subst hc
  refine ⟨?_, ?_, ?_⟩
  · rw [List.pairwise_map]
    refine hsorted.imp_of_mem (fun {a b} ha hb hab => ?_)
    simp at hab
    exact Int.toNat_le_toNat hab
  · rw [List.map_map]
    have : s.map (Int.ofNat ∘ Int.toNat) = s := by
      conv_rhs => rw [← List.map_id s]
      exact List.map_congr_left (fun i hi => by simp [(hnn i hi).1])
    rw [this]
    exact hperm
  · unfold selectPairs
    clear hs hperm hsorted h
    induction s with
    | nil => rfl
    | cons a s ih =>
      have ha := hnn a (by simp)
      have hlt : a.toNat < pairs.length := by omega
      simp only [List.map_cons, List.filterMap_cons, List.getElem?_eq_getElem hlt]
      rw [List.getD_eq_getElem?_getD, List.getElem?_eq_getElem hlt]
      simp only [Option.getD_some]
      rw [← ih (fun i hi => hnn i (by simp [hi]))]

example : (0 : Int) ≤ 1 ∧ (1 : Int) < 3 := by omega

/-! ## C92 -/

theorem applyInv_eq (c : List (d → ℝ)) (Y : List (m → ℝ)) (h : c.length = Y.length) :
    applyInv c Y = .ok (colMatrix Y * Matrix.of (fun (j : Fin Y.length) => c.getD j 0)) := by
  unfold applyInv
  rw [if_neg (by omega)]
  congr 1
  ext i f
  simp only [of_apply, mul_apply, colMatrix]
  induction Y generalizing c with
  | nil =>
    cases c <;> simp
  | cons y Y ih =>
    cases c with
    | nil => simp at h
    | cons r c =>
      simp only [List.zipWith_cons_cons, List.sum_cons]
      rw [ih c (by simpa using h)]
      simp only [List.length_cons]
      rw [Fin.sum_univ_succ]
      rfl

/-- C92, the true part: with time exponent zero the pre-image of the training embedding is the least squares approximation of the training data by the selected eigenvectors:
no other linear combination of them is closer, and it is the training data itself if that is such a combination. -/
theorem C92_preimage_partial (o : DmapObj n d) (hnew : o.inv = none) (Y : List (n → ℝ)) (hY : fitTransform 0 o.coords o.pairs = .ok Y)
    (res : Except KErr (Matrix n d ℝ)) (o' : DmapObj n d) (h : InverseTransform o Y res o') :
    ∃ R, res = .ok R ∧ (∀ Z : Matrix (Fin Y.length) d ℝ, Lin.sqSum (R - o.X) ≤ Lin.sqSum (colMatrix Y * Z - o.X)) ∧
      ((∃ Z : Matrix (Fin Y.length) d ℝ, colMatrix Y * Z = o.X) → R = o.X) := by
  have hY' : Y = (selectPairs o.coords o.pairs).map Prod.snd := by
    unfold fitTransform embed at hY
    rw [if_pos rfl] at hY
    exact (Except.ok.inj hY).symm
  unfold InverseTransform at h
  rw [hnew] at h
  obtain ⟨c, hc, hres, -⟩ := h
  unfold IsInvCoeff at hc
  simp only at hc
  rw [← hY'] at hc
  rw [applyInv_eq c Y hc.1] at hres
  refine ⟨_, hres, hc.2, fun ⟨Z, hZ⟩ => ?_⟩
  have := hc.2 Z
  rw [hZ, sub_self, Lin.sqSum_eq_zero.mpr rfl] at this
  have h0 := Lin.sqSum_eq_zero.mp (le_antisymm this (Lin.sqSum_nonneg _))
  exact sub_eq_zero.mp h0

theorem colMatrix_two (a b : m → ℝ) (Z : Matrix (Fin [a, b].length) d ℝ) (i : m) (f : d) :
    (colMatrix [a, b] * Z) i f = a i * Z ⟨0, by simp⟩ f + b i * Z ⟨1, by simp⟩ f := by
  rw [mul_apply]
  exact Fin.sum_univ_two _

/-- The coefficients of `(1, -1)` in the basis `exPairs`. -/
noncomputable def exZ : Matrix (Fin (exPairs.map Prod.snd).length) (Fin 1) ℝ := Matrix.of (fun j _ => [0, 2 * exS].getD j 0)

theorem exZ_solves : colMatrix (exPairs.map Prod.snd) * exZ = !![1; -1] := by
  have hs := exS_sq
  ext i j
  have := colMatrix_two ![exS, exS] ![exS, -exS] exZ i j
  refine this.trans ?_
  change ![exS, exS] i * 0 + ![exS, -exS] i * (2 * exS) = _
  fin_cases i <;> fin_cases j <;> simp <;> linarith

/-- C92: embedded points with another number of coordinates than the model has are rejected. -/
theorem C92_rejects (o o' : DmapObj n d) (hnew : o.inv = none) (Y : List (m → ℝ)) (r : Except KErr (Matrix m d ℝ)) (h : InverseTransform o Y r o') :
    (∃ X, r = .ok X) ↔ Y.length = (selectPairs o.coords o.pairs).length := by
  unfold InverseTransform at h
  rw [hnew] at h
  obtain ⟨c, ⟨h1, -⟩, rfl, -⟩ := h
  rw [List.length_map] at h1
  unfold applyInv
  rw [h1]
  by_cases hl : Y.length = (selectPairs o.coords o.pairs).length
  · simp [hl]
  · simp [hl]

/-- C92 is violated for other time exponents: the training data is a multiple of the second eigenvector, and the pre-image of its embedding with time exponent one is a third of it. -/
theorem C92_violated : ∃ (X : Matrix (Fin 2) (Fin 1) ℝ) (Y : List (Fin 2 → ℝ)),
    (∃ Z : Matrix (Fin (exPairs.map Prod.snd).length) (Fin 1) ℝ, colMatrix (exPairs.map Prod.snd) * Z = X) ∧
    fitTransform 1 none exPairs = .ok Y ∧ ∀ res o', InverseTransform ⟨X, exPairs, none, none⟩ Y res o' → ∃ R, res = .ok R ∧ R = (1 / 3 : ℝ) • X ∧ R ≠ X := by
  have hpos : ∀ p ∈ exPairs, 0 < p.1 := by
    obtain ⟨-, -, -, -, h⟩ := exFit
    exact h
  have hs := exS_sq
  refine ⟨!![1; -1], [![exS, exS], fun i => 1 / 3 * ![exS, -exS] i], ⟨exZ, exZ_solves⟩, ?_, ?_⟩
  · rw [C44_embedding_partial 1 none exPairs hpos (Or.inr rfl)]
    simp only [selectPairs, exPairs, List.map_cons, List.map_nil]
    congr 2
    · funext i
      simp
    · congr 1
      funext i
      simp
  · intro res o' h
    unfold InverseTransform at h
    obtain ⟨c, hc, hres, -⟩ := h
    unfold IsInvCoeff at hc
    obtain ⟨hlen, hl⟩ := hc
    have hsol := hl.solves (Z₀ := exZ) exZ_solves
    rw [applyInv_eq _ _ (by simpa [exPairs, selectPairs] using hlen)] at hres
    have h0 := congrFun (congrFun hsol 0) 0
    have h1 := congrFun (congrFun hsol 1) 0
    have e0 := (colMatrix_two ![exS, exS] ![exS, -exS] (Matrix.of (fun j => c.getD j 0)) 0 0).symm.trans h0
    have e1 := (colMatrix_two ![exS, exS] ![exS, -exS] (Matrix.of (fun j => c.getD j 0)) 1 0).symm.trans h1
    simp only [of_apply] at e0 e1
    generalize hx : c.getD 0 0 0 = x at e0 e1
    generalize hy : c.getD 1 0 0 = y at e0 e1
    simp at e0 e1
    have hR : ∀ i j, (colMatrix [![exS, exS], fun i => 1 / 3 * ![exS, -exS] i] * Matrix.of (fun j : Fin 2 => c.getD j 0)) i j = (1 / 3 : ℝ) * (!![1; -1] : Matrix (Fin 2) (Fin 1) ℝ) i j := by
      intro i j
      obtain rfl : j = 0 := Subsingleton.elim _ _
      refine (colMatrix_two ![exS, exS] (fun i => 1 / 3 * ![exS, -exS] i) (Matrix.of (fun j => c.getD j 0)) i 0).trans ?_
      simp only [of_apply, hx, hy]
      fin_cases i <;> simp <;> linarith
    refine ⟨_, hres, ?_, ?_⟩
    · ext i j
      exact hR i j
    · intro h
      have := (hR 0 0).symm.trans (congrFun (congrFun h 0) 0)
      norm_num at this

/-! ## C93 -/

/-- C93, the true part: as long as `inverse_transform` has not been called, fitting again is like fitting a new model with the same target coordinates. -/
theorem C93_refit_partial (o : DmapObj n d) (h : o.inv = none) (X : Matrix n d ℝ) (pairs : List (Pair n)) : o.refit X pairs = ⟨X, pairs, o.coords, none⟩ := by
  unfold DmapObj.refit
  rw [h]

/-- C93 is violated: after one `inverse_transform`, every later one gives the same result whatever data the model is fitted to in between. -/
theorem C93_violated (o o' : DmapObj n d) (Y : List (m → ℝ)) (r : Except KErr (Matrix m d ℝ)) (h : InverseTransform o Y r o') (X₁ X₂ : Matrix n d ℝ)
    (pairs₁ pairs₂ : List (Pair n)) (Y' : List (m → ℝ)) (r₁ r₂ : Except KErr (Matrix m d ℝ)) (o₁ o₂ : DmapObj n d)
    (h₁ : InverseTransform (o'.refit X₁ pairs₁) Y' r₁ o₁) (h₂ : InverseTransform (o'.refit X₂ pairs₂) Y' r₂ o₂) : r₁ = r₂ := by
  obtain ⟨c, hc⟩ : ∃ c, o'.inv = some c := by
    unfold InverseTransform at h
    split at h
    · rename_i c hc
      exact ⟨c, by rw [h.2]; exact hc⟩
    · obtain ⟨c, -, -, rfl⟩ := h
      exact ⟨c, rfl⟩
  unfold InverseTransform DmapObj.refit at h₁ h₂
  simp only [hc] at h₁ h₂
  rw [h₁.1, h₂.1]

/-- C93 is violated, with numbers: fitted to `X`, used once, and fitted to `2 X`, the pre-image of the new training embedding is still `X`. -/
theorem C93_violated_example : ∃ (X : Matrix (Fin 2) (Fin 1) ℝ) (Y : List (Fin 2 → ℝ)), fitTransform 0 none exPairs = .ok Y ∧
    (∃ Z : Matrix (Fin Y.length) (Fin 1) ℝ, colMatrix Y * Z = (2 : ℝ) • X) ∧
    (∃ r o', InverseTransform ⟨X, exPairs, none, none⟩ Y r o') ∧
    ∀ r o', InverseTransform ⟨X, exPairs, none, none⟩ Y r o' → ∀ r' o'', InverseTransform (o'.refit ((2 : ℝ) • X) exPairs) Y r' o'' → r' = .ok X ∧ X ≠ (2 : ℝ) • X := by
  have hY : fitTransform 0 none exPairs = .ok (exPairs.map Prod.snd) := by
    unfold fitTransform embed
    rw [if_pos rfl]
    rfl
  refine ⟨!![1; -1], exPairs.map Prod.snd, hY, ⟨(2 : ℝ) • exZ, ?_⟩, ?_, ?_⟩
  · rw [Matrix.mul_smul, exZ_solves]
  · refine ⟨_, _, [fun _ => 0, fun _ => 2 * exS], ⟨rfl, ?_⟩, rfl, rfl⟩
    intro Z'
    have e : colMatrix (exPairs.map Prod.snd) * (Matrix.of (fun (j : Fin (exPairs.map Prod.snd).length) => ([fun _ => 0, fun _ => 2 * exS] : List (Fin 1 → ℝ)).getD j 0)) = !![1; -1] := by
      rw [← exZ_solves]
      congr 1
      ext i j
      have hi : i.val < 2 := i.isLt
      simp only [exZ, of_apply]
      interval_cases i.val <;> rfl
    change Lin.sqSum (colMatrix (exPairs.map Prod.snd) * (Matrix.of (fun (j : Fin (exPairs.map Prod.snd).length) => ([fun _ => 0, fun _ => 2 * exS] : List (Fin 1 → ℝ)).getD j 0)) - !![1; -1]) ≤ _
    rw [e, sub_self, Lin.sqSum_eq_zero.mpr rfl]
    exact Lin.sqSum_nonneg _
  · intro r o' h r' o'' h'
    obtain ⟨R, hR, -, hR2⟩ := C92_preimage_partial _ rfl _ hY r o' h
    have h2 : InverseTransform (o'.refit !![1; -1] exPairs) (exPairs.map Prod.snd) r o' := by
      unfold InverseTransform at h
      obtain ⟨c, -, hr, rfl⟩ := h
      exact ⟨hr, rfl⟩
    have := C93_violated _ o' _ r h _ _ _ _ _ r' r o'' o' h' h2
    rw [this, hR, hR2 ⟨_, exZ_solves⟩]
    refine ⟨rfl, fun h => ?_⟩
    have := congrFun (congrFun h 0) 0
    simp at this

end Verif.Kernel
