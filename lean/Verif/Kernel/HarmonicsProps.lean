import Verif.Kernel.Harmonics
import Verif.Kernel.DmapProps
/-!
# C55, C97, C98, C99: geometric harmonics
-/

namespace Verif.Kernel

open Matrix

/-! ## Specification -/

section
variable {m n d : Type} [Fintype m] [Fintype n] [Fintype d]

/-- The eigenvectors are orthonormal. -/
def Orthonormal (pairs : List (Pair n)) : Prop :=
  ∀ a b : Fin pairs.length, pairs[a].2 ⬝ᵥ pairs[b].2 = if a = b then 1 else 0

/-- `g` is a linear combination of the eigenvectors. -/
def InSpan (pairs : List (Pair n)) (g : n → ℝ) : Prop := ∃ c : Fin pairs.length → ℝ, g = fun i => ∑ a, c a * pairs[a].2 i

/-- `z` is the orthogonal projection of `y` onto the span of the eigenvectors. -/
def IsProjection (pairs : List (Pair n)) (y z : n → ℝ) : Prop := InSpan pairs z ∧ ∀ g, InSpan pairs g → (y - z) ⬝ᵥ g = 0

/-- The eigenvectors are linearly independent. -/
def Independent (pairs : List (Pair n)) : Prop := ∀ c : Fin pairs.length → ℝ, (∀ i, ∑ a, c a * pairs[a].2 i = 0) → ∀ a, c a = 0

/-! ## Helper lemmas -/

theorem list_sum_fin {α : Type} (l : List α) (f : α → ℝ) : (l.map f).sum = ∑ a : Fin l.length, f l[a] := by
  rw [← List.sum_ofFn]
  congr 1
  refine List.ext_getElem (by simp) ?_
  intro i h1 h2
  simp

/-- The prediction at query points is the sum of the Nyström extensions of the eigenvectors, weighted by the inner products with the target function. -/
theorem ghPredict_nystrom {k : DmapKernel} {f : Fitted n} {pairs : List (Pair n)} (hne : ∀ p ∈ pairs, p.1 ≠ 0) {y : Matrix n d ℝ} {Kc P : Matrix m n ℝ} (hP : evalCdist k (some f) Kc = .ok P) :
    ∃ aux, precomputeAux pairs y = .ok aux ∧
      ghPredict k f aux Kc = .ok (Matrix.of (fun i c => ∑ a : Fin pairs.length, (∑ j, pairs[a].2 j * y j c) * (pairs[a].1⁻¹ * (P *ᵥ pairs[a].2) i))) := by
  refine ⟨_, by unfold precomputeAux; rw [if_neg (by push Not; exact hne)], ?_⟩
  unfold ghPredict
  rw [hP]
  simp only
  congr 1
  ext i c
  simp only [mul_apply, of_apply, list_sum_fin, Finset.mul_sum]
  rw [Finset.sum_comm]
  refine Finset.sum_congr rfl (fun a _ => ?_)
  have e : ∀ (s q : ℝ), ∑ j, P i j * (pairs[a].2 j * q * s) = s * (q * ∑ j, P i j * pairs[a].2 j) := by
    intro s q
    rw [Finset.mul_sum, Finset.mul_sum]
    exact Finset.sum_congr rfl (fun j _ => by ring)
  simp only [← Finset.mul_sum]
  rw [e]
  rfl

/-- The prediction at the training points is `Ψ Ψᵀ y`. -/
theorem ghPredict_train {k : DmapKernel} (hk : k.Admissible) {K : Matrix n n ℝ} (hK : Fittable k K) {A : Matrix n n ℝ} {f : Fitted n} (h1 : evalPdist k none K = .ok (A, f)) {N : Nat}
    {pairs : List (Pair n)} (h2 : Solves A f.basisChange N pairs) (hne : ∀ p ∈ pairs, p.1 ≠ 0) (y : Matrix n d ℝ) :
    ∃ aux, precomputeAux pairs y = .ok aux ∧ ghPredict k f aux K = .ok (Matrix.of (fun i c => ∑ a : Fin pairs.length, (∑ j, pairs[a].2 j * y j c) * pairs[a].2 i)) := by
  obtain ⟨P, hP, he⟩ := pairs_eig hk hK h1 h2
  obtain ⟨aux, g1, g2⟩ := ghPredict_nystrom (d := d) (y := y) hne hP
  refine ⟨aux, g1, g2.trans ?_⟩
  congr 1
  ext i c
  simp only [of_apply]
  refine Finset.sum_congr rfl (fun a _ => ?_)
  have hm : pairs[a] ∈ pairs := List.getElem_mem _
  rw [he _ hm, Pi.smul_apply, smul_eq_mul, ← mul_assoc (pairs[a].1⁻¹), inv_mul_cancel₀ (hne _ hm), one_mul]

/-- With orthonormal vectors `Ψ Ψᵀ y` is the orthogonal projection. -/
theorem projection_of_orthonormal {pairs : List (Pair n)} (ho : Orthonormal pairs) (y : n → ℝ) : IsProjection pairs y (fun i => ∑ a : Fin pairs.length, (∑ j, pairs[a].2 j * y j) * pairs[a].2 i) := by
  refine ⟨⟨_, rfl⟩, ?_⟩
  rintro g ⟨c, rfl⟩
  have hb : ∀ b : Fin pairs.length, (∑ i, (∑ a : Fin pairs.length, (∑ j, pairs[a].2 j * y j) * pairs[a].2 i) * pairs[b].2 i) = ∑ j, pairs[b].2 j * y j := by
    intro b
    simp only [Finset.sum_mul (s := (Finset.univ : Finset (Fin pairs.length)))]
    rw [Finset.sum_comm]
    have : ∀ a : Fin pairs.length, ∑ i, (∑ j, pairs[a].2 j * y j) * pairs[a].2 i * pairs[b].2 i = (∑ j, pairs[a].2 j * y j) * (if a = b then 1 else 0) := by
      intro a
      rw [← ho a b]
      simp only [dotProduct, Finset.mul_sum, mul_assoc]
    simp only [this]
    simp
  have key : ∀ b : Fin pairs.length, ∑ i, (y i - ∑ a : Fin pairs.length, (∑ j, pairs[a].2 j * y j) * pairs[a].2 i) * pairs[b].2 i = 0 := by
    intro b
    simp only [sub_mul, Finset.sum_sub_distrib]
    rw [hb b, sub_eq_zero]
    exact Finset.sum_congr rfl (fun j _ => mul_comm _ _)
  simp only [dotProduct, Pi.sub_apply, Finset.mul_sum]
  rw [Finset.sum_comm]
  refine Finset.sum_eq_zero (fun b _ => ?_)
  have : ∀ i, (y i - ∑ a : Fin pairs.length, (∑ j, pairs[a].2 j * y j) * pairs[a].2 i) * (c b * pairs[b].2 i)
      = c b * ((y i - ∑ a : Fin pairs.length, (∑ j, pairs[a].2 j * y j) * pairs[a].2 i) * pairs[b].2 i) := by
    intro i
    ring
  rw [Finset.sum_congr rfl (fun i _ => this i), ← Finset.mul_sum, key b, mul_zero]

theorem projection_unique {pairs : List (Pair n)} {y z : n → ℝ} (h : IsProjection pairs y z) (hy : InSpan pairs y) : z = y := by
  obtain ⟨⟨c, rfl⟩, h2⟩ := h
  obtain ⟨e, rfl⟩ := hy
  have hs : InSpan pairs ((fun i => ∑ a, e a * pairs[a].2 i) - (fun i => ∑ a, c a * pairs[a].2 i)) := by
    refine ⟨fun a => e a - c a, ?_⟩
    funext i
    simp only [Pi.sub_apply, sub_mul, Finset.sum_sub_distrib]
  have h0 := h2 _ hs
  funext i
  have := (Finset.sum_eq_zero_iff_of_nonneg (fun j _ => mul_self_nonneg _)).mp h0 i (Finset.mem_univ i)
  have := mul_self_eq_zero.mp this
  simp only [Pi.sub_apply] at this
  linarith

/-! ## C55 -/

/-- C55: with orthonormal eigenvectors and non-zero eigenvalues the prediction at the training points is, for each target function, its orthogonal projection onto the span of the eigenvectors,
and the target function itself if it is in the span. -/
theorem C55_projection (k : DmapKernel) (hk : k.Admissible) (K : Matrix n n ℝ) (hK : Fittable k K) (A : Matrix n n ℝ) (f : Fitted n) (h1 : evalPdist k none K = .ok (A, f)) (N : Nat)
    (pairs : List (Pair n)) (h2 : Solves A f.basisChange N pairs) (hne : ∀ p ∈ pairs, p.1 ≠ 0) (ho : Orthonormal pairs) (y : Matrix n d ℝ) :
    ∃ aux pred, precomputeAux pairs y = .ok aux ∧ ghPredict k f aux K = .ok pred ∧
      ∀ c, IsProjection pairs (fun i => y i c) (fun i => pred i c) ∧ (InSpan pairs (fun i => y i c) → ∀ i, pred i c = y i c) := by
  obtain ⟨aux, g1, g2⟩ := ghPredict_train hk hK h1 h2 hne y
  refine ⟨aux, _, g1, g2, fun c => ?_⟩
  have hp := projection_of_orthonormal ho (fun i => y i c)
  exact ⟨hp, fun hs i => congrFun (projection_unique hp hs) i⟩

/-- C55: the default settings (`is_stochastic=False`) keep the symmetric kernel matrix as it is, so that for distinct eigenvalues the computed eigenvectors are orthonormal. -/
theorem C55_orthonormal (k : DmapKernel) (hst : k.isStochastic = false) (K : Matrix n n ℝ) (hsym : Kᵀ = K) (A : Matrix n n ℝ) (f : Fitted n) (h1 : evalPdist k none K = .ok (A, f)) (N : Nat)
    (pairs : List (Pair n)) (h2 : Solves A f.basisChange N pairs) (hd : ∀ a b : Fin pairs.length, a ≠ b → pairs[a].1 ≠ pairs[b].1) : Orthonormal pairs := by
  have e : evalPdist k none K = .ok (K, ⟨none, none⟩) := by
    unfold evalPdist
    simp [hst]
  rw [e] at h1
  obtain ⟨rfl, rfl⟩ := Prod.mk.inj (Except.ok.inj h1)
  obtain ⟨raw, -, hraw, rfl⟩ := h2
  have hn : ∀ p ∈ raw.map (fun p => (p.1, normalizeVec (changeBasis none p.2))), p.2 ⬝ᵥ p.2 = 1 ∧ K *ᵥ p.2 = p.1 • p.2 := by
    intro p hp
    obtain ⟨q, hq, rfl⟩ := List.mem_map.mp hp
    refine ⟨?_, normalizeVec_eig (hraw q hq).2⟩
    have hpos : 0 < ∑ j, q.2 j * q.2 j := by
      obtain ⟨i, hi⟩ : ∃ i, q.2 i ≠ 0 := by
        by_contra h
        push Not at h
        exact (hraw q hq).1 (funext h)
      exact Finset.sum_pos' (fun j _ => mul_self_nonneg _) ⟨i, Finset.mem_univ _, mul_self_pos.mpr hi⟩
    have hs := Real.mul_self_sqrt hpos.le
    simp only [dotProduct, normalizeVec, changeBasis, div_mul_div_comm, hs]
    rw [← Finset.sum_div]
    exact div_self hpos.ne'
  intro a b
  by_cases hab : a = b
  · subst hab
    rw [if_pos rfl]
    exact (hn _ (List.getElem_mem _)).1
  · rw [if_neg hab]
    generalize hpa : (List.map (fun p : Pair n => (p.1, normalizeVec (changeBasis none p.2))) raw)[a] = pa
    generalize hpb : (List.map (fun p : Pair n => (p.1, normalizeVec (changeBasis none p.2))) raw)[b] = pb
    have ha := (hn pa (by rw [← hpa]; exact List.getElem_mem _)).2
    have hb := (hn pb (by rw [← hpb]; exact List.getElem_mem _)).2
    have hne : pa.1 ≠ pb.1 := by
      rw [← hpa, ← hpb]
      exact hd a b hab
    have e1 : pa.2 ⬝ᵥ (K *ᵥ pb.2) = pb.1 * (pa.2 ⬝ᵥ pb.2) := by rw [hb, dotProduct_smul, smul_eq_mul]
    have e2 : pa.2 ⬝ᵥ (K *ᵥ pb.2) = pa.1 * (pa.2 ⬝ᵥ pb.2) := by
      rw [dotProduct_mulVec, ← mulVec_transpose, hsym, ha, smul_dotProduct, smul_eq_mul]
    have e3 : (pa.1 - pb.1) * (pa.2 ⬝ᵥ pb.2) = 0 := by
      rw [sub_mul, ← e1, ← e2, sub_self]
    exact (mul_eq_zero.mp e3).resolve_left (sub_ne_zero.mpr hne)

/-- C55: at new points the prediction is the combination of the Nyström extensions of the eigenvectors with the same coefficients as at the training points. -/
theorem C55_extension (k : DmapKernel) (f : Fitted n) (N : Nat) (pairs : List (Pair n)) (_hN : pairs.length = N) (hne : ∀ p ∈ pairs, p.1 ≠ 0) (y : Matrix n d ℝ) (Kc P : Matrix m n ℝ)
    (hP : evalCdist k (some f) Kc = .ok P) : ∃ aux pred ext, precomputeAux pairs y = .ok aux ∧ ghPredict k f aux Kc = .ok pred ∧ nystrom P pairs = .ok ext ∧ ext.length = pairs.length ∧
      ∀ i c, pred i c = (List.zipWith (fun (p : Pair n) (e : m → ℝ) => (p.2 ⬝ᵥ fun j => y j c) * e i) pairs ext).sum := by
  obtain ⟨aux, g1, g2⟩ := ghPredict_nystrom (d := d) (y := y) hne hP
  refine ⟨aux, _, _, g1, g2, by unfold nystrom; rw [if_neg (by push Not; exact hne)], by simp, fun i c => ?_⟩
  rw [List.zipWith_map_right, List.zipWith_self, list_sum_fin]
  simp only [of_apply]
  refine Finset.sum_congr rfl (fun a _ => ?_)
  congr 1
  have e : (fun j => pairs[a].1⁻¹ * pairs[a].2 j) = pairs[a].1⁻¹ • pairs[a].2 := rfl
  rw [e, mulVec_smul]
  rfl

/-- C55: an eigenvalue zero is not noticed by the check of the parameters and makes the model useless (`inf`). -/
theorem C55_zero_eigenvalue (pairs : List (Pair n)) (y : Matrix n d ℝ) : (∃ aux, precomputeAux pairs y = .ok aux) ↔ ∀ p ∈ pairs, p.1 ≠ 0 := by
  unfold precomputeAux
  by_cases h : ∃ p ∈ pairs, p.1 = 0
  · rw [if_pos h]
    constructor
    · rintro ⟨_, h⟩; cases h
    · obtain ⟨p, hp, h0⟩ := h
      exact fun h => absurd h0 (h p hp)
  · rw [if_neg h]
    push Not at h
    exact ⟨fun _ => h, fun _ => ⟨_, rfl⟩⟩

/-! ## C97 -/

/-- C97, what is true: for linearly independent eigenvectors all functions of the span are reproduced at the training points exactly if the eigenvectors are orthonormal. -/
theorem C97_reproduces_iff (k : DmapKernel) (hk : k.Admissible) (K : Matrix n n ℝ) (hK : Fittable k K) (A : Matrix n n ℝ) (f : Fitted n) (h1 : evalPdist k none K = .ok (A, f)) (N : Nat)
    (pairs : List (Pair n)) (h2 : Solves A f.basisChange N pairs) (hne : ∀ p ∈ pairs, p.1 ≠ 0) (hi : Independent pairs) :
    (∀ y : Matrix n (Fin 1) ℝ, InSpan pairs (fun i => y i 0) → ∃ aux, precomputeAux pairs y = .ok aux ∧ ghPredict k f aux K = .ok y) ↔ Orthonormal pairs := by
  constructor
  · intro h a b
    have hs : InSpan pairs pairs[b].2 := ⟨fun a => if a = b then 1 else 0, by funext i; simp⟩
    obtain ⟨aux, g1, g2⟩ := h (Matrix.of (fun i _ => pairs[b].2 i)) hs
    obtain ⟨aux', g3, g4⟩ := ghPredict_train hk hK h1 h2 hne (Matrix.of (fun i (_ : Fin 1) => pairs[b].2 i))
    rw [g1] at g3
    obtain rfl := Except.ok.inj g3
    rw [g2] at g4
    have e := Except.ok.inj g4
    have := hi (fun a => (pairs[a].2 ⬝ᵥ pairs[b].2) - (if a = b then 1 else 0)) (fun i => by
      have := congrFun (congrFun e i) 0
      simp only [of_apply] at this
      simp only [sub_mul, Finset.sum_sub_distrib, ite_mul, one_mul, zero_mul, Finset.sum_ite_eq', Finset.mem_univ, if_true]
      rw [sub_eq_zero]
      exact this.symm) a
    linarith
  · intro ho y hy
    obtain ⟨aux, g1, g2⟩ := ghPredict_train hk hK h1 h2 hne y
    refine ⟨aux, g1, g2.trans ?_⟩
    congr 1
    ext i c
    obtain rfl : c = 0 := Subsingleton.elim _ _
    exact congrFun (projection_unique (projection_of_orthonormal ho (fun i => y i 0)) hy) i

end

theorem vec3_two (a b c : ℝ) : (![a, b, c] : Fin 3 → ℝ) 2 = c := rfl

/-- Kernel matrix of three points of which the first and the last are the same; the kernel value between different points is one half. -/
noncomputable def ghK : Matrix (Fin 3) (Fin 3) ℝ := !![1, 1/2, 1; 1/2, 1, 1/2; 1, 1/2, 1]

/-- A stochastic kernel without density normalisation. -/
def ghKernel : DmapKernel := ⟨true, 0, false, true⟩

/-- The first two eigenpairs before the normalisation. -/
noncomputable def ghRaw : List (Pair (Fin 3)) := [(1, ![1, 1, 1]), (3/10, ![2, -5, 2])]

theorem ghK_connected : Connected ghK := by
  constructor
  · intro i j
    fin_cases i <;> fin_cases j <;> norm_num [ghK]
  · intro i
    refine ⟨i, ?_⟩
    fin_cases i <;> norm_num [ghK]

theorem ghK_symm : ghKᵀ = ghK := by
  ext i j
  fin_cases i <;> fin_cases j <;> rfl

theorem gh_solves : ∃ A f, evalPdist ghKernel none ghK = .ok (A, f) ∧ f.basisChange = none ∧ Solves A none 2 (ghRaw.map (fun p => (p.1, normalizeVec p.2))) := by
  have hsym : ∀ i j, ghK i j = ghK j i := fun i j => by rw [← congrFun (congrFun ghK_symm i) j]; rfl
  refine ⟨_, _, evalPdist_stochastic (k := ghKernel) ⟨le_refl 0, by norm_num [ghKernel]⟩ rfl rfl ghK_connected.1 ghK_connected.rowSums_pos (fun _ => hsym), rfl, ghRaw, rfl, ?_, rfl⟩
  intro p hp
  have e : diffusion ghKernel.alpha (rowSums ghK) ghK = !![2/5, 1/5, 2/5; 1/4, 1/2, 1/4; 2/5, 1/5, 2/5] := by
    ext i j
    change diffusion 0 (rowSums ghK) ghK i j = _
    rw [diffusion_zero]
    fin_cases i <;> fin_cases j <;> norm_num [rowSums, ghK, Fin.sum_univ_three, vec3_two]
  rw [e]
  simp only [ghRaw, List.mem_cons, List.not_mem_nil, or_false] at hp
  rcases hp with rfl | rfl
  · refine ⟨fun h => by simpa using congrFun h 0, ?_⟩
    funext i
    fin_cases i <;> norm_num [mulVec, dotProduct, Fin.sum_univ_three, vec3_two]
  · refine ⟨fun h => by simpa using congrFun h 0, ?_⟩
    funext i
    fin_cases i <;> norm_num [mulVec, dotProduct, Fin.sum_univ_three, vec3_two]

/-- C97 is violated: with the stochastic kernel of three points and two eigenpairs with non-zero eigenvalues, the constant function, which is a multiple of the first eigenvector, is not
reproduced at the training points. -/
theorem C97_violated : ∃ (A : Matrix (Fin 3) (Fin 3) ℝ) (f : Fitted (Fin 3)) (pairs : List (Pair (Fin 3))), evalPdist ghKernel none ghK = .ok (A, f) ∧ Solves A f.basisChange 2 pairs ∧
    (∀ p ∈ pairs, p.1 ≠ 0) ∧ InSpan pairs (fun _ => 1) ∧
    ∃ aux pred, precomputeAux pairs (Matrix.of (fun _ (_ : Fin 1) => (1 : ℝ))) = .ok aux ∧ ghPredict ghKernel f aux ghK = .ok pred ∧ pred 0 0 = 31 / 33 ∧ pred 1 0 = 38 / 33 := by
  obtain ⟨A, f, h1, h2, h3⟩ := gh_solves
  have hne : ∀ p ∈ ghRaw.map (fun p => (p.1, normalizeVec p.2)), p.1 ≠ 0 := by
    intro p hp
    simp only [ghRaw, List.map_cons, List.map_nil, List.mem_cons, List.not_mem_nil, or_false] at hp
    rcases hp with rfl | rfl <;> norm_num
  have hs3 : Real.sqrt 3 * Real.sqrt 3 = 3 := Real.mul_self_sqrt (by norm_num)
  have hs33 : Real.sqrt 33 * Real.sqrt 33 = 33 := Real.mul_self_sqrt (by norm_num)
  have h30 : Real.sqrt 3 ≠ 0 := by
    intro h
    rw [h] at hs3
    norm_num at hs3
  have h330 : Real.sqrt 33 ≠ 0 := by
    intro h
    rw [h] at hs33
    norm_num at hs33
  have e0 : normalizeVec (![1, 1, 1] : Fin 3 → ℝ) = fun i => (![1, 1, 1] : Fin 3 → ℝ) i / Real.sqrt 3 := by
    funext i
    simp only [normalizeVec, Fin.sum_univ_three, vec3_two]
    norm_num
  have e1 : normalizeVec (![2, -5, 2] : Fin 3 → ℝ) = fun i => (![2, -5, 2] : Fin 3 → ℝ) i / Real.sqrt 33 := by
    funext i
    simp only [normalizeVec, Fin.sum_univ_three, vec3_two]
    norm_num
  have hspan : InSpan (ghRaw.map (fun p => (p.1, normalizeVec p.2))) (fun _ => 1) := by
    refine ⟨fun a => if a.1 = 0 then Real.sqrt 3 else 0, ?_⟩
    funext i
    refine Eq.trans ?_ (Fin.sum_univ_two _).symm
    change 1 = Real.sqrt 3 * normalizeVec (![1, 1, 1] : Fin 3 → ℝ) i + 0 * normalizeVec (![2, -5, 2] : Fin 3 → ℝ) i
    rw [e0]
    fin_cases i <;> simp [h30]
  refine ⟨A, f, ghRaw.map (fun p => (p.1, normalizeVec p.2)), h1, by rw [h2]; exact h3, hne, hspan, ?_⟩
  obtain ⟨aux, g1, g2⟩ := ghPredict_train (k := ghKernel) ⟨le_refl 0, by norm_num [ghKernel]⟩ (fun _ => ⟨ghK_connected, fun _ => ghK_symm⟩) h1 (by rw [h2]; exact h3) hne
    (Matrix.of (fun _ (_ : Fin 1) => (1 : ℝ)))
  have key : ∀ i, ∑ a : Fin (ghRaw.map (fun p => (p.1, normalizeVec p.2))).length, (∑ j, (ghRaw.map (fun p => (p.1, normalizeVec p.2)))[a].2 j * 1) * (ghRaw.map (fun p => (p.1, normalizeVec p.2)))[a].2 i
      = (![31/33, 38/33, 31/33] : Fin 3 → ℝ) i := by
    intro i
    refine (Fin.sum_univ_two _).trans ?_
    change (∑ j, normalizeVec (![1, 1, 1] : Fin 3 → ℝ) j * 1) * normalizeVec (![1, 1, 1] : Fin 3 → ℝ) i + (∑ j, normalizeVec (![2, -5, 2] : Fin 3 → ℝ) j * 1) * normalizeVec (![2, -5, 2] : Fin 3 → ℝ) i = _
    rw [e0, e1]
    simp only [Fin.sum_univ_three, mul_one, vec3_two]
    have a1 : ∀ x y : ℝ, x / Real.sqrt 3 * (y / Real.sqrt 3) = x * y / 3 := fun x y => by rw [div_mul_div_comm, hs3]
    have a2 : ∀ x y : ℝ, x / Real.sqrt 33 * (y / Real.sqrt 33) = x * y / 33 := fun x y => by rw [div_mul_div_comm, hs33]
    simp only [← add_div, a1, a2]
    fin_cases i <;> norm_num
  exact ⟨aux, _, g1, g2, key 0, key 1⟩

/-- The hypotheses of C55 hold for the symmetric matrix of the diffusion map example with both eigenvectors. -/
example : ∃ (k : DmapKernel) (K : Matrix (Fin 2) (Fin 2) ℝ) (A : Matrix (Fin 2) (Fin 2) ℝ) (f : Fitted (Fin 2)) (pairs : List (Pair (Fin 2))),
    k.isStochastic = false ∧ Kᵀ = K ∧ evalPdist k none K = .ok (A, f) ∧ Solves A f.basisChange 1 pairs ∧ (∀ p ∈ pairs, p.1 ≠ 0) := by
  refine ⟨⟨false, 1, true, true⟩, !![2, 1; 1, 2], _, _, [(3, normalizeVec ![1, 1])], rfl, ?_, rfl, ⟨[(3, ![1, 1])], rfl, ?_, rfl⟩, by simp⟩
  · ext i j
    fin_cases i <;> fin_cases j <;> rfl
  · intro p hp
    rw [List.mem_singleton] at hp
    subst hp
    refine ⟨fun h => by simpa using congrFun h 0, ?_⟩
    funext i
    fin_cases i <;> norm_num [mulVec, dotProduct, Fin.sum_univ_two]

/-! ## C98 -/

/-- C98: `predict` returns an array with one row per query point and one column per target function exactly if there are at least two of each. -/
theorem C98_shape_partial {r c : Nat} (hr : 0 < r) (hc : 0 < c) (M : Matrix (Fin r) (Fin c) ℝ) : (∃ r' c' M', squeeze hr hc M = .mat r' c' M') ↔ 2 ≤ r ∧ 2 ≤ c := by
  unfold squeeze
  constructor
  · rintro ⟨r', c', M', h⟩
    split at h
    · cases h
    · split at h
      · cases h
      · split at h
        · cases h
        · omega
  · rintro ⟨h1, h2⟩
    rw [if_neg (by omega), if_neg (by omega), if_neg (by omega)]
    exact ⟨_, _, _, rfl⟩

/-- C98 is violated: one query point, two target functions. -/
theorem C98_violated (M : Matrix (Fin 1) (Fin 2) ℝ) : squeeze one_pos two_pos M = .vec 2 (fun j => M 0 j) := rfl

/-! ## C99 -/

/-- The root mean squared error of the columns, negated. -/
noncomputable def negRmse {r c : Nat} (y pred : Matrix (Fin r) (Fin c) ℝ) : Fin c → ℝ := fun j => -Real.sqrt ((∑ i, (y i j - pred i j) ^ 2) / r)

/-- C99, the true part: with at least two query points the score is the negated root mean squared error without weights; with one query point the call raises. -/
theorem C99_score_partial {r c : Nat} (hr : 0 < r) (hc : 0 < c) (y pred : Matrix (Fin r) (Fin c) ℝ) (w : Option (Fin r → ℝ)) :
    ghScore hr hc y pred w = if 2 ≤ r then .ok (negRmse y pred) else .error .value := by
  by_cases h2 : 2 ≤ r
  · rw [if_pos h2]
    by_cases hc1 : c = 1
    · subst hc1
      have e : squeeze hr hc pred = .vec r (fun i => pred i 0) := by
        unfold squeeze
        rw [if_neg (by omega), if_neg (by omega), if_pos rfl]
        rfl
      unfold ghScore meanSquaredError
      rw [e]
      simp only [asColumns, and_self, dite_true]
      congr 1
      funext j
      obtain rfl : j = 0 := Subsingleton.elim _ _
      simp [negRmse]
    · have e : squeeze hr hc pred = .mat r c pred := by
        unfold squeeze
        rw [if_neg (by omega), if_neg (by omega), if_neg hc1]
      unfold ghScore meanSquaredError
      rw [e]
      simp only [asColumns, and_self, dite_true]
      congr 1
      funext j
      simp [negRmse]
  · rw [if_neg h2]
    obtain rfl : r = 1 := by omega
    by_cases hc1 : c = 1
    · subst hc1
      rfl
    · have e : squeeze hr hc pred = .vec c (fun j => pred 0 j) := by
        unfold squeeze
        rw [if_neg (by omega), if_pos rfl]
        rfl
      unfold ghScore meanSquaredError
      rw [e]
      simp only [asColumns]
      rw [dif_neg (by omega)]

/-- C99 is violated: the weights do not matter.  Here only the first sample has a weight, and it is predicted exactly, but the score is not zero. -/
theorem C99_violated : ∃ (y pred : Matrix (Fin 2) (Fin 1) ℝ) (w : Fin 2 → ℝ) (s : Fin 1 → ℝ), ghScore two_pos one_pos y pred (some w) = .ok s ∧
    (∀ i, w i * (y i 0 - pred i 0) ^ 2 = 0) ∧ s 0 = -1 := by
  refine ⟨!![0; 0], Matrix.of (fun i _ => if i = 0 then 0 else Real.sqrt 2), ![1, 0], _, (C99_score_partial _ _ _ _ _).trans (if_pos (le_refl 2)), ?_, ?_⟩
  · intro i
    fin_cases i <;> simp
  · simp [negRmse, Fin.sum_univ_two]

example : (2 : Nat) ≤ 3 ∧ (0 : Nat) < 1 := by decide

end Verif.Kernel
