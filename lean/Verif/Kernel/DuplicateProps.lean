import Verif.Kernel.DiffusionDistProps
import Verif.Kernel.FitProps
import Verif.Kernel.HarmonicsProps
import Mathlib.Analysis.Matrix.Spectrum
/-!
# C247: equal samples, distinct samples
-/

namespace Verif.Kernel

open Matrix

variable {m n d : Type} [Fintype m] [Fintype n] [Fintype d]

/-! ## Specification -/

/-- The kernel matrix between the samples `Q` (rows) and `X` (columns), for any kernel function. -/
def kernelMatrix {E : Type} (g : E → E → ℝ) (Q : m → E) (X : n → E) : Matrix m n ℝ := Matrix.of (fun a b => g (Q a) (X b))

/-! ## Helper lemmas -/

theorem map_fixed {α : Type} {f : α → α} {l : List α} (h : l.map f = l) : ∀ x ∈ l, f x = x := by
  induction l with
  | nil => simp
  | cons a l ih =>
    rw [List.map_cons, List.cons.injEq] at h
    intro x hx
    rcases List.mem_cons.1 hx with rfl | hx
    · exact h.1
    · exact ih h.2 x hx

omit [Fintype m] in
theorem takeRows_map {m' : Type} {τ : m' → m} {c : List (m → ℝ)} : takeRows τ (.ok c : Except KErr _) = .ok (c.map (fun v => v ∘ τ)) := by
  simp only [takeRows, Except.map]

theorem cdist_equal_rows {k : DmapKernel} {f : Fitted n} {K P : Matrix m n ℝ} (h : evalCdist k (some f) K = .ok P) {i j : m} (hij : ∀ b, K i b = K j b) : ∀ b, P i b = P j b := by
  have e1 : f.reorder (Equiv.refl n) = f := by
    cases f with
    | mk a b => cases a <;> cases b <;> rfl
  have h1 := evalCdist_sub h (fun _ : Unit => i) (Equiv.refl n)
  have h2 := evalCdist_sub h (fun _ : Unit => j) (Equiv.refl n)
  rw [e1] at h1 h2
  have e : K.submatrix (fun _ : Unit => i) (Equiv.refl n) = K.submatrix (fun _ : Unit => j) (Equiv.refl n) := by
    ext a b; exact hij b
  rw [e, h2] at h1
  intro b
  exact (congrFun (congrFun (Except.ok.inj h1) ()) b).symm

/-! ## Property theorems -/

/-- **C247 (new samples).** A new sample that equals a training sample is embedded where the training sample was, if no eigenvalue is zero. -/
theorem C247_query {E : Type} (g : E → E → ℝ) (k : DmapKernel) (hk : k.Admissible) (X : n → E) (hK : Fittable k (kernelMatrix g X X)) {A : Matrix n n ℝ} {f : Fitted n}
    (h1 : evalPdist k none (kernelMatrix g X X) = .ok (A, f)) {N : Nat} {pairs : List (Pair n)} (h2 : Solves A f.basisChange N pairs) (hne : ∀ p ∈ pairs, p.1 ≠ 0) {t : ℝ}
    {coords : Option (List Nat)} (Q : m → E) {Y : List (n → ℝ)} (hY : fitTransform t coords pairs = .ok Y) {Z : List (m → ℝ)}
    (hZ : transform k f t coords pairs (kernelMatrix g Q X) = .ok Z) {q : m} {i : n} (hq : Q q = X i) : Z.map (fun c => c q) = Y.map (fun c => c i) := by
  obtain ⟨P, hP, -⟩ := pairs_eig hk hK h1 h2
  have ht := C44_agree k hk _ hK A f h1 N pairs h2 hne t coords
  obtain ⟨P', hP'⟩ : ∃ P', evalCdist k (some f) (kernelMatrix g Q X) = .ok P' := by
    unfold transform at hZ
    cases h : evalCdist k (some f) (kernelMatrix g Q X) with
    | error e => rw [h] at hZ; cases hZ
    | ok P' => exact ⟨P', rfl⟩
  have r1 := transform_rows (t := t) (coords := coords) (pairs := pairs) hP (fun _ : Unit => i)
  have r2 := transform_rows (t := t) (coords := coords) (pairs := pairs) hP' (fun _ : Unit => q)
  have e : (kernelMatrix g Q X).submatrix (fun _ : Unit => q) id = (kernelMatrix g X X).submatrix (fun _ : Unit => i) id := by
    ext a b
    simp [kernelMatrix, hq]
  rw [e, r1, ht, hY, hZ, takeRows_map, takeRows_map] at r2
  have h3 := congrArg (List.map (fun c : Unit → ℝ => c ())) (Except.ok.inj r2)
  rw [List.map_map, List.map_map] at h3
  exact h3.symm

/-- **C247 (equal samples).** Equal training samples get equal coordinates, for every kernel function, normalisation, time exponent and choice of coordinates, if no eigenvalue is zero. -/
theorem C247_equal_partial {E : Type} (g : E → E → ℝ) (k : DmapKernel) (hk : k.Admissible) (X : n → E) (hK : Fittable k (kernelMatrix g X X)) {A : Matrix n n ℝ} {f : Fitted n}
    (h1 : evalPdist k none (kernelMatrix g X X) = .ok (A, f)) {N : Nat} {pairs : List (Pair n)} (h2 : Solves A f.basisChange N pairs) (hne : ∀ p ∈ pairs, p.1 ≠ 0) {t : ℝ}
    {coords : Option (List Nat)} {Y : List (n → ℝ)} (hY : fitTransform t coords pairs = .ok Y) {i j : n} (hij : X i = X j) : ∀ c ∈ Y, c i = c j := by
  have ht := C44_agree k hk _ hK A f h1 N pairs h2 hne t coords
  have h3 := C247_query g k hk X hK h1 h2 hne X hY (ht.trans hY) (q := i) (i := j) hij
  intro c hc
  obtain ⟨a, ha, rfl⟩ := List.getElem_of_mem hc
  have h4 : (Y.map (fun c => c i))[a]? = (Y.map (fun c => c j))[a]? := by rw [h3]
  simpa [List.getElem?_eq_getElem ha] using h4

omit [Fintype d] in
/-- **C247 (functions).** Geometric harmonics extend every function, whatever its values on the training samples, to the same value at equal samples. -/
theorem C247_function {E : Type} (g : E → E → ℝ) (k : DmapKernel) (f : Fitted n) (aux : Matrix n d ℝ) (X : n → E) (Q : m → E) {G : Matrix m d ℝ}
    (h : ghPredict k f aux (kernelMatrix g Q X) = .ok G) {i j : m} (hij : Q i = Q j) (c : d) : G i c = G j c := by
  unfold ghPredict at h
  cases hP : evalCdist k (some f) (kernelMatrix g Q X) with
  | error e => rw [hP] at h; cases h
  | ok P =>
    rw [hP] at h
    obtain rfl := Except.ok.inj h
    have := cdist_equal_rows hP (i := i) (j := j) (fun b => by simp [kernelMatrix, hij])
    simp only [Matrix.mul_apply, this]

theorem symmetric_separates [DecidableEq n] {A : Matrix n n ℝ} {b : Option (n → ℝ)} (hb : ∀ b', b = some b' → ∀ i, b' i ≠ 0) {pairs : List (Pair n)} (h : SolvesSymmetric A b pairs)
    (hl : pairs.length = Fintype.card n) {i j : n} (hij : i ≠ j) : ∃ p ∈ pairs, p.2 i ≠ p.2 j := by
  obtain ⟨raw, h1, h2, rfl⟩ := h
  by_contra hall
  push Not at hall
  obtain ⟨w, hw, hwv⟩ : ∃ w : n → ℝ, (∀ i, w i ≠ 0) ∧ ∀ v, changeBasis b v = fun i => w i * v i := by
    cases b with
    | none => exact ⟨fun _ => 1, fun _ => one_ne_zero, fun v => by funext i; simp [changeBasis]⟩
    | some b' => exact ⟨b', hb b' rfl, fun v => rfl⟩
  have hz : ∀ p ∈ raw, w i * p.2 i = w j * p.2 j := by
    intro p hp
    have h3 := hall _ (List.mem_map.2 ⟨p, hp, rfl⟩)
    simp only [normalizeVec, hwv] at h3
    have hpos : Real.sqrt (∑ a, w a * p.2 a * (w a * p.2 a)) ≠ 0 := by
      rw [Real.sqrt_ne_zero (Finset.sum_nonneg (fun _ _ => mul_self_nonneg _))]
      intro h0
      rw [Finset.sum_eq_zero_iff_of_nonneg (fun _ _ => mul_self_nonneg _)] at h0
      have hp1 := (h1 p hp).2
      have : p.2 = 0 := by
        funext a
        have := mul_self_eq_zero.1 (h0 a (Finset.mem_univ a))
        exact (mul_eq_zero.1 this).resolve_left (hw a)
      rw [this] at hp1
      simp at hp1
    exact (div_left_inj' hpos).1 h3
  have hpar := parseval_list (raw.map Prod.snd) (by
    intro v hv; obtain ⟨p, hp, rfl⟩ := List.mem_map.1 hv; exact (h1 p hp).2) (List.pairwise_map.2 h2) (by simpa using hl) (w i • Pi.single i 1 - w j • Pi.single j 1)
  have hzero : ((raw.map Prod.snd).map (fun v => ((w i • Pi.single i 1 - w j • Pi.single j 1) ⬝ᵥ v) ^ 2)).sum = 0 := by
    apply List.sum_eq_zero
    intro a ha
    rw [List.map_map] at ha
    obtain ⟨p, hp, rfl⟩ := List.mem_map.1 ha
    simp only [Function.comp_apply, sub_dotProduct, smul_dotProduct, single_dotProduct, one_mul, smul_eq_mul, hz p hp, sub_self]
    norm_num
  rw [hzero] at hpar
  have : (w i • (Pi.single i 1 : n → ℝ) - w j • (Pi.single j 1 : n → ℝ)) i = w i := by simp [hij]
  have h5 := dotProduct_self_eq_zero.1 hpar.symm
  rw [h5] at this
  exact hw i (by simpa using this.symm)

theorem solves_of_symmetric {A : Matrix n n ℝ} {b : Option (n → ℝ)} {pairs : List (Pair n)} (h : SolvesSymmetric A b pairs) : Solves A b pairs.length pairs := by
  obtain ⟨raw, h1, -, rfl⟩ := h
  refine ⟨raw, by simp, fun p hp => ⟨fun h0 => ?_, (h1 p hp).1⟩, rfl⟩
  have := (h1 p hp).2
  rw [h0] at this
  simp at this

/-- **C247 (distinct samples).** With all eigenpairs of a symmetric problem, no two of the samples get the same coordinates, if all eigenvalues are positive. -/
theorem C247_distinct [DecidableEq n] (k : DmapKernel) (hk : k.Admissible) (hst : k.isStochastic = true) (hsy : k.symmetrize = true) (hd : k.distSymmetric = true) (K : Matrix n n ℝ)
    (hK : Connected K) (hsym : Kᵀ = K) {A : Matrix n n ℝ} {f : Fitted n} (h1 : evalPdist k none K = .ok (A, f)) {pairs : List (Pair n)} (h2 : SolvesSymmetric A f.basisChange pairs)
    (hl : pairs.length = Fintype.card n) (hpos : ∀ p ∈ pairs, 0 < p.1) (t : ℝ) : ∃ Y, fitTransform t none pairs = .ok Y ∧ ∀ i j, (∀ c ∈ Y, c i = c j) → i = j := by
  obtain ⟨A', f', b, P, g, e1, e2, -, -, -, -, e7⟩ := C43_conjugate k hk hst hsy hd K hK hsym
  rw [h1] at e1
  obtain ⟨rfl, rfl⟩ := Prod.mk.inj (Except.ok.inj e1)
  refine ⟨_, C44_embedding_partial t none pairs hpos (Or.inr rfl), fun i j h => ?_⟩
  by_contra hij
  obtain ⟨p, hp, hne⟩ := symmetric_separates (fun b' hb' a => by rw [e2] at hb'; obtain rfl := Option.some.inj hb'; exact (e7 a).ne') h2 hl hij
  have h3 := h _ (List.mem_map.2 ⟨p, hp, rfl⟩)
  exact hne (mul_left_cancel₀ (Real.rpow_pos_of_pos (hpos p hp) t).ne' h3)

/-- **C247 (distinct samples, radial kernels).** So a diffusion map with a Gaussian or another positive definite kernel and as many eigenpairs as (distinct) samples is one-to-one. -/
theorem C247_injective [DecidableEq n] [Nonempty n] (r : Radial) (hr : Falling r) (X : n → d → ℝ) (hX : Function.Injective X) (k : DmapKernel) (hk : k.Admissible) (hst : k.isStochastic = true)
    (hsy : k.symmetrize = true) (hd : k.distSymmetric = true) {K : Matrix n n ℝ} (hK : r.call X X = .ok K) {A : Matrix n n ℝ} {f : Fitted n} (h1 : evalPdist k none K = .ok (A, f))
    {pairs : List (Pair n)} (h2 : SolvesSymmetric A f.basisChange pairs) (hl : pairs.length = Fintype.card n) (t : ℝ) :
    ∃ Y, fitTransform t none pairs = .ok Y ∧ ∀ i j, (∀ c ∈ Y, c i = c j) ↔ X i = X j := by
  obtain ⟨K', g1, -, hsym, hcon⟩ := falling_fn hr X
  rw [hK] at g1
  obtain rfl := Except.ok.inj g1
  have hpos := C220_eigenvalues r hr X hX k hk K hK A f h1 _ pairs (solves_of_symmetric h2)
  obtain ⟨Y, hY, hi⟩ := C247_distinct k hk hst hsy hd K hcon hsym h1 h2 hl (fun p hp => (hpos p hp).1) t
  refine ⟨Y, hY, fun i j => ⟨fun h => by rw [hi i j h], fun h => ?_⟩⟩
  rw [hX h]
  exact fun _ _ => rfl

/-- **C247 is violated** for all eigenpairs of data with equal samples: one of the eigenvalues is zero, some coordinate separates the equal samples, and no sample at all can be transformed. -/
theorem C247_violated [DecidableEq n] {E : Type} (g : E → E → ℝ) (k : DmapKernel) (hk : k.Admissible) (hst : k.isStochastic = true) (hsy : k.symmetrize = true) (hd : k.distSymmetric = true) (X : n → E)
    (hK : Connected (kernelMatrix g X X)) (hsym : (kernelMatrix g X X)ᵀ = kernelMatrix g X X) {A : Matrix n n ℝ} {f : Fitted n} (h1 : evalPdist k none (kernelMatrix g X X) = .ok (A, f))
    {pairs : List (Pair n)} (h2 : SolvesSymmetric A f.basisChange pairs) (hl : pairs.length = Fintype.card n) {i j : n} (hij : i ≠ j) (hX : X i = X j) :
    (∃ p ∈ pairs, p.1 = 0) ∧ (∃ Y, fitTransform 0 none pairs = .ok Y ∧ ∃ c ∈ Y, c i ≠ c j) ∧
    ∀ (Q : m → E) t Z, transform k f t none pairs (kernelMatrix g Q X) ≠ .ok Z := by
  obtain ⟨A', f', b, P, g', e1, e2, -, -, -, -, e7⟩ := C43_conjugate k hk hst hsy hd _ hK hsym
  rw [h1] at e1
  obtain ⟨rfl, rfl⟩ := Prod.mk.inj (Except.ok.inj e1)
  obtain ⟨p, hp, hne⟩ := symmetric_separates (fun b' hb' a => by rw [e2] at hb'; obtain rfl := Option.some.inj hb'; exact (e7 a).ne') h2 hl hij
  have hY : fitTransform 0 none pairs = .ok (pairs.map Prod.snd) := by simp [fitTransform, embed, selectPairs]
  have hz : ∃ p ∈ pairs, p.1 = 0 := by
    by_contra hno
    push Not at hno
    exact hne (C247_equal_partial g k hk X (fun _ => ⟨hK, fun _ => hsym⟩) h1 (solves_of_symmetric h2) hno hY hX _ (List.mem_map.2 ⟨p, hp, rfl⟩))
  refine ⟨hz, ⟨_, hY, _, List.mem_map.2 ⟨p, hp, rfl⟩, hne⟩, fun Q t Z h => ?_⟩
  unfold transform at h
  cases hP : evalCdist k (some f) (kernelMatrix g Q X) with
  | error e => rw [hP] at h; cases h
  | ok P =>
    rw [hP] at h
    have hn : nystrom P (selectPairs none pairs) = .error .notFinite := by
      unfold nystrom selectPairs
      exact if_pos hz
    simp only [hn] at h
    cases h

/-! ## Examples -/

/-- Two equal samples and a third one. -/
def exTwin : Fin 3 → ℝ := ![0, 0, 1]

/-- A kernel function on the line. -/
noncomputable def exTwinKernel (x y : ℝ) : ℝ := 1 / (1 + (x - y) ^ 2)

theorem exTwin_ok : Connected (kernelMatrix exTwinKernel exTwin exTwin) ∧ (kernelMatrix exTwinKernel exTwin exTwin)ᵀ = kernelMatrix exTwinKernel exTwin exTwin := by
  have hp : ∀ x y, 0 < exTwinKernel x y := fun x y => by unfold exTwinKernel; positivity
  refine ⟨⟨fun i j => (hp _ _).le, fun i => ⟨i, hp _ _⟩⟩, ?_⟩
  ext i j
  simp only [transpose_apply, kernelMatrix, Matrix.of_apply, exTwinKernel]
  ring

theorem symmetric_solution [DecidableEq n] {A : Matrix n n ℝ} (hA : Aᵀ = A) (b : Option (n → ℝ)) : ∃ pairs, SolvesSymmetric A b pairs ∧ pairs.length = Fintype.card n := by
  have hH : A.IsHermitian := by rw [Matrix.IsHermitian, Matrix.conjTranspose_eq_transpose_of_trivial, hA]
  let raw : List (Pair n) := (Finset.univ : Finset n).toList.map (fun i => (hH.eigenvalues i, (hH.eigenvectorBasis i).ofLp))
  have hin : ∀ i j, (hH.eigenvectorBasis i).ofLp ⬝ᵥ (hH.eigenvectorBasis j).ofLp = if i = j then 1 else 0 := by
    intro i j
    have := orthonormal_iff_ite.1 hH.eigenvectorBasis.orthonormal j i
    rw [EuclideanSpace.inner_eq_star_dotProduct] at this
    simp only [star_trivial] at this
    rw [this]
    by_cases h : i = j
    · rw [if_pos h, if_pos h.symm]
    · rw [if_neg h, if_neg (Ne.symm h)]
  refine ⟨_, ⟨raw, ?_, ?_, rfl⟩, by simp [raw]⟩
  · intro p hp
    obtain ⟨i, -, rfl⟩ := List.mem_map.1 hp
    exact ⟨hH.mulVec_eigenvectorBasis i, by rw [hin, if_pos rfl]⟩
  · refine List.pairwise_map.2 ?_
    refine (Finset.nodup_toList _).imp (fun {a c} h => ?_)
    simp only [hin, if_neg h]

example : ∃ A f pairs, evalPdist ⟨true, 1, true, true⟩ none (kernelMatrix exTwinKernel exTwin exTwin) = .ok (A, f) ∧ SolvesSymmetric A f.basisChange pairs ∧ pairs.length = Fintype.card (Fin 3) ∧
    exTwin 0 = exTwin 1 := by
  obtain ⟨A, f, b, P, g', e1, e2, -, e4, -⟩ := C43_conjugate ⟨true, 1, true, true⟩ ⟨by norm_num, le_refl _⟩ rfl rfl rfl _ exTwin_ok.1 exTwin_ok.2
  obtain ⟨pairs, h1, h2⟩ := symmetric_solution e4 f.basisChange
  exact ⟨A, f, pairs, e1, h1, h2, rfl⟩

/-- The trivial eigenpair (eigenvalue 1) alone meets the hypotheses about equal samples. -/
example : ∃ A f pairs, evalPdist ⟨true, 1, false, true⟩ none (kernelMatrix exTwinKernel exTwin exTwin) = .ok (A, f) ∧ Solves A f.basisChange 1 pairs ∧ ∀ p ∈ pairs, p.1 ≠ 0 := by
  obtain ⟨P, f, e1, hP, -⟩ := C42_pairwise ⟨true, 1, false, true⟩ ⟨by norm_num, le_refl _⟩ rfl rfl (kernelMatrix exTwinKernel exTwin exTwin) exTwin_ok.1 (fun _ => exTwin_ok.2)
  refine ⟨P, f, _, e1, ⟨[(1, fun _ => 1)], rfl, ?_, rfl⟩, by simp⟩
  intro p hp
  obtain rfl := List.mem_singleton.1 hp
  refine ⟨fun h => by simpa using congrFun h 0, ?_⟩
  funext i
  simp only [Matrix.mulVec, dotProduct, mul_one, one_smul]
  exact hP.2 i

end Verif.Kernel
