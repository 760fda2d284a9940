import Verif.Kernel.Roseland
import Verif.Kernel.DmapProps
/-!
# C56, C102, C103: Roseland embeddings
-/

namespace Verif.Kernel

open Matrix

variable {m n l : Type} [Fintype m] [Fintype n] [Fintype l]

/-! ## Helper lemmas -/

theorem selectTriples_mem {coords : Option (List Nat)} {ts : List (Triple n l)} {t : Triple n l} (h : t ∈ selectTriples coords ts) : t ∈ ts := by
  unfold selectTriples at h
  split at h
  · exact h
  · simp only [List.mem_filterMap] at h
    obtain ⟨i, -, hi⟩ := h
    exact List.mem_of_getElem? hi

theorem colSums_nonneg {K : Matrix n l ℝ} (hK : ∀ i j, 0 ≤ K i j) (j : l) : 0 ≤ colSums K j := Finset.sum_nonneg (fun i _ => hK i j)

theorem weights_nonneg {K : Matrix m l ℝ} (hK : ∀ i j, 0 ≤ K i j) {c : l → ℝ} (hc : ∀ j, 0 ≤ c j) (i : m) : 0 ≤ ∑ j, K i j * c j := Finset.sum_nonneg (fun j _ => mul_nonneg (hK i j) (hc j))

open Classical in
theorem roseEval_ok {K : Matrix m l ℝ} (hK : ∀ i j, 0 ≤ K i j) {c : l → ℝ} (hc : ∀ j, 0 ≤ c j) {alpha : ℝ} (ha : alpha = 0) :
    roseEval alpha (some c) K = .ok ⟨Matrix.of (fun i j => (if ∑ j, K i j * c j = 0 then 0 else (Real.sqrt (∑ j, K i j * c j))⁻¹) * K i j),
      fun i => if ∑ j, K i j * c j = 0 then 0 else (Real.sqrt (∑ j, K i j * c j))⁻¹, c⟩ := by
  unfold roseEval normalizeDiagonal
  rw [if_neg (by rw [ha]; exact lt_irrefl 0)]
  simp only [Option.getD_some]
  rw [if_neg (by push Not; exact fun i => weights_nonneg hK hc i)]

theorem roseEval_first (alpha : ℝ) (K : Matrix n l ℝ) : roseEval alpha none K = roseEval alpha (some (colSums K)) K := rfl

theorem roseFit_length {o : RoseOut n l} {k : Nat} {ts : List (Triple n l)} (h : roseFit o k ts) : ts.length = k := by
  obtain ⟨raw, ⟨h1, -⟩, rfl⟩ := h
  simpa using h1

/-- Evaluating the kernel at the training points again, and the Nyström extension there, give the left vectors. -/
theorem roseNystrom_train {o : RoseOut n l} {k : Nat} {ts : List (Triple n l)} (h : roseFit o k ts) (coords : Option (List Nat)) (hne : ∀ t ∈ ts, t.sigma ≠ 0) :
    roseNystrom o (selectTriples coords ts) = .ok (roseFitTransform coords ts) := by
  unfold roseNystrom roseFitTransform
  rw [if_neg (by push Not; exact fun t ht => hne t (selectTriples_mem ht))]
  congr 1
  refine List.map_congr_left (fun t ht => ?_)
  have hm := selectTriples_mem ht
  have h0 := hne t hm
  obtain ⟨raw, ⟨-, h2⟩, rfl⟩ := h
  obtain ⟨q, hq, rfl⟩ := List.mem_map.mp hm
  obtain ⟨-, -, -, h3, -⟩ := h2 q hq
  funext i
  have e : (fun j => q.sigma⁻¹ * q.right j) = q.sigma⁻¹ • q.right := rfl
  simp only
  rw [e, mulVec_smul, h3, smul_smul, inv_mul_cancel₀ h0, one_smul]

theorem roseEmbed_pos {te : ℝ} {sel : List (Triple n l)} (hpos : ∀ t ∈ sel, 0 < t.sigma) (f : Triple n l → m → ℝ) :
    roseEmbed te sel (sel.map f) = .ok (sel.map (fun t => fun i => t.sigma ^ (2 * te) * f t i)) := by
  unfold roseEmbed
  by_cases ht : te = 0
  · rw [if_pos ht, ht]
    simp
  · rw [if_neg ht, mapM_npPower (by simpa using hpos)]
    simp only [matDotDiag, List.length_map, if_true]
    congr 1
    rw [List.map_map, List.zipWith_map, List.zipWith_self]
    rfl

/-! ## C56 -/

/-- The landmark kernel matrix for which the fit is defined. -/
def RoseFittable (K : Matrix n l ℝ) : Prop := ∀ i j, 0 ≤ K i j

/-- C56, what is true: `transform` at the training points has the columns of `fit_transform`, each multiplied by `σ^(2 time_exponent)`. -/
theorem C56_scaled (K : Matrix n l ℝ) (hK : RoseFittable K) (o : RoseOut n l) (h1 : roseEval 0 none K = .ok o) (k : Nat) (ts : List (Triple n l)) (h2 : roseFit o k ts)
    (hpos : ∀ t ∈ ts, 0 < t.sigma) (te : ℝ) (coords : Option (List Nat)) :
    roseTransform 0 te o.stochastic coords ts K = .ok ((selectTriples coords ts).map (fun t => fun i => t.sigma ^ (2 * te) * t.left i)) := by
  have hev : roseEval 0 (some o.stochastic) K = .ok o := by
    have e := roseEval_ok (alpha := 0) hK (colSums_nonneg hK) rfl
    rw [roseEval_first, e] at h1
    obtain rfl := Except.ok.inj h1
    exact e
  unfold roseTransform
  rw [hev]
  simp only
  rw [roseNystrom_train h2 coords (fun t ht => (hpos t ht).ne')]
  simp only [roseFitTransform]
  exact roseEmbed_pos (fun t ht => hpos t (selectTriples_mem ht)) Triple.left

/-- C56, the true part: with time exponent zero `transform` at the training points equals `fit_transform`. -/
theorem C56_agree_partial (K : Matrix n l ℝ) (hK : RoseFittable K) (o : RoseOut n l) (h1 : roseEval 0 none K = .ok o) (k : Nat) (ts : List (Triple n l)) (h2 : roseFit o k ts)
    (hpos : ∀ t ∈ ts, 0 < t.sigma) (coords : Option (List Nat)) : roseTransform 0 0 o.stochastic coords ts K = .ok (roseFitTransform coords ts) := by
  rw [C56_scaled K hK o h1 k ts h2 hpos 0 coords]
  congr 1
  refine List.map_congr_left (fun t _ => ?_)
  simp

/-- C56 is violated for every other time exponent: as soon as one selected singular value is not one, `transform` differs from `fit_transform`. -/
theorem C56_violated (K : Matrix n l ℝ) (hK : RoseFittable K) (o : RoseOut n l) (h1 : roseEval 0 none K = .ok o) (k : Nat) (ts : List (Triple n l)) (h2 : roseFit o k ts)
    (hpos : ∀ t ∈ ts, 0 < t.sigma) (coords : Option (List Nat)) (te : ℝ) (hte : te ≠ 0) (hs : ∃ t ∈ selectTriples coords ts, t.sigma ≠ 1) :
    roseTransform 0 te o.stochastic coords ts K ≠ .ok (roseFitTransform coords ts) := by
  rw [C56_scaled K hK o h1 k ts h2 hpos te coords]
  intro h
  have h := Except.ok.inj h
  unfold roseFitTransform at h
  obtain ⟨t, ht, hne⟩ := hs
  have e := (List.map_inj_left.mp h) t ht
  have hm := selectTriples_mem ht
  have hp := hpos t hm
  obtain ⟨raw, ⟨-, h3⟩, rfl⟩ := h2
  obtain ⟨q, hq, rfl⟩ := List.mem_map.mp hm
  obtain ⟨-, g2, -, g4, -⟩ := h3 q hq
  obtain ⟨i, hi⟩ : ∃ i, q.left i ≠ 0 := by
    by_contra hc
    push Not at hc
    have : q.left = 0 := funext hc
    rw [this] at g2
    simp at g2
  have hn : o.normalize i ≠ 0 := by
    intro h0
    have e2 := roseEval_ok (alpha := 0) hK (colSums_nonneg hK) rfl
    rw [roseEval_first, e2] at h1
    obtain rfl := Except.ok.inj h1
    have := congrFun g4 i
    simp only [mulVec, dotProduct, of_apply, Pi.smul_apply, smul_eq_mul] at this h0
    rw [h0] at this
    simp only [zero_mul, Finset.sum_const_zero] at this
    exact (mul_ne_zero hp.ne' hi) this.symm
  have e3 := congrFun e i
  simp only at e3
  have hl : o.normalize i * q.left i ≠ 0 := mul_ne_zero hn hi
  have e4 : q.sigma ^ (2 * te) = 1 := by
    have : (q.sigma ^ (2 * te) - 1) * (o.normalize i * q.left i) = 0 := by rw [sub_mul, e3]; ring
    exact sub_eq_zero.mp ((mul_eq_zero.mp this).resolve_right hl)
  have h2te : 2 * te ≠ 0 := mul_ne_zero two_ne_zero hte
  have hlog : 2 * te * Real.log q.sigma = 0 := by
    rw [← Real.log_rpow hp, e4, Real.log_one]
  exact hne (Real.eq_one_of_pos_of_log_eq_zero hp ((mul_eq_zero.mp hlog).resolve_left h2te))

/-! ## C102 -/

/-- The diffusion between data points with landmarks in between: `K Kᵀ` with normalised rows. -/
noncomputable def landmarkDiffusion (K : Matrix n l ℝ) : Matrix n n ℝ := Matrix.of (fun i j => (K * Kᵀ) i j / ∑ q, (K * Kᵀ) i q)

theorem weights_eq (K : Matrix n l ℝ) (i : n) : ∑ j, K i j * colSums K j = ∑ q, (K * Kᵀ) i q := by
  simp only [colSums, mul_apply, transpose_apply, Finset.mul_sum]
  exact Finset.sum_comm

/-- C102: the computed coordinates of the training points are eigenvectors of the diffusion with landmarks in between, which is a row stochastic matrix; the eigenvalues are the squared singular
values, all in `[0, 1]`; constant vectors belong to the eigenvalue one. -/
theorem C102_diffusion [Nonempty n] (K : Matrix n l ℝ) (hK : Connected K) (k : Nat) :
    ∃ o, roseEval 0 none K = .ok o ∧ RowStochastic (landmarkDiffusion K) ∧ IsEigenpair (landmarkDiffusion K) 1 (fun _ => 1) ∧
      ∀ ts, roseFit o k ts → ∀ t ∈ ts, IsEigenpair (landmarkDiffusion K) (t.sigma ^ 2) t.left ∧ 0 ≤ t.sigma ∧ t.sigma ≤ 1 := by
  have hw0 : ∀ i, 0 < ∑ j, K i j * colSums K j := by
    intro i
    obtain ⟨j, hj⟩ := hK.2 i
    refine Finset.sum_pos' (fun j _ => mul_nonneg (hK.1 i j) (colSums_nonneg hK.1 j)) ⟨j, Finset.mem_univ _, mul_pos hj ?_⟩
    exact Finset.sum_pos' (fun i _ => hK.1 i j) ⟨i, Finset.mem_univ _, hj⟩
  have hG : ∀ i j, 0 ≤ (K * Kᵀ) i j := fun i j => Finset.sum_nonneg (fun a _ => mul_nonneg (hK.1 i a) (hK.1 j a))
  have hw : ∀ i, 0 < ∑ q, (K * Kᵀ) i q := fun i => by rw [← weights_eq]; exact hw0 i
  have hrow : RowStochastic (landmarkDiffusion K) := by
    refine ⟨fun i j => div_nonneg (hG i j) (hw i).le, fun i => ?_⟩
    simp only [landmarkDiffusion, of_apply]
    rw [← Finset.sum_div]
    exact div_self (hw i).ne'
  refine ⟨_, roseEval_ok (alpha := 0) hK.1 (colSums_nonneg hK.1) rfl, hrow, ⟨?_, ?_⟩, ?_⟩
  · intro h
    have := congrFun h (Classical.arbitrary n)
    simp at this
  · rw [hrow.const, one_smul]
  · rintro ts ⟨raw, ⟨-, h2⟩, rfl⟩ t ht
    obtain ⟨q, hq, rfl⟩ := List.mem_map.mp ht
    obtain ⟨g0, g1, g2, g3, g4⟩ := h2 q hq
    set s : n → ℝ := fun i => Real.sqrt (∑ j, K i j * colSums K j) with hsdef
    have hs : ∀ i, 0 < s i := fun i => Real.sqrt_pos.mpr (hw0 i)
    have hss : ∀ i, s i * s i = ∑ q, (K * Kᵀ) i q := fun i => by rw [← weights_eq]; exact Real.mul_self_sqrt (hw0 i).le
    have hd : ∀ i, (if ∑ j, K i j * colSums K j = 0 then 0 else (Real.sqrt (∑ j, K i j * colSums K j))⁻¹) = (s i)⁻¹ := fun i => by rw [if_neg (hw0 i).ne']
    simp only [hd] at g3 g4 ⊢
    have g3' : ∀ i, ∑ j, (s i)⁻¹ * K i j * q.right j = q.sigma * q.left i := fun i => congrFun g3 i
    have g4' : ∀ j, ∑ i, (s i)⁻¹ * K i j * q.left i = q.sigma * q.right j := fun j => congrFun g4 j
    have hne : (fun i => (s i)⁻¹ * q.left i) ≠ 0 := by
      intro h0
      have : q.left = 0 := by
        funext i
        have := congrFun h0 i
        simp only [Pi.zero_apply] at this
        exact (mul_eq_zero.mp this).resolve_left (inv_ne_zero (hs i).ne')
      rw [this] at g1
      simp at g1
    have heig : IsEigenpair (landmarkDiffusion K) (q.sigma ^ 2) (fun i => (s i)⁻¹ * q.left i) := by
      refine ⟨hne, ?_⟩
      funext i
      simp only [mulVec, dotProduct, landmarkDiffusion, of_apply, Pi.smul_apply, smul_eq_mul, mul_apply, transpose_apply]
      have hrow2 : (∑ q, ∑ x, K i x * K q x) = s i * s i := by rw [hss]; rfl
      rw [hrow2]
      have e1 : ∀ j, (∑ x, K i x * K j x) / (s i * s i) * ((s j)⁻¹ * q.left j) = (∑ x, (s i)⁻¹ * K i x * ((s j)⁻¹ * K j x * q.left j)) * (s i)⁻¹ := by
        intro j
        rw [Finset.sum_div, Finset.sum_mul, Finset.sum_mul]
        refine Finset.sum_congr rfl (fun x _ => ?_)
        have := (hs i).ne'
        field_simp
      rw [Finset.sum_congr rfl (fun j _ => e1 j), ← Finset.sum_mul, Finset.sum_comm]
      have e2 : ∀ x, ∑ j, (s i)⁻¹ * K i x * ((s j)⁻¹ * K j x * q.left j) = q.sigma * ((s i)⁻¹ * K i x * q.right x) := by
        intro x
        rw [← Finset.mul_sum, g4']
        ring
      rw [Finset.sum_congr rfl (fun x _ => e2 x), ← Finset.mul_sum, g3']
      ring
    refine ⟨heig, g0, ?_⟩
    have := (abs_le.mp (hrow.abs_le_one heig)).2
    by_contra hc
    have h1 : 1 < q.sigma := not_le.mp hc
    nlinarith

/-- C102: a query point without neighbouring landmarks does not raise: it is embedded at the origin. -/
theorem C102_outlier (te : ℝ) (c : l → ℝ) (hc : ∀ j, 0 ≤ c j) (coords : Option (List Nat)) (ts : List (Triple n l)) (hpos : ∀ t ∈ ts, 0 < t.sigma) (Kc : Matrix m l ℝ)
    (hKc : ∀ i j, 0 ≤ Kc i j) : ∃ Y, roseTransform 0 te c coords ts Kc = .ok Y ∧ Y.length = (selectTriples coords ts).length ∧ ∀ i, (∀ j, Kc i j = 0) → ∀ y ∈ Y, y i = 0 := by
  unfold roseTransform
  rw [roseEval_ok hKc hc rfl]
  simp only
  unfold roseNystrom
  rw [if_neg (by push Not; exact fun t ht => (hpos t (selectTriples_mem ht)).ne')]
  refine ⟨_, roseEmbed_pos (fun t ht => hpos t (selectTriples_mem ht)) _, by simp, ?_⟩
  intro i hi y hy
  obtain ⟨t, -, rfl⟩ := List.mem_map.mp hy
  simp [hi]

/-! ## C103 -/

/-- C103 is violated: for every `alpha > 0`, which is accepted by the constructor, every evaluation raises. -/
theorem C103_violated (alpha : ℝ) (ha : 0 < alpha) (st : Option (l → ℝ)) (K : Matrix n l ℝ) : roseEval alpha st K = .error .value := by
  unfold roseEval
  rw [if_pos ha]

/-- C56, selection: without target coordinates `fit_transform` returns all left vectors; with (valid) target coordinates its `j`-th column is the left vector of the `j`-th coordinate. -/
theorem C56_selected (ts : List (Triple n l)) (coords : List Nat) (h : ∀ i ∈ coords, i < ts.length) :
    roseFitTransform none ts = ts.map Triple.left ∧ (roseFitTransform (some coords) ts).length = coords.length ∧
    ∀ j (h1 : j < (roseFitTransform (some coords) ts).length) (h2 : j < coords.length), (roseFitTransform (some coords) ts)[j] = (ts[coords[j]]'(h _ (List.getElem_mem h2))).left := by
  have e : roseFitTransform (some coords) ts = coords.attach.map (fun i => (ts[i.1]'(h _ i.2)).left) := by
    unfold roseFitTransform selectTriples
    simp only
    have : coords.filterMap (fun i => ts[i]?) = coords.attach.map (fun i => ts[i.1]'(h _ i.2)) := by
      conv_lhs => rw [← List.attach_map_subtype_val coords]
      rw [List.filterMap_map, ← List.filterMap_eq_map]
      refine List.filterMap_congr (fun i _ => ?_)
      simp [List.getElem?_eq_getElem (h _ i.2)]
    rw [this, List.map_map]
    rfl
  refine ⟨rfl, by rw [e]; simp, ?_⟩
  rw [e]
  intro j h1 h2
  simp

/-! ## Example -/

/-- Two points with two landmarks. -/
noncomputable def rsK : Matrix (Fin 2) (Fin 2) ℝ := !![1, 0; 0, 1]

example : Connected rsK ∧ ∃ o : RoseOut (Fin 2) (Fin 2), roseEval 0 none rsK = .ok o ∧ ∃ ts, roseFit o 1 ts ∧ ∀ t ∈ ts, 0 < t.sigma := by
  have hK : Connected rsK := by
    refine ⟨?_, fun i => ⟨i, ?_⟩⟩
    · intro i j
      fin_cases i <;> fin_cases j <;> norm_num [rsK]
    · fin_cases i <;> norm_num [rsK]
  have hw : ∀ i, ∑ j, rsK i j * colSums rsK j = 1 := by
    intro i
    fin_cases i <;> norm_num [rsK, colSums, Fin.sum_univ_two]
  refine ⟨hK, _, roseEval_ok (alpha := 0) hK.1 (colSums_nonneg hK.1) rfl, [⟨1, _, ![1, 0]⟩], ⟨[⟨1, ![1, 0], ![1, 0]⟩], ⟨rfl, ?_⟩, rfl⟩, by simp⟩
  intro t ht
  rw [List.mem_singleton] at ht
  subst ht
  refine ⟨zero_le_one, by simp [dotProduct, Fin.sum_univ_two], by simp [dotProduct, Fin.sum_univ_two], ?_, ?_⟩
  · funext i
    simp only [hw]
    fin_cases i <;> simp [mulVec, dotProduct, Fin.sum_univ_two, rsK]
  · funext i
    simp only [hw]
    fin_cases i <;> simp [mulVec, dotProduct, Fin.sum_univ_two, rsK]

end Verif.Kernel
