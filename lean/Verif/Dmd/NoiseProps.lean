import Verif.Dmd.StandardProps
import Mathlib.Algebra.Order.Chebyshev
/-!
# C226: error of the reconstruction of DMD for data that follow no linear system exactly
-/

namespace Verif.Dmd

open Verif.Tsc Verif.Np Verif.Lin Verif.Dyn Matrix

variable {ι : Type} [Fintype ι]

/-! ### Specification -/

/-- The state of the `n`-th sample of series `i`. -/
def sample (c : List (Row Int (ι → ℝ))) (i n : Nat) : ι → ℝ := (((series c i)[n]?).map (·.val)).getD 0

/-- Squared Euclidean length. -/
def sqLen (v : ι → ℝ) : ℝ := ∑ i, v i ^ 2

/-- No vector gets longer than by the factor `L` under the matrix. -/
def StretchLe (K : Matrix ι ι ℝ) (L : ℝ) : Prop := ∀ v, sqLen (K *ᵥ v) ≤ L ^ 2 * sqLen v

/-! ### Lemmas -/

omit [Fintype ι] in
theorem sample_eq_content {c : List (Row Int (ι → ℝ))} {i n : Nat} {t : Int} {v : ι → ℝ} (h : (content c i)[n]? = some (t, v)) : sample c i n = v := by
  unfold content at h
  unfold sample
  rw [List.getElem?_map] at h
  cases hs : (series c i)[n]? with
  | none => rw [hs] at h; simp at h
  | some r => rw [hs] at h; simp at h; simp [h.2]

/-- Prediction of the first samples of some series, whatever the other samples are. -/
theorem predictMatrix_first [DecidableEq ι] {k : TimeKind} {c : List (Row Int (ι → ℝ))} (hv : Valid c) {d : Int} (hd : HasDeltas k c (fun _ => d))
    (A : Matrix ι ι ℝ) (ic : List (Row Int (ι → ℝ))) (times : List Int) (hne : ic ≠ []) (hvi : Valid ic)
    (hall : ∀ i, HasId ic i → HasId c i ∧ content ic i = (content c i).take 1 ∧ times = (content c i).map (·.1)) :
    ∃ r, predictMatrix A d ic times = .ok r ∧ Valid r ∧ IdsAscending r ∧ (∀ i, HasId r i ↔ HasId ic i) ∧
      ∀ i, HasId ic i → content r i = ((content c i).map (·.1)).zip ((List.range (content c i).length).map (fun n => (A ^ n) *ᵥ sample c i 0)) := by
  have hsingle : ∀ x ∈ ic, content ic x.id = [(x.time, x.val)] := by
    intro x hx
    have hm := content_map_getElem hx
    have hl : (content ic x.id).length ≤ 1 := by
      rw [(hall x.id ⟨x, hx, rfl⟩).2.1]; exact List.length_take_le _ _
    match hcx : content ic x.id with
    | [] => rw [hcx] at hm; simp at hm
    | [a] => rw [hcx] at hm; simp at hm; rw [hm]
    | a :: b :: l => rw [hcx] at hl; simp at hl
  have hnd : (ic.map (·.id)).Nodup := by
    rw [List.nodup_iff_pairwise_ne, List.pairwise_map]
    refine List.Pairwise.imp_of_mem ?_ ((valid_iff ic).1 hvi).2
    intro a b ha hb hab heq
    have h1 := hab heq
    have e1 := hsingle a ha
    have e2 := hsingle b hb
    rw [heq, e2] at e1
    have := (Prod.mk.inj (List.head_eq_of_cons_eq e1)).1
    omega
  obtain ⟨x0, ic', rfl⟩ := List.ne_nil_iff_exists_cons.1 hne
  have hhead : ∀ x ∈ x0 :: ic', (content c x.id).head? = some (x.time, x.val) := by
    intro x hx
    obtain ⟨e1, e2, e3⟩ := hall x.id ⟨x, hx, rfl⟩
    rw [hsingle x hx] at e2
    match hc : content c x.id with
    | [] => rw [hc] at e2; simp at e2
    | a :: l => rw [hc] at e2; simpa using e2.symm
  have hlin : ∀ x ∈ x0 :: ic', (content c x.id).map (·.1) = timesAt x.time d (List.range (content c x.id).length) := by
    intro x hx
    obtain ⟨e1, e2, e3⟩ := hall x.id ⟨x, hx, rfl⟩
    have hti : ((content c x.id).map (·.1)) = timesOf c x.id := by simp [content, timesOf, Function.comp_def]
    have ht := times_regular (l := (content c x.id).map (·.1)) (t0 := x.time) (by rw [hti]; exact (hd x.id e1).2.2) (by rw [List.head?_map, hhead x hx]; rfl)
    rwa [List.length_map] at ht
  obtain ⟨e1, e2, e3⟩ := hall x0.id ⟨x0, by simp, rfl⟩
  have hpos : 0 < d := regular_pos hv (hd x0.id e1).2
  have hlen : ∃ m, (content c x0.id).length = m + 1 := by
    refine ⟨(content c x0.id).length - 1, ?_⟩
    have : 0 < (content c x0.id).length := by
      rw [content, List.length_map]; exact List.length_pos_iff.2 (hasId_iff_series.1 e1)
    omega
  obtain ⟨m, hm⟩ := hlen
  have ht := hlin x0 (by simp)
  rw [← e3, hm] at ht
  have hr0 : List.range (m + 1) = 0 :: (List.range m).map (· + 1) := List.range_succ_eq_map
  obtain ⟨r, r1, r2, r3, r4, r5⟩ := C26_flowmap A d x0.time hpos (x0 :: ic') (by simp) hnd ((List.range m).map (· + 1)) (by
    rw [← hr0]; exact List.pairwise_lt_range)
  rw [← hr0] at r1 r5
  refine ⟨r, by rw [ht]; exact r1, r2, r3, r4, ?_⟩
  rintro i ⟨x, hx, rfl⟩
  have hs : sample c x.id 0 = x.val := sample_eq_content (t := x.time) (by rw [← List.head?_eq_getElem?]; exact hhead x hx)
  have e3x := (hall x.id ⟨x, hx, rfl⟩).2.2
  have hlx : (content c x.id).length = m + 1 := by
    have := congrArg List.length (e3x.symm.trans e3)
    simpa [hm] using this
  rw [r5 x hx, ← e3x, ht, hlx, hs, timesAt, List.zip_map']

theorem sqLen_nonneg (v : ι → ℝ) : 0 ≤ sqLen v := Finset.sum_nonneg (fun _ _ => sq_nonneg _)

theorem sqLen_stretch_pow [DecidableEq ι] {K : Matrix ι ι ℝ} {L : ℝ} (h : StretchLe K L) (n : Nat) (v : ι → ℝ) : sqLen ((K ^ n) *ᵥ v) ≤ (L ^ 2) ^ n * sqLen v := by
  induction n with
  | zero => simp
  | succ n ih =>
    rw [pow_succ', ← Matrix.mulVec_mulVec]
    calc _ ≤ L ^ 2 * sqLen ((K ^ n) *ᵥ v) := h _
      _ ≤ L ^ 2 * ((L ^ 2) ^ n * sqLen v) := mul_le_mul_of_nonneg_left ih (sq_nonneg L)
      _ = _ := by ring

/-- The error of `n` steps is the sum of the propagated errors of the single steps. -/
theorem telescope [DecidableEq ι] (K : Matrix ι ι ℝ) (x : Nat → ι → ℝ) (n : Nat) :
    x n - (K ^ n) *ᵥ x 0 = ∑ j ∈ Finset.range n, (K ^ (n - 1 - j)) *ᵥ (x (j + 1) - K *ᵥ x j) := by
  induction n with
  | zero => simp
  | succ n ih =>
    rw [Finset.sum_range_succ]
    have : ∑ j ∈ Finset.range n, (K ^ (n + 1 - 1 - j)) *ᵥ (x (j + 1) - K *ᵥ x j) = K *ᵥ ∑ j ∈ Finset.range n, (K ^ (n - 1 - j)) *ᵥ (x (j + 1) - K *ᵥ x j) := by
      rw [Matrix.mulVec_sum]
      refine Finset.sum_congr rfl (fun j hj => ?_)
      rw [Finset.mem_range] at hj
      rw [Matrix.mulVec_mulVec, ← pow_succ']
      congr 2
      omega
    rw [this, ← ih]
    have e : n + 1 - 1 - n = 0 := by omega
    rw [e, pow_zero, Matrix.one_mulVec, Matrix.mulVec_sub, Matrix.mulVec_mulVec, ← pow_succ']
    abel

/-- Cauchy–Schwarz for a sum of vectors whose lengths are bounded by products. -/
theorem sqLen_sum_le {n : Nat} (f : Nat → ι → ℝ) (a b : Nat → ℝ) (ha : ∀ j, 0 ≤ a j) (hb : ∀ j, 0 ≤ b j) (h : ∀ j ∈ Finset.range n, sqLen (f j) ≤ a j * b j) :
    sqLen (∑ j ∈ Finset.range n, f j) ≤ (∑ j ∈ Finset.range n, a j) * ∑ j ∈ Finset.range n, b j := by
  have hz : ∀ j ∈ Finset.range n, ∀ i, f j i ^ 2 = a j * (f j i ^ 2 / a j) := by
    intro j hj i
    by_cases h0 : a j = 0
    · have h1 := h j hj
      rw [h0, zero_mul] at h1
      have h2 : f j i ^ 2 ≤ sqLen (f j) := Finset.single_le_sum (f := fun i => f j i ^ 2) (fun _ _ => sq_nonneg _) (Finset.mem_univ i)
      rw [h0, zero_mul]
      exact le_antisymm (h2.trans h1) (sq_nonneg _)
    · field_simp
  have h1 : ∀ i, (∑ j ∈ Finset.range n, f j) i ^ 2 ≤ (∑ j ∈ Finset.range n, a j) * ∑ j ∈ Finset.range n, f j i ^ 2 / a j := by
    intro i
    rw [Finset.sum_apply]
    exact Finset.sum_sq_le_sum_mul_sum_of_sq_le_mul _ (fun j _ => ha j) (fun j _ => div_nonneg (sq_nonneg _) (ha j)) (fun j hj => (hz j hj i).le)
  calc sqLen (∑ j ∈ Finset.range n, f j) ≤ ∑ i, (∑ j ∈ Finset.range n, a j) * ∑ j ∈ Finset.range n, f j i ^ 2 / a j := Finset.sum_le_sum (fun i _ => h1 i)
    _ = (∑ j ∈ Finset.range n, a j) * ∑ j ∈ Finset.range n, sqLen (f j) / a j := by
      rw [← Finset.mul_sum, Finset.sum_comm]
      congr 1
      refine Finset.sum_congr rfl (fun j _ => ?_)
      rw [sqLen, Finset.sum_div]
    _ ≤ _ := by
      refine mul_le_mul_of_nonneg_left (Finset.sum_le_sum (fun j hj => ?_)) (Finset.sum_nonneg (fun j _ => ha j))
      by_cases h0 : a j = 0
      · rw [h0, div_zero]; exact hb j
      · rw [div_le_iff₀ (lt_of_le_of_ne (ha j) (Ne.symm h0)), mul_comm]; exact h j hj

theorem zip_map_fst {α β : Type} : ∀ {l : List α} {m : List β}, l.length = m.length → (l.zip m).map (·.1) = l
  | [], _, _ => by simp
  | a :: l, [], h => by simp at h
  | a :: l, b :: m, h => by simp only [List.zip_cons_cons, List.map_cons]; rw [zip_map_fst (by simpa using h)]

omit [Fintype ι] in
theorem range_le_consecutive {g : (ι → ℝ) → (ι → ℝ) → ℝ} (hg : ∀ a b, 0 ≤ g a b) : ∀ {l : List (ι → ℝ)} {n : Nat}, n < l.length →
    ∑ j ∈ Finset.range n, g (l[j]?.getD 0) (l[j + 1]?.getD 0) ≤ ((consecutive l).map (fun p => g p.1 p.2)).sum
  | [], n, h => by simp at h
  | [a], n, h => by
    have : n = 0 := by simpa using h
    subst this; simp [consecutive]
  | a :: b :: l, 0, _ => by
    rw [Finset.range_zero, Finset.sum_empty]
    refine List.sum_nonneg ?_
    intro x hx
    obtain ⟨p, _, rfl⟩ := List.mem_map.1 hx
    exact hg _ _
  | a :: b :: l, n + 1, h => by
    rw [Finset.sum_range_succ', consecutive, List.map_cons, List.sum_cons]
    have := range_le_consecutive hg (l := b :: l) (n := n) (by simpa using h)
    simp only [List.getElem?_cons_succ, List.getElem?_cons_zero, Option.getD_some, zero_add] at this ⊢
    linarith

theorem steps_le_total {c : List (Row Int (ι → ℝ))} (hv : Valid c) {i : Nat} (hi : HasId c i) (K : Matrix ι ι ℝ) {n : Nat} (hn : n < (series c i).length) :
    ∑ j ∈ Finset.range n, stepError K (sample c i j) (sample c i (j + 1)) ≤ ((snapshotPairs c).map (fun p => stepError K p.1 p.2)).sum := by
  have h1 := range_le_consecutive (g := stepError K) (fun a b => stepError_nonneg K a b) (l := (content c i).map (·.2)) (n := n) (by simpa [content] using hn)
  have e : ∀ j, ((content c i).map (·.2))[j]?.getD 0 = sample c i j := by
    intro j
    unfold sample content
    rw [List.map_map, List.getElem?_map]; rfl
  simp only [e] at h1
  refine h1.trans ?_
  rw [snapshotPairs_eq hv, List.map_flatMap, List.flatMap_def, List.sum_flatten, List.map_map]
  refine List.single_le_sum (fun x hx => ?_) _ (List.mem_map.2 ⟨i, by rw [mem_newIds]; exact List.mem_map.2 (by simpa [HasId] using hi), rfl⟩)
  obtain ⟨_, _, rfl⟩ := List.mem_map.1 hx
  refine List.sum_nonneg (fun y hy => ?_)
  obtain ⟨p, _, rfl⟩ := List.mem_map.1 hy
  exact stepError_nonneg K _ _

/-! ### Property theorems -/

/-- **C226 (error).** Whatever the data and the system matrix, `reconstruct` returns for each series the same time values, the first state is that of the data, and the deviation at each later
sample is the sum of the one step errors before it, each propagated to that sample. -/
theorem C226_error [DecidableEq ι] {k : TimeKind} {c : List (Row Int (ι → ℝ))} (hc : c ≠ []) (hv : Valid c) {d : Int} (hd : HasDeltas k c (fun _ => d)) (K : Matrix ι ι ℝ) :
    ∃ r, reconstructWith PredErr.tsc (predictMatrix K d) k c = .ok r ∧ Valid r ∧ (∀ i, HasId r i ↔ HasId c i) ∧
      ∀ i, timesOf r i = timesOf c i ∧ ∀ n, n < (series c i).length →
        sample c i n - sample r i n = ∑ j ∈ Finset.range n, (K ^ (n - 1 - j)) *ᵥ (sample c i (j + 1) - K *ᵥ sample c i j) := by
  obtain ⟨r, h1, h2, h3, h4⟩ := C77_reconstruct (lift := PredErr.tsc) (predict := predictMatrix K d) hc hv hd
    (fun i => ((content c i).map (·.1)).zip ((List.range (content c i).length).map (fun n => (K ^ n) *ᵥ sample c i 0))) (by
    intro ic times hne hvi hall
    obtain ⟨r, r1, r2, _, r4, r5⟩ := predictMatrix_first hv hd K ic times hne hvi hall
    exact ⟨r, r1, r2, r4, r5⟩)
  refine ⟨r, h1, h2, h3, fun i => ?_⟩
  have hti : ∀ c : List (Row Int (ι → ℝ)), timesOf c i = (content c i).map (·.1) := fun c => by simp [content, timesOf, Function.comp_def]
  by_cases hi : HasId c i
  · have h5 := h4 i hi
    refine ⟨?_, fun n hn => ?_⟩
    · rw [hti, hti, h5, zip_map_fst (by simp)]
    · have hn' : n < (content c i).length := by rw [content, List.length_map]; exact hn
      have hr : sample r i n = (K ^ n) *ᵥ sample c i 0 := by
        refine sample_eq_content (t := ((content c i).map (·.1))[n]'(by simpa using hn')) ?_
        rw [h5, List.getElem?_zip_eq_some]
        refine ⟨List.getElem?_eq_getElem _, ?_⟩
        rw [List.getElem?_map, List.getElem?_range hn']; rfl
      rw [hr]
      exact telescope K (sample c i) n
  · have e1 : series r i = [] := by by_contra hne; exact hi ((h3 i).1 (hasId_iff_series.2 hne))
    have e2 : series c i = [] := by by_contra hne; exact hi (hasId_iff_series.2 hne)
    simp [timesOf, e1, e2]

/-- **C226 (bound).** If the system matrix stretches no vector by more than the factor `L`, the squared deviation of the reconstruction at the `n`-th sample is at most
`1 + L² + … + L^(2(n-1))` times the sum of the squared one step errors of the first `n` steps of the series. -/
theorem C226_bound [DecidableEq ι] {k : TimeKind} {c : List (Row Int (ι → ℝ))} (hc : c ≠ []) (hv : Valid c) {d : Int} (hd : HasDeltas k c (fun _ => d)) (K : Matrix ι ι ℝ)
    {L : ℝ} (hL : StretchLe K L) {r : List (Row Int (ι → ℝ))} (hr : reconstructWith PredErr.tsc (predictMatrix K d) k c = .ok r) {i n : Nat} (hn : n < (series c i).length) :
    sqLen (sample c i n - sample r i n) ≤
      (∑ j ∈ Finset.range n, (L ^ 2) ^ j) * ∑ j ∈ Finset.range n, sqLen (sample c i (j + 1) - K *ᵥ sample c i j) := by
  obtain ⟨r', h1, _, _, h4⟩ := C226_error hc hv hd K
  rw [hr] at h1
  cases h1
  rw [(h4 i).2 n hn]
  refine (sqLen_sum_le _ (fun j => (L ^ 2) ^ (n - 1 - j)) (fun j => sqLen (sample c i (j + 1) - K *ᵥ sample c i j)) (fun j => by positivity) (fun j => sqLen_nonneg _)
    (fun j _ => sqLen_stretch_pow hL _ _)).trans (le_of_eq ?_)
  congr 1
  exact Finset.sum_range_reflect (fun j => (L ^ 2) ^ j) n

/-- **C226 (noise).** Let `K` be the system matrix of a fit and let it stretch no vector by more than `L`.  The squared deviation of the reconstruction from the data at the `n`-th sample of any series
is at most `1 + L² + … + L^(2(n-1))` times the sum of the squared one step errors of *any* matrix `M` over the data: if the data come from a linear system `M` and each step is
disturbed, then the deviation is bounded by the energy of the disturbances. -/
theorem C226_noise [DecidableEq ι] {k : TimeKind} {c : List (Row Int (ι → ℝ))} (hc : c ≠ []) (hv : Valid c) (hs : IdsAscending c ∨ EqualLengths c)
    (h2 : ∀ i, HasId c i → 2 ≤ (series c i).length) {d : Int} (hd : HasDeltas k c (fun _ => d)) (hk : isConstDeltaTime k c = true) {K : Matrix ι ι ℝ} (hK : Fits k c none K)
    {L : ℝ} (hL : StretchLe K L) {r : List (Row Int (ι → ℝ))} (hr : reconstructWith PredErr.tsc (predictMatrix K d) k c = .ok r) (M : Matrix ι ι ℝ) {i n : Nat}
    (hn : n < (series c i).length) :
    sqLen (sample c i n - sample r i n) ≤ (∑ j ∈ Finset.range n, (L ^ 2) ^ j) * ((snapshotPairs c).map (fun p => sqLen (p.2 - M *ᵥ p.1))).sum := by
  have htot : ∀ M : Matrix ι ι ℝ, totalError (weightsOf none (snapshotPairs c).length) (snapshotPairs c) M = ((snapshotPairs c).map (fun p => stepError M p.1 p.2)).sum := by
    intro M
    unfold totalError weightsOf
    generalize snapshotPairs c = ps
    induction ps with
    | nil => simp
    | cons p ps ih => simpa [List.replicate_succ] using ih
  have hmin := (C30_least_squares_partial hc hv hs h2 hk none (by simp) K).1 hK M
  rw [htot, htot] at hmin
  refine (C226_bound hc hv hd K hL hr hn).trans (mul_le_mul_of_nonneg_left ?_ (Finset.sum_nonneg (fun j _ => by positivity)))
  exact (steps_le_total hv (hasId_iff_series.2 (fun h => by simp [h] at hn)) K hn).trans hmin

/-- **C226 (noise, contracting system).** If the fitted system matrix contracts (`L < 1`), the bound holds uniformly for all samples: the squared deviation is at most the energy of the disturbances divided
by `1 - L²`. -/
theorem C226_contracting [DecidableEq ι] {k : TimeKind} {c : List (Row Int (ι → ℝ))} (hc : c ≠ []) (hv : Valid c) (hs : IdsAscending c ∨ EqualLengths c)
    (h2 : ∀ i, HasId c i → 2 ≤ (series c i).length) {d : Int} (hd : HasDeltas k c (fun _ => d)) (hk : isConstDeltaTime k c = true) {K : Matrix ι ι ℝ} (hK : Fits k c none K)
    {L : ℝ} (h0 : 0 ≤ L) (h1 : L < 1) (hL : StretchLe K L) {r : List (Row Int (ι → ℝ))} (hr : reconstructWith PredErr.tsc (predictMatrix K d) k c = .ok r) (M : Matrix ι ι ℝ) {i n : Nat}
    (hn : n < (series c i).length) :
    sqLen (sample c i n - sample r i n) ≤ ((snapshotPairs c).map (fun p => sqLen (p.2 - M *ᵥ p.1))).sum / (1 - L ^ 2) := by
  have hlt : L ^ 2 < 1 := by nlinarith
  have hg : ∑ j ∈ Finset.range n, (L ^ 2) ^ j ≤ 1 / (1 - L ^ 2) := by
    rw [le_div_iff₀ (by linarith)]
    have := geom_sum_mul (L ^ 2) n
    have hp : 0 ≤ (L ^ 2) ^ n := by positivity
    nlinarith
  refine (C226_noise hc hv hs h2 hd hk hK hL hr M hn).trans ?_
  rw [div_eq_mul_one_div, mul_comm]
  refine mul_le_mul_of_nonneg_left hg (List.sum_nonneg ?_)
  intro x hx
  obtain ⟨p, _, rfl⟩ := List.mem_map.1 hx
  exact sqLen_nonneg _

/-! ### Non-vacuity -/

/-- Two disturbed series of the system `x' = x / 2`. -/
def exNoisy : List (Row Int (Fin 1 → ℝ)) := [⟨1, 0, ![4]⟩, ⟨1, 2, ![3]⟩, ⟨1, 4, ![1]⟩, ⟨5, 10, ![2]⟩, ⟨5, 12, ![1]⟩]

/-- non-vacuity: the data satisfy the hypotheses of `C226_noise`, there is a fit, it contracts, and the data follow no linear system. -/
example : exNoisy ≠ [] ∧ Valid exNoisy ∧ IdsAscending exNoisy ∧ (∀ i, HasId exNoisy i → 2 ≤ (series exNoisy i).length) ∧ HasDeltas .int exNoisy (fun _ => 2) ∧
    isConstDeltaTime .int exNoisy = true ∧ Fits .int exNoisy none !![17 / 29] ∧ StretchLe !![17 / 29] (17 / 29) ∧ ¬ ∃ A : Matrix (Fin 1) (Fin 1) ℝ, ∀ p ∈ snapshotPairs exNoisy, p.2 = A *ᵥ p.1 := by
  have hne : exNoisy ≠ [] := by simp [exNoisy]
  have hv : Valid exNoisy := by
    rw [valid_iff]; constructor
    · decide
    · unfold Before; decide
  have ha : IdsAscending exNoisy := by unfold IdsAscending; decide
  have h2 : ∀ i, HasId exNoisy i → 2 ≤ (series exNoisy i).length := by
    rintro i ⟨r, hr, rfl⟩
    simp only [exNoisy, List.mem_cons, List.not_mem_nil, or_false] at hr
    rcases hr with rfl | rfl | rfl | rfl | rfl <;> decide
  have hk : isConstDeltaTime .int exNoisy = true := by decide
  have hps : snapshotPairs exNoisy = [(![4], ![3]), (![3], ![1]), (![2], ![1])] := rfl
  refine ⟨hne, hv, ha, h2, ?_, hk, ?_, ?_, ?_⟩
  · apply hasDeltas_int hne hv
    rintro i ⟨r, hr, rfl⟩
    simp only [exNoisy, List.mem_cons, List.not_mem_nil, or_false] at hr
    rcases hr with rfl | rfl | rfl | rfl | rfl <;> unfold Regular <;> decide
  · rw [C30_least_squares_partial hne hv (Or.inl ha) h2 hk none (by simp)]
    intro M
    rw [hps]
    simp [totalError, weightsOf, stepError, List.replicate_succ, Matrix.mulVec, dotProduct]
    nlinarith [sq_nonneg (29 * M 0 0 - 17)]
  · intro v
    simp [sqLen, Matrix.mulVec, dotProduct, mul_pow]
  · rintro ⟨A, hA⟩
    rw [hps] at hA
    have e1 := congrFun (hA (![4], ![3]) (by simp)) 0
    have e2 := congrFun (hA (![2], ![1]) (by simp)) 0
    simp [Matrix.mulVec, dotProduct] at e1 e2
    linarith

end Verif.Dmd
