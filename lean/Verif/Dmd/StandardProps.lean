import Verif.Dmd.Standard
import Verif.Tsc.InitCondProps
import Verif.Tsc.ShiftProps
import Verif.Dyn.LinearProps
import Verif.Dyn.SpectralProps
import Mathlib.Analysis.SpecialFunctions.Pow.NNReal
import Mathlib.LinearAlgebra.Span.Basic
/-!
# C30, C31: DMD solves the least squares problem of the snapshot pairs and recovers a linear system
-/

namespace Verif.Dmd

open Verif.Tsc Verif.Np Verif.Lin Verif.Dyn Matrix

variable {ι κ : Type} [Fintype ι] [Fintype κ]

/-! ### Specification -/

/-- Squared error of the one step prediction `K x` of `y`. -/
def stepError {α : Type} [Fintype α] (K : Matrix ι α ℝ) (x : α → ℝ) (y : ι → ℝ) : ℝ := ∑ i, (y i - (K *ᵥ x) i) ^ 2

/-- Weighted total one step prediction error. -/
def totalError {α : Type} [Fintype α] (w : List ℝ) (ps : List ((α → ℝ) × (ι → ℝ))) (K : Matrix ι α ℝ) : ℝ :=
  ((w.zip ps).map (fun p => p.1 * stepError K p.2.1 p.2.2)).sum

/-! ### Lemmas -/

theorem stepError_nonneg {α : Type} [Fintype α] (K : Matrix ι α ℝ) (x : α → ℝ) (y : ι → ℝ) : 0 ≤ stepError K x y :=
  Finset.sum_nonneg (fun _ _ => sq_nonneg _)

theorem stepError_eq_zero {α : Type} [Fintype α] {K : Matrix ι α ℝ} {x : α → ℝ} {y : ι → ℝ} : stepError K x y = 0 ↔ K *ᵥ x = y := by
  unfold stepError
  rw [Finset.sum_eq_zero_iff_of_nonneg (fun _ _ => sq_nonneg _)]
  constructor
  · intro h; funext i
    have := h i (Finset.mem_univ i)
    rw [sq_eq_zero_iff, sub_eq_zero] at this
    exact this.symm
  · rintro rfl i _; simp

/-- The scaled snapshot matrix. -/
noncomputable def scaled {μ : Type} [Fintype μ] [DecidableEq μ] {α : Type} (w : μ → ℝ) (X : Matrix μ α ℝ) : Matrix μ α ℝ := diagonal (fun k => √(w k)) * X

theorem scaled_gram {μ : Type} [Fintype μ] [DecidableEq μ] {α β : Type} (w : μ → ℝ) (hw : ∀ k, 0 ≤ w k) (X : Matrix μ α ℝ) (Y : Matrix μ β ℝ) :
    (scaled w X)ᵀ * scaled w Y = Xᵀ * (diagonal w * Y) := by
  unfold scaled
  rw [Matrix.transpose_mul, Matrix.diagonal_transpose, Matrix.mul_assoc, ← Matrix.mul_assoc (diagonal _) (diagonal _), Matrix.diagonal_mul_diagonal]
  congr 3
  funext k
  exact Real.mul_self_sqrt (hw k)

theorem sqSum_scaled {α : Type} [Fintype α] (ps : List ((α → ℝ) × (ι → ℝ))) (w : Fin ps.length → ℝ) (hw : ∀ k, 0 ≤ w k) (K : Matrix ι α ℝ) :
    sqSum (scaled w (startM ps) * Kᵀ - scaled w (endM ps)) = ∑ k, w k * stepError K ps[k].1 ps[k].2 := by
  unfold sqSum stepError scaled
  refine Finset.sum_congr rfl (fun k _ => ?_)
  rw [Finset.mul_sum]
  refine Finset.sum_congr rfl (fun i _ => ?_)
  rw [Matrix.mul_assoc, ← Matrix.mul_sub, Matrix.diagonal_mul, mul_pow, Real.sq_sqrt (hw k)]
  congr 1
  rw [Matrix.sub_apply]
  have : (startM ps * Kᵀ) k i = (K *ᵥ ps[k].1) i := by
    simp [Matrix.mul_apply, startM, Matrix.mulVec, dotProduct, mul_comm]
  rw [this]
  have : endM ps k i = ps[k].2 i := rfl
  rw [this]; ring

theorem totalError_eq {α : Type} [Fintype α] (ps : List ((α → ℝ) × (ι → ℝ))) (w : List ℝ) (hl : w.length = ps.length) (K : Matrix ι α ℝ) :
    totalError w ps K = ∑ k : Fin ps.length, w.getD k 0 * stepError K ps[k].1 ps[k].2 := by
  unfold totalError
  induction ps generalizing w with
  | nil => simp
  | cons p ps ih =>
    cases w with
    | nil => simp at hl
    | cons a w =>
      rw [List.zip_cons_cons, List.map_cons, List.sum_cons, ih w (by simpa using hl)]
      erw [Fin.sum_univ_succ]
      simp

theorem isSystemMatrix_iff (n : Nat) (hn : n ≠ 0) (ps : List ((ι → ℝ) × (ι → ℝ))) (w : Option (Fin ps.length → ℝ)) (hw : ∀ v, w = some v → ∀ k, 0 ≤ v k)
    (K : Matrix ι ι ℝ) :
    IsSystemMatrix n ps w K ↔ IsLstsqM (scaled (w.getD (fun _ => 1)) (startM ps)) (scaled (w.getD (fun _ => 1)) (endM ps)) Kᵀ := by
  unfold IsSystemMatrix gram
  cases w with
  | none =>
    have ha : (1 / (n : ℝ)) ≠ 0 := by simp [hn]
    have h1 : ∀ {α : Type} (X : Matrix (Fin ps.length) α ℝ), scaled (fun _ => 1) X = X := by
      intro α X; unfold scaled
      simp
    simp only [Option.getD_none, h1]
    exact lstsq_normal ha
  | some v =>
    have h := hw v rfl
    simp only [Option.getD_some]
    rw [← scaled_gram v h, ← scaled_gram v h]
    have := lstsq_normal (X := scaled v (startM ps)) (Y := scaled v (endM ps)) (Z := Kᵀ) (a := 1) one_ne_zero
    simpa using this

theorem isSystemMatrix_min (n : Nat) (hn : n ≠ 0) (ps : List ((ι → ℝ) × (ι → ℝ))) (w : Option (Fin ps.length → ℝ)) (hw : ∀ v, w = some v → ∀ k, 0 ≤ v k)
    (K : Matrix ι ι ℝ) :
    IsSystemMatrix n ps w K ↔ ∀ K', ∑ k, w.getD (fun _ => 1) k * stepError K ps[k].1 ps[k].2 ≤ ∑ k, w.getD (fun _ => 1) k * stepError K' ps[k].1 ps[k].2 := by
  have hw' : ∀ k, 0 ≤ w.getD (fun _ => 1) k := by
    cases w with
    | none => intro k; simp
    | some v => exact hw v rfl
  rw [isSystemMatrix_iff n hn ps w hw]
  constructor
  · intro h K'
    have := h K'ᵀ
    rwa [sqSum_scaled _ _ hw', sqSum_scaled _ _ hw'] at this
  · intro h Z'
    have := h Z'ᵀ
    rw [← sqSum_scaled _ _ hw', ← sqSum_scaled _ _ hw'] at this
    simpa using this

/-- weights used by `fit` -/
noncomputable def weightsOf (w : Option (List ℝ)) (n : Nat) : List ℝ := w.getD (List.replicate n 1)

/-! ### Property theorems -/

/-- **C30 (least squares).** Whatever the data, the fitted system matrix has the smallest (weighted) one step prediction error over the pairs of consecutive samples of
the time series, among all matrices; and every matrix with smallest error may be the result.  (Weights must not be negative.  The IDs ascend or
all series are equally long, cf. C03.) -/
theorem C30_least_squares_partial {k : TimeKind} {c : List (Row Int (ι → ℝ))} (hc : c ≠ []) (hv : Valid c) (hs : IdsAscending c ∨ EqualLengths c)
    (h2 : ∀ i, HasId c i → 2 ≤ (series c i).length) (hk : isConstDeltaTime k c = true) (w : Option (List ℝ))
    (hw : ∀ v, w = some v → v.length = (snapshotPairs c).length ∧ ∀ a ∈ v, 0 ≤ a) (K : Matrix ι ι ℝ) :
    Fits k c w K ↔ ∀ K', totalError (weightsOf w (snapshotPairs c).length) (snapshotPairs c) K ≤
      totalError (weightsOf w (snapshotPairs c).length) (snapshotPairs c) K' := by
  obtain ⟨L, R, hLR, _, hz⟩ := C03_shift_matrices_partial hc hv h2 hs
  have hn : c.length ≠ 0 := by simpa using hc
  have hw0 : (weightsOf w (snapshotPairs c).length).length = (snapshotPairs c).length := by
    unfold weightsOf
    cases w with
    | none => simp
    | some v => exact (hw v rfl).1
  simp only [totalError_eq _ _ hw0]
  have hfit : Fits k c w K ↔ IsSystemMatrix c.length (snapshotPairs c) (w.map (fun v i => v.getD i 0)) K := by
    unfold Fits
    rw [← hz]
    constructor
    · rintro ⟨_, L', R', h', h⟩
      rw [hLR] at h'
      cases h'
      cases w with
      | none => exact h
      | some v => exact h.2
    · intro h
      refine ⟨hk, L, R, hLR, ?_⟩
      cases w with
      | none => exact h
      | some v => exact ⟨by rw [hz]; exact (hw v rfl).1, h⟩
  rw [hfit, isSystemMatrix_min _ hn]
  · cases w with
    | none =>
      simp only [Option.map_none, Option.getD_none, weightsOf]
      have : ∀ i : Fin (snapshotPairs c).length, (List.replicate (snapshotPairs c).length (1 : ℝ)).getD i 0 = 1 := by
        intro i; simp [List.getD_eq_getElem?_getD]
      simp only [this]
    | some v => simp [weightsOf]
  · intro v hv' i
    cases w with
    | none => simp at hv'
    | some u =>
      simp only [Option.map_some, Option.some.injEq] at hv'
      subst hv'
      have hi : (i : Nat) < u.length := by rw [(hw u rfl).1]; exact i.2
      have : u.getD i 0 = u[(i : Nat)] := by simp [List.getD_eq_getElem?_getD, hi]
      show 0 ≤ u.getD i 0
      rw [this]
      exact (hw u rfl).2 _ (List.getElem_mem hi)

/-- A fit always exists. -/
theorem C30_exists {k : TimeKind} {c : List (Row Int (ι → ℝ))} (hc : c ≠ [])
    (h2 : ∀ i, HasId c i → 2 ≤ (series c i).length) (hk : isConstDeltaTime k c = true) : ∃ K, Fits k c none K := by
  have hmin : checkMinTimesteps c 2 = true := (checkMinTimesteps_iff hc 2).2 (fun i hi => by exact_mod_cast h2 i hi)
  have hn : c.length ≠ 0 := by simpa using hc
  obtain ⟨Z, hZ⟩ := exists_normal (startM ((shiftRows c).1.zip (shiftRows c).2)) (endM ((shiftRows c).1.zip (shiftRows c).2))
  refine ⟨Zᵀ, hk, (shiftRows c).1, (shiftRows c).2, by simp [shiftMatrices, hmin], ?_⟩
  have : IsSystemMatrix c.length ((shiftRows c).1.zip (shiftRows c).2) none Zᵀ := by
    unfold IsSystemMatrix gram
    rw [Matrix.transpose_transpose]
    exact (lstsq_normal (by simp [hn])).2 ((isLstsqM_iff _ _ _).2 hZ)
  exact this

/-- **C30 (recovery).** If all consecutive samples satisfy `x_{k+1} = A x_k` and the samples that have a successor span the state space, the fitted system
matrix is `A` (also with positive weights). -/
theorem C30_recovery_partial {k : TimeKind} {c : List (Row Int (ι → ℝ))} (hc : c ≠ []) (hv : Valid c) (hs : IdsAscending c ∨ EqualLengths c)
    (h2 : ∀ i, HasId c i → 2 ≤ (series c i).length) (w : Option (List ℝ))
    (hw : ∀ v, w = some v → v.length = (snapshotPairs c).length ∧ ∀ a ∈ v, 0 < a) (A : Matrix ι ι ℝ)
    (hA : ∀ p ∈ snapshotPairs c, p.2 = A *ᵥ p.1) (hspan : Submodule.span ℝ {x | ∃ p ∈ snapshotPairs c, p.1 = x} = ⊤)
    {K : Matrix ι ι ℝ} (h : Fits k c w K) : K = A := by
  classical
  have hk := h.1
  have hmin := (C30_least_squares_partial hc hv hs h2 hk w (fun v hv' => ⟨(hw v hv').1, fun a ha => ((hw v hv').2 a ha).le⟩) K).1 h A
  have hw0 : (weightsOf w (snapshotPairs c).length).length = (snapshotPairs c).length := by
    unfold weightsOf
    cases w with
    | none => simp
    | some v => exact (hw v rfl).1
  have hpos : ∀ a ∈ weightsOf w (snapshotPairs c).length, 0 < a := by
    unfold weightsOf
    cases w with
    | none => intro a ha; rw [Option.getD_none] at ha; rw [List.eq_of_mem_replicate ha]; exact one_pos
    | some v => exact (hw v rfl).2
  generalize hW : weightsOf w (snapshotPairs c).length = W at hmin hw0 hpos
  have hzero : totalError W (snapshotPairs c) A = 0 := by
    unfold totalError
    apply List.sum_eq_zero
    intro x hx
    obtain ⟨q, hq, rfl⟩ := List.mem_map.1 hx
    rw [stepError_eq_zero.2 (hA q.2 (List.of_mem_zip hq).2).symm, mul_zero]
  rw [hzero] at hmin
  have hKx : ∀ p ∈ snapshotPairs c, K *ᵥ p.1 = A *ᵥ p.1 := by
    intro p hp
    rw [totalError_eq _ _ hw0] at hmin
    have hnn : ∀ i : Fin (snapshotPairs c).length, 0 < W.getD i 0 := by
      intro i
      have hi : (i : Nat) < W.length := by rw [hw0]; exact i.2
      have : W.getD i 0 = W[(i : Nat)] := by simp [List.getD_eq_getElem?_getD, hi]
      rw [this]; exact hpos _ (List.getElem_mem hi)
    have hs0 := le_antisymm hmin (Finset.sum_nonneg (fun i _ => mul_nonneg (hnn i).le (stepError_nonneg _ _ _)))
    rw [Finset.sum_eq_zero_iff_of_nonneg (fun i _ => mul_nonneg (hnn i).le (stepError_nonneg _ _ _))] at hs0
    obtain ⟨j, hj, rfl⟩ := List.getElem_of_mem hp
    have := hs0 ⟨j, hj⟩ (Finset.mem_univ _)
    rcases mul_eq_zero.1 this with h0 | h0
    · exact absurd h0 (ne_of_gt (hnn ⟨j, hj⟩))
    · have h1 := stepError_eq_zero.1 h0
      have h3 := hA (snapshotPairs c)[j] (List.getElem_mem hj)
      rw [← h3]; exact h1
  have hlin : K.mulVecLin = A.mulVecLin := by
    apply LinearMap.ext_on (s := {x | ∃ p ∈ snapshotPairs c, p.1 = x}) hspan
    rintro x ⟨p, hp, rfl⟩
    exact hKx p hp
  apply Matrix.mulVec_injective
  funext x
  exact LinearMap.congr_fun hlin x

theorem times_regular : ∀ {l : List Int} {d : Int} {t0 : Int}, (∀ p ∈ consecutive l, p.2 - p.1 = d) → l.head? = some t0 →
    l = timesAt t0 d (List.range l.length)
  | [], _, _, _, h => by simp at h
  | [a], d, t0, _, h => by simp at h; subst h; simp [timesAt]
  | a :: b :: l, d, t0, h, h0 => by
    simp only [List.head?_cons, Option.some.injEq] at h0
    subst h0
    have hb := h (a, b) (by simp [consecutive])
    simp only at hb
    have ih := times_regular (l := b :: l) (t0 := b) (fun p hp => h p (by simp [consecutive, hp])) rfl
    rw [List.length_cons, List.range_succ_eq_map, timesAt, List.map_cons, List.map_map]
    congr 1
    · simp
    · rw [ih, timesAt]
      simp only [List.length_map, List.length_range]
      apply List.map_congr_left
      intro k _
      simp only [Function.comp_apply, Nat.succ_eq_add_one]
      push_cast
      have : b = a + d := by omega
      rw [this]; ring

theorem vals_linear {A : Matrix ι ι ℝ} [DecidableEq ι] : ∀ {l : List (ι → ℝ)} {x : ι → ℝ}, (∀ p ∈ consecutive l, p.2 = A *ᵥ p.1) → l.head? = some x →
    l = (List.range l.length).map (fun k => (A ^ k) *ᵥ x)
  | [], _, _, h => by simp at h
  | [a], x, _, h => by simp at h; subst h; simp
  | a :: b :: l, x, h, h0 => by
    simp only [List.head?_cons, Option.some.injEq] at h0
    subst h0
    have hb := h (a, b) (by simp [consecutive])
    simp only at hb
    have ih := vals_linear (l := b :: l) (x := b) (fun p hp => h p (by simp [consecutive, hp])) rfl
    rw [List.length_cons, List.range_succ_eq_map, List.map_cons, List.map_map]
    congr 1
    · simp
    · rw [ih]
      simp only [List.length_map, List.length_range]
      apply List.map_congr_left
      intro k _
      simp only [Function.comp_apply, Nat.succ_eq_add_one]
      rw [hb, Matrix.mulVec_mulVec, ← pow_succ]

/-- A linear, regularly sampled series is determined by its first sample. -/
theorem content_linear [DecidableEq ι] {A : Matrix ι ι ℝ} {c : List (Row Int (ι → ℝ))} (hv : Valid c) (hA : ∀ p ∈ snapshotPairs c, p.2 = A *ᵥ p.1) {d : Int} {i : Nat}
    (hi : HasId c i) (hr : Regular (timesOf c i) d) {t0 : Int} {x : ι → ℝ} (h1 : (content c i).take 1 = [(t0, x)]) :
    (content c i).map (·.1) = timesAt t0 d (List.range (content c i).length) ∧
    content c i = (List.range (content c i).length).map (fun (k : Nat) => (t0 + k * d, (A ^ k) *ᵥ x)) := by
  have hti : ((content c i).map (·.1)) = timesOf c i := by simp [content, timesOf, Function.comp_def]
  have hhead : (content c i).head? = some (t0, x) := by
    match hc : content c i with
    | [] => rw [hc] at h1; simp at h1
    | a :: l => rw [hc] at h1; simpa using h1
  have ht := times_regular (l := (content c i).map (·.1)) (t0 := t0) (by rw [hti]; exact hr.2) (by rw [List.head?_map, hhead]; rfl)
  rw [List.length_map] at ht
  have hval := vals_linear (A := A) (l := (content c i).map (·.2)) (x := x) (by
    intro p hp
    apply hA
    rw [snapshotPairs_eq hv]
    exact List.mem_flatMap.2 ⟨i, by rw [mem_newIds]; exact List.mem_map.2 (by simpa [HasId] using hi), hp⟩) (by rw [List.head?_map, hhead]; rfl)
  rw [List.length_map] at hval
  refine ⟨ht, ?_⟩
  have hz : content c i = ((content c i).map (·.1)).zip ((content c i).map (·.2)) := by
    rw [List.zip_map']; simp
  conv_lhs => rw [hz, ht, hval]
  rw [timesAt, List.zip_map']

/-- Prediction of the first samples of some series of linear data. -/
theorem predictMatrix_linear [DecidableEq ι] {k : TimeKind} {c : List (Row Int (ι → ℝ))} (hv : Valid c) {d : Int} (hd : HasDeltas k c (fun _ => d))
    (A : Matrix ι ι ℝ) (hA : ∀ p ∈ snapshotPairs c, p.2 = A *ᵥ p.1) (ic : List (Row Int (ι → ℝ))) (times : List Int) (hne : ic ≠ []) (hvi : Valid ic)
    (hall : ∀ i, HasId ic i → HasId c i ∧ content ic i = (content c i).take 1 ∧ times = (content c i).map (·.1)) :
    ∃ r, predictMatrix A d ic times = .ok r ∧ Valid r ∧ IdsAscending r ∧ (∀ i, HasId r i ↔ HasId ic i) ∧ ∀ i, HasId ic i → content r i = content c i := by
  have hsingle : ∀ x ∈ ic, content ic x.id = [(x.time, x.val)] := by
    intro x hx
    have hm := content_map_getElem hx
    have hl : (content ic x.id).length ≤ 1 := by
      rw [(hall x.id ⟨x, hx, rfl⟩).2.1]; exact List.length_take_le _ _
    match hcx : content ic x.id with
    | [] => rw [hcx] at hm; simp at hm
    | [a] => rw [hcx] at hm; simp at hm; rw [hm]
    | a :: b :: l => rw [hcx] at hl; simp at hl
  have hnd : (ic.map (·.id)).Nodup := by
    rw [List.nodup_iff_pairwise_ne, List.pairwise_map]
    refine List.Pairwise.imp_of_mem ?_ ((valid_iff ic).1 hvi).2
    intro a b ha hb hab heq
    have h1 := hab heq
    have e1 := hsingle a ha
    have e2 := hsingle b hb
    rw [heq, e2] at e1
    have := (Prod.mk.inj (List.head_eq_of_cons_eq e1)).1
    omega
  obtain ⟨x0, ic', rfl⟩ := List.ne_nil_iff_exists_cons.1 hne
  have hlin : ∀ x ∈ x0 :: ic', (content c x.id).map (·.1) = timesAt x.time d (List.range (content c x.id).length) ∧
      content c x.id = (List.range (content c x.id).length).map (fun (k : Nat) => (x.time + k * d, (A ^ k) *ᵥ x.val)) := by
    intro x hx
    obtain ⟨e1, e2, e3⟩ := hall x.id ⟨x, hx, rfl⟩
    exact content_linear hv hA e1 (hd x.id e1).2 (by rw [← e2]; exact hsingle x hx)
  obtain ⟨e1, e2, e3⟩ := hall x0.id ⟨x0, by simp, rfl⟩
  have hpos : 0 < d := regular_pos hv (hd x0.id e1).2
  have hlen : ∃ m, (content c x0.id).length = m + 1 := by
    refine ⟨(content c x0.id).length - 1, ?_⟩
    have : 0 < (content c x0.id).length := by
      rw [content, List.length_map]; exact List.length_pos_iff.2 (hasId_iff_series.1 e1)
    omega
  obtain ⟨m, hm⟩ := hlen
  have ht := (hlin x0 (by simp)).1
  rw [← e3, hm] at ht
  have hr0 : List.range (m + 1) = 0 :: (List.range m).map (· + 1) := List.range_succ_eq_map
  obtain ⟨r, r1, r2, r3, r4, r5⟩ := C26_flowmap A d x0.time hpos (x0 :: ic') (by simp) hnd ((List.range m).map (· + 1)) (by
    rw [← hr0]; exact List.pairwise_lt_range)
  rw [← hr0] at r1 r5
  refine ⟨r, by rw [ht]; exact r1, r2, r3, r4, ?_⟩
  rintro i ⟨x, hx, rfl⟩
  rw [r5 x hx, (hlin x hx).2]
  -- the same time values
  have htx := (hlin x hx).1
  have e3x := (hall x.id ⟨x, hx, rfl⟩).2.2
  have hlx : (content c x.id).length = m + 1 := by
    have := congrArg List.length (e3x.symm.trans e3)
    simpa [hm] using this
  have htime : x.time = x0.time := by
    have h5 := htx.symm.trans (e3x.symm.trans ht)
    rw [hlx, hr0] at h5
    have := List.head_eq_of_cons_eq h5
    simpa using this
  rw [hlx, htime]

/-- **C30 (reconstruction).** If the data follow a linear system, `reconstruct` of the data with that system matrix (which the fit recovers, `C30_recovery_partial`) succeeds and
returns the data: the same IDs, and for each ID the same time values and states. -/
theorem C30_reconstruct [DecidableEq ι] {k : TimeKind} {c : List (Row Int (ι → ℝ))} (hc : c ≠ []) (hv : Valid c) {d : Int} (hd : HasDeltas k c (fun _ => d))
    (A : Matrix ι ι ℝ) (hA : ∀ p ∈ snapshotPairs c, p.2 = A *ᵥ p.1) :
    ∃ r, reconstructWith PredErr.tsc (predictMatrix A d) k c = .ok r ∧ Valid r ∧ (∀ i, HasId r i ↔ HasId c i) ∧ ∀ i, content r i = content c i := by
  obtain ⟨r, h1, h2, h3, h4⟩ := C77_reconstruct (lift := PredErr.tsc) (predict := predictMatrix A d) hc hv hd (content c) (by
    intro ic times hne hvi hall
    obtain ⟨r, r1, r2, _, r4, r5⟩ := predictMatrix_linear hv hd A hA ic times hne hvi hall
    exact ⟨r, r1, r2, r4, r5⟩)
  refine ⟨r, h1, h2, h3, ?_⟩
  intro i
  by_cases hi : HasId c i
  · exact h4 i hi
  · have e1 : series r i = [] := by by_contra hne; exact hi ((h3 i).1 (hasId_iff_series.2 hne))
    have e2 : series c i = [] := by by_contra hne; exact hi (hasId_iff_series.2 hne)
    simp [content, e1, e2]

/-- Spectral mode gives the same reconstruction: if `Ψ, ev` diagonalise the system matrix, and `bs` yields spectral states for the initial conditions, the data are
returned. -/
theorem C30_reconstruct_spectral [DecidableEq ι] {k : TimeKind} {c : List (Row Int (ι → ℝ))} (hc : c ≠ []) (hv : Valid c) {d : Int} (hd : HasDeltas k c (fun _ => d))
    (A : Matrix ι ι ℝ) (hA : ∀ p ∈ snapshotPairs c, p.2 = A *ᵥ p.1) {ev : ι → ℂ} {Ψ : Matrix ι ι ℂ} (hdiag : Diagonalises A ev Ψ)
    {left : Option (Matrix ι ι ℂ)} (hl : left = none ∨ left = leftEigenvectors A ev Ψ) (state : (ι → ℝ) → (ι → ℂ))
    (hb : ∀ x, IsSpectralState left Ψ (toC x) (state x)) :
    ∃ r, reconstructWith PredErr.tsc (fun X times => evolveFrame X times (fun ics norm => flowmapSpectral Ψ ev (ics.map state) norm d)) k c = .ok r ∧ Valid r ∧
      (∀ i, HasId r i ↔ HasId c i) ∧ ∀ i, content r i = content c i := by
  have : (fun X times => evolveFrame X times (fun ics norm => flowmapSpectral Ψ ev (ics.map state) norm d)) = predictMatrix A d := by
    funext X times
    unfold predictMatrix
    congr 1
    funext ics norm
    apply C27_flowmap hdiag hl
    induction ics with
    | nil => exact .nil
    | cons x ics ih => exact .cons (hb x) ih
  rw [this]
  exact C30_reconstruct hc hv hd A hA

/-- Three samples of `x' = [[1, 1], [0, 2]] x` in one series and two in another, started at another time. -/
def exS : List (Row Int (Fin 2 → ℝ)) := [⟨1, 0, ![0, 1]⟩, ⟨1, 2, ![1, 2]⟩, ⟨1, 4, ![3, 4]⟩, ⟨5, 10, ![1, 0]⟩, ⟨5, 12, ![1, 0]⟩]

/-- Its system matrix. -/
def exA : Matrix (Fin 2) (Fin 2) ℝ := !![1, 1; 0, 2]

theorem exS_valid : Valid exS := by
  rw [valid_iff]; constructor
  · decide
  · unfold Before; decide

theorem exS_pairs : snapshotPairs exS = [(![0, 1], ![1, 2]), (![1, 2], ![3, 4]), (![1, 0], ![1, 0])] := rfl

theorem exS_linear : ∀ p ∈ snapshotPairs exS, p.2 = exA *ᵥ p.1 := by
  rw [exS_pairs]
  intro p hp
  simp only [List.mem_cons, List.not_mem_nil, or_false] at hp
  rcases hp with rfl | rfl | rfl <;> funext i <;> fin_cases i <;> simp [exA, Matrix.mulVec, dotProduct, Fin.sum_univ_two] <;> norm_num

theorem exS_span : Submodule.span ℝ {x | ∃ p ∈ snapshotPairs exS, p.1 = x} = ⊤ := by
  rw [exS_pairs, Submodule.eq_top_iff']
  intro x
  have : x = (x 1) • (![0, 1] : Fin 2 → ℝ) + (x 0) • (![1, 0] : Fin 2 → ℝ) := by
    funext j; fin_cases j <;> simp
  rw [this]
  refine Submodule.add_mem _ (Submodule.smul_mem _ _ (Submodule.subset_span ?_)) (Submodule.smul_mem _ _ (Submodule.subset_span ?_))
  · exact ⟨_, List.mem_cons_self, rfl⟩
  · exact ⟨(![1, 0], ![1, 0]), by simp, rfl⟩

theorem exS_two : ∀ i, HasId exS i → 2 ≤ (series exS i).length := by
  rintro i ⟨r, hr, rfl⟩
  simp only [exS, List.mem_cons, List.not_mem_nil, or_false] at hr
  rcases hr with rfl | rfl | rfl | rfl | rfl <;> decide

/-- non-vacuity of `C30_recovery_partial`: the data meet all hypotheses and a fit exists (with weights 1, and also with other weights). -/
example : Valid exS ∧ IdsAscending exS ∧ ¬ EqualLengths exS ∧ (∃ K, Fits .int exS none K) ∧ Fits .int exS none exA := by
  have ha : IdsAscending exS := by unfold IdsAscending; decide
  obtain ⟨K, hK⟩ := C30_exists (c := exS) (k := .int) (by simp [exS]) exS_two (by decide)
  have hKA := C30_recovery_partial (by simp [exS]) exS_valid (Or.inl ha) exS_two none (by simp) exA exS_linear exS_span hK
  refine ⟨exS_valid, ha, ?_, ⟨K, hK⟩, hKA ▸ hK⟩
  intro h
  have := h 1 5 ⟨⟨1, 0, ![0, 1]⟩, by simp [exS], rfl⟩ ⟨⟨5, 10, ![1, 0]⟩, by simp [exS], rfl⟩
  revert this; decide

/-- non-vacuity of `C30_reconstruct` and `C77_iter`: two series with different time values, two groups -/
example : HasDeltas .int exS (fun _ => 2) := by
  apply hasDeltas_int (by simp [exS]) exS_valid
  · rintro i ⟨r, hr, rfl⟩
    simp only [exS, List.mem_cons, List.not_mem_nil, or_false] at hr
    rcases hr with rfl | rfl | rfl | rfl | rfl <;> unfold Regular <;> decide

/-- Samples of `x' = 2 x`: three samples of series 1, followed by two samples of series 0. -/
def exOrder : List (Row Int (Fin 1 → ℝ)) := [⟨1, 0, ![1]⟩, ⟨1, 1, ![2]⟩, ⟨1, 2, ![4]⟩, ⟨0, 0, ![1]⟩, ⟨0, 1, ![2]⟩]

/-- **C30 is violated for IDs that do not ascend.** The samples follow `x_{k+1} = 2 x_k` exactly and span the state space, but no fit returns the matrix 2, because the last sample of one series is
paired with the first of another one (cf. `C03_violated`). -/
theorem C30_order_violated : ∃ (c : List (Row Int (Fin 1 → ℝ))) (A : Matrix (Fin 1) (Fin 1) ℝ), Valid c ∧ (∀ i, HasId c i → 2 ≤ (series c i).length) ∧
    (∀ p ∈ snapshotPairs c, p.2 = A *ᵥ p.1) ∧ Submodule.span ℝ {x | ∃ p ∈ snapshotPairs c, p.1 = x} = ⊤ ∧ (∃ K, Fits .int c none K) ∧ ¬ Fits .int c none A := by
  have hp : snapshotPairs exOrder = [(![1], ![2]), (![2], ![4]), (![1], ![2])] := rfl
  have h2 : ∀ i, HasId exOrder i → 2 ≤ (series exOrder i).length := by
    rintro i ⟨r, hr, rfl⟩
    simp only [exOrder, List.mem_cons, List.not_mem_nil, or_false] at hr
    rcases hr with rfl | rfl | rfl | rfl | rfl <;> decide
  refine ⟨exOrder, !![2], ?_, h2, ?_, ?_, C30_exists (by simp [exOrder]) h2 (by decide), ?_⟩
  · rw [valid_iff]; constructor
    · decide
    · unfold Before; decide
  · rw [hp]
    intro p hp
    simp only [List.mem_cons, List.not_mem_nil, or_false] at hp
    rcases hp with rfl | rfl | rfl <;> funext i <;> fin_cases i <;> (simp [Matrix.mulVec, dotProduct]; try norm_num)
  · rw [hp, Submodule.eq_top_iff']
    intro x
    have : x = (x 0) • (![1] : Fin 1 → ℝ) := by
      funext j; fin_cases j; simp
    rw [this]
    exact Submodule.smul_mem _ _ (Submodule.subset_span ⟨_, List.mem_cons_self, rfl⟩)
  · rintro ⟨-, L, R, h, hK⟩
    have hs : shiftMatrices exOrder = .ok ([![1], ![4], ![1]], [![2], ![1], ![2]]) := rfl
    rw [hs] at h
    cases h
    have hK' : IsSystemMatrix exOrder.length [((![1] : Fin 1 → ℝ), (![2] : Fin 1 → ℝ)), (![4], ![1]), (![1], ![2])] none !![2] := hK
    have := (isSystemMatrix_min _ (by simp [exOrder]) _ _ (by simp) _).1 hK' !![0]
    simp [Fin.sum_univ_three, stepError, Matrix.mulVec, dotProduct] at this
    norm_num at this

end Verif.Dmd
