import Verif.Dmd.StreamingLemmas
import Verif.Tsc.ShiftProps
/-!
# C33, C82: StreamingDMD
-/

namespace Verif.Dmd

open Verif.Tsc Verif.Lin Matrix

variable {ι : Type} [Fintype ι]

/-! ### Specification -/

/-- Coordinates of a vector with respect to a list of basis vectors -/
def coords (Q : List (ι → ℝ)) (v : ι → ℝ) : Fin Q.length → ℝ := fun i => Q[i] ⬝ᵥ v

/-- Linear combination of the basis vectors -/
def lift (Q : List (ι → ℝ)) (w : Fin Q.length → ℝ) : ι → ℝ := ∑ i, w i • Q[i]

/-- Sum of the squared one step prediction errors in the coordinates of the basis -/
def projectedError (Q : List (ι → ℝ)) (ps : List ((ι → ℝ) × (ι → ℝ))) (K : Matrix (Fin Q.length) (Fin Q.length) ℝ) : ℝ :=
  (ps.map (fun p => stepError K (coords Q p.1) (coords Q p.2))).sum

/-! ### Lemmas -/

theorem getD_fin (Q : List (ι → ℝ)) (i : Fin Q.length) : Q.getD i 0 = Q[i] := by
  rw [List.getD_eq_getElem?_getD, List.getElem?_eq_getElem i.2]; rfl

theorem project_eq_sum (Q : List (ι → ℝ)) (e : ι → ℝ) : project Q e = ∑ i : Fin Q.length, (Q[i] ⬝ᵥ e) • Q[i] := by
  unfold project
  exact (Fin.sum_univ_fun_getElem Q (fun q => (q ⬝ᵥ e) • q)).symm

theorem lift_coords (Q : List (ι → ℝ)) (v : ι → ℝ) : lift Q (coords Q v) = project Q v := (project_eq_sum Q v).symm

/-- the pairs in coordinates -/
def coordPairs (Q : List (ι → ℝ)) (ps : List ((ι → ℝ) × (ι → ℝ))) : List ((Fin Q.length → ℝ) × (Fin Q.length → ℝ)) :=
  ps.map (fun p => (coords Q p.1, coords Q p.2))

theorem corr_sum_left {ps : List ((ι → ℝ) × (ι → ℝ))} {f g} (Q : List (ι → ℝ)) (hQ : Ortho Q) (hf : ∀ p ∈ ps, f p ∈ spanOf Q) (a b : ι → ℝ) :
    ∑ l : Fin Q.length, (a ⬝ᵥ Q[l]) * corr ps f g Q[l] b = corr ps f g a b := by
  unfold corr
  induction ps with
  | nil => simp
  | cons p ps ih =>
    simp only [List.map_cons, List.sum_cons, mul_add, Finset.sum_add_distrib]
    rw [ih (fun q hq => hf q (by simp [hq]))]
    congr 1
    have h1 : a ⬝ᵥ project Q (f p) = a ⬝ᵥ f p := by rw [project_of_mem hQ (hf p (by simp))]
    rw [← h1, project_eq_sum, dotProduct_sum, Finset.sum_mul]
    refine Finset.sum_congr rfl (fun l _ => ?_)
    rw [dotProduct_smul, smul_eq_mul]; ring

theorem stream_system {s : Streaming ι} {ps : List ((ι → ℝ) × (ι → ℝ))} (h : StreamInv s ps) (K : Matrix (Fin s.Qx.length) (Fin s.Qx.length) ℝ) :
    IsStreamMatrix s K ↔ IsSystemMatrix 1 (coordPairs s.Qx ps) none K := by
  have hs : ∀ (f g : (Fin s.Qx.length → ℝ) × (Fin s.Qx.length → ℝ) → Fin s.Qx.length → ℝ) (i j : Fin s.Qx.length),
      ∑ k : Fin (coordPairs s.Qx ps).length, f (coordPairs s.Qx ps)[k] i * g (coordPairs s.Qx ps)[k] j =
        (ps.map (fun p => f (coords s.Qx p.1, coords s.Qx p.2) i * g (coords s.Qx p.1, coords s.Qx p.2) j)).sum := by
    intro f g i j
    have := Fin.sum_univ_fun_getElem (coordPairs s.Qx ps) (fun p => f p i * g p j)
    simp only [coordPairs, List.map_map] at this ⊢
    exact this
  have h1 : (Matrix.of (fun i j : Fin s.Qx.length => s.Gx i j))ᵀ = gram 1 none (startM (coordPairs s.Qx ps)) (startM (coordPairs s.Qx ps)) := by
    ext i j
    simp only [Matrix.transpose_apply, Matrix.of_apply, gram, Nat.cast_one, div_one, one_smul, Matrix.mul_apply, startM]
    rw [h.gx, hs Prod.fst Prod.fst, getD_fin, getD_fin]
    unfold corr coords
    congr 1
    apply List.map_congr_left
    intro p _
    exact mul_comm _ _
  have h2 : (Matrix.of (fun i j : Fin s.Qx.length => ∑ l : Fin s.Qy.length, (s.Qx[i] ⬝ᵥ s.Qy[l]) * s.A l j))ᵀ =
      gram 1 none (startM (coordPairs s.Qx ps)) (endM (coordPairs s.Qx ps)) := by
    ext i j
    simp only [Matrix.transpose_apply, Matrix.of_apply, gram, Nat.cast_one, div_one, one_smul, Matrix.mul_apply, startM, endM]
    rw [hs Prod.fst Prod.snd]
    have : ∀ l : Fin s.Qy.length, s.A l i = corr ps Prod.snd Prod.fst s.Qy[l] s.Qx[i] := by
      intro l
      rw [h.a, getD_fin, getD_fin]
    simp only [this]
    rw [corr_sum_left s.Qy h.oy h.sy]
    unfold corr coords
    congr 1
    apply List.map_congr_left
    intro p _
    exact mul_comm _ _
  unfold IsStreamMatrix IsSystemMatrix
  rw [h1, h2]

theorem projectedError_eq (Q : List (ι → ℝ)) (ps : List ((ι → ℝ) × (ι → ℝ))) (K : Matrix (Fin Q.length) (Fin Q.length) ℝ) :
    projectedError Q ps K = ∑ k : Fin (coordPairs Q ps).length, stepError K (coordPairs Q ps)[k].1 (coordPairs Q ps)[k].2 := by
  have := Fin.sum_univ_fun_getElem (coordPairs Q ps) (fun p => stepError K p.1 p.2)
  simp only [coordPairs, List.map_map] at this
  unfold projectedError
  exact this.symm

theorem pod_rank {r : Nat} {s s' : Streaming ι} (h : Pod (some r) s s') : s'.Qx.length ≤ r ∧ s'.Qy.length ≤ r := by
  obtain ⟨s₁, hx, hy⟩ := h
  have h1 : s₁.Qx.length ≤ r := by
    unfold PodX at hx
    split_ifs at hx with h0
    · obtain ⟨evals, evecs, idx, _, rfl⟩ := hx
      simp [combine]
    · subst hx; omega
  unfold PodY at hy
  split_ifs at hy with h0
  · obtain ⟨evals, evecs, idx, _, rfl⟩ := hy
    exact ⟨h1, by simp [combine]⟩
  · subst hy; exact ⟨h1, by omega⟩

/-! ### Property theorems -/

/-- **C33 (rank).** With `max_rank = r`, after the initial fit and any number of updates with any data, neither basis has more than `r` vectors, so that at most `r` modes are
computed. -/
theorem C33_rank {r : Nat} (hr : 1 ≤ r) {n : Nat} {tol : ℝ} {p₀ : (ι → ℝ) × (ι → ℝ)} {ps : List ((ι → ℝ) × (ι → ℝ))} {s : Streaming ι}
    (h : StreamRun (some r) n tol (streamInit p₀) ps s) : s.Qx.length ≤ r ∧ s.Qy.length ≤ r := by
  have key : ∀ {s₀ s : Streaming ι} {ps : List ((ι → ℝ) × (ι → ℝ))}, StreamRun (some r) n tol s₀ ps s → s₀.Qx.length ≤ r ∧ s₀.Qy.length ≤ r →
      s.Qx.length ≤ r ∧ s.Qy.length ≤ r := by
    intro s₀ s ps hrun
    induction hrun with
    | nil => exact id
    | cons hu _ ih =>
      intro _
      apply ih
      obtain ⟨s₂, hp, rfl⟩ := hu
      exact (pod_rank hp : s₂.Qx.length ≤ r ∧ s₂.Qy.length ≤ r)
  exact key h ⟨by simpa [streamInit] using hr, by simpa [streamInit] using hr⟩

/-- **C33 (no compression).** Without `max_rank` (and with tolerance zero), after the first pair and any further pairs, the basis is orthonormal and
spans the same space as the states, and the reduced matrix has the smallest one step prediction error, in the coordinates of the basis, over all pairs: streaming is the batch
method for the projected data. -/
theorem C33_batch_partial {n : Nat} (hn : 0 < n) {p₀ : (ι → ℝ) × (ι → ℝ)} (h1 : p₀.1 ≠ 0) (h2 : p₀.2 ≠ 0) {ps : List ((ι → ℝ) × (ι → ℝ))} {s : Streaming ι}
    (h : StreamRun none n 0 (streamInit p₀) ps s) :
    Ortho s.Qx ∧ spanOf s.Qx = spanOf ((p₀ :: ps).map Prod.fst) ∧
      ∀ K, IsStreamMatrix s K ↔ ∀ K', projectedError s.Qx (p₀ :: ps) K ≤ projectedError s.Qx (p₀ :: ps) K' := by
  have hi := run_inv (init_inv h1 h2) hn h
  refine ⟨hi.ox, ?_, ?_⟩
  · apply le_antisymm
    · exact Submodule.span_le.2 hi.bx
    · apply Submodule.span_le.2
      intro v hv
      obtain ⟨p, hp, rfl⟩ := List.mem_map.1 hv
      exact hi.sx p hp
  · intro K
    rw [stream_system hi, isSystemMatrix_min 1 one_ne_zero _ _ (by simp)]
    simp only [Option.getD_none, one_mul, projectedError_eq]
    rfl

/-- **C33 (recovery).** If the data come from a linear system `y = M x`, the reduced matrix maps coordinates of a state to the coordinates of its successor, for every
combination `x` of the seen states. -/
theorem C33_recovery {n : Nat} (hn : 0 < n) {p₀ : (ι → ℝ) × (ι → ℝ)} (h1 : p₀.1 ≠ 0) (h2 : p₀.2 ≠ 0) {ps : List ((ι → ℝ) × (ι → ℝ))} {s : Streaming ι}
    (h : StreamRun none n 0 (streamInit p₀) ps s) {M : Matrix ι ι ℝ} (hM : ∀ p ∈ p₀ :: ps, p.2 = M *ᵥ p.1) {K : Matrix (Fin s.Qx.length) (Fin s.Qx.length) ℝ}
    (hK : IsStreamMatrix s K) {x : ι → ℝ} (hx : x ∈ spanOf ((p₀ :: ps).map Prod.fst)) : K *ᵥ coords s.Qx x = coords s.Qx (M *ᵥ x) := by
  obtain ⟨ho, hspan, hmin⟩ := C33_batch_partial hn h1 h2 h
  -- the matrix of `M` in the basis has error zero
  let K' : Matrix (Fin s.Qx.length) (Fin s.Qx.length) ℝ := Matrix.of (fun i j => s.Qx[i] ⬝ᵥ (M *ᵥ s.Qx[j]))
  have hK' : ∀ v ∈ spanOf s.Qx, K' *ᵥ coords s.Qx v = coords s.Qx (M *ᵥ v) := by
    intro v hv
    funext i
    have e : coords s.Qx (M *ᵥ v) i = s.Qx[i] ⬝ᵥ (M *ᵥ project s.Qx v) := by rw [project_of_mem ho hv]; rfl
    rw [e, project_eq_sum, Matrix.mulVec_sum, dotProduct_sum]
    change ∑ j, K' i j * coords s.Qx v j = _
    refine Finset.sum_congr rfl (fun j _ => ?_)
    rw [Matrix.mulVec_smul, dotProduct_smul, smul_eq_mul, mul_comm]
    rfl
  have hz : projectedError s.Qx (p₀ :: ps) K' = 0 := by
    unfold projectedError
    apply List.sum_eq_zero
    intro e he
    obtain ⟨p, hp, rfl⟩ := List.mem_map.1 he
    rw [stepError_eq_zero, hM p hp]
    apply hK'
    rw [hspan]
    exact Submodule.subset_span (List.mem_map_of_mem hp)
  have hle := (hmin K).1 hK K'
  rw [hz] at hle
  have hall : ∀ p ∈ p₀ :: ps, K *ᵥ coords s.Qx p.1 = coords s.Qx (M *ᵥ p.1) := by
    intro p hp
    rw [← hM p hp, ← stepError_eq_zero]
    have := List.single_le_sum (l := (p₀ :: ps).map (fun p => stepError K (coords s.Qx p.1) (coords s.Qx p.2)))
      (by intro x hx; obtain ⟨q, _, rfl⟩ := List.mem_map.1 hx; exact stepError_nonneg _ _ _) _ (List.mem_map_of_mem hp)
    exact le_antisymm (this.trans hle) (stepError_nonneg _ _ _)
  have cadd : ∀ u v, coords s.Qx (u + v) = coords s.Qx u + coords s.Qx v := fun u v => by funext i; simp [coords, dotProduct_add]
  have csmul : ∀ (c : ℝ) v, coords s.Qx (c • v) = c • coords s.Qx v := fun c v => by funext i; simp [coords, dotProduct_smul]
  have czero : coords s.Qx 0 = 0 := by funext i; simp [coords]
  unfold spanOf at hx
  induction hx using Submodule.span_induction with
  | mem x h => obtain ⟨p, hp, rfl⟩ := List.mem_map.1 h; exact hall p hp
  | zero => simp [czero]
  | add u v _ _ hu hv => rw [cadd, Matrix.mulVec_add, hu, hv, Matrix.mulVec_add, cadd]
  | smul c v _ hv => rw [csmul, Matrix.mulVec_smul, hv, Matrix.mulVec_smul, csmul]

/-- **C33 (modes).** For linear data whose seen states span an invariant space, every eigenpair of the reduced matrix gives an eigenpair of the system. -/
theorem C33_modes {n : Nat} (hn : 0 < n) {p₀ : (ι → ℝ) × (ι → ℝ)} (h1 : p₀.1 ≠ 0) (h2 : p₀.2 ≠ 0) {ps : List ((ι → ℝ) × (ι → ℝ))} {s : Streaming ι}
    (h : StreamRun none n 0 (streamInit p₀) ps s) {M : Matrix ι ι ℝ} (hM : ∀ p ∈ p₀ :: ps, p.2 = M *ᵥ p.1)
    (hinv : ∀ p ∈ p₀ :: ps, p.2 ∈ spanOf ((p₀ :: ps).map Prod.fst)) {K : Matrix (Fin s.Qx.length) (Fin s.Qx.length) ℝ}
    (hK : IsStreamMatrix s K) {w : Fin s.Qx.length → ℝ} {μ : ℝ} (hw : K *ᵥ w = μ • w) : M *ᵥ lift s.Qx w = μ • lift s.Qx w := by
  obtain ⟨ho, hspan, -⟩ := C33_batch_partial hn h1 h2 h
  have hmem : lift s.Qx w ∈ spanOf s.Qx := by
    unfold lift spanOf
    exact Submodule.sum_mem _ (fun i _ => Submodule.smul_mem _ _ (Submodule.subset_span (List.getElem_mem i.2)))
  have hc : coords s.Qx (lift s.Qx w) = w := by
    funext i
    unfold coords lift
    rw [dotProduct_sum]
    have hij : ∀ j : Fin s.Qx.length, s.Qx[i] ⬝ᵥ s.Qx[j] = if i = j then 1 else 0 := by
      intro j
      split_ifs with hij
      · subst hij; exact ho.2 _ (List.getElem_mem i.2)
      · rcases lt_or_gt_of_ne (fun h' => hij (Fin.ext h') : (i : Nat) ≠ j) with hlt | hlt
        · exact List.pairwise_iff_getElem.1 ho.1 i j i.2 j.2 hlt
        · rw [dotProduct_comm]; exact List.pairwise_iff_getElem.1 ho.1 j i j.2 i.2 hlt
    simp only [dotProduct_smul, hij]
    simp
  have hMm : ∀ v ∈ spanOf s.Qx, M *ᵥ v ∈ spanOf s.Qx := by
    intro v hv
    rw [hspan] at hv ⊢
    unfold spanOf at hv
    induction hv using Submodule.span_induction with
    | mem x h => obtain ⟨p, hp, rfl⟩ := List.mem_map.1 h; rw [← hM p hp]; exact hinv p hp
    | zero => rw [Matrix.mulVec_zero]; exact Submodule.zero_mem _
    | add u v _ _ hu hv => rw [Matrix.mulVec_add]; exact Submodule.add_mem _ hu hv
    | smul c v _ hv => rw [Matrix.mulVec_smul]; exact Submodule.smul_mem _ _ hv
  have hr := C33_recovery hn h1 h2 h hM hK (by rw [← hspan]; exact hmem)
  rw [hc, hw] at hr
  rw [← project_of_mem ho (hMm _ hmem), ← lift_coords, ← hr]
  simp [lift, Finset.smul_sum, smul_smul]

/-- **C33 (compression, negation).** Whenever a basis has to be compressed, every kept eigenvalue is at most as large as every removed one: the directions which carry the least
of the data are kept, against the documentation ("indices of largest eigenvalues"). -/
theorem C33_keeps_smallest {r n : Nat} {G : Nat → Nat → ℝ} {evals : Fin n → ℝ} {evecs : Matrix (Fin n) (Fin n) ℝ} {idx : List (Fin n)}
    (h : IsEigSorted n G evals evecs idx) : ∀ a ∈ idx.take r, ∀ b ∉ idx.take r, evals a ≤ evals b := by
  intro a ha b hb
  have hb' : b ∈ idx.drop r := by
    have : b ∈ idx := h.perm.mem_iff.2 (List.mem_finRange b)
    rw [← List.take_append_drop r idx] at this
    rcases List.mem_append.1 this with h' | h'
    · exact absurd h' hb
    · exact h'
  have := h.sorted
  rw [← List.take_append_drop r idx, List.pairwise_append] at this
  exact this.2.2 a ha b hb'

theorem ortho_get {Q : List (ι → ℝ)} (hQ : Ortho Q) (i j : Fin Q.length) : Q[i] ⬝ᵥ Q[j] = if i = j then 1 else 0 := by
  by_cases h : i = j
  · subst h
    rw [if_pos rfl]
    exact hQ.2 _ (List.getElem_mem _)
  · rw [if_neg h]
    rcases lt_or_gt_of_ne (fun e => h (Fin.ext e) : (i : Nat) ≠ j) with hlt | hlt
    · exact List.pairwise_iff_getElem.1 hQ.1 i j i.2 j.2 hlt
    · rw [dotProduct_comm]
      exact List.pairwise_iff_getElem.1 hQ.1 j i j.2 i.2 hlt

/-- coordinates of a combination of orthonormal vectors -/
theorem combine_dot {Q : List (ι → ℝ)} (hQ : Ortho Q) (evecs : Matrix (Fin Q.length) (Fin Q.length) ℝ) (u i : Fin Q.length) :
    (∑ l : Fin Q.length, evecs l u • Q.getD l 0) ⬝ᵥ Q[i] = evecs i u := by
  simp only [getD_fin, sum_dotProduct, smul_dotProduct, smul_eq_mul]
  rw [Finset.sum_eq_single i]
  · rw [ortho_get hQ, if_pos rfl, mul_one]
  · intro l _ hl
    rw [ortho_get hQ, if_neg hl, mul_zero]
  · simp

/-- **C33 (compressed correlations).** If the basis is orthonormal before and after a compression, then the correlation matrix that is stored with it afterwards is the projection of the former one onto the kept directions:
its entry for two kept directions `u`, `v` is `uᵀ (Q G Qᵀ) v`. -/
theorem C33_compressed {r : Nat} {s s' : Streaming ι} (hr : r < s.Qx.length) (hQ : Ortho s.Qx) (h : PodX r s s') (hQ' : Ortho s'.Qx) (a b : Fin s'.Qx.length) :
    s'.Gx a b = ∑ i : Fin s.Qx.length, ∑ j : Fin s.Qx.length, (s'.Qx[a] ⬝ᵥ s.Qx[i]) * s.Gx i j * (s'.Qx[b] ⬝ᵥ s.Qx[j]) := by
  unfold PodX at h
  rw [if_pos hr] at h
  obtain ⟨evals, evecs, idx, he, h⟩ := h
  have hQx : s'.Qx = combine s.Qx evecs (idx.take r) := by rw [h]
  have hGx : s'.Gx = diagOf evals (idx.take r) := by rw [h]
  have hlen : s'.Qx.length = (idx.take r).length := by rw [hQx]; simp [combine]
  have hdir : ∀ k : Fin s'.Qx.length, s'.Qx[k] = ∑ l : Fin s.Qx.length, evecs l ((idx.take r)[k]'(by rw [← hlen]; exact k.2)) • s.Qx.getD l 0 := by
    intro k
    simp only [hQx, combine, Fin.getElem_fin, List.getElem_map]
  have hc : ∀ (k : Fin s'.Qx.length) (i : Fin s.Qx.length), s'.Qx[k] ⬝ᵥ s.Qx[i] = evecs i ((idx.take r)[k]'(by rw [← hlen]; exact k.2)) := by
    intro k i
    rw [hdir k, combine_dot hQ]
  have hsum : ∑ i : Fin s.Qx.length, ∑ j : Fin s.Qx.length, (s'.Qx[a] ⬝ᵥ s.Qx[i]) * s.Gx i j * (s'.Qx[b] ⬝ᵥ s.Qx[j]) =
      evals ((idx.take r)[b]'(by rw [← hlen]; exact b.2)) * (s'.Qx[a] ⬝ᵥ s'.Qx[b]) := by
    have e : s'.Qx[a] ⬝ᵥ s'.Qx[b] = ∑ i : Fin s.Qx.length, evecs i ((idx.take r)[b]'(by rw [← hlen]; exact b.2)) * (s'.Qx[a] ⬝ᵥ s.Qx[i]) := by
      conv_lhs => rw [hdir b]
      simp only [getD_fin, dotProduct_sum, dotProduct_smul, smul_eq_mul]
    rw [e, Finset.mul_sum]
    refine Finset.sum_congr rfl fun i _ => ?_
    have := he.eig i ((idx.take r)[b]'(by rw [← hlen]; exact b.2))
    rw [← mul_assoc, ← this, Finset.sum_mul]
    refine Finset.sum_congr rfl fun j _ => ?_
    rw [hc b j]; ring
  rw [hsum, hGx]
  unfold diagOf
  by_cases hab : a = b
  · subst hab
    have : (idx.take r)[(a : Nat)]? = some ((idx.take r)[a]'(by rw [← hlen]; exact a.2)) := List.getElem?_eq_getElem _
    rw [if_pos rfl, List.getD_eq_getElem?_getD, List.getElem?_map, this, ortho_get hQ', if_pos rfl]
    simp
  · rw [if_neg (fun e => hab (Fin.ext e)), ortho_get hQ', if_neg hab, mul_zero]

/-- non-vacuity: two directions with correlations 2 and 1, one is kept -/
example : ∃ s s' : Streaming (Fin 2), 1 < s.Qx.length ∧ Ortho s.Qx ∧ PodX 1 s s' ∧ Ortho s'.Qx := by
  refine ⟨⟨[![1, 0], ![0, 1]], [], fun i j => if i = j then (if i = 0 then 2 else 1) else 0, fun _ _ => 0, fun _ _ => 0⟩,
    ⟨[![0, 1]], [], diagOf (n := 2) ![2, 1] [1], fun _ _ => 0, fun _ _ => 0⟩, by simp, ?_, ?_, ?_⟩
  · simp [Ortho, dotProduct, Fin.sum_univ_two]
  · unfold PodX
    rw [if_pos (by simp)]
    refine ⟨![2, 1], 1, [1, 0], ⟨?_, by simp, ?_, ?_⟩, ?_⟩
    · intro i k
      fin_cases i <;> fin_cases k <;> simp [Matrix.one_apply]
    · decide
    · simp
    · simp [combine, Matrix.one_apply]
      funext i j
      cases j <;> simp
  · simp [Ortho, dotProduct, Fin.sum_univ_two]

/-- **C33 (compressed correlations, y part).** -/
theorem C33_compressed_y {r : Nat} {s s' : Streaming ι} (hr : r < s.Qy.length) (hQ : Ortho s.Qy) (h : PodY r s s') (hQ' : Ortho s'.Qy) (a b : Fin s'.Qy.length) :
    s'.Gy a b = ∑ i : Fin s.Qy.length, ∑ j : Fin s.Qy.length, (s'.Qy[a] ⬝ᵥ s.Qy[i]) * s.Gy i j * (s'.Qy[b] ⬝ᵥ s.Qy[j]) := by
  have hx : PodX r ⟨s.Qy, s.Qx, s.Gy, s.Gx, fun i j => s.A j i⟩ ⟨s'.Qy, s'.Qx, s'.Gy, s'.Gx, fun i j => s'.A j i⟩ := by
    unfold PodY at h
    unfold PodX
    rw [if_pos hr] at h
    rw [if_pos (show s.Qy.length > r from hr)]
    obtain ⟨evals, evecs, idx, he, rfl⟩ := h
    refine ⟨evals, evecs, idx, he, ?_⟩
    simp [mul_comm]
  exact C33_compressed (s := ⟨s.Qy, s.Qx, s.Gy, s.Gx, fun i j => s.A j i⟩) hr hQ hx hQ' a b

theorem eig_diag {G : Nat → Nat → ℝ} (g00 : G 0 0 = 1) (g01 : G 0 1 = 0) (g10 : G 1 0 = 0) (g11 : G 1 1 = 0)
    {evals : Fin 2 → ℝ} {evecs : Matrix (Fin 2) (Fin 2) ℝ} {idx : List (Fin 2)} (h : IsEigSorted 2 G evals evecs idx) :
    ∀ k ∈ idx.take 1, evecs 0 k = 0 := by
  intro k hk
  by_contra h0
  have r0 : ∀ k, evecs 0 k = evals k * evecs 0 k := by
    intro k
    have := h.eig 0 k
    simpa [g00, g01] using this
  have r1 : ∀ k, 0 = evals k * evecs 1 k := by
    intro k
    have := h.eig 1 k
    simpa [g10, g11] using this
  have hk1 : evals k = 1 := by
    have := r0 k
    have h' : (evals k - 1) * evecs 0 k = 0 := by linarith
    rcases mul_eq_zero.1 h' with h' | h'
    · linarith
    · exact absurd h' h0
  have hall : ∀ l, evecs 1 l = 0 := by
    intro l
    have hl : 1 ≤ evals l := by
      by_cases hl : l ∈ idx.take 1
      · have : l = k := by
          rcases idx with _ | ⟨a, idx⟩
          · simp at hk
          · simp only [List.take_succ_cons, List.take_zero, List.mem_singleton] at hk hl
            rw [hk, hl]
        rw [this, hk1]
      · rw [← hk1]; exact C33_keeps_smallest h k hk l hl
    rcases mul_eq_zero.1 (r1 l).symm with h' | h'
    · linarith
    · exact h'
  apply h.basis
  rw [Matrix.det_fin_two, hall, hall]; ring

theorem norm2_e (v : Fin 2 → ℝ) (h : v 0 ^ 2 + v 1 ^ 2 = 1) : norm2 v = 1 := by
  have h1 := norm2_sq v
  have : v ⬝ᵥ v = 1 := by simp [dotProduct, Fin.sum_univ_two, ← sq, h]
  rw [this] at h1
  have h2 := norm2_nonneg v
  nlinarith

theorem exIncrease : increase 1 0 (streamInit ((![1, 0] : Fin 2 → ℝ), ![1, 0])) (![0, 1], ![0, 1]) =
    { Qx := [![1, 0], ![0, 1]], Qy := [![1, 0], ![0, 1]]
      Gx := fun i j => if i = 0 ∧ j = 0 then 1 else 0, Gy := fun i j => if i = 0 ∧ j = 0 then 1 else 0
      A := fun i j => if i = 0 ∧ j = 0 then 1 else 0 } := by
  have n1 : norm2 (![1, 0] : Fin 2 → ℝ) = 1 := norm2_e _ (by simp)
  have n2 : norm2 (![0, 1] : Fin 2 → ℝ) = 1 := norm2_e _ (by simp)
  have hp : project [(![1, 0] : Fin 2 → ℝ)] ![0, 1] = 0 := project_eq_zero (by simp [dotProduct, Fin.sum_univ_two])
  have hpad : ∀ G : Nat → Nat → ℝ, G = (fun i j => if i = 0 ∧ j = 0 then 1 else 0) → pad 1 1 G = G := by
    rintro G rfl
    funext i j
    unfold pad
    rcases i with _ | i <;> rcases j with _ | j <;> simp
  have hpad2 : pad 1 2 (fun i j => if i = 0 ∧ j = 0 then (1 : ℝ) else 0) = (fun i j => if i = 0 ∧ j = 0 then 1 else 0) := by
    funext i j
    unfold pad
    rcases i with _ | i <;> rcases j with _ | j <;> simp
  simp [increase, streamInit, n1, n2, gramSchmidt, hp, increaseX, increaseY, hpad, hpad2]

/-- **C33 (compression, witness).** With `max_rank = 1`: after the pair `(e₁, e₁)` the pair `(e₂, e₂)` makes a compression necessary, and the data of the first pair are lost: the only
basis vector left is orthogonal to the first state, although the first state had the largest eigenvalue. -/
theorem C33_violated {s : Streaming (Fin 2)} (h : StreamRun (some 1) 1 0 (streamInit (![1, 0], ![1, 0])) [(![0, 1], ![0, 1])] s) :
    s.Qx.length = 1 ∧ ∀ q ∈ s.Qx, q ⬝ᵥ ![1, 0] = 0 := by
  rcases h with _ | ⟨hu, hn⟩
  cases hn
  obtain ⟨s₂, ⟨s₁, hx, hy⟩, rfl⟩ := hu
  rw [exIncrease] at hx
  have key : s₁.Qx.length = 1 ∧ ∀ q ∈ s₁.Qx, q ⬝ᵥ ![1, 0] = 0 := by
    unfold PodX at hx
    rw [if_pos (by simp)] at hx
    obtain ⟨evals, evecs, idx, he, rfl⟩ := hx
    have hl : idx.length = 2 := by
      have := he.perm.length_eq
      simpa using this
    have h0 := eig_diag (by simp) (by simp) (by simp) (by simp) he
    constructor
    · simp [combine, hl]
    · intro q hq
      obtain ⟨k, hk, rfl⟩ := List.mem_map.1 hq
      have := h0 k hk
      rw [sum_dotProduct]
      erw [Fin.sum_univ_two]
      simp [smul_dotProduct, this, dotProduct, Fin.sum_univ_two]
  have hq : s₂.Qx = s₁.Qx := by
    unfold PodY at hy
    split_ifs at hy
    · obtain ⟨_, _, _, _, rfl⟩ := hy; rfl
    · rw [hy]
  simpa [updateSys, hq] using key

/-- Without compression the updates always succeed. -/
theorem stream_exists (n : Nat) (tol : ℝ) (s : Streaming ι) (ps : List ((ι → ℝ) × (ι → ℝ))) : ∃ s', StreamRun none n tol s ps s' := by
  induction ps generalizing s with
  | nil => exact ⟨s, .nil s⟩
  | cons p ps ih =>
    obtain ⟨s', h⟩ := ih (updateSys (increase n tol s p) p)
    exact ⟨s', .cons ⟨_, rfl, rfl⟩ h⟩

/-- The hypotheses of the theorems without compression can be met: the rotation by 90 degrees, three pairs. -/
example : ∃ (s : Streaming (Fin 2)) (K : _), StreamRun none 5 0 (streamInit (![1, 0], ![0, 1])) [(![0, 1], ![-1, 0]), (![-1, 0], ![0, -1])] s ∧ IsStreamMatrix s K ∧
    (∀ p ∈ [((![1, 0] : Fin 2 → ℝ), (![0, 1] : Fin 2 → ℝ)), (![0, 1], ![-1, 0]), (![-1, 0], ![0, -1])], p.2 = !![0, -1; 1, 0] *ᵥ p.1) := by
  obtain ⟨s, h⟩ := stream_exists 5 0 (streamInit ((![1, 0] : Fin 2 → ℝ), ![0, 1])) [(![0, 1], ![-1, 0]), (![-1, 0], ![0, -1])]
  obtain ⟨Z, hZ⟩ := exists_normal (Matrix.of (fun i j : Fin s.Qx.length => s.Gx i j))ᵀ
    (Matrix.of (fun i j : Fin s.Qx.length => ∑ l : Fin s.Qy.length, (s.Qx[i] ⬝ᵥ s.Qy[l]) * s.A l j))ᵀ
  refine ⟨s, Zᵀ, h, (isLstsqM_iff _ _ _).2 (by simpa using hZ), ?_⟩
  intro p hp
  simp only [List.mem_cons, List.not_mem_nil, or_false] at hp
  rcases hp with rfl | rfl | rfl <;> funext i <;> fin_cases i <;> simp [Matrix.mulVec, dotProduct, Fin.sum_univ_two]

theorem podX_exists {r : Nat} {s : Streaming ι} (h : s.Qx.length > r) {evals evecs idx} (he : IsEigSorted s.Qx.length s.Gx evals evecs idx) :
    ∃ s', PodX r s s' ∧ s'.Qy = s.Qy ∧ s'.Gy = s.Gy := by
  unfold PodX
  simp only [if_pos h]
  exact ⟨_, ⟨_, _, _, he, rfl⟩, rfl, rfl⟩

theorem podY_exists {r : Nat} {s : Streaming ι} (h : s.Qy.length > r) {evals evecs idx} (he : IsEigSorted s.Qy.length s.Gy evals evecs idx) :
    ∃ s', PodY r s s' := by
  unfold PodY
  simp only [if_pos h]
  exact ⟨_, _, _, _, he, rfl⟩

/-- The run of `C33_violated` exists. -/
example : ∃ s, StreamRun (some 1) 1 0 (streamInit ((![1, 0] : Fin 2 → ℝ), ![1, 0])) [(![0, 1], ![0, 1])] s := by
  have he : IsEigSorted 2 (fun i j => if i = 0 ∧ j = 0 then (1 : ℝ) else 0) ![1, 0] 1 [1, 0] := by
    refine ⟨?_, by simp, by decide, by simp⟩
    intro i k
    fin_cases i <;> fin_cases k <;> simp [Matrix.one_apply]
  have hx : ∃ s₁, PodX 1 (increase 1 0 (streamInit ((![1, 0] : Fin 2 → ℝ), ![1, 0])) (![0, 1], ![0, 1])) s₁ ∧
      s₁.Qy = [![1, 0], ![0, 1]] ∧ s₁.Gy = (fun i j => if i = 0 ∧ j = 0 then (1 : ℝ) else 0) := by
    rw [exIncrease]
    exact podX_exists (by simp) he
  obtain ⟨⟨Qx, Qy, Gx, Gy, A⟩, hs, rfl, rfl⟩ := hx
  have hy : ∃ s₂, PodY 1 ⟨Qx, [![1, 0], ![0, 1]], Gx, (fun i j => if i = 0 ∧ j = 0 then (1 : ℝ) else 0), A⟩ s₂ := podY_exists (by simp) he
  obtain ⟨s₂, hy⟩ := hy
  exact ⟨_, .cons ⟨_, ⟨_, hs, hy⟩, rfl⟩ (.nil _)⟩

/-! ### C82: which pairs are used -/

theorem snapshotPairs_cons {τ V : Type} (a b : Row τ V) (c : List (Row τ V)) :
    snapshotPairs (a :: b :: c) = if a.id = b.id then (a.val, b.val) :: snapshotPairs (b :: c) else snapshotPairs (b :: c) := by
  unfold snapshotPairs
  by_cases h : a.id = b.id <;> simp [consecutive, h]

/-- **C82 (negation).** If the first series of the first call has more than two samples, the pair of its second and third sample is never used: the method processes all consecutive
pairs of the collection except this one. -/
theorem C82_violated {V : Type} {r₀ r₁ r₂ : Row Int V} {rest : List (Row Int V)} (hv : Valid (r₀ :: r₁ :: r₂ :: rest)) (hs : IdsAscending (r₀ :: r₁ :: r₂ :: rest))
    (h01 : r₀.id = r₁.id) (h12 : r₁.id = r₂.id) {ps} (h : firstCallPairs (r₀ :: r₁ :: r₂ :: rest) = .ok ps) :
    ∃ tail, ps = (r₀.val, r₁.val) :: tail ∧ snapshotPairs (r₀ :: r₁ :: r₂ :: rest) = (r₀.val, r₁.val) :: (r₁.val, r₂.val) :: tail := by
  simp only [firstCallPairs, List.isEmpty_cons, Bool.false_eq_true, if_false] at h
  split_ifs at h with h1 h2
  split at h
  · cases h
  · rename_i L R hLR
    cases h
    have hv' : Valid (r₂ :: rest) := hv.sublist (by simp)
    have hs' : IdsAscending (r₂ :: rest) := by
      unfold IdsAscending at hs ⊢
      simp only [List.map_cons, List.pairwise_cons] at hs ⊢
      exact hs.2.2
    have hmin : ∀ i, HasId (r₂ :: rest) i → 2 ≤ (series (r₂ :: rest) i).length := by
      unfold shiftMatrices at hLR
      split_ifs at hLR with hm
      intro i hi
      exact_mod_cast (checkMinTimesteps_iff (c := r₂ :: rest) (by simp) 2).1 (by simpa using hm) i hi
    obtain ⟨L', R', h', _, hz⟩ := C03_shift_matrices_partial (by simp) hv' hmin (.inl hs')
    rw [hLR] at h'
    cases h'
    refine ⟨_, rfl, ?_⟩
    rw [snapshotPairs_cons, if_pos h01, snapshotPairs_cons, if_pos h12, hz]

/-- **C82 (the true part).** If the first series has exactly two samples, the first call uses exactly the consecutive pairs of the collection. -/
theorem C82_pairs_partial {V : Type} {r₀ r₁ : Row Int V} {rest : List (Row Int V)} (hv : Valid (r₀ :: r₁ :: rest)) (hs : IdsAscending (r₀ :: r₁ :: rest))
    (h01 : r₀.id = r₁.id) (h12 : ∀ r ∈ rest, r.id ≠ r₁.id) (h2 : ∀ i, HasId rest i → 2 ≤ (series rest i).length) :
    firstCallPairs (r₀ :: r₁ :: rest) = .ok (snapshotPairs (r₀ :: r₁ :: rest)) := by
  have hm : checkMinTimesteps (r₀ :: r₁ :: rest) 2 = true := by
    rw [checkMinTimesteps_iff (by simp)]
    rintro i ⟨r, hr, rfl⟩
    have hsub : ∀ i, (series rest i).length ≤ (series (r₀ :: r₁ :: rest) i).length := by
      intro i
      exact (List.Sublist.filter _ (show rest.Sublist (r₀ :: r₁ :: rest) by simp)).length_le
    simp only [List.mem_cons] at hr
    have h0 : 2 ≤ (series (r₀ :: r₁ :: rest) r₁.id).length := by simp [series, h01]
    rcases hr with rfl | rfl | hr
    · rw [h01]; exact_mod_cast h0
    · exact_mod_cast h0
    · exact_mod_cast (h2 r.id ⟨r, hr, rfl⟩).trans (hsub _)
  have hn : ¬ (r₀.id ≠ r₁.id) := by simpa using h01
  rcases rest with _ | ⟨r₂, rest⟩
  · simp [firstCallPairs, hm, h01, snapshotPairs, consecutive]
  · have hv' : Valid (r₂ :: rest) := hv.sublist (by simp)
    have hs' : IdsAscending (r₂ :: rest) := by
      unfold IdsAscending at hs ⊢
      simp only [List.map_cons, List.pairwise_cons] at hs ⊢
      exact hs.2.2
    obtain ⟨L', R', h', _, hz⟩ := C03_shift_matrices_partial (by simp) hv' h2 (.inl hs')
    have h3 : r₁.id ≠ r₂.id := fun h => h12 r₂ (by simp) h.symm
    rw [snapshotPairs_cons, if_pos h01, snapshotPairs_cons, if_neg h3, ← hz]
    simp [firstCallPairs, hm, h01, h']

example : firstCallPairs [⟨0, 0, 10⟩, ⟨0, 1, 11⟩, ⟨0, 2, 12⟩, ⟨0, 3, 13⟩] = .ok [(10, 11), (12, 13)] := by rfl

end Verif.Dmd
