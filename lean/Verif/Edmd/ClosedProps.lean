import Verif.Edmd.Predict
import Verif.Dmd.StandardProps
/-! # Property C84: EDMD is exact for dictionaries that are closed under the dynamics -/

namespace Verif.Edmd

open Verif.Tsc Verif.Np Verif.Dyn Verif.Lin Verif.Dmd Matrix

variable {ι δ : Type} [Fintype ι] [Fintype δ] [DecidableEq δ]

/-- The dictionary `g` is closed under the dynamics `F` on the set `S` of states: its values after one step are a linear function `K₀` of its values before, and
the state is a linear function `B₀` of the dictionary. -/
structure ClosedDictionary (S : Set (ι → ℝ)) (F : (ι → ℝ) → (ι → ℝ)) (g : (ι → ℝ) → (δ → ℝ)) (K₀ : Matrix δ δ ℝ) (B₀ : Matrix δ ι ℝ) : Prop where
  stays : ∀ x ∈ S, F x ∈ S
  step : ∀ x ∈ S, g (F x) = K₀ *ᵥ g x
  decode : ∀ x ∈ S, g x ᵥ* B₀ = x

/-- A projection that returns the states exactly is also a least squares inverse map. -/
theorem projection_isLstsq {α : Type} [Fintype α] {G : Matrix α δ ℝ} {X : Matrix α ι ℝ} {P : Matrix δ ι ℝ} (h : G * P = X) : IsLstsqM G X P := by
  intro Z
  rw [h, sub_self]
  have h0 : sqSum (0 : Matrix α ι ℝ) = 0 := sqSum_eq_zero.2 rfl
  rw [h0]
  exact sqSum_nonneg _

theorem fst_mem_of_snapshotPairs {τ V : Type} {c : List (Row τ V)} {p : V × V} (hp : p ∈ snapshotPairs c) : ∃ r ∈ c, r.val = p.1 := by
  unfold snapshotPairs at hp
  obtain ⟨q, hq, rfl⟩ := List.mem_map.1 hp
  have hq := (List.mem_filter.1 hq).1
  have : q.1 ∈ (consecutive c).map (·.1) := List.mem_map.2 ⟨q, hq, rfl⟩
  have hsub : ∀ (l : List (Row τ V)), ∀ q ∈ consecutive l, q.1 ∈ l := by
    intro l
    induction l with
    | nil => intro q hq; simp [consecutive] at hq
    | cons a l ih =>
      cases l with
      | nil => intro q hq; simp [consecutive] at hq
      | cons b l =>
        intro q hq
        rcases List.mem_cons.1 hq with rfl | hq
        · exact List.mem_cons_self
        · exact List.mem_cons_of_mem _ (ih q hq)
  exact ⟨q.1, hsub c q hq, rfl⟩

theorem closed_iterate {S : Set (ι → ℝ)} {F : (ι → ℝ) → (ι → ℝ)} {g : (ι → ℝ) → (δ → ℝ)} {K₀ : Matrix δ δ ℝ} {B₀ : Matrix δ ι ℝ}
    (h : ClosedDictionary S F g K₀ B₀) (k : Nat) : ∀ x ∈ S, F^[k] x ∈ S ∧ (K₀ ^ k) *ᵥ g x = g (F^[k] x) := by
  induction k with
  | zero => intro x hx; simp [hx]
  | succ k ih =>
    intro x hx
    have h1 := ih (F x) (h.stays x hx)
    rw [Function.iterate_succ_apply, pow_succ, ← Matrix.mulVec_mulVec, ← h.step x hx]
    exact h1

/-- **C84 (recovery).** If the data are trajectories of `F`, the dictionary is closed, and the dictionary values of the samples with a successor span the dictionary space,
then every fitted model has the exact system matrix and the exact inverse map. -/
theorem C84_recovery_partial {k : TimeKind} {c : List (Row Int (ι → ℝ))} (hc : c ≠ []) (hv : Valid c) (hs : IdsAscending c ∨ EqualLengths c)
    (h2 : ∀ i, HasId c i → 2 ≤ (series c i).length) {S : Set (ι → ℝ)} {F : (ι → ℝ) → (ι → ℝ)} {g : (ι → ℝ) → (δ → ℝ)} {K₀ : Matrix δ δ ℝ} {B₀ : Matrix δ ι ℝ}
    (hcl : ClosedDictionary S F g K₀ B₀) (hS : ∀ r ∈ c, r.val ∈ S) (hF : ∀ p ∈ snapshotPairs c, p.2 = F p.1)
    (hspan : Submodule.span ℝ {z | ∃ p ∈ snapshotPairs c, g p.1 = z} = ⊤) {K : Matrix δ δ ℝ} {B : Matrix δ ι ℝ} (h : FitsEdmd k g c K B) :
    K = K₀ ∧ B = B₀ := by
  constructor
  · apply C30_recovery_partial (mapVal_ne_nil.2 hc) (mapVal_valid.2 hv)
      (by rcases hs with hs | hs
          · exact Or.inl (mapVal_idsAscending.2 hs)
          · exact Or.inr (mapVal_equalLengths.2 hs))
      (fun i hi => by rw [mapVal_series, mapVal_length]; exact h2 i (mapVal_hasId.1 hi)) none (by simp) K₀ _ _ h.1
    · rw [mapVal_snapshotPairs]
      intro p hp
      obtain ⟨q, hq, rfl⟩ := List.mem_map.1 hp
      obtain ⟨r, hr, hrq⟩ := fst_mem_of_snapshotPairs hq
      simp only [hF q hq]
      exact hcl.step q.1 (hrq ▸ hS r hr)
    · rw [← hspan, mapVal_snapshotPairs]
      congr 1
      ext z
      simp only [List.mem_map, Set.mem_setOf_eq]
      constructor
      · rintro ⟨_, ⟨q, hq, rfl⟩, rfl⟩; exact ⟨q, hq, rfl⟩
      · rintro ⟨q, hq, rfl⟩; exact ⟨_, ⟨q, hq, rfl⟩, rfl⟩
  · have hrow : ∀ r ∈ c, g r.val ᵥ* B₀ = r.val := fun r hr => hcl.decode _ (hS r hr)
    have h0 : (Matrix.of (fun (r : Fin c.length) => g c[r].val)) * B₀ = Matrix.of (fun (r : Fin c.length) => c[r].val) := by
      ext r j
      exact congrFun (hrow c[r] (List.getElem_mem _)) j
    have h1 := h.2.solves h0
    have hrowB : ∀ r ∈ c, g r.val ᵥ* B = r.val := by
      intro r hr
      obtain ⟨i, hi, rfl⟩ := List.getElem_of_mem hr
      funext j
      exact congrFun (congrFun h1 ⟨i, hi⟩) j
    have hlin : Bᵀ.mulVecLin = B₀ᵀ.mulVecLin := by
      apply LinearMap.ext_on (s := {z | ∃ p ∈ snapshotPairs c, g p.1 = z}) hspan
      rintro z ⟨p, hp, rfl⟩
      obtain ⟨r, hr, hrp⟩ := fst_mem_of_snapshotPairs hp
      simp only [Matrix.mulVecLin_apply, Matrix.mulVec_transpose]
      rw [← hrp, hrowB r hr, hrow r hr]
    have : Bᵀ = B₀ᵀ := by
      apply Matrix.mulVec_injective
      funext z
      exact LinearMap.congr_fun hlin z
    exact Matrix.transpose_injective this

/-- **C84 (prediction).** The fitted model predicts, from any initial conditions in `S` (whether or not they are training data) and for any number of steps, exactly the states
of the nonlinear system. -/
theorem C84_prediction_partial {k : TimeKind} {c : List (Row Int (ι → ℝ))} (hc : c ≠ []) (hv : Valid c) (hs : IdsAscending c ∨ EqualLengths c)
    (h2 : ∀ i, HasId c i → 2 ≤ (series c i).length) {S : Set (ι → ℝ)} {F : (ι → ℝ) → (ι → ℝ)} {g : (ι → ℝ) → (δ → ℝ)} {K₀ : Matrix δ δ ℝ} {B₀ : Matrix δ ι ℝ}
    (hcl : ClosedDictionary S F g K₀ B₀) (hS : ∀ r ∈ c, r.val ∈ S) (hF : ∀ p ∈ snapshotPairs c, p.2 = F p.1)
    (hspan : Submodule.span ℝ {z | ∃ p ∈ snapshotPairs c, g p.1 = z} = ⊤) {K : Matrix δ δ ℝ} {B : Matrix δ ι ℝ} (h : FitsEdmd k g c K B)
    (dt t0 : Int) (hdt : 0 < dt) (X : List (Row Int (ι → ℝ))) (hX : X ≠ []) (hnd : (X.map (·.id)).Nodup) (hXS : ∀ r ∈ X, r.val ∈ S)
    (ks : List Nat) (hks : (0 :: ks).Pairwise (· < ·)) :
    ∃ d, edmdPredict g K B dt X (timesAt t0 dt (0 :: ks)) = .ok d ∧ Valid d ∧ (∀ i, HasId d i ↔ HasId X i) ∧
      ∀ r ∈ X, content d r.id = (0 :: ks).map (fun (s : Nat) => (t0 + s * dt, F^[s] r.val)) := by
  obtain ⟨rfl, rfl⟩ := C84_recovery_partial hc hv hs h2 hcl hS hF hspan h
  obtain ⟨d, hd, hvd, -, hid, hcon⟩ := C26_flowmap K dt t0 hdt (mapVal g X) (mapVal_ne_nil.2 hX) (by rw [mapVal_ids]; exact hnd) ks hks
  refine ⟨mapVal (fun z => z ᵥ* B) d, by simp only [edmdPredict, hd], mapVal_valid.2 hvd, fun i => ?_, ?_⟩
  · rw [mapVal_hasId, hid, mapVal_hasId]
  · intro r hr
    rw [mapVal_content, hcon ⟨r.id, r.time, g r.val⟩ (List.mem_map.2 ⟨r, hr, rfl⟩), List.map_map]
    apply List.map_congr_left
    intro s _
    obtain ⟨h3, h4⟩ := closed_iterate hcl s r.val (hXS r hr)
    simp only [Function.comp, h4, hcl.decode _ h3]

theorem toC_vecMul (B : Matrix δ ι ℝ) (z : δ → ℝ) : (toCM B)ᵀ *ᵥ toC z = toC (z ᵥ* B) := by
  funext j
  simp only [mulVec, dotProduct, vecMul, toC, toCM, Matrix.transpose_apply, Matrix.map_apply, Complex.ofReal_sum, Complex.ofReal_mul]
  exact Finset.sum_congr rfl (fun i _ => mul_comm _ _)

/-- **C84 (modes).** With a basis of eigenvectors, prediction through Koopman modes gives the same result as decoding the evolved dictionary states. -/
theorem C84_modes (g : (ι → ℝ) → (δ → ℝ)) {K : Matrix δ δ ℝ} (B : Matrix δ ι ℝ) {ev : δ → ℂ} {Ψ : Matrix δ δ ℂ} (hdiag : Diagonalises K ev Ψ)
    {left : Option (Matrix δ δ ℂ)} (hl : left = none ∨ left = leftEigenvectors K ev Ψ) (state : (δ → ℝ) → (δ → ℂ))
    (hb : ∀ z, IsSpectralState left Ψ (toC z) (state z)) (dt : Int) (X : List (Row Int (ι → ℝ))) (times : List Int) :
    edmdPredictSpectral g Ψ ev state B dt X times = edmdPredict g K B dt X times := by
  classical
  unfold edmdPredictSpectral edmdPredict predictMatrix
  have : (fun ics norm => flowmapSpectral ((toCM B)ᵀ * Ψ) ev (ics.map state) norm dt) =
      fun ics norm => (flowmapMatrix K ics norm dt).map (·.map (fun z => z ᵥ* B)) := by
    funext ics norm
    unfold flowmapSpectral flowmapMatrix
    simp only [List.map_map]
    apply List.map_congr_left
    intro z _
    simp only [Function.comp, List.map_map]
    apply List.map_congr_left
    intro t _
    simp only [Function.comp]
    rw [← diag_mulVec (fun i => ev i ^ stepCount dt t) (state z), Matrix.mulVec_mulVec, Matrix.mul_assoc, hdiag.pow, ← Matrix.mulVec_mulVec, ← Matrix.mulVec_mulVec,
      spectralState_coord hdiag hl (hb z), toCM_pow, toCM_mulVec', toC_vecMul, reV_toC]
  rw [this, evolveFrame_map]
  cases evolveFrame (mapVal g X) times (fun ics norm => flowmapMatrix K ics norm dt) with
  | error e => rfl
  | ok d => rfl

/-- A nonlinear system with a closed dictionary: `(x, y) ↦ (2 x, 3 y + x²)` and `(x, y, x²)`. -/
def exF (x : Fin 2 → ℝ) : Fin 2 → ℝ := ![2 * x 0, 3 * x 1 + x 0 ^ 2]

/-- Its dictionary. -/
def exG (x : Fin 2 → ℝ) : Fin 3 → ℝ := ![x 0, x 1, x 0 ^ 2]

/-- Four samples of one trajectory. -/
def exC : List (Row Int (Fin 2 → ℝ)) := [⟨3, 0, ![1, 0]⟩, ⟨3, 5, ![2, 1]⟩, ⟨3, 10, ![4, 7]⟩, ⟨3, 15, ![8, 37]⟩]

theorem exC_pairs : snapshotPairs exC = [(![1, 0], ![2, 1]), (![2, 1], ![4, 7]), (![4, 7], ![8, 37])] := rfl

/-- non-vacuity of `C84_recovery_partial` and `C84_prediction_partial` -/
example : Valid exC ∧ IdsAscending exC ∧ (∀ i, HasId exC i → 2 ≤ (series exC i).length) ∧
    ClosedDictionary Set.univ exF exG !![2, 0, 0; 0, 3, 1; 0, 0, 4] !![1, 0; 0, 1; 0, 0] ∧ (∀ p ∈ snapshotPairs exC, p.2 = exF p.1) ∧
    Submodule.span ℝ {z | ∃ p ∈ snapshotPairs exC, exG p.1 = z} = ⊤ ∧ (∃ K B, FitsEdmd .int exG exC K B) := by
  have hv : Valid exC := by rw [valid_iff]; exact ⟨by decide, by unfold Before; decide⟩
  have h2 : ∀ i, HasId exC i → 2 ≤ (series exC i).length := by
    rintro i ⟨r, hr, rfl⟩
    simp only [exC, List.mem_cons, List.not_mem_nil, or_false] at hr
    rcases hr with rfl | rfl | rfl | rfl <;> decide
  refine ⟨hv, by unfold IdsAscending; decide, h2, ⟨fun _ _ => trivial, ?_, ?_⟩, ?_, ?_, ?_⟩
  · intro x _
    funext i
    fin_cases i <;> simp [exF, exG, Matrix.mulVec, dotProduct, Fin.sum_univ_three] <;> ring
  · intro x _
    funext i
    fin_cases i <;> simp [exG, Matrix.vecMul, dotProduct, Fin.sum_univ_three]
  · rw [exC_pairs]
    intro p hp
    simp only [List.mem_cons, List.not_mem_nil, or_false] at hp
    rcases hp with rfl | rfl | rfl <;> funext i <;> fin_cases i <;> norm_num [exF]
  · rw [eq_top_iff]
    intro z _
    have m1 : (![1, 0, 1] : Fin 3 → ℝ) ∈ Submodule.span ℝ {z | ∃ p ∈ snapshotPairs exC, exG p.1 = z} :=
      Submodule.subset_span ⟨(![1, 0], ![2, 1]), by rw [exC_pairs]; simp, by funext i; fin_cases i <;> norm_num [exG]⟩
    have m2 : (![2, 1, 4] : Fin 3 → ℝ) ∈ Submodule.span ℝ {z | ∃ p ∈ snapshotPairs exC, exG p.1 = z} :=
      Submodule.subset_span ⟨(![2, 1], ![4, 7]), by rw [exC_pairs]; simp, by funext i; fin_cases i <;> norm_num [exG]⟩
    have m3 : (![4, 7, 16] : Fin 3 → ℝ) ∈ Submodule.span ℝ {z | ∃ p ∈ snapshotPairs exC, exG p.1 = z} :=
      Submodule.subset_span ⟨(![4, 7], ![8, 37]), by rw [exC_pairs]; simp, by funext i; fin_cases i <;> norm_num [exG]⟩
    have : z = (6 * z 0 + 8 * z 1 - 5 * z 2) • (![1, 0, 1] : Fin 3 → ℝ) + (-(7 / 2) * z 0 - 6 * z 1 + 7 / 2 * z 2) • (![2, 1, 4] : Fin 3 → ℝ)
        + (1 / 2 * z 0 + z 1 - 1 / 2 * z 2) • (![4, 7, 16] : Fin 3 → ℝ) := by
      funext i; fin_cases i <;> simp <;> ring
    rw [this]
    exact add_mem (add_mem (Submodule.smul_mem _ _ m1) (Submodule.smul_mem _ _ m2)) (Submodule.smul_mem _ _ m3)
  · obtain ⟨K, hK⟩ := C30_exists (c := mapVal exG exC) (k := .int) (by simp [exC]) (fun i hi => by rw [mapVal_series, mapVal_length]; exact h2 i (mapVal_hasId.1 hi))
      (by rw [mapVal_isConstDeltaTime]; decide)
    obtain ⟨B, hB⟩ := exists_normal (Matrix.of (fun (r : Fin exC.length) => exG exC[r].val)) (Matrix.of (fun (r : Fin exC.length) => exC[r].val))
    exact ⟨K, B, hK, (isLstsqM_iff _ _ _).2 hB⟩

/-- **C84 is violated for IDs that do not ascend.** The data are trajectories of `x' = 2 x`, the identity is a closed dictionary and its values span the space, a fit exists, but no fit has the exact
system matrix (cf. `C30_order_violated`). -/
theorem C84_order_violated : ∃ (c : List (Row Int (Fin 1 → ℝ))) (F : (Fin 1 → ℝ) → (Fin 1 → ℝ)) (K₀ B₀ : Matrix (Fin 1) (Fin 1) ℝ), Valid c ∧ (∀ i, HasId c i → 2 ≤ (series c i).length) ∧
    ClosedDictionary Set.univ F id K₀ B₀ ∧ (∀ p ∈ snapshotPairs c, p.2 = F p.1) ∧ Submodule.span ℝ {z | ∃ p ∈ snapshotPairs c, id p.1 = z} = ⊤ ∧
    (∃ K B, FitsEdmd .int id c K B) ∧ ∀ K B, FitsEdmd .int id c K B → K ≠ K₀ := by
  obtain ⟨c, A, hv, h2, hA, hspan, ⟨K, hK⟩, hn⟩ := C30_order_violated
  have hid : mapVal id c = c := by simp [mapVal]
  refine ⟨c, fun x => A *ᵥ x, A, 1, hv, h2, ⟨fun _ _ => trivial, fun x _ => rfl, fun x _ => by simp⟩, hA, hspan, ⟨K, 1, ?_, projection_isLstsq (by simp)⟩, ?_⟩
  · rw [hid]; exact hK
  · rintro K B ⟨h, -⟩ rfl
    rw [hid] at h
    exact hn h

end Verif.Edmd
