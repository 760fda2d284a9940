import Verif.Edmd.ClosedProps
import Verif.Dmd.NoiseProps
/-! # Property C231: the prediction error of EDMD is bounded by the error of the dictionary -/

namespace Verif.Edmd

open Verif.Tsc Verif.Np Verif.Dyn Verif.Lin Verif.Dmd Matrix

variable {ι δ : Type} [Fintype ι] [Fintype δ] [DecidableEq δ]

/-! ### Specification -/

/-- The map `z ↦ z B` from the dictionary to the states stretches no vector by more than the factor `b`. -/
def DecodeLe (B : Matrix δ ι ℝ) (b : ℝ) : Prop := ∀ z : δ → ℝ, sqLen (z ᵥ* B) ≤ b ^ 2 * sqLen z

/-- On the set `S`, which the dynamics `F` do not leave, the states are recovered from the dictionary, and the error of one step of the model in the dictionary is at most `e`. -/
structure NearlyClosed (S : Set (ι → ℝ)) (F : (ι → ℝ) → (ι → ℝ)) (g : (ι → ℝ) → (δ → ℝ)) (K : Matrix δ δ ℝ) (B : Matrix δ ι ℝ) (e : ℝ) : Prop where
  stays : ∀ x ∈ S, F x ∈ S
  step : ∀ x ∈ S, sqLen (g (F x) - K *ᵥ g x) ≤ e ^ 2
  decode : ∀ x ∈ S, g x ᵥ* B = x

/-! ### Lemmas -/

omit [Fintype ι] in
/-- `EDMD.predict` of a fitted model from the initial conditions `X`. -/
theorem edmdPredict_content (g : (ι → ℝ) → (δ → ℝ)) (K : Matrix δ δ ℝ) (B : Matrix δ ι ℝ) (dt t0 : Int) (hdt : 0 < dt) (X : List (Row Int (ι → ℝ))) (hX : X ≠ [])
    (hnd : (X.map (·.id)).Nodup) (ks : List Nat) (hks : (0 :: ks).Pairwise (· < ·)) :
    ∃ d, edmdPredict g K B dt X (timesAt t0 dt (0 :: ks)) = .ok d ∧ Valid d ∧ (∀ i, HasId d i ↔ HasId X i) ∧
      ∀ r ∈ X, content d r.id = (0 :: ks).map (fun (s : Nat) => (t0 + s * dt, ((K ^ s) *ᵥ g r.val) ᵥ* B)) := by
  obtain ⟨d, hd, hvd, -, hid, hcon⟩ := C26_flowmap K dt t0 hdt (mapVal g X) (mapVal_ne_nil.2 hX) (by rw [mapVal_ids]; exact hnd) ks hks
  refine ⟨mapVal (fun z => z ᵥ* B) d, by simp only [edmdPredict, hd], mapVal_valid.2 hvd, fun i => ?_, ?_⟩
  · rw [mapVal_hasId, hid, mapVal_hasId]
  · intro r hr
    rw [mapVal_content, hcon ⟨r.id, r.time, g r.val⟩ (List.mem_map.2 ⟨r, hr, rfl⟩), List.map_map]
    rfl

omit [Fintype ι] in
theorem stays_iterate {S : Set (ι → ℝ)} {F : (ι → ℝ) → (ι → ℝ)} (h : ∀ x ∈ S, F x ∈ S) {x : ι → ℝ} (hx : x ∈ S) (n : Nat) : F^[n] x ∈ S := by
  induction n with
  | zero => exact hx
  | succ n ih => rw [Function.iterate_succ_apply']; exact h _ ih

/-! ### Property theorems -/

omit [Fintype ι] in
/-- **C231 (error).** For every dynamics `F`, every point-wise dictionary `g`, every system matrix and every map back, the prediction of `EDMD.predict` after `s` steps deviates from the state of the dynamics by the
error of the map back at that state and the errors of the single steps in the dictionary, each propagated by the system matrix and mapped back. -/
theorem C231_error (F : (ι → ℝ) → (ι → ℝ)) (g : (ι → ℝ) → (δ → ℝ)) (K : Matrix δ δ ℝ) (B : Matrix δ ι ℝ) (dt t0 : Int) (hdt : 0 < dt) (X : List (Row Int (ι → ℝ))) (hX : X ≠ [])
    (hnd : (X.map (·.id)).Nodup) (ks : List Nat) (hks : (0 :: ks).Pairwise (· < ·)) :
    ∃ d, edmdPredict g K B dt X (timesAt t0 dt (0 :: ks)) = .ok d ∧ Valid d ∧ (∀ i, HasId d i ↔ HasId X i) ∧
      ∀ r ∈ X, List.Forall₂ (fun (s : Nat) (q : Int × (ι → ℝ)) => q.1 = t0 + s * dt ∧
        F^[s] r.val - q.2 = (F^[s] r.val - g (F^[s] r.val) ᵥ* B) +
          (∑ j ∈ Finset.range s, (K ^ (s - 1 - j)) *ᵥ (g (F^[j + 1] r.val) - K *ᵥ g (F^[j] r.val))) ᵥ* B) (0 :: ks) (content d r.id) := by
  obtain ⟨d, h1, h2, h3, h4⟩ := edmdPredict_content g K B dt t0 hdt X hX hnd ks hks
  refine ⟨d, h1, h2, h3, fun r hr => ?_⟩
  rw [h4 r hr, List.forall₂_map_right_iff, List.forall₂_same]
  intro s _
  refine ⟨rfl, ?_⟩
  have := telescope K (fun j => g (F^[j] r.val)) s
  simp only [Function.iterate_zero, id_eq] at this
  rw [← this, sub_vecMul]
  abel

/-- **C231 (bound).** If the dictionary is closed under the dynamics up to an error `e` of one step, the system matrix stretches no vector by more than `L` and the map back none by more than `b`, then the squared
deviation of the prediction after `s` steps is at most `(b (1 + L + … + L^(s-1)) e)²`, from every state of `S`. -/
theorem C231_bound {S : Set (ι → ℝ)} {F : (ι → ℝ) → (ι → ℝ)} {g : (ι → ℝ) → (δ → ℝ)} {K : Matrix δ δ ℝ} {B : Matrix δ ι ℝ} {e : ℝ} (hcl : NearlyClosed S F g K B e)
    {L b : ℝ} (hL0 : 0 ≤ L) (hL : StretchLe K L) (hb : DecodeLe B b) (dt t0 : Int) (hdt : 0 < dt) (X : List (Row Int (ι → ℝ))) (hX : X ≠ []) (hnd : (X.map (·.id)).Nodup)
    (hXS : ∀ r ∈ X, r.val ∈ S) (ks : List Nat) (hks : (0 :: ks).Pairwise (· < ·)) :
    ∃ d, edmdPredict g K B dt X (timesAt t0 dt (0 :: ks)) = .ok d ∧ Valid d ∧ (∀ i, HasId d i ↔ HasId X i) ∧
      ∀ r ∈ X, List.Forall₂ (fun (s : Nat) (q : Int × (ι → ℝ)) => q.1 = t0 + s * dt ∧ sqLen (F^[s] r.val - q.2) ≤ (b * (∑ j ∈ Finset.range s, L ^ j) * e) ^ 2) (0 :: ks) (content d r.id) := by
  obtain ⟨d, h1, h2, h3, h4⟩ := C231_error F g K B dt t0 hdt X hX hnd ks hks
  refine ⟨d, h1, h2, h3, fun r hr => (h4 r hr).imp fun s q hq => ⟨hq.1, ?_⟩⟩
  have hS := fun j => stays_iterate hcl.stays (hXS r hr) j
  rw [hq.2, hcl.decode _ (hS s), sub_self, zero_add]
  refine (hb _).trans ?_
  have hsum := sqLen_sum_le (n := s) (fun j => (K ^ (s - 1 - j)) *ᵥ (g (F^[j + 1] r.val) - K *ᵥ g (F^[j] r.val))) (fun j => L ^ (s - 1 - j)) (fun j => L ^ (s - 1 - j) * e ^ 2)
    (fun j => by positivity) (fun j => by positivity) (fun j _ => by
      refine (sqLen_stretch_pow hL _ _).trans ?_
      have h5 : sqLen (g (F^[j + 1] r.val) - K *ᵥ g (F^[j] r.val)) ≤ e ^ 2 := by
        rw [Function.iterate_succ_apply']; exact hcl.step _ (hS j)
      calc (L ^ 2) ^ (s - 1 - j) * sqLen (g (F^[j + 1] r.val) - K *ᵥ g (F^[j] r.val)) ≤ (L ^ 2) ^ (s - 1 - j) * e ^ 2 := mul_le_mul_of_nonneg_left h5 (by positivity)
        _ = L ^ (s - 1 - j) * (L ^ (s - 1 - j) * e ^ 2) := by rw [← pow_mul, mul_comm 2, pow_mul]; ring)
  have hrefl : ∑ j ∈ Finset.range s, L ^ (s - 1 - j) = ∑ j ∈ Finset.range s, L ^ j := Finset.sum_range_reflect (fun j => L ^ j) s
  rw [← Finset.sum_mul, hrefl] at hsum
  refine (mul_le_mul_of_nonneg_left hsum (sq_nonneg b)).trans (le_of_eq ?_)
  ring

/-- **C231 (contracting model).** If the system matrix contracts (`L < 1`), the deviation is bounded uniformly in the number of steps. -/
theorem C231_contracting {S : Set (ι → ℝ)} {F : (ι → ℝ) → (ι → ℝ)} {g : (ι → ℝ) → (δ → ℝ)} {K : Matrix δ δ ℝ} {B : Matrix δ ι ℝ} {e : ℝ} (he : 0 ≤ e) (hcl : NearlyClosed S F g K B e)
    {L b : ℝ} (hL0 : 0 ≤ L) (hL1 : L < 1) (hb0 : 0 ≤ b) (hL : StretchLe K L) (hb : DecodeLe B b) (dt t0 : Int) (hdt : 0 < dt) (X : List (Row Int (ι → ℝ))) (hX : X ≠ [])
    (hnd : (X.map (·.id)).Nodup) (hXS : ∀ r ∈ X, r.val ∈ S) (ks : List Nat) (hks : (0 :: ks).Pairwise (· < ·)) :
    ∃ d, edmdPredict g K B dt X (timesAt t0 dt (0 :: ks)) = .ok d ∧
      ∀ r ∈ X, List.Forall₂ (fun (s : Nat) (q : Int × (ι → ℝ)) => q.1 = t0 + s * dt ∧ sqLen (F^[s] r.val - q.2) ≤ (b * e / (1 - L)) ^ 2) (0 :: ks) (content d r.id) := by
  obtain ⟨d, h1, -, -, h4⟩ := C231_bound hcl hL0 hL hb dt t0 hdt X hX hnd hXS ks hks
  refine ⟨d, h1, fun r hr => (h4 r hr).imp fun s q hq => ⟨hq.1, hq.2.trans ?_⟩⟩
  have hg : ∑ j ∈ Finset.range s, L ^ j ≤ 1 / (1 - L) := by
    rw [geom_sum_eq hL1.ne, le_div_iff₀ (by linarith)]
    have : (L ^ s - 1) / (L - 1) * (1 - L) = 1 - L ^ s := by
      have : L - 1 ≠ 0 := by linarith
      field_simp; ring
    rw [this]
    have := pow_nonneg hL0 s
    linarith
  have hg0 : 0 ≤ ∑ j ∈ Finset.range s, L ^ j := Finset.sum_nonneg fun j _ => pow_nonneg hL0 j
  refine pow_le_pow_left₀ (by positivity) ?_ 2
  calc b * (∑ j ∈ Finset.range s, L ^ j) * e ≤ b * (1 / (1 - L)) * e := mul_le_mul_of_nonneg_right (mul_le_mul_of_nonneg_left hg hb0) he
    _ = b * e / (1 - L) := by ring

/-- **C231 (training data).** For the matrices of a fit: predicting a training series from its first state, the squared deviation from the data at the `s`-th sample is at most `b² (1 + L² + … + L^(2(s-1)))` times the
sum over the training data of the squared errors of one step in the dictionary, for any matrix `M`: what the best linear model of the dictionary cannot explain bounds the error.  The dictionary contains the
states (some `B₀` maps back to them). -/
theorem C231_training {k : TimeKind} {c : List (Row Int (ι → ℝ))} (hc : c ≠ []) (hv : Valid c) (hs : IdsAscending c ∨ EqualLengths c)
    (h2 : ∀ i, HasId c i → 2 ≤ (series c i).length) (hk : isConstDeltaTime k c = true) {g : (ι → ℝ) → (δ → ℝ)} {B₀ : Matrix δ ι ℝ} (hB₀ : ∀ r ∈ c, g r.val ᵥ* B₀ = r.val)
    {K : Matrix δ δ ℝ} {B : Matrix δ ι ℝ} (h : FitsEdmd k g c K B) {L b : ℝ} (hL : StretchLe K L) (hb : DecodeLe B b) (M : Matrix δ δ ℝ)
    (dt t0 : Int) (hdt : 0 < dt) (X : List (Row Int (ι → ℝ))) (hX : X ≠ []) (hnd : (X.map (·.id)).Nodup) (hfirst : ∀ r ∈ X, HasId c r.id ∧ r.val = sample c r.id 0)
    (ks : List Nat) (hks : (0 :: ks).Pairwise (· < ·)) :
    ∃ d, edmdPredict g K B dt X (timesAt t0 dt (0 :: ks)) = .ok d ∧ Valid d ∧ (∀ i, HasId d i ↔ HasId X i) ∧
      ∀ r ∈ X, List.Forall₂ (fun (s : Nat) (q : Int × (ι → ℝ)) => q.1 = t0 + s * dt ∧ (s < (series c r.id).length → sqLen (sample c r.id s - q.2) ≤
        b ^ 2 * ((∑ j ∈ Finset.range s, (L ^ 2) ^ j) * ((snapshotPairs c).map (fun p => sqLen (g p.2 - M *ᵥ g p.1))).sum))) (0 :: ks) (content d r.id) := by
  have hrowB : ∀ r ∈ c, g r.val ᵥ* B = r.val := by
    have h0 : (Matrix.of (fun (r : Fin c.length) => g c[r].val)) * B₀ = Matrix.of (fun (r : Fin c.length) => c[r].val) := by
      ext r j
      exact congrFun (hB₀ c[r] (List.getElem_mem _)) j
    have h1 := h.2.solves h0
    intro r hr
    obtain ⟨i, hi, rfl⟩ := List.getElem_of_mem hr
    funext j
    exact congrFun (congrFun h1 ⟨i, hi⟩) j
  have hsam : ∀ i n, n < (series c i).length → sample (mapVal g c) i n = g (sample c i n) ∧ g (sample c i n) ᵥ* B = sample c i n := by
    intro i n hn
    have e1 : (series c i)[n]? = some (series c i)[n] := List.getElem?_eq_getElem hn
    have hm : (series c i)[n] ∈ c := List.mem_of_mem_filter (List.getElem_mem hn)
    refine ⟨?_, ?_⟩
    · unfold sample
      rw [mapVal_series]
      unfold mapVal
      rw [List.getElem?_map, e1]; rfl
    · unfold sample
      rw [e1]
      exact hrowB _ hm
  obtain ⟨d, h3, h4, h5, h6⟩ := edmdPredict_content g K B dt t0 hdt X hX hnd ks hks
  refine ⟨d, h3, h4, h5, fun r hr => ?_⟩
  rw [h6 r hr, List.forall₂_map_right_iff, List.forall₂_same]
  intro s _
  refine ⟨rfl, fun hsl => ?_⟩
  obtain ⟨hid, hval⟩ := hfirst r hr
  have hdev : sample c r.id s - ((K ^ s) *ᵥ g r.val) ᵥ* B = (∑ j ∈ Finset.range s, (K ^ (s - 1 - j)) *ᵥ (sample (mapVal g c) r.id (j + 1) - K *ᵥ sample (mapVal g c) r.id j)) ᵥ* B := by
    rw [← telescope K (sample (mapVal g c) r.id) s, sub_vecMul, (hsam _ _ hsl).1, (hsam _ _ hsl).2, (hsam _ 0 (by omega)).1, hval]
  simp only
  rw [hdev]
  refine (hb _).trans (mul_le_mul_of_nonneg_left ?_ (sq_nonneg b))
  have hbound := sqLen_sum_le (n := s) (fun j => (K ^ (s - 1 - j)) *ᵥ (sample (mapVal g c) r.id (j + 1) - K *ᵥ sample (mapVal g c) r.id j)) (fun j => (L ^ 2) ^ (s - 1 - j))
    (fun j => sqLen (sample (mapVal g c) r.id (j + 1) - K *ᵥ sample (mapVal g c) r.id j)) (fun j => by positivity) (fun j => sqLen_nonneg _) (fun j _ => sqLen_stretch_pow hL _ _)
  have hrefl : ∑ j ∈ Finset.range s, (L ^ 2) ^ (s - 1 - j) = ∑ j ∈ Finset.range s, (L ^ 2) ^ j := Finset.sum_range_reflect (fun j => (L ^ 2) ^ j) s
  rw [hrefl] at hbound
  refine hbound.trans (mul_le_mul_of_nonneg_left ?_ (Finset.sum_nonneg fun j _ => by positivity))
  have hcm : mapVal g c ≠ [] := mapVal_ne_nil.2 hc
  have hvm : Valid (mapVal g c) := mapVal_valid.2 hv
  have hsm : IdsAscending (mapVal g c) ∨ EqualLengths (mapVal g c) := by
    rcases hs with hs | hs
    · exact Or.inl (mapVal_idsAscending.2 hs)
    · exact Or.inr (mapVal_equalLengths.2 hs)
  have h2m : ∀ i, HasId (mapVal g c) i → 2 ≤ (series (mapVal g c) i).length := fun i hi => by rw [mapVal_series, mapVal_length]; exact h2 i (mapVal_hasId.1 hi)
  have hkm : isConstDeltaTime k (mapVal g c) = true := by rw [mapVal_isConstDeltaTime]; exact hk
  have htot : ∀ M : Matrix δ δ ℝ, totalError (weightsOf none (snapshotPairs (mapVal g c)).length) (snapshotPairs (mapVal g c)) M =
      ((snapshotPairs (mapVal g c)).map (fun p => stepError M p.1 p.2)).sum := by
    intro M
    unfold totalError weightsOf
    generalize snapshotPairs (mapVal g c) = ps
    induction ps with
    | nil => simp
    | cons p ps ih => simpa [List.replicate_succ] using ih
  have hmin := (C30_least_squares_partial hcm hvm hsm h2m hkm none (by simp) K).1 h.1 M
  rw [htot, htot] at hmin
  refine ((steps_le_total hvm (mapVal_hasId.2 hid) K (by rw [mapVal_series, mapVal_length]; exact hsl)).trans hmin).trans (le_of_eq ?_)
  rw [mapVal_snapshotPairs, List.map_map]
  rfl

/-! ### The hypotheses are met -/

/-- The nonlinear dynamics `x ↦ x/2 + x²/8` on `[-1, 1]` with the dictionary of the state alone, which is not closed: the error of one step is up to `1/8`. -/
theorem exNearly : NearlyClosed {x : Fin 1 → ℝ | |x 0| ≤ 1} (fun x _ => x 0 / 2 + x 0 ^ 2 / 8) id (!![1 / 2] : Matrix (Fin 1) (Fin 1) ℝ) 1 (1 / 8) := by
  refine ⟨fun x hx => ?_, fun x hx => ?_, fun x _ => by simp⟩
  · simp only [Set.mem_ofPred_eq] at hx ⊢
    obtain ⟨h1, h2⟩ := abs_le.mp hx
    rw [abs_le]
    constructor <;> nlinarith [sq_nonneg (x 0), mul_nonneg (by linarith : 0 ≤ 1 - x 0) (by linarith : 0 ≤ 1 + x 0)]
  · simp only [Set.mem_ofPred_eq] at hx
    obtain ⟨h1, h2⟩ := abs_le.mp hx
    have e : sqLen ((id (fun _ => x 0 / 2 + x 0 ^ 2 / 8) : Fin 1 → ℝ) - (!![1 / 2] : Matrix (Fin 1) (Fin 1) ℝ) *ᵥ id x) = (x 0 ^ 2 / 8) ^ 2 := by
      simp [sqLen, dotProduct]; ring
    rw [e]
    have hb : x 0 ^ 2 ≤ 1 := by nlinarith
    exact pow_le_pow_left₀ (by positivity) (by linarith) 2

/-- The prediction from `x = 1` deviates by at most `1/4` at every number of steps. -/
example : ∃ d, edmdPredict id (!![1 / 2] : Matrix (Fin 1) (Fin 1) ℝ) 1 2 [⟨3, 0, ![1]⟩] (timesAt 0 2 [0, 1, 5]) = .ok d ∧
    List.Forall₂ (fun (s : Nat) (q : Int × (Fin 1 → ℝ)) => q.1 = 0 + s * 2 ∧ sqLen ((fun x _ => x 0 / 2 + x 0 ^ 2 / 8 : (Fin 1 → ℝ) → (Fin 1 → ℝ))^[s] ![1] - q.2) ≤ (1 * (1 / 8) / (1 - 1 / 2)) ^ 2)
      [0, 1, 5] (content d 3) := by
  obtain ⟨d, h1, h2⟩ := C231_contracting (by norm_num) exNearly (L := 1 / 2) (b := 1) (by norm_num) (by norm_num) (by norm_num)
    (fun v => by simp [sqLen, mulVec, dotProduct]; nlinarith) (fun z => by simp) 2 0 (by norm_num) [⟨3, 0, ![1]⟩] (by simp) (by simp) (by simp) [1, 5] (by decide)
  exact ⟨d, h1, h2 _ (List.mem_singleton.2 rfl)⟩

/-- Training data that follow no linear system (`exNoisy`), with the dictionary of the state alone: all hypotheses of `C231_training` hold. -/
example : exNoisy ≠ [] ∧ Valid exNoisy ∧ IdsAscending exNoisy ∧ (∀ i, HasId exNoisy i → 2 ≤ (series exNoisy i).length) ∧ isConstDeltaTime .int exNoisy = true ∧
    (∀ r ∈ exNoisy, id r.val ᵥ* (1 : Matrix (Fin 1) (Fin 1) ℝ) = r.val) ∧ FitsEdmd .int id exNoisy (!![17 / 29] : Matrix (Fin 1) (Fin 1) ℝ) 1 ∧
    (∀ r ∈ ([⟨5, 0, ![2]⟩, ⟨1, 0, ![4]⟩] : List (Row Int (Fin 1 → ℝ))), HasId exNoisy r.id ∧ r.val = sample exNoisy r.id 0) := by
  have hne : exNoisy ≠ [] := by simp [exNoisy]
  have hv : Valid exNoisy := by
    rw [valid_iff]; constructor
    · decide
    · unfold Before; decide
  have ha : IdsAscending exNoisy := by unfold IdsAscending; decide
  have h2 : ∀ i, HasId exNoisy i → 2 ≤ (series exNoisy i).length := by
    rintro i ⟨r, hr, rfl⟩
    simp only [exNoisy, List.mem_cons, List.not_mem_nil, or_false] at hr
    rcases hr with rfl | rfl | rfl | rfl | rfl <;> decide
  have hk : isConstDeltaTime .int exNoisy = true := by decide
  have hps : snapshotPairs exNoisy = [(![4], ![3]), (![3], ![1]), (![2], ![1])] := rfl
  refine ⟨hne, hv, ha, h2, hk, by simp, ⟨?_, projection_isLstsq (by simp)⟩, ?_⟩
  · have e : mapVal id exNoisy = exNoisy := by simp [mapVal, exNoisy]
    rw [e, C30_least_squares_partial hne hv (Or.inl ha) h2 hk none (by simp)]
    intro M
    rw [hps]
    simp [totalError, weightsOf, stepError, List.replicate_succ, Matrix.mulVec, dotProduct]
    nlinarith [sq_nonneg (29 * M 0 0 - 17)]
  · intro r hr
    simp only [List.mem_cons, List.not_mem_nil, or_false] at hr
    rcases hr with rfl | rfl
    · exact ⟨⟨⟨5, 10, ![2]⟩, by simp [exNoisy], rfl⟩, rfl⟩
    · exact ⟨⟨⟨1, 0, ![4]⟩, by simp [exNoisy], rfl⟩, rfl⟩

end Verif.Edmd
