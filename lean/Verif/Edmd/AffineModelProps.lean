import Verif.Edmd.AutoregressiveProps
import Verif.Dyn.StabilityProps
/-! # Property C250: EDMD with the states and a constant is the affine model fitted by least squares -/

namespace Verif.Edmd

open Verif.Tsc Verif.Np Verif.Dyn Verif.Lin Verif.Dmd Matrix

variable {ι : Type} [Fintype ι] [DecidableEq ι]

/-! ## Specification -/

/-- The dictionary of `TSCIdentity(include_const=True)` (datafold/dynfold/transform.py 236-375): the states and a last feature with the constant value one. -/
def withConst (x : ι → ℝ) : ι ⊕ Unit → ℝ := Sum.elim x (fun _ => 1)

/-- One step of the affine model. -/
def affineStep (A : Matrix ι ι ℝ) (b x : ι → ℝ) : ι → ℝ := A *ᵥ x + b

/-- The sum of squared one-step errors of the affine model over all samples with a successor in their time series. -/
def affineError (c : List (Row Int (ι → ℝ))) (A : Matrix ι ι ℝ) (b : ι → ℝ) : ℝ := ((snapshotPairs c).map (fun p => ∑ i, (p.2 i - affineStep A b p.1 i) ^ 2)).sum

/-- `A` and `b` are least squares coefficients of an affine model. -/
def FitsAffine (c : List (Row Int (ι → ℝ))) (A : Matrix ι ι ℝ) (b : ι → ℝ) : Prop := ∀ A' b', affineError c A b ≤ affineError c A' b'

/-- No hyperplane contains all samples with a successor: the only affine function that vanishes at all of them is zero. -/
def NoHyperplane (c : List (Row Int (ι → ℝ))) : Prop := ∀ (q : ι → ℝ) (s : ℝ), (∀ p ∈ snapshotPairs c, q ⬝ᵥ p.1 = s) → q = 0 ∧ s = 0

/-- The prediction `d` holds, for every initial condition and every requested time value, the state of the affine model after the number of steps since `t0`, and nothing else. -/
def AffinePrediction (A : Matrix ι ι ℝ) (b : ι → ℝ) (dt t0 : Int) (X : List (Row Int (ι → ℝ))) (times : List Int) (d : List (Row Int (ι → ℝ))) : Prop :=
  (∀ x ∈ X, ∀ t ∈ times, ⟨x.id, t, (affineStep A b)^[stepCount dt (t - t0)] x.val⟩ ∈ d) ∧
    ∀ r ∈ d, t0 ≤ r.time ∧ ∃ x ∈ X, x.id = r.id ∧ r.val = (affineStep A b)^[stepCount dt (r.time - t0)] x.val

/-! ## Helper lemmas -/

/-- The system matrix of the affine model for the dictionary. -/
def affineMatrix (A : Matrix ι ι ℝ) (b : ι → ℝ) : Matrix (ι ⊕ Unit) (ι ⊕ Unit) ℝ := Matrix.fromBlocks A (Matrix.of (fun i _ => b i)) 0 1

/-- The projection to the states. -/
def statePart : Matrix (ι ⊕ Unit) ι ℝ := Matrix.of (fun r j => Sum.elim (fun i => if i = j then (1 : ℝ) else 0) (fun _ => 0) r)

omit [DecidableEq ι] in
theorem dot_withConst (q : ι ⊕ Unit → ℝ) (x : ι → ℝ) : q ⬝ᵥ withConst x = (fun i => q (.inl i)) ⬝ᵥ x + q (.inr ()) := by
  simp [dotProduct, withConst, Fintype.sum_sum_type]

theorem affine_closed (A : Matrix ι ι ℝ) (b : ι → ℝ) : ClosedDictionary Set.univ (affineStep A b) withConst (affineMatrix A b) statePart := by
  refine ⟨fun _ _ => trivial, fun x _ => ?_, fun x _ => ?_⟩
  · funext r
    rcases r with i | u
    · change A.mulVec x i + b i = affineMatrix A b (.inl i) ⬝ᵥ withConst x
      rw [dot_withConst]
      rfl
    · change (1 : ℝ) = affineMatrix A b (.inr u) ⬝ᵥ withConst x
      rw [dot_withConst]
      simp [affineMatrix, dotProduct]
  · funext j
    simp [Matrix.vecMul, dotProduct, withConst, statePart, Fintype.sum_sum_type]

omit [DecidableEq ι] in
theorem affineError_eq (c : List (Row Int (ι → ℝ))) (A : Matrix ι ι ℝ) (b : ι → ℝ) :
    affineError c A b = ∑ i, featureError (snapshotPairs (mapVal withConst c)) (.inl i) (affineMatrix A b (.inl i)) := by
  unfold featureError affineError
  rw [sum_list_finset, mapVal_snapshotPairs, List.map_map]
  congr 1
  refine List.map_congr_left (fun p _ => Finset.sum_congr rfl (fun i _ => ?_))
  change _ = (_ - _ ⬝ᵥ withConst p.1) ^ 2
  rw [dot_withConst]
  rfl

omit [DecidableEq ι] in
theorem constError_zero (c : List (Row Int (ι → ℝ))) (A : Matrix ι ι ℝ) (b : ι → ℝ) (u : Unit) : featureError (snapshotPairs (mapVal withConst c)) (.inr u) (affineMatrix A b (.inr u)) = 0 := by
  unfold featureError
  rw [mapVal_snapshotPairs, List.map_map]
  refine List.sum_eq_zero (fun y hy => ?_)
  obtain ⟨p, -, rfl⟩ := List.mem_map.1 hy
  simp only [Function.comp_apply]
  rw [dot_withConst]
  simp [withConst, affineMatrix, dotProduct]

omit [Fintype ι] [DecidableEq ι] in
theorem affineMatrix_row (K : Matrix (ι ⊕ Unit) (ι ⊕ Unit) ℝ) (i : ι) : affineMatrix K.toBlocks₁₁ (fun j => K (.inl j) (.inr ())) (.inl i) = K (.inl i) := by
  funext s
  rcases s with s | s <;> rfl

omit [DecidableEq ι] in
/-- Without a hyperplane, linear functions of the dictionary are determined by their values at the samples. -/
theorem noHyperplane_unique {c : List (Row Int (ι → ℝ))} (h : NoHyperplane c) {u v : ι ⊕ Unit → ℝ} (he : ∀ p ∈ snapshotPairs c, u ⬝ᵥ withConst p.1 = v ⬝ᵥ withConst p.1) : u = v := by
  obtain ⟨h1, h2⟩ := h (fun i => u (.inl i) - v (.inl i)) (v (.inr ()) - u (.inr ())) (fun p hp => by
    have := he p hp
    rw [dot_withConst, dot_withConst] at this
    change ((fun i => u (.inl i)) - (fun i => v (.inl i))) ⬝ᵥ p.1 = _
    rw [sub_dotProduct]
    linarith)
  funext s
  rcases s with s | s
  · exact sub_eq_zero.1 (congrFun h1 s)
  · exact (sub_eq_zero.1 h2).symm

/-! ## Property theorems -/

section
variable {k : TimeKind} {c : List (Row Int (ι → ℝ))} {K : Matrix (ι ⊕ Unit) (ι ⊕ Unit) ℝ} {B : Matrix (ι ⊕ Unit) ι ℝ}

omit [DecidableEq ι] in
/-- **C250 (coefficients).** The rows of the system matrix which belong to the states hold least squares coefficients of an affine model, for all data. -/
theorem C250_coefficients (hc : c ≠ []) (hv : Valid c) (ho : IdsAscending c ∨ EqualLengths c) (h2 : ∀ i, HasId c i → 2 ≤ (series c i).length) (h : FitsEdmd k withConst c K B) :
    FitsAffine c (Matrix.of (fun i j => K (.inl i) (.inl j))) (fun i => K (.inl i) (.inr ())) := by
  intro A' b'
  change affineError c K.toBlocks₁₁ _ ≤ _
  rw [affineError_eq, affineError_eq]
  refine Finset.sum_le_sum (fun i _ => ?_)
  rw [affineMatrix_row]
  exact (fits_features (mapVal_ne_nil.2 hc) (mapVal_valid.2 hv) (ho.imp mapVal_idsAscending.2 mapVal_equalLengths.2) (fun i hi => by rw [mapVal_series, mapVal_length]; exact h2 i (mapVal_hasId.1 hi)) h.1.1 K).1 h.1 _ _

/-- If the samples are in no hyperplane, the model is that of any least squares affine model. -/
theorem affine_model (hc : c ≠ []) (hv : Valid c) (ho : IdsAscending c ∨ EqualLengths c) (h2 : ∀ i, HasId c i → 2 ≤ (series c i).length) (hh : NoHyperplane c) (h : FitsEdmd k withConst c K B)
    {A : Matrix ι ι ℝ} {b : ι → ℝ} (hA : FitsAffine c A b) : K = affineMatrix A b ∧ B = statePart := by
  have hff := fits_features (mapVal_ne_nil.2 hc) (mapVal_valid.2 hv) (ho.imp mapVal_idsAscending.2 mapVal_equalLengths.2) (fun i hi => by rw [mapVal_series, mapVal_length]; exact h2 i (mapVal_hasId.1 hi)) h.1.1
  have hK := (hff K).1 h.1
  have hCo : ∀ r q, featureError (snapshotPairs (mapVal withConst c)) r (affineMatrix A b r) ≤ featureError (snapshotPairs (mapVal withConst c)) r q := by
    rw [← decouple]
    intro K'
    rw [sum_errors, sum_errors, Fintype.sum_sum_type, Fintype.sum_sum_type]
    refine add_le_add ?_ ?_
    · have := hA K'.toBlocks₁₁ (fun j => K' (.inl j) (.inr ()))
      rw [affineError_eq, affineError_eq] at this
      simpa only [affineMatrix_row] using this
    · refine Finset.sum_le_sum (fun u _ => ?_)
      rw [constError_zero]
      exact featureError_nonneg _ _ _
  have hcl := affine_closed A b
  constructor
  · funext r
    refine noHyperplane_unique hh (fun p hp => ?_)
    exact featureError_same (hK r) (hCo r) (withConst p.1, withConst p.2) (by rw [mapVal_snapshotPairs]; exact List.mem_map.2 ⟨p, hp, rfl⟩)
  · have h0 : (Matrix.of (fun (r : Fin c.length) => withConst c[r].val)) * statePart = Matrix.of (fun (r : Fin c.length) => c[r].val) := by
      ext r j
      exact congrFun (hcl.decode c[r].val trivial) j
    have h1 := h.2.solves h0
    have hrowB : ∀ r ∈ c, withConst r.val ᵥ* B = r.val := by
      intro r hr
      obtain ⟨i, hi, rfl⟩ := List.getElem_of_mem hr
      funext j
      exact congrFun (congrFun h1 ⟨i, hi⟩) j
    apply Matrix.transpose_injective
    funext j
    refine noHyperplane_unique hh (fun p hp => ?_)
    obtain ⟨r, hr, hrp⟩ := fst_mem_of_snapshotPairs hp
    have e1 := congrFun (hrowB r hr) j
    have e2 := congrFun (hcl.decode r.val trivial) j
    rw [hrp] at e1 e2
    rw [dotProduct_comm, dotProduct_comm (statePartᵀ j)]
    exact e1.trans e2.symm

/-- **C250 (predictions).** If the samples are in no hyperplane, then for all least squares coefficients (so they are unique) the predictions of the EDMD model, from any initial conditions and for any number of steps, are those
of the affine model. -/
theorem C250_predict (hc : c ≠ []) (hv : Valid c) (ho : IdsAscending c ∨ EqualLengths c) (h2 : ∀ i, HasId c i → 2 ≤ (series c i).length) (hh : NoHyperplane c) (h : FitsEdmd k withConst c K B)
    {A : Matrix ι ι ℝ} {b : ι → ℝ} (hA : FitsAffine c A b) (dt : Int) {X : List (Row Int (ι → ℝ))} {t0 : Int} {times : List Int} (hX : GoodRequest X t0 times) :
    ∃ d, edmdPredict withConst K B dt X times = .ok d ∧ AffinePrediction A b dt t0 X times d := by
  obtain ⟨rfl, rfl⟩ := affine_model hc hv ho h2 hh h hA
  have hcl := affine_closed A b
  have hval : ∀ n x, (affineMatrix A b ^ n *ᵥ withConst x) ᵥ* statePart = (affineStep A b)^[n] x := fun n x => by
    rw [(closed_iterate hcl n x trivial).2]
    exact hcl.decode _ trivial
  obtain ⟨d, hd, hd1, hd2⟩ := predictMatrix_rows (affineMatrix A b) dt (X := mapVal withConst X) (t0 := t0) (times := times)
    ⟨by simpa [mapVal] using hX.nonempty, by rw [mapVal_ids]; exact hX.distinct, hX.first, hX.ascending⟩
  refine ⟨mapVal (fun z => z ᵥ* statePart) d, by simp [edmdPredict, hd], ?_, ?_⟩
  · intro x hx t ht
    have := hd1 _ (List.mem_map.2 ⟨x, hx, rfl⟩) t ht
    refine List.mem_map.2 ⟨_, this, ?_⟩
    simp only [hval]
  · intro r hr
    obtain ⟨r', hr', rfl⟩ := List.mem_map.1 hr
    obtain ⟨ht, x, hx, hi, he⟩ := hd2 r' hr'
    obtain ⟨x', hx', rfl⟩ := List.mem_map.1 hx
    refine ⟨ht, x', hx', hi, ?_⟩
    simp only at he ⊢
    rw [he, hval]

end

/-- The predictions of the model with the exact matrices, with their errors. -/
theorem affine_evolve (A : Matrix ι ι ℝ) (b : ι → ℝ) (dt : Int) (X : List (Row Int (ι → ℝ))) (times : List Int) :
    (edmdPredict withConst (affineMatrix A b) statePart dt X times) = evolveFrame X times (fun ics norm => ics.map (fun x => norm.map (fun t => (affineStep A b)^[stepCount dt t] x))) := by
  have hcl := affine_closed A b
  have e : predictMatrix (affineMatrix A b) dt (mapVal withConst X) times =
      (evolveFrame X times (fun ics norm => ics.map (fun x => norm.map (fun t => (affineStep A b)^[stepCount dt t] x)))).map (mapVal withConst) := by
    unfold predictMatrix
    rw [← evolveFrame_map, evolveFrame_mapIc]
    congr 1
    funext ics norm
    simp only [flowmapMatrix, List.map_map, Function.comp_def]
    refine List.map_congr_left (fun x _ => List.map_congr_left (fun t _ => ?_))
    exact (closed_iterate hcl _ x trivial).2
  unfold edmdPredict
  rw [e]
  cases evolveFrame X times (fun ics norm => ics.map (fun x => norm.map (fun t => (affineStep A b)^[stepCount dt t] x))) with
  | error e => rfl
  | ok d =>
    simp only [Except.map, mapVal_mapVal, Except.ok.injEq]
    have : ((fun z => z ᵥ* statePart) ∘ withConst : (ι → ℝ) → (ι → ℝ)) = id := by
      funext x
      exact hcl.decode x trivial
    rw [this]
    simp [mapVal]

omit [DecidableEq ι] in
theorem affineError_shift (c : List (Row Int (ι → ℝ))) (v : ι → ℝ) (A : Matrix ι ι ℝ) (b : ι → ℝ) : affineError (mapVal (· + v) c) A b = affineError c A (b + A *ᵥ v - v) := by
  unfold affineError
  rw [mapVal_snapshotPairs, List.map_map]
  congr 1
  refine List.map_congr_left (fun p _ => Finset.sum_congr rfl (fun i _ => ?_))
  simp only [affineStep, Matrix.mulVec_add, Pi.add_apply, Pi.sub_apply]
  ring

omit [DecidableEq ι] in
theorem affineStep_shift (A : Matrix ι ι ℝ) (b v : ι → ℝ) (n : Nat) (x : ι → ℝ) : (affineStep A (b + v - A *ᵥ v))^[n] (x + v) = (affineStep A b)^[n] x + v := by
  induction n generalizing x with
  | zero => rfl
  | succ n ih =>
    rw [Function.iterate_succ_apply, Function.iterate_succ_apply, ← ih]
    congr 1
    funext i
    simp only [affineStep, Matrix.mulVec_add, Pi.add_apply, Pi.sub_apply]
    ring

/-- **C250 (origin).** The origin of the state space does not matter: the model fitted to the data shifted by `v` predicts, from shifted initial conditions, the shifted predictions of the model fitted to the original data (with the
same time values, IDs and errors). -/
theorem C250_origin {k : TimeKind} {c : List (Row Int (ι → ℝ))} (hc : c ≠ []) (hv : Valid c) (ho : IdsAscending c ∨ EqualLengths c) (h2 : ∀ i, HasId c i → 2 ≤ (series c i).length) (hh : NoHyperplane c)
    {K K' : Matrix (ι ⊕ Unit) (ι ⊕ Unit) ℝ} {B B' : Matrix (ι ⊕ Unit) ι ℝ} (h : FitsEdmd k withConst c K B) (v : ι → ℝ) (h' : FitsEdmd k withConst (mapVal (· + v) c) K' B')
    (dt : Int) (X : List (Row Int (ι → ℝ))) (times : List Int) :
    edmdPredict withConst K' B' dt (mapVal (· + v) X) times = (edmdPredict withConst K B dt X times).map (mapVal (· + v)) := by
  have hA := C250_coefficients hc hv ho h2 h
  set A : Matrix ι ι ℝ := Matrix.of (fun i j => K (.inl i) (.inl j)) with hAdef
  set b : ι → ℝ := fun i => K (.inl i) (.inr ()) with hbdef
  have hA' : FitsAffine (mapVal (· + v) c) A (b + v - A *ᵥ v) := by
    intro A' b'
    rw [affineError_shift, affineError_shift]
    have : b + v - A *ᵥ v + A *ᵥ v - v = b := by abel
    rw [this]
    exact hA _ _
  have hh' : NoHyperplane (mapVal (· + v) c) := by
    intro q s hq
    have := hh q (s - q ⬝ᵥ v) (fun p hp => by
      have := hq (p.1 + v, p.2 + v) (by rw [mapVal_snapshotPairs]; exact List.mem_map.2 ⟨p, hp, rfl⟩)
      rw [dotProduct_add] at this
      linarith)
    obtain ⟨rfl, h3⟩ := this
    exact ⟨rfl, by simpa using h3⟩
  obtain ⟨e1, e2⟩ := affine_model hc hv ho h2 hh h hA
  obtain ⟨e3, e4⟩ := affine_model (mapVal_ne_nil.2 hc) (mapVal_valid.2 hv) (ho.imp mapVal_idsAscending.2 mapVal_equalLengths.2) (fun i hi => by rw [mapVal_series, mapVal_length]; exact h2 i (mapVal_hasId.1 hi)) hh' h' hA'
  rw [e3, e4, e1, e2, affine_evolve, affine_evolve, ← evolveFrame_map, evolveFrame_mapIc]
  congr 1
  funext ics norm
  simp only [List.map_map, Function.comp_def, affineStep_shift]

/-! ## Without the constant -/

/-- One time series with the values 1 and 2. -/
def exDouble : List (Row Int (Fin 1 → ℝ)) := [⟨0, 0, ![1]⟩, ⟨0, 1, ![2]⟩]

theorem exDouble_shift : mapVal (· + ![1]) exDouble = [⟨0, 0, ![2]⟩, ⟨0, 1, ![3]⟩] := by
  simp [mapVal, exDouble]
  norm_num

theorem double_fits {x y : ℝ} (hx : x ≠ 0) : Fits .int [⟨0, 0, ![x]⟩, ⟨0, 1, ![y]⟩] none !![y / x] := by
  refine (C30_least_squares_partial (c := [⟨0, 0, ![x]⟩, ⟨0, 1, ![y]⟩]) (by simp) ((valid_iff _).2 ⟨show (newIds [0, 0]).Nodup by decide +kernel, by simp [Before]⟩) (Or.inl (by simp [IdsAscending])) ?_ (by with_unfolding_all rfl) none (by simp) _).2 (fun K' => ?_)
  · rintro i ⟨r, hr, rfl⟩
    simp only [List.mem_cons, List.not_mem_nil, or_false] at hr
    rcases hr with rfl | rfl <;> simp [series]
  · have e : snapshotPairs [(⟨0, 0, ![x]⟩ : Row Int (Fin 1 → ℝ)), ⟨0, 1, ![y]⟩] = [(![x], ![y])] := rfl
    rw [e]
    simp [totalError, weightsOf, stepError, Matrix.mulVec, dotProduct, hx]
    positivity

/-- **C250 is violated for DMD**, that is without the constant: there the origin matters. The model of the series 1, 2 predicts 4 for the next sample, that of the series 2, 3 predicts 9/2. -/
theorem C250_violated : Valid exDouble ∧ Fits .int exDouble none !![2] ∧ Fits .int (mapVal (· + ![1]) exDouble) none !![3 / 2] ∧
    predictMatrix !![(3 / 2 : ℝ)] 1 (mapVal (· + ![1]) [⟨0, 0, ![1]⟩]) [0, 2] ≠ (predictMatrix !![(2 : ℝ)] 1 [⟨0, 0, ![1]⟩] [0, 2]).map (mapVal (· + ![1])) := by
  refine ⟨(valid_iff _).2 ⟨by decide +kernel, by simp [Before, exDouble]⟩, ?_, ?_, ?_⟩
  · have := double_fits (x := 1) (y := 2) one_ne_zero
    rwa [div_one] at this
  · rw [exDouble_shift]
    exact double_fits two_ne_zero
  · obtain ⟨d, hd, h1, -⟩ := predictMatrix_rows (!![2] : Matrix (Fin 1) (Fin 1) ℝ) 1 (X := [⟨0, 0, ![1]⟩]) (t0 := 0) (times := [0, 2]) ⟨by simp, by simp, rfl, by decide⟩
    obtain ⟨d', hd', -, h2⟩ := predictMatrix_rows (!![3 / 2] : Matrix (Fin 1) (Fin 1) ℝ) 1 (X := mapVal (· + ![1]) [⟨0, 0, ![1]⟩]) (t0 := 0) (times := [0, 2]) ⟨by simp [mapVal], by simp [mapVal], rfl, by decide⟩
    rw [hd, hd']
    intro he
    simp only [Except.map, Except.ok.injEq] at he
    have h3 := h1 _ (List.mem_singleton_self _) 2 (by simp)
    have h4 := List.mem_map_of_mem (f := fun r : Row Int (Fin 1 → ℝ) => (⟨r.id, r.time, r.val + ![1]⟩ : Row Int (Fin 1 → ℝ))) h3
    rw [show d.map (fun r : Row Int (Fin 1 → ℝ) => (⟨r.id, r.time, r.val + ![1]⟩ : Row Int (Fin 1 → ℝ))) = d' from he.symm] at h4
    obtain ⟨-, x, hx, -, hval⟩ := h2 _ h4
    simp only [mapVal, List.map_cons, List.map_nil, List.mem_singleton] at hx
    subst hx
    have e2 : stepCount 1 ((2 : Int) - 0) = 2 := rfl
    have := congrFun hval 0
    simp only [e2, pow_two] at this
    norm_num [Matrix.mulVec, dotProduct, Matrix.mul_apply] at this

/-! ## Example -/

/-- Three samples of a scalar series. -/
def exRise : List (Row Int (Fin 1 → ℝ)) := [⟨0, 0, ![0]⟩, ⟨0, 1, ![1]⟩, ⟨0, 2, ![3]⟩, ⟨0, 3, ![6]⟩]

theorem exRise_pairs : snapshotPairs exRise = [(![0], ![1]), (![1], ![3]), (![3], ![6])] := rfl

theorem exRise_noHyperplane : NoHyperplane exRise := by
  intro q s h
  rw [exRise_pairs] at h
  have h0 := h _ List.mem_cons_self
  have h1 := h _ (List.mem_cons_of_mem _ List.mem_cons_self)
  simp [dotProduct] at h0 h1
  refine ⟨?_, h0.symm⟩
  funext i
  fin_cases i
  simp [h1, ← h0]

/-- non-vacuity: data in no hyperplane, which no affine model describes without errors; a fitted model exists -/
example : exRise ≠ [] ∧ Valid exRise ∧ IdsAscending exRise ∧ (∀ i, HasId exRise i → 2 ≤ (series exRise i).length) ∧ NoHyperplane exRise ∧
    (∃ K B, FitsEdmd .int withConst exRise K B) ∧ (∃ K B, FitsEdmd .int withConst (mapVal (· + ![5]) exRise) K B) ∧ GoodRequest exRise.tail.tail.tail 3 [3, 7] := by
  have h2 : ∀ i, HasId exRise i → 2 ≤ (series exRise i).length := by
    rintro i ⟨r, hr, rfl⟩
    simp only [exRise, List.mem_cons, List.not_mem_nil, or_false] at hr
    rcases hr with rfl | rfl | rfl | rfl <;> simp [series, exRise]
  have hex : ∀ c : List (Row Int (Fin 1 → ℝ)), c ≠ [] → (∀ i, HasId c i → 2 ≤ (series c i).length) → isConstDeltaTime .int c = true → ∃ K B, FitsEdmd .int withConst c K B := by
    intro c hc h2 hk
    obtain ⟨K, hK⟩ := C30_exists (c := mapVal withConst c) (k := .int) (mapVal_ne_nil.2 hc) (fun i hi => by rw [mapVal_series, mapVal_length]; exact h2 i (mapVal_hasId.1 hi)) (by rw [mapVal_isConstDeltaTime]; exact hk)
    obtain ⟨B, hB⟩ := exists_normal (Matrix.of (fun (r : Fin c.length) => withConst c[r].val)) (Matrix.of (fun (r : Fin c.length) => c[r].val))
    exact ⟨K, B, hK, (isLstsqM_iff _ _ _).2 hB⟩
  have hk : isConstDeltaTime .int exRise = true := by with_unfolding_all rfl
  refine ⟨by simp [exRise], (valid_iff _).2 ⟨by decide +kernel, by simp [Before, exRise]⟩, by simp [IdsAscending, exRise], h2, exRise_noHyperplane, hex _ (by simp [exRise]) h2 hk,
    hex _ (mapVal_ne_nil.2 (by simp [exRise])) (fun i hi => by rw [mapVal_series, mapVal_length]; exact h2 i (mapVal_hasId.1 hi)) (by rw [mapVal_isConstDeltaTime]; exact hk), by simp [exRise], by simp [exRise], rfl, by decide⟩

end Verif.Edmd
