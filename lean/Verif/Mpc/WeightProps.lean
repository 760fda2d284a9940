import Verif.Mpc.KmpcProps
/-!
# C252: what the inputs of the Koopman MPC controller do not depend on

A common factor of all weights, the coordinates of the dictionary space (and dictionary functions that do not matter for the controlled features), the origin and the unit of time.
-/

namespace Verif.Mpc

open Matrix

variable {ν ν' : Type} [Fintype ν] [Fintype ν'] {nq nu : Nat}

/-- Specification: a weight parameter multiplied by a number. -/
def scaleCost (a : ℝ) : Cost → Cost
  | .absent => .absent
  | .number c => .number (a * c)
  | .array l => .array (l.map (a * ·))

/-- Specification: the same controller with all weights multiplied by a number. -/
def scaleWeights (a : ℝ) (k : Kmpc ν nq nu) : Kmpc ν nq nu := { k with running := scaleCost a k.running, terminal := scaleCost a k.terminal, input := scaleCost a k.input }

/-- Specification: a controller for the model `A'`, `B'`, `C'` with the horizon, bounds and weights of `k`. -/
def withModel (k : Kmpc ν nq nu) (A' : Matrix ν' ν' ℝ) (B' : Matrix ν' (Fin nu) ℝ) (C' : Matrix (Fin nq) ν' ℝ) : Kmpc ν' nq nu :=
  { horizon := k.horizon, A := A', B := B', C := C', stateBounds := k.stateBounds, inputBounds := k.inputBounds, running := k.running, terminal := k.terminal, input := k.input }

/-- Specification: `T` carries the model `A`, `B`, `C` to the model `A'`, `B'`, `C'`: a step in the one space is a step in the other, and the controlled features are the same.
For an invertible `T` this is a change of coordinates; a `T` with more rows than columns adds dictionary functions. -/
structure Carries (T : Matrix ν' ν ℝ) (A : Matrix ν ν ℝ) (B : Matrix ν (Fin nu) ℝ) (C : Matrix (Fin nq) ν ℝ) (A' : Matrix ν' ν' ℝ) (B' : Matrix ν' (Fin nu) ℝ) (C' : Matrix (Fin nq) ν' ℝ) : Prop where
  step : A' * T = T * A
  input : B' = T * B
  features : C' * T = C

/-! ## Weights -/

theorem costToArray_scale {a : ℝ} (ha : 0 < a) (c : Cost) (n : Nat) : costToArray (scaleCost a c) n = (costToArray c n).map (List.map (a * ·)) := by
  cases c with
  | absent => rfl
  | number c =>
    simp only [scaleCost, costToArray]
    have : a * c < 0 ↔ c < 0 := ⟨fun h => neg_of_mul_neg_right h ha.le, fun h => mul_neg_of_pos_of_neg ha h⟩
    rw [if_congr this rfl rfl]
    split_ifs
    · rfl
    · simp [Except.map]
  | array l =>
    simp only [scaleCost, costToArray, List.length_map]
    have : (∃ x ∈ l.map (a * ·), x < 0) ↔ ∃ x ∈ l, x < 0 := by
      simp only [List.mem_map, exists_exists_and_eq_and]
      refine exists_congr (fun x => and_congr_right (fun _ => ?_))
      exact ⟨fun h => neg_of_mul_neg_right h ha.le, fun h => mul_neg_of_pos_of_neg ha h⟩
    rw [if_congr this rfl rfl]
    split_ifs <;> rfl

theorem terminalCost_scale {a : ℝ} (ha : 0 < a) (r t : Cost) : terminalCost (scaleCost a r) (scaleCost a t) = scaleCost a (terminalCost r t) := by
  cases t with
  | absent => rfl
  | number c =>
    simp only [scaleCost, terminalCost]
    by_cases h : c = 0
    · simp [h]
    · simp [h, ha.ne']
  | array l =>
    simp only [scaleCost, terminalCost]
    have : (∀ x ∈ l.map (a * ·), x = 0) ↔ ∀ x ∈ l, x = 0 := by simp [ha.ne']
    rw [if_congr this rfl rfl]
    split_ifs <;> rfl

theorem tile_map {α β : Type} (g : α → β) (l : List α) (n : Nat) : tile (l.map g) n = (tile l n).map g := by
  unfold tile
  rw [List.map_flatten, List.map_replicate]

theorem stateDiag_scale {a : ℝ} (ha : 0 < a) (h n : Nat) (r t : Cost) : stateDiag h n (scaleCost a r) (scaleCost a t) = (stateDiag h n r t).map (List.map (a * ·)) := by
  unfold stateDiag
  rw [terminalCost_scale ha, costToArray_scale ha, costToArray_scale ha]
  cases costToArray r n with
  | error e => rfl
  | ok x =>
    cases costToArray (terminalCost r t) n with
    | error e => rfl
    | ok y => simp only [Except.map, tile_map, List.map_append]

theorem inputDiag_scale {a : ℝ} (ha : 0 < a) (h n : Nat) (c : Cost) : inputDiag h n (scaleCost a c) = (inputDiag h n c).map (List.map (a * ·)) := by
  unfold inputDiag
  rw [costToArray_scale ha]
  cases costToArray c n with
  | error e => rfl
  | ok x => simp only [Except.map, tile_map]

theorem unstack_scale (a : ℝ) (h n : Nat) (l : List ℝ) : unstack h n (l.map (a * ·)) = a • unstack h n l := by
  funext p
  unfold unstack
  simp only [Pi.smul_apply, smul_eq_mul, List.getD_eq_getElem?_getD, List.getElem?_map]
  cases l[(p.1 : Nat) * n + p.2]? with
  | none => simp
  | some x => rfl

/-- The stored matrices with the weights multiplied by a number. -/
def scaleSetup {h : Nat} (a : ℝ) (s : Setup ν h nq nu) : Setup ν h nq nu := ⟨a • s.H, a • s.M, a • s.Y, s.Ab, s.G, s.box⟩

theorem setup_scale {a : ℝ} (ha : 0 < a) (k : Kmpc ν nq nu) : kmpcSetup (scaleWeights a k) = (kmpcSetup k).map (scaleSetup a) := by
  obtain ⟨hz, A, B, C, sb, ib, cr, ct, cu⟩ := k
  change kmpcSetup ⟨hz, A, B, C, sb, ib, scaleCost a cr, scaleCost a ct, scaleCost a cu⟩ = _
  unfold kmpcSetup
  dsimp only
  by_cases h1 : hz < 2
  · rw [if_pos h1, if_pos h1]; rfl
  rw [if_neg h1, if_neg h1]
  by_cases h2 : ∃ b ∈ ib, b.length ≠ nu
  · rw [if_pos h2, if_pos h2]; rfl
  rw [if_neg h2, if_neg h2]
  by_cases h3 : ∃ b ∈ sb, b.length ≠ nq
  · rw [if_pos h3, if_pos h3]; rfl
  · rw [if_neg h3, if_neg h3, stateDiag_scale ha, inputDiag_scale ha]
    cases stateDiag hz nq cr ct with
    | error e => rfl
    | ok dq =>
      cases inputDiag hz nu cu with
      | error e => rfl
      | ok dr =>
        simp only [Except.map, scaleSetup, unstack_scale, Matrix.diagonal_smul, Matrix.mul_smul, Matrix.smul_mul, smul_add]
        congr 2 <;> simp only [smul_comm a (2 : ℝ)]

theorem qp_scale {h : Nat} {a : ℝ} (ha : 0 < a) (s : Setup ν h nq nu) (z : ν → ℝ) (ref : Fin h × Fin nq → ℝ) (U : Fin h × Fin nu → ℝ) :
    ((scaleSetup a s).qp z ref).IsSolution U ↔ (s.qp z ref).IsSolution U := by
  have ho : ∀ U, ((scaleSetup a s).qp z ref).objective U = a * (s.qp z ref).objective U := fun U => by
    unfold Qp.objective Setup.qp scaleSetup
    simp only [Matrix.smul_mulVec, dotProduct_smul, smul_eq_mul]
    rw [← smul_sub, smul_dotProduct, smul_eq_mul]
    ring
  have hf : ∀ U, ((scaleSetup a s).qp z ref).Feasible U ↔ (s.qp z ref).Feasible U := fun U => Iff.rfl
  unfold Qp.IsSolution
  simp only [ho, hf, mul_le_mul_iff_right₀ ha]

/-- **C252 for the weights.** If all weights are multiplied by the same positive number, the controller accepts and refuses the same states and references and returns the same inputs. -/
theorem C252_weights {a : ℝ} (ha : 0 < a) (k : Kmpc ν nq nu) (dt t₀ : Int) (z₀ : ν → ℝ) (ref : List (Int × (Fin nq → ℝ))) (out : Except MpcErr (List (Int × (Fin nu → ℝ)))) :
    IsControlSequence (scaleWeights a k) dt t₀ z₀ ref out ↔ IsControlSequence k dt t₀ z₀ ref out := by
  obtain ⟨hz, A, B, C, sb, ib, cr, ct, cu⟩ := k
  have hset := setup_scale ha ⟨hz, A, B, C, sb, ib, cr, ct, cu⟩
  change kmpcSetup ⟨hz, A, B, C, sb, ib, scaleCost a cr, scaleCost a ct, scaleCost a cu⟩ = _ at hset
  change IsControlSequence ⟨hz, A, B, C, sb, ib, scaleCost a cr, scaleCost a ct, scaleCost a cu⟩ dt t₀ z₀ ref out ↔ _
  unfold IsControlSequence
  rw [hset]
  cases kmpcSetup ⟨hz, A, B, C, sb, ib, cr, ct, cu⟩ with
  | error e => exact Iff.rfl
  | ok s => simp only [Except.map, qp_scale ha]

/-! ## Coordinates -/

theorem carries_pow [DecidableEq ν] [DecidableEq ν'] {T : Matrix ν' ν ℝ} {A : Matrix ν ν ℝ} {A' : Matrix ν' ν' ℝ} (h : A' * T = T * A) (i : Nat) : A' ^ i * T = T * A ^ i := by
  induction i with
  | zero => simp
  | succ i ih => rw [pow_succ, pow_succ, Matrix.mul_assoc, h, ← Matrix.mul_assoc, ih, Matrix.mul_assoc]

variable {T : Matrix ν' ν ℝ} {A : Matrix ν ν ℝ} {B : Matrix ν (Fin nu) ℝ} {C : Matrix (Fin nq) ν ℝ} {A' : Matrix ν' ν' ℝ} {B' : Matrix ν' (Fin nu) ℝ} {C' : Matrix (Fin nq) ν' ℝ}

theorem carries_matBb (h : Carries T A B C A' B' C') (n : Nat) : matBb C' A' B' n = matBb C A B n := by
  classical
  unfold matBb
  ext p c
  simp only [Matrix.of_apply, evolutionB_eq]
  rw [h.input, ← Matrix.mul_assoc (A' ^ _), carries_pow h.step, Matrix.mul_assoc, ← Matrix.mul_assoc C', h.features]

theorem carries_matAb (h : Carries T A B C A' B' C') (n : Nat) (z : ν → ℝ) : matAb C' A' n *ᵥ (T *ᵥ z) = matAb C A n *ᵥ z := by
  classical
  have : matAb C' A' n * T = matAb C A n := by
    ext p c
    have e : (matAb C' A' n * T) p c = (evolutionA C' A' p.1 * T) p.2 c := rfl
    rw [e, evolutionA_eq, Matrix.mul_assoc, carries_pow h.step, ← Matrix.mul_assoc, h.features, ← evolutionA_eq]
    rfl
  rw [Matrix.mulVec_mulVec, this]

/-- **C252 for the coordinates of the dictionary space.** If the model is carried by `T` to another model, the controllers for the two models accept and refuse the same states (carried by `T`) and
references and return the same inputs. -/
theorem C252_coordinates (k : Kmpc ν nq nu) (h : Carries T k.A k.B k.C A' B' C') (dt t₀ : Int) (z₀ : ν → ℝ) (ref : List (Int × (Fin nq → ℝ))) (out : Except MpcErr (List (Int × (Fin nu → ℝ)))) :
    IsControlSequence (withModel k A' B' C') dt t₀ (T *ᵥ z₀) ref out ↔ IsControlSequence k dt t₀ z₀ ref out := by
  obtain ⟨hz, A, B, C, sb, ib, cr, ct, cu⟩ := k
  change IsControlSequence ⟨hz, A', B', C', sb, ib, cr, ct, cu⟩ dt t₀ (T *ᵥ z₀) ref out ↔ _
  dsimp only at h
  unfold IsControlSequence kmpcSetup
  dsimp only
  by_cases h1 : hz < 2
  · rw [if_pos h1, if_pos h1]
  rw [if_neg h1, if_neg h1]
  by_cases h2 : ∃ b ∈ ib, b.length ≠ nu
  · rw [if_pos h2, if_pos h2]
  rw [if_neg h2, if_neg h2]
  by_cases h3 : ∃ b ∈ sb, b.length ≠ nq
  · rw [if_pos h3, if_pos h3]
  · rw [if_neg h3, if_neg h3]
    cases stateDiag hz nq cr ct with
    | error e => exact Iff.rfl
    | ok dq =>
      cases inputDiag hz nu cu with
      | error e => exact Iff.rfl
      | ok dr =>
        simp only [Setup.qp, carries_matBb h, ← Matrix.mulVec_mulVec, carries_matAb h]

/-! ## Time -/

/-- **C252 for the origin and the unit of time.** If the time of the state, the reference and the sampling interval are given in a unit that is `a` times smaller, counted from another origin, the returned
inputs are the same, with their time values in the new unit and from the new origin. -/
theorem C252_time {a : Int} (ha : 0 < a) (s : Int) (k : Kmpc ν nq nu) (dt t₀ : Int) (z₀ : ν → ℝ) (ref : List (Int × (Fin nq → ℝ))) (out : List (Int × (Fin nu → ℝ))) :
    IsControlSequence k (dt * a) (t₀ * a + s) z₀ (ref.map (fun r => (r.1 * a + s, r.2))) (.ok (out.map (fun r => (r.1 * a + s, r.2)))) ↔ IsControlSequence k dt t₀ z₀ ref (.ok out) := by
  cases hs : kmpcSetup k with
  | error e =>
    unfold IsControlSequence
    rw [hs]
    simp
  | ok S =>
    rw [isControl_ok hs, isControl_ok hs]
    have hinj : Function.Injective (fun t : Int => t * a + s) := fun x y h => by
      simp only at h
      have : x * a = y * a := by omega
      exact Int.eq_of_mul_eq_mul_right ha.ne' this
    have e1 : (ref.map (fun r => (r.1 * a + s, r.2))).map (·.1) = (ref.map (·.1)).map (fun t => t * a + s) := by
      rw [List.map_map, List.map_map]; rfl
    have e2 : ∀ i : Fin k.horizon × Fin nq, ref.length = k.horizon → ((ref.map (fun r => (r.1 * a + s, r.2))).getD i.1 (0, fun _ => 0)).2 i.2 = (ref.getD i.1 (0, fun _ => 0)).2 i.2 := fun i hl => by
      rw [List.getD_eq_getElem?_getD, List.getD_eq_getElem?_getD, List.getElem?_map, List.getElem?_eq_getElem (by rw [hl]; exact i.1.2)]
      rfl
    have e3 : ∀ U : Fin k.horizon × Fin nu → ℝ, List.zip ((t₀ * a + s) :: ((ref.map (·.1)).map (fun t => t * a + s)).dropLast) ((List.finRange k.horizon).map (fun i c => U (i, c))) =
        (List.zip (t₀ :: (ref.map (·.1)).dropLast) ((List.finRange k.horizon).map (fun i c => U (i, c)))).map (fun r => (r.1 * a + s, r.2)) := fun U => by
      rw [← List.map_dropLast, ← List.map_cons (f := fun t => t * a + s), List.zip_map_left]
      rfl
    rw [e1, List.length_map]
    have h1 : ((ref.map (·.1)).map (fun t => t * a + s)).head? = some (t₀ * a + s + dt * a) ↔ (ref.map (·.1)).head? = some (t₀ + dt) := by
      rw [List.head?_map]
      cases (ref.map (·.1)).head? with
      | none => simp
      | some t =>
        simp only [Option.map_some, Option.some.injEq]
        rw [show t₀ * a + s + dt * a = (t₀ + dt) * a + s by ring]
        exact hinj.eq_iff
    rw [h1]
    refine and_congr_right (fun _ => and_congr_right (fun hl => exists_congr (fun U => ?_)))
    rw [e3, show (fun i : Fin k.horizon × Fin nq => ((ref.map (fun r => (r.1 * a + s, r.2))).getD i.1 (0, fun _ => 0)).2 i.2) = fun i => (ref.getD i.1 (0, fun _ => 0)).2 i.2 from funext (fun i => e2 i hl)]
    refine and_congr_right (fun _ => ?_)
    refine (List.map_injective_iff.2 ?_).eq_iff
    rintro ⟨x, u⟩ ⟨y, v⟩ h
    simp only [Prod.mk.injEq] at h
    obtain ⟨h, rfl⟩ := h
    rw [hinj h]

/-! ## Examples -/

/-- non-vacuity: the controller `exK` (state and input bounds) returns inputs, and with other weights of the same ratios, another origin and unit of time the same inputs. -/
example : ∃ out, IsControlSequence exK 2 0 (fun _ => 0) [(2, fun _ => 1), (4, fun _ => 1), (6, fun _ => 2)] (.ok out) ∧
    IsControlSequence (scaleWeights 7 exK) 2 0 (fun _ => 0) [(2, fun _ => 1), (4, fun _ => 1), (6, fun _ => 2)] (.ok out) ∧
    IsControlSequence exK 120 100 (fun _ => 0) [(220, fun _ => 1), (340, fun _ => 1), (460, fun _ => 2)] (.ok (out.map (fun r => (r.1 * 60 + 100, r.2)))) := by
  have h : ∃ out, IsControlSequence exK 2 0 (fun _ => 0) [(2, fun _ => 1), (4, fun _ => 1), (6, fun _ => 2)] (.ok out) := by
    refine C39_exists exK (by simp [exK]) ⟨by simp [exK], by simp [exK]⟩ (wr := fun _ => 1) (wt := fun _ => 5) (wu := fun _ => 1 / 10) ?_ ?_ ?_ ⟨0, by norm_num⟩
      (fun _ => by norm_num) 2 0 _ _ rfl rfl ⟨fun _ _ => 0, ?_⟩
    · exact ⟨fun _ => zero_le_one, Or.inl ⟨1, zero_le_one, rfl, fun _ => rfl⟩⟩
    · exact ⟨fun _ => by norm_num, Or.inr (by simp [exK])⟩
    · exact ⟨fun _ => by norm_num, Or.inl ⟨1 / 10, by norm_num, rfl, fun _ => rfl⟩⟩
    · have h : ∀ i, trajectory exK.A exK.B (fun _ => 0) (fun _ _ => 0) i = 0 := by
        intro i
        induction i with
        | zero => rfl
        | succ i ih =>
          rw [trajectory, ih, Matrix.mulVec_zero, zero_add]
          exact Matrix.mulVec_zero _
      refine ⟨fun b hb i hi r => ?_, fun b hb i hi c => ?_⟩
      · rw [h, Matrix.mulVec_zero]
        simp only [exK, Option.mem_def, Option.some.injEq] at hb
        subst hb
        fin_cases r
        simp
      · simp only [exK, Option.mem_def, Option.some.injEq] at hb
        subst hb
        fin_cases c
        simp
  obtain ⟨out, ho⟩ := h
  exact ⟨out, ho, (C252_weights (by norm_num) exK 2 0 _ _ _).2 ho, (C252_time (a := 60) (by norm_num) 100 exK 2 0 _ _ out).2 ho⟩

/-- non-vacuity: the states of `exK` in the other order, together with their sum as third dictionary function. -/
example : Carries !![0, 1; 1, 0; 1, 1] exK.A exK.B exK.C !![1, 0, 0; 0, 0, 1; 1, 0, 1] !![1; 0; 1] !![0, 1, 0] := by
  refine ⟨?_, ?_, ?_⟩
  · ext i j; fin_cases i <;> fin_cases j <;> simp [exK, Matrix.mul_apply, Fin.sum_univ_succ]
  · ext i j; fin_cases i <;> fin_cases j <;> simp [exK, Matrix.mul_apply, Fin.sum_univ_succ]
  · ext i j; fin_cases i <;> fin_cases j <;> simp [exK, Matrix.mul_apply, Fin.sum_univ_succ]

end Verif.Mpc
