import Verif.Mpc.KmpcProps
/-!
# C242: a Koopman MPC controller with bounds that once found inputs keeps finding them

`datafold/appfold/mpc.py` 53-573.
-/

namespace Verif.Mpc

open Matrix

variable {ν : Type} [Fintype ν] {nu nq : Nat}

/-! ## Specification -/

/-- The states of the closed loop of controller and model (mpc.py 523-571): the controller is asked with the current state and some reference, and the first input is applied. -/
inductive Reached (k : Kmpc ν nq nu) (z₀ : ν → ℝ) : Nat → (ν → ℝ) → Prop
  | start : Reached k z₀ 0 z₀
  | step {n : Nat} {z : ν → ℝ} (h : Reached k z₀ n z) (dt t₀ : Int) (ref : List (Int × (Fin nq → ℝ))) (out : List (Int × (Fin nu → ℝ)))
      (ho : IsControlSequence k dt t₀ z ref (.ok out)) : Reached k z₀ (n + 1) (k.A *ᵥ z + k.B *ᵥ inputAt out 0)

/-- From `z` some inputs respect the input bounds and keep the state within its bounds for `n` steps. -/
def Admits (k : Kmpc ν nq nu) (n : Nat) (z : ν → ℝ) : Prop := ∃ u, WithinBounds k.A k.B k.C n k.stateBounds k.inputBounds z u

/-- The tracked quantities of `z` are within the state bounds. -/
def InBounds (k : Kmpc ν nq nu) (z : ν → ℝ) : Prop := ∀ b ∈ k.stateBounds, ∀ r : Fin nq, (b.getD r 0).1 ≤ (k.C *ᵥ z) r ∧ (k.C *ᵥ z) r ≤ (b.getD r 0).2

/-- The input `v` respects the input bounds. -/
def InputOk (k : Kmpc ν nq nu) (v : Fin nu → ℝ) : Prop := ∀ b ∈ k.inputBounds, ∀ c : Fin nu, (b.getD c 0).1 ≤ v c ∧ v c ≤ (b.getD c 0).2

/-- Every call with a reference of the right length and start is answered with inputs. -/
def Answered (k : Kmpc ν nq nu) (z : ν → ℝ) : Prop :=
  ∀ (dt t₀ : Int) (ref : List (Int × (Fin nq → ℝ))), (ref.map (·.1)).head? = some (t₀ + dt) → ref.length = k.horizon →
    (∃ out, IsControlSequence k dt t₀ z ref out) ∧ ∀ out, IsControlSequence k dt t₀ z ref out → ∃ o, out = .ok o

/-- Every such call raises because no inputs satisfy the bounds. -/
def Refused (k : Kmpc ν nq nu) (z : ν → ℝ) : Prop :=
  ∀ (dt t₀ : Int) (ref : List (Int × (Fin nq → ℝ))), (ref.map (·.1)).head? = some (t₀ + dt) → ref.length = k.horizon →
    ∀ out, IsControlSequence k dt t₀ z ref out ↔ out = .error .infeasible

/-! ## Lemmas -/

theorem trajectory_tail (A : Matrix ν ν ℝ) (B : Matrix ν (Fin nu) ℝ) (z : ν → ℝ) (u : Nat → Fin nu → ℝ) (i : Nat) :
    trajectory A B z u (i + 1) = trajectory A B (A *ᵥ z + B *ᵥ u 0) (fun j => u (j + 1)) i := by
  induction i with
  | zero => rfl
  | succ i ih => rw [trajectory, ih]; rfl

theorem within_shift {k : Kmpc ν nq nu} {n : Nat} {z : ν → ℝ} {u : Nat → Fin nu → ℝ} (h : WithinBounds k.A k.B k.C (n + 1) k.stateBounds k.inputBounds z u) :
    InputOk k (u 0) ∧ InBounds k (k.A *ᵥ z + k.B *ᵥ u 0) ∧ Admits k n (k.A *ᵥ z + k.B *ᵥ u 0) := by
  refine ⟨fun b hb c => h.2 b hb 0 (by omega) c, fun b hb r => h.1 b hb 0 (by omega) r, fun j => u (j + 1), fun b hb i hi r => ?_, fun b hb i hi c => h.2 b hb (i + 1) (by omega) c⟩
  rw [← trajectory_tail]
  exact h.1 b hb (i + 1) (by omega) r

theorem admits_succ {k : Kmpc ν nq nu} {n : Nat} {z : ν → ℝ} {v : Fin nu → ℝ} (hv : InputOk k v) (hz : InBounds k (k.A *ᵥ z + k.B *ᵥ v)) (h : Admits k n (k.A *ᵥ z + k.B *ᵥ v)) :
    Admits k (n + 1) z := by
  obtain ⟨u, h1, h2⟩ := h
  refine ⟨fun j => Nat.casesOn j v u, fun b hb i hi r => ?_, fun b hb i hi c => ?_⟩
  · rw [trajectory_tail]
    cases i with
    | zero => exact hz b hb r
    | succ i => exact h1 b hb i (by omega) r
  · cases i with
    | zero => exact hv b hb c
    | succ i => exact h2 b hb i (by omega) c

theorem admits_mono {k : Kmpc ν nq nu} {m n : Nat} (hmn : m ≤ n) {z : ν → ℝ} (h : Admits k n z) : Admits k m z := by
  obtain ⟨u, h1, h2⟩ := h
  exact ⟨u, fun b hb i hi => h1 b hb i (by omega), fun b hb i hi => h2 b hb i (by omega)⟩

theorem returned_within {k : Kmpc ν nq nu} {s : Setup ν k.horizon nq nu} (hs : kmpcSetup k = .ok s) (hh : 0 < k.horizon) {dt t₀ : Int} {z : ν → ℝ} {ref : List (Int × (Fin nq → ℝ))}
    {out : List (Int × (Fin nu → ℝ))} (h : IsControlSequence k dt t₀ z ref (.ok out)) : WithinBounds k.A k.B k.C k.horizon k.stateBounds k.inputBounds z (inputAt out) := by
  obtain ⟨-, hl, U, hU, rfl⟩ := (isControl_ok hs).1 h
  rw [← C40_feasible_partial k s hs z (fun i => (ref.getD i.1 (0, fun _ => 0)).2 i.2), (out_shape (k := k) (t₀ := t₀) hh hl U).2]
  exact hU.1

theorem isControl_cases {k : Kmpc ν nq nu} {s : Setup ν k.horizon nq nu} (hs : kmpcSetup k = .ok s) {dt t₀ : Int} {z : ν → ℝ} {ref : List (Int × (Fin nq → ℝ))}
    (hhead : (ref.map (·.1)).head? = some (t₀ + dt)) (hl : ref.length = k.horizon) {out : Except MpcErr (List (Int × (Fin nu → ℝ)))} (h : IsControlSequence k dt t₀ z ref out) :
    (∃ o, out = .ok o) ∨ (out = .error .infeasible ∧ ¬ ∃ o, IsControlSequence k dt t₀ z ref (.ok o)) := by
  have h' := h
  unfold IsControlSequence at h'
  rw [hs] at h'
  simp only [hhead, ne_eq, not_true_eq_false, if_false, hl] at h'
  rcases h' with ⟨U, hU, rfl⟩ | ⟨hn, rfl⟩
  · exact Or.inl ⟨_, rfl⟩
  · refine Or.inr ⟨rfl, ?_⟩
    rintro ⟨o, ho⟩
    obtain ⟨-, -, U, hU, -⟩ := (isControl_ok hs).1 ho
    exact hn ⟨U, hU⟩

section props

variable (k : Kmpc ν nq nu) (hh : 2 ≤ k.horizon) (hb : BoundsShape k) {wr wt : Fin nq → ℝ} {wu : Fin nu → ℝ} (hr : CostIs k.running wr)
  (ht : CostIs k.terminal wt) (hu : CostIs k.input wu) (h0 : ∃ r, wt r ≠ 0) (hpos : ∀ c, 0 < wu c)

include hh hb hr ht hu h0 hpos

/-- **C242 (what is answered).** A call is answered exactly if some inputs within their bounds keep the predicted states within theirs over the horizon; otherwise it is refused. -/
theorem C242_answered (z : ν → ℝ) : (Answered k z ↔ Admits k k.horizon z) ∧ (Refused k z ↔ ¬ Admits k k.horizon z) := by
  obtain ⟨s, hs, -⟩ := C39_objective_partial k hh hb hr ht hu h0 z (fun _ _ => 0)
  have hok : ∀ (dt t₀ : Int) (ref : List (Int × (Fin nq → ℝ))) (o : List (Int × (Fin nu → ℝ))), IsControlSequence k dt t₀ z ref (.ok o) → Admits k k.horizon z :=
    fun dt t₀ ref o ho => ⟨_, returned_within hs (by omega) ho⟩
  have hex : ∀ (dt t₀ : Int) (ref : List (Int × (Fin nq → ℝ))), (ref.map (·.1)).head? = some (t₀ + dt) → ref.length = k.horizon → ¬ Admits k k.horizon z →
      IsControlSequence k dt t₀ z ref (.error .infeasible) := by
    intro dt t₀ ref hhead hl hn
    unfold IsControlSequence
    rw [hs]
    simp only [hhead, ne_eq, not_true_eq_false, if_false, hl]
    refine Or.inr ⟨?_, trivial⟩
    rintro ⟨U, hU⟩
    exact hn (hok dt t₀ ref _ ((isControl_ok hs).2 ⟨hhead, hl, U, hU, rfl⟩))
  -- a reference of the right form
  have hsome : ∃ ref : List (Int × (Fin nq → ℝ)), (ref.map (·.1)).head? = some ((0 : Int) + 0) ∧ ref.length = k.horizon := by
    refine ⟨List.replicate k.horizon (0, fun _ => 0), ?_, by simp⟩
    obtain ⟨m, hm⟩ : ∃ m, k.horizon = m + 1 := ⟨k.horizon - 1, by omega⟩
    rw [hm, List.replicate_succ]; rfl
  obtain ⟨ref, hhead, hl⟩ := hsome
  refine ⟨⟨fun h => ?_, fun h dt t₀ ref hhead hl => ?_⟩, ⟨fun h hA => ?_, fun h dt t₀ ref hhead hl out => ⟨fun ho => ?_, ?_⟩⟩⟩
  · by_contra hn
    obtain ⟨o, ho⟩ := (h 0 0 ref hhead hl).2 _ (hex 0 0 ref hhead hl hn)
    cases ho
  · obtain ⟨o, ho⟩ := C39_exists k hh hb hr ht hu h0 hpos dt t₀ z ref hhead hl h
    refine ⟨⟨_, ho⟩, fun out hout => ?_⟩
    rcases isControl_cases hs hhead hl hout with h1 | ⟨-, h1⟩
    · exact h1
    · exact absurd ⟨o, ho⟩ h1
  · obtain ⟨o, ho⟩ := C39_exists k hh hb hr ht hu h0 hpos 0 0 z ref hhead hl hA
    cases (h 0 0 ref hhead hl _).1 ho
  · rcases isControl_cases hs hhead hl ho with ⟨o, rfl⟩ | ⟨h1, -⟩
    · exact absurd (hok dt t₀ ref o ho) h
    · exact h1
  · rintro rfl
    exact hex dt t₀ ref hhead hl h

/-- **C242 (partial).** If the horizon is long enough to see all dead ends (whenever the bounds can be respected for `horizon - 1` steps, they can be respected for one more step) and the
first call is answered, then all calls along the closed loop are answered, whatever the references, and all states after the first respect the state bounds. Missing: other horizons, where
this is false (`C242_violated`). -/
theorem C242_recursive_partial (hN : ∀ z, Admits k (k.horizon - 1) z → Admits k k.horizon z) (z₀ : ν → ℝ) (h : Admits k k.horizon z₀) (n : Nat) (z : ν → ℝ) (hz : Reached k z₀ n z) :
    Answered k z ∧ (0 < n → InBounds k z) := by
  obtain ⟨s, hs, -⟩ := C39_objective_partial k hh hb hr ht hu h0 z₀ (fun _ _ => 0)
  have key : Admits k k.horizon z ∧ (0 < n → InBounds k z) := by
    induction hz with
    | start => exact ⟨h, fun h => absurd h (by omega)⟩
    | step _ dt t₀ ref out ho ih =>
      have hw := returned_within hs (by omega) ho
      obtain ⟨m, hm⟩ : ∃ m, k.horizon = m + 1 := ⟨k.horizon - 1, by omega⟩
      rw [hm] at hw
      obtain ⟨-, h2, h3⟩ := within_shift hw
      exact ⟨hN _ (by rw [hm]; exact h3), fun _ => h2⟩
  exact ⟨((C242_answered k hh hb hr ht hu h0 hpos z).1).2 key.1, key.2⟩

/-- **C242 (bounds that can be kept; partial).** If from every state within the state bounds some admissible input leads to a state within the state bounds, then with every horizon all calls
along the closed loop from a state within the bounds are answered, all states respect the state bounds and all inputs the input bounds. -/
theorem C242_viable_partial (hv : ∀ z, InBounds k z → ∃ v, InputOk k v ∧ InBounds k (k.A *ᵥ z + k.B *ᵥ v)) (z₀ : ν → ℝ) (hz₀ : InBounds k z₀) (n : Nat) (z : ν → ℝ) (hz : Reached k z₀ n z) :
    Answered k z ∧ InBounds k z ∧ ∀ (dt t₀ : Int) (ref : List (Int × (Fin nq → ℝ))) (out : List (Int × (Fin nu → ℝ))), IsControlSequence k dt t₀ z ref (.ok out) → InputOk k (inputAt out 0) := by
  obtain ⟨s, hs, -⟩ := C39_objective_partial k hh hb hr ht hu h0 z₀ (fun _ _ => 0)
  have ha : ∀ n z, InBounds k z → Admits k n z := by
    intro n
    induction n with
    | zero => exact fun z _ => ⟨fun _ _ => 0, fun b hb i hi => absurd hi (by omega), fun b hb i hi => absurd hi (by omega)⟩
    | succ n ih =>
      intro z hz
      obtain ⟨v, h1, h2⟩ := hv z hz
      exact admits_succ h1 h2 (ih _ h2)
  obtain ⟨m, hm⟩ : ∃ m, k.horizon = m + 1 := ⟨k.horizon - 1, by omega⟩
  have hin : InBounds k z := by
    cases hz with
    | start => exact hz₀
    | step _ dt t₀ ref out ho =>
      have hw := returned_within hs (by omega) ho
      rw [hm] at hw
      exact (within_shift hw).2.1
  refine ⟨((C242_answered k hh hb hr ht hu h0 hpos z).1).2 (ha _ _ hin), hin, fun dt t₀ ref out ho => ?_⟩
  have hw := returned_within hs (by omega) ho
  rw [hm] at hw
  exact (within_shift hw).1

/-- **C242 (input bounds only).** Without state bounds, and with lower input bounds that are not above the upper ones, every call is answered from every state. -/
theorem C242_inputs (hs : k.stateBounds = none) (hi : ∀ b ∈ k.inputBounds, ∀ c : Fin nu, (b.getD c 0).1 ≤ (b.getD c 0).2) (z : ν → ℝ) : Answered k z := by
  have hin : ∀ z, InBounds k z := by intro z b hb; rw [hs] at hb; cases hb
  refine (C242_viable_partial k hh hb hr ht hu h0 hpos (fun z _ => ?_) z (hin z) 0 z .start).1
  refine ⟨fun c => (k.inputBounds.getD []).getD c 0 |>.1, fun b hb c => ?_, hin _⟩
  obtain ⟨b', hb', rfl⟩ : ∃ b', k.inputBounds = some b' ∧ b' = b := ⟨b, hb, rfl⟩
  rw [hb']
  exact ⟨le_rfl, hi _ hb c⟩

end props

/-- The unstable system `x' = 2 x + u` with `|u| ≤ 1`, `|x| ≤ 3` and horizon 2. -/
noncomputable def deadK : Kmpc (Fin 1) 1 1 := ⟨2, !![2], !![1], !![1], some [(-3, 3)], some [(-1, 1)], .number 1, .number 1, .number 1⟩

theorem deadK_one : CostIs (.number 1) (fun _ : Fin 1 => (1 : ℝ)) := ⟨fun _ => zero_le_one, Or.inl ⟨1, zero_le_one, rfl, fun _ => rfl⟩⟩

theorem deadK_next (z : Fin 1 → ℝ) (v : Fin 1 → ℝ) : (deadK.A *ᵥ z + deadK.B *ᵥ v) 0 = 2 * z 0 + v 0 := by
  simp [deadK, dotProduct]

theorem deadK_in (z : Fin 1 → ℝ) : InBounds deadK z ↔ -3 ≤ z 0 ∧ z 0 ≤ 3 := by
  simp [InBounds, deadK, Matrix.mulVec, dotProduct]

theorem deadK_input (v : Fin 1 → ℝ) : InputOk deadK v ↔ -1 ≤ v 0 ∧ v 0 ≤ 1 := by
  simp [InputOk, deadK]

theorem deadK_answered (z : Fin 1 → ℝ) : (Answered deadK z ↔ Admits deadK 2 z) ∧ (Refused deadK z ↔ ¬ Admits deadK 2 z) :=
  C242_answered deadK le_rfl ⟨by simp [deadK], by simp [deadK]⟩ (wr := fun _ => 1) (wt := fun _ => 1) (wu := fun _ => 1) deadK_one deadK_one deadK_one ⟨0, one_ne_zero⟩ (fun _ => one_pos) z

/-- **C242 (violated).** The first call is answered, and whatever the references, the third call of the loop (if the second is answered) is refused: the horizon does not see the dead end. -/
theorem C242_violated : ∃ (k : Kmpc (Fin 1) 1 1) (z₀ : Fin 1 → ℝ), Answered k z₀ ∧ InBounds k z₀ ∧ ∀ z, Reached k z₀ 2 z → Refused k z := by
  have hs : ∃ s, kmpcSetup deadK = .ok s := by
    obtain ⟨s, hs, -⟩ := C39_objective_partial deadK le_rfl ⟨by simp [deadK], by simp [deadK]⟩ (wr := fun _ => 1) (wt := fun _ => 1) (wu := fun _ => 1) deadK_one deadK_one deadK_one
      ⟨0, one_ne_zero⟩ 0 (fun _ _ => 0)
    exact ⟨s, hs⟩
  obtain ⟨s, hs⟩ := hs
  have hstep : ∀ (z : Fin 1 → ℝ) (dt t₀ : Int) (ref : List (Int × (Fin 1 → ℝ))) (out : List (Int × (Fin 1 → ℝ))), IsControlSequence deadK dt t₀ z ref (.ok out) →
      2 * z 0 - 1 ≤ (deadK.A *ᵥ z + deadK.B *ᵥ inputAt out 0) 0 := by
    intro z dt t₀ ref out ho
    have hw := returned_within hs (by simp [deadK]) ho
    have := (deadK_input _).1 (within_shift (n := 1) hw).1
    rw [deadK_next]
    linarith [this.1]
  refine ⟨deadK, fun _ => 5 / 4, (deadK_answered _).1.2 ?_, (deadK_in _).2 (by norm_num), fun z hz => (deadK_answered z).2.2 fun hA => ?_⟩
  · have h1 : (deadK.A *ᵥ (fun _ => 5 / 4) + deadK.B *ᵥ (fun _ => -1)) 0 = 3 / 2 := by rw [deadK_next]; norm_num
    refine admits_succ (v := fun _ => -1) ((deadK_input _).2 (by norm_num)) ((deadK_in _).2 (by rw [h1]; norm_num)) ?_
    refine admits_succ (v := fun _ => -1) ((deadK_input _).2 (by norm_num)) ((deadK_in _).2 (by rw [deadK_next, h1]; norm_num)) ?_
    exact ⟨fun _ _ => 0, fun b hb i hi => absurd hi (by omega), fun b hb i hi => absurd hi (by omega)⟩
  · cases hz with
    | step h dt t₀ ref out ho =>
      cases h with
      | step h dt' t₀' ref' out' ho' =>
        cases h
        have e1 := hstep _ _ _ _ _ ho'
        have e2 := hstep _ _ _ _ _ ho
        obtain ⟨u, hu⟩ := hA
        obtain ⟨a1, a2, u', hu'⟩ := within_shift (n := 1) hu
        obtain ⟨b1, b2, -⟩ := within_shift (n := 0) hu'
        have c1 := (deadK_input _).1 a1
        have c2 := (deadK_in _).1 a2
        have d1 := (deadK_input _).1 b1
        have d2 := (deadK_in _).1 b2
        rw [deadK_next] at c2 d2
        rw [deadK_next] at d2
        linarith [c1.1, c2.2, d1.1, d2.2]

/-- The hypotheses of `C242_viable_partial` are met by the same system with the stronger input bounds `|u| ≤ 3`. -/
example : ∀ z, InBounds ({ deadK with inputBounds := some [(-3, 3)] } : Kmpc (Fin 1) 1 1) z →
    ∃ v, InputOk ({ deadK with inputBounds := some [(-3, 3)] } : Kmpc (Fin 1) 1 1) v ∧
      InBounds ({ deadK with inputBounds := some [(-3, 3)] } : Kmpc (Fin 1) 1 1) (deadK.A *ᵥ z + deadK.B *ᵥ v) := by
  intro z hz
  have hz := (deadK_in z).1 hz
  refine ⟨fun _ => -z 0, ?_, ?_⟩
  · simp [InputOk]; constructor <;> linarith [hz.1, hz.2]
  · refine (deadK_in _).2 ?_
    rw [deadK_next]
    constructor <;> linarith [hz.1, hz.2]

end Verif.Mpc
