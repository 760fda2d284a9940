import Verif.Edmd.LearnFit
import Verif.Edmd.RefusedFitProps
import Verif.Edmd.OnlineFitProps
/-!
# C217: EDMD with a learnt dictionary
-/

namespace Verif.Edmd

open Verif.Tsc Verif.Dict

variable {α δ : Type}

/-! ### Lemmas -/

theorem fitSteps_snoc (ss : List (Step α)) (s : Step α) : ∀ (X : Takens.Frame α) (Ts : List (Transformer α)) (D : Takens.Frame α), fitSteps (ss ++ [s]) X = .ok (Ts, D) →
    ∃ Ts' D' T, fitSteps ss X = .ok (Ts', D') ∧ s D' = .ok T ∧ T D' = .ok D ∧ Ts = Ts' ++ [T] := by
  induction ss with
  | nil =>
    intro X Ts D h
    simp only [List.nil_append, fitSteps] at h
    cases h1 : s X with
    | error e => rw [h1] at h; cases h
    | ok T =>
      rw [h1] at h
      dsimp only at h
      cases h2 : T X with
      | error e => rw [h2] at h; cases h
      | ok Y =>
        rw [h2] at h
        cases h
        exact ⟨[], X, T, rfl, h1, h2, rfl⟩
  | cons t ss ih =>
    intro X Ts D h
    simp only [List.cons_append, fitSteps] at h ⊢
    cases h1 : t X with
    | error e => rw [h1] at h; cases h
    | ok T =>
      rw [h1] at h
      dsimp only at h ⊢
      cases h2 : T X with
      | error e => rw [h2] at h; cases h
      | ok Y =>
        rw [h2] at h
        dsimp only at h ⊢
        cases h3 : fitSteps (ss ++ [s]) Y with
        | error e => rw [h3] at h; cases h
        | ok r =>
          obtain ⟨Us, E⟩ := r
          rw [h3] at h
          cases h
          obtain ⟨Ts', D', U, g1, g2, g3, rfl⟩ := ih Y Us D h3
          rw [g1]
          exact ⟨T :: Ts', D', U, rfl, g2, g3, rfl⟩

theorem runSteps_snoc (Ts : List (Transformer α)) (T : Transformer α) : ∀ X, runSteps (Ts ++ [T]) X = match runSteps Ts X with
    | .error e => .error e
    | .ok D => T D := by
  induction Ts with
  | nil =>
    intro X
    simp only [List.nil_append, runSteps]
    cases T X <;> rfl
  | cons U Ts ih =>
    intro X
    simp only [List.cons_append, runSteps]
    cases U X with
    | error e => rfl
    | ok Y => exact ih Y

theorem zip_some_all {β γ : Type} : ∀ (l : List β) (Ts : List γ), Ts.length = l.length → (l.zip (Ts.map some)).all (fun p => p.2.isSome) = true ∧ (l.zip (Ts.map some)).filterMap (·.2) = Ts
  | [], [], _ => ⟨rfl, rfl⟩
  | b :: l, T :: Ts, h => by
    obtain ⟨h1, h2⟩ := zip_some_all l Ts (by simpa using h)
    simp [h1, h2]

/-- What a successful fit has done, for both kinds of last steps. -/
theorem learnEdmdFit_ok {L : Learning α δ} {inc : Bool} {opt : Option Bool} {m : LearnEdmd α δ} {X : Takens.Frame α} (h : (learnEdmdFit L inc opt m X).1 = .ok ()) :
    ∃ Ts D n D' E, fitSteps (m.parts.map (·.1)) X = .ok (Ts, D) ∧ nSamplesIc (nTimesteps X.rows) (nTimesteps D.rows) = .ok n ∧
      withState inc (preserves opt X.cols D.cols) X D = .ok D' ∧
      fitFinal L { m with parts := (m.parts.map (·.1)).zip (Ts.map some), nIc := some n, pres := some (preserves opt X.cols D.cols) } D' = .ok ((learnEdmdFit L inc opt m X).2, E) ∧
      inverseMapOk inc (preserves opt X.cols D.cols) X.cols E.cols = true := by
  unfold learnEdmdFit at h ⊢
  by_cases h0 : isConstDeltaTime .int X.rows = false
  · rw [if_pos h0] at h; cases h
  rw [if_neg h0] at h ⊢
  cases h1 : (refitParts m.parts X).1 with
  | error e => rw [h1] at h; cases h
  | ok D =>
    rw [h1] at h
    dsimp only at h ⊢
    obtain ⟨Ts, hTs⟩ := (refitParts_ok _ _ _).1 h1
    have hp := refitParts_ok_parts _ _ _ _ hTs
    rw [hp] at h ⊢
    cases h2 : nSamplesIc (nTimesteps X.rows) (nTimesteps D.rows) with
    | error e => rw [h2] at h; cases h
    | ok n =>
      rw [h2] at h
      dsimp only at h ⊢
      cases h3 : withState inc (preserves opt X.cols D.cols) X D with
      | error e => rw [h3] at h; cases h
      | ok D' =>
        rw [h3] at h
        dsimp only at h ⊢
        cases h4 : fitFinal L { m with parts := (m.parts.map (·.1)).zip (Ts.map some), nIc := some n, pres := some (preserves opt X.cols D.cols) } D' with
        | error e => rw [h4] at h; cases h
        | ok r =>
          obtain ⟨m', E⟩ := r
          rw [h4] at h
          dsimp only at h ⊢
          by_cases h5 : inverseMapOk inc (preserves opt X.cols D.cols) X.cols E.cols = true
          · rw [if_pos h5]
            exact ⟨Ts, D, n, D', E, hTs, h2, h3, h4, h5⟩
          · rw [if_neg h5] at h; cases h

theorem new_steps (steps : List (Step α)) : (LearnEdmd.new steps : LearnEdmd α δ).parts.map (·.1) = steps := by
  simp [LearnEdmd.new, List.map_map, Function.comp_def]

/-- The first fit of a new model. -/
theorem first_fit {L : Learning α δ} {inc : Bool} {opt : Option Bool} {steps : List (Step α)} {X : Takens.Frame α} (h : (learnEdmdFit L inc opt (LearnEdmd.new steps) X).1 = .ok ()) :
    ∃ Ts D n D' T A E, fitSteps steps X = .ok (Ts, D) ∧ withState inc (preserves opt X.cols D.cols) X D = .ok D' ∧ L D' = .ok (T, A) ∧ T D' = .ok E ∧
      (learnEdmdFit L inc opt (LearnEdmd.new steps) X).2 = ⟨steps.zip (Ts.map some) ++ [(learningStep L, some T)], .pretrained A, some n, some (preserves opt X.cols D.cols)⟩ := by
  obtain ⟨Ts, D, n, D', E, h1, h2, h3, h4, h5⟩ := learnEdmdFit_ok h
  rw [new_steps] at h1 h4
  have hfin : ∀ (ps : List (Part α)) (k : Option Int) (b : Option Bool), fitFinal L (⟨ps, .learning, k, b⟩ : LearnEdmd α δ) D' = match L D' with
      | .error e => .error e
      | .ok (T, A) => match T D' with
        | .error e => .error e
        | .ok E => .ok (⟨ps ++ [(learningStep L, some T)], .pretrained A, k, b⟩, E) := fun _ _ _ => rfl
  have h4' := (hfin (steps.zip (Ts.map some)) (some n) (some (preserves opt X.cols D.cols))).symm.trans h4
  cases hL : L D' with
  | error e => rw [hL] at h4'; cases h4'
  | ok r =>
    obtain ⟨T, A⟩ := r
    rw [hL] at h4'
    dsimp only at h4'
    cases hT : T D' with
    | error e => rw [hT] at h4'; cases h4'
    | ok E' =>
      rw [hT] at h4'
      refine ⟨Ts, D, n, D', T, A, E', h1, h3, hL, hT, ?_⟩
      have := congrArg (fun x => x.toOption.map (·.1)) h4'
      simpa [Except.toOption] using this.symm

theorem withState_false {inc p : Bool} (h : inc = false ∨ p = true) (X D : Takens.Frame α) : withState inc p X D = .ok D := by
  unfold withState
  rcases h with rfl | rfl <;> simp

/-! ### Property theorems -/

/-- **C217 (first fit).** After the first fit the dictionary is the given one followed by the trained network, and the system matrix is the one that was trained together with this network on the
dictionary data (if the states are not included or the dictionary contains them). -/
theorem C217_first_partial {L : Learning α δ} {inc : Bool} {opt : Option Bool} {steps : List (Step α)} {X : Takens.Frame α} (h : (learnEdmdFit L inc opt (LearnEdmd.new steps) X).1 = .ok ())
    (hid : inc = false ∨ (learnEdmdFit L inc opt (LearnEdmd.new steps) X).2.pres = some true) :
    ∃ Ts D T A, fitSteps steps X = .ok (Ts, D) ∧ L D = .ok (T, A) ∧ (learnEdmdFit L inc opt (LearnEdmd.new steps) X).2.final = .pretrained A ∧
      ∀ Y Z, learnEdmdTransform inc (learnEdmdFit L inc opt (LearnEdmd.new steps) X).2 Y = .ok Z ↔ runSteps (Ts ++ [T]) Y = .ok Z := by
  obtain ⟨Ts, D, n, D', T, A, E, h1, h2, h3, h4, h5⟩ := first_fit h
  rw [h5] at hid ⊢
  have hid' : inc = false ∨ preserves opt X.cols D.cols = true := by simpa using hid
  rw [withState_false hid'] at h2
  cases h2
  refine ⟨Ts, D, T, A, h1, h3, rfl, ?_⟩
  intro Y Z
  obtain ⟨g1, g2⟩ := zip_some_all steps Ts (fitSteps_length h1).1
  unfold learnEdmdTransform Dict.transform
  have hall : (steps.zip (Ts.map some) ++ [(learningStep L, some T)]).all (fun p => p.2.isSome) = true := by
    rw [List.all_append, g1]; rfl
  have hfm : (steps.zip (Ts.map some) ++ [(learningStep L, some T)]).filterMap (·.2) = Ts ++ [T] := by
    rw [List.filterMap_append, g2]; rfl
  rw [if_pos hall, hfm]
  dsimp only
  cases hr : runSteps (Ts ++ [T]) Y with
  | error e => simp
  | ok W =>
    simp only [withState_false hid']
    simp

/-- **C217 (attached states; violated).** If the states are included and the dictionary does not contain them, the network is trained on data with the states attached, but `transform` (and therefore every prediction) hands it the
dictionary without them: after a successful fit every `transform`, also of the training data, raises. (Networks refuse data with other features than in `fit`; the transformers before yield the same features as in `fit`.) -/
theorem C217_states_violated {L : Learning α δ} (hL : ∀ D T A, L D = .ok (T, A) → ∀ Y : Takens.Frame α, Y.cols ≠ D.cols → ∃ e, T Y = .error e) {opt : Option Bool} {steps : List (Step α)}
    {X : Takens.Frame α} (hX : X.cols ≠ []) (h : (learnEdmdFit L true opt (LearnEdmd.new steps) X).1 = .ok ()) (hid : (learnEdmdFit L true opt (LearnEdmd.new steps) X).2.pres = some false) :
    (∃ e, learnEdmdTransform true (learnEdmdFit L true opt (LearnEdmd.new steps) X).2 X = .error e) ∧
    ∃ Ts D, fitSteps steps X = .ok (Ts, D) ∧ ∀ Y, (∀ Z, runSteps Ts Y = .ok Z → Z.cols = D.cols) → ∃ e, learnEdmdTransform true (learnEdmdFit L true opt (LearnEdmd.new steps) X).2 Y = .error e := by
  obtain ⟨Ts, D, n, D', T, A, E, h1, h2, h3, h4, h5⟩ := first_fit h
  rw [h5] at hid ⊢
  have hid' : preserves opt X.cols D.cols = false := by simpa using hid
  have hcols : D'.cols = X.cols ++ D.cols := by
    unfold withState attach at h2
    rw [hid'] at h2
    simp only [Bool.not_false, Bool.and_self, if_true] at h2
    split at h2
    · cases h2
    · split at h2
      · cases h2
      · cases h2; rfl
  have hne : D.cols ≠ D'.cols := by
    rw [hcols]
    intro hc
    have := congrArg List.length hc
    rw [List.length_append] at this
    have : 0 < X.cols.length := List.length_pos_iff.2 hX
    omega
  obtain ⟨g1, g2⟩ := zip_some_all steps Ts (fitSteps_length h1).1
  have hall : (steps.zip (Ts.map some) ++ [(learningStep L, some T)]).all (fun p => p.2.isSome) = true := by
    rw [List.all_append, g1]; rfl
  have hfm : (steps.zip (Ts.map some) ++ [(learningStep L, some T)]).filterMap (·.2) = Ts ++ [T] := by
    rw [List.filterMap_append, g2]; rfl
  have key : ∀ Y, (∀ Z, runSteps Ts Y = .ok Z → Z.cols = D.cols) →
      ∃ e, learnEdmdTransform true (⟨steps.zip (Ts.map some) ++ [(learningStep L, some T)], .pretrained A, some n, some (preserves opt X.cols D.cols)⟩ : LearnEdmd α δ) Y = .error e := by
    intro Y hY
    unfold learnEdmdTransform Dict.transform
    rw [if_pos hall, hfm]
    dsimp only
    rw [runSteps_snoc]
    cases hr : runSteps Ts Y with
    | error e => exact ⟨_, rfl⟩
    | ok Z =>
      obtain ⟨e, he⟩ := hL D' T A h3 Z (by rw [hY Z hr]; exact hne)
      dsimp only
      rw [he]
      exact ⟨_, rfl⟩
  refine ⟨key X (fun Z hZ => ?_), Ts, D, h1, key⟩
  rw [(fitSteps_length h1).2] at hZ
  cases hZ
  rfl

theorem fit_keeps (L : Learning α δ) (inc : Bool) (opt : Option Bool) (m : LearnEdmd α δ) (A : δ) (hm : m.final = .pretrained A) (X : Takens.Frame α) :
    (learnEdmdFit L inc opt m X).2.final = .pretrained A := by
  have hfin : ∀ (ps : List (Part α)) (k : Option Int) (b : Option Bool) (D : Takens.Frame α), fitFinal L { m with parts := ps, nIc := k, pres := b } D = .ok ({ m with parts := ps, nIc := k, pres := b }, D) := by
    intro ps k b D
    unfold fitFinal
    simp only [hm]
  unfold learnEdmdFit
  split
  · exact hm
  · split
    · exact hm
    · split
      · exact hm
      · split
        · exact hm
        · split
          · exact hm
          · next m' E he =>
            rw [hfin] at he
            cases he
            split <;> exact hm

/-- **C217 (history; violated).** Once a system matrix is stored, no later call of `fit`, with whatever data, accepted or refused, changes it. -/
theorem C217_matrix_violated (L : Learning α δ) (inc : Bool) (opt : Option Bool) (m : LearnEdmd α δ) (A : δ) (hm : m.final = .pretrained A) (Xs : List (Takens.Frame α)) :
    (learnEdmdRun L inc opt m Xs).final = .pretrained A := by
  induction Xs generalizing m with
  | nil => exact hm
  | cons X Xs ih => exact ih _ (fit_keeps L inc opt m A hm X)

/-- **C217 (second fit; violated).** A second successful fit trains the network again, on the new data, and throws the system matrix that belongs to it away: the model consists of the new network `T₂` and the system matrix `A₁`
of the old network. -/
theorem C217_refit_violated {L : Learning α δ} {inc : Bool} {opt : Option Bool} {steps : List (Step α)} {X₁ X₂ : Takens.Frame α} (h₁ : (learnEdmdFit L inc opt (LearnEdmd.new steps) X₁).1 = .ok ())
    (hid : inc = false ∨ (learnEdmdFit L inc opt (LearnEdmd.new steps) X₁).2.pres = some true)
    (h₂ : (learnEdmdFit L inc opt (learnEdmdFit L inc opt (LearnEdmd.new steps) X₁).2 X₂).1 = .ok ()) :
    ∃ Ts₁ D₁ T₁ A₁ Ts₂ D₂ T₂ A₂, fitSteps steps X₁ = .ok (Ts₁, D₁) ∧ L D₁ = .ok (T₁, A₁) ∧ fitSteps steps X₂ = .ok (Ts₂, D₂) ∧ L D₂ = .ok (T₂, A₂) ∧
      (learnEdmdFit L inc opt (learnEdmdFit L inc opt (LearnEdmd.new steps) X₁).2 X₂).2.parts.filterMap (·.2) = Ts₂ ++ [T₂] ∧
      (learnEdmdFit L inc opt (learnEdmdFit L inc opt (LearnEdmd.new steps) X₁).2 X₂).2.final = .pretrained A₁ := by
  obtain ⟨Ts, D, n, D', T, A, E, h1, h2, h3, h4, h5⟩ := first_fit h₁
  have hpres : inc = false ∨ preserves opt X₁.cols D.cols = true := by
    rw [h5] at hid
    simpa using hid
  rw [withState_false hpres] at h2
  cases h2
  have hfinal : (learnEdmdFit L inc opt (LearnEdmd.new steps) X₁).2.final = .pretrained A := by rw [h5]
  have hkeep := fit_keeps L inc opt _ A hfinal X₂
  obtain ⟨Us, F, k, F', G, g1, g2, g3, g4, g5⟩ := learnEdmdFit_ok h₂
  have hsteps : (learnEdmdFit L inc opt (LearnEdmd.new steps) X₁).2.parts.map (·.1) = steps ++ [learningStep L] := by
    rw [h5]
    simp only [List.map_append, List.map_cons, List.map_nil]
    congr 1
    have hlen := (fitSteps_length h1).1
    rw [List.map_fst_zip]
    simp [hlen]
  rw [hsteps] at g1
  obtain ⟨Us', F₀, T₂, e1, e2, e3, rfl⟩ := fitSteps_snoc _ _ _ _ _ g1
  have hL2 : ∃ A₂, L F₀ = .ok (T₂, A₂) := by
    unfold learningStep at e2
    cases hl : L F₀ with
    | error e => rw [hl] at e2; cases e2
    | ok r =>
      rw [hl] at e2
      cases e2
      exact ⟨r.2, rfl⟩
  obtain ⟨A₂, hA₂⟩ := hL2
  refine ⟨Ts, D, T, A, Us', F₀, T₂, A₂, h1, h3, e1, hA₂, ?_, hkeep⟩
  have hparts : (learnEdmdFit L inc opt (learnEdmdFit L inc opt (LearnEdmd.new steps) X₁).2 X₂).2.parts = (steps ++ [learningStep L]).zip ((Us' ++ [T₂]).map some) := by
    unfold fitFinal at g4
    simp only [hfinal, hsteps] at g4
    have := congrArg (fun x => x.toOption.map (fun y => y.1.parts)) g4
    simpa [Except.toOption] using this.symm
  rw [hparts]
  exact (zip_some_all _ _ (by simp [(fitSteps_length e1).1])).2

/-- **C217 (network without states; violated).** If the states are included or contained in the dictionary, but the network does not pass all of them on (`include_id_state=False` of the network, with the default of EDMD), `fit` raises after the training; the
model has then already been changed: its last step is no longer the learning model but the trained system matrix. -/
theorem C217_projection_violated {L : Learning α δ} {inc : Bool} {opt : Option Bool} {steps : List (Step α)} {X D D' E : Takens.Frame α} {Ts : List (Transformer α)} {T : Transformer α} {A : δ} {n : Int}
    (hc : isConstDeltaTime .int X.rows = true) (h1 : fitSteps steps X = .ok (Ts, D)) (h2 : nSamplesIc (nTimesteps X.rows) (nTimesteps D.rows) = .ok n)
    (h3 : withState inc (preserves opt X.cols D.cols) X D = .ok D') (hL : L D' = .ok (T, A)) (hT : T D' = .ok E)
    (hid : inc = true ∨ preserves opt X.cols D.cols = true) (hE : ∃ f ∈ X.cols, f ∉ E.cols) :
    (learnEdmdFit L inc opt (LearnEdmd.new steps) X).1 = .error (.dict .projection) ∧ (learnEdmdFit L inc opt (LearnEdmd.new steps) X).2.final = .pretrained A := by
  have hr : (refitParts (LearnEdmd.new steps : LearnEdmd α δ).parts X).1 = .ok D := (refitParts_ok _ _ _).2 ⟨Ts, by rw [new_steps]; exact h1⟩
  have hinv : ¬ inverseMapOk inc (preserves opt X.cols D.cols) X.cols E.cols = true := by
    unfold inverseMapOk
    have : (inc || preserves opt X.cols D.cols) = true := by rcases hid with h | h <;> simp [h]
    rw [this, if_pos rfl]
    obtain ⟨f, hf, hfE⟩ := hE
    intro hall
    have := List.all_eq_true.1 hall f hf
    exact hfE (by simpa using this)
  unfold learnEdmdFit
  rw [if_neg (by simp [hc]), hr]
  dsimp only
  rw [h2]
  dsimp only
  rw [h3]
  simp only [fitFinal, LearnEdmd.new, hL, hT, if_neg hinv]
  exact ⟨trivial, trivial⟩

/-! ### Examples -/

/-- A learning model whose network appends a constant, the "matrix" is the number of rows of the training data. -/
def demoLearning (pass : Bool) : Learning ℚ Nat := fun D => .ok (rowTransform (fun v => if pass then v ++ [1] else [1]) D.cols (if pass then D.cols ++ ["const"] else ["const"]), D.rows.length)

/-- The identity as dictionary. -/
def idStep : Step ℚ := rowStep (fun _ v => v) (fun c => c)

/-- A dictionary that renames its feature. -/
def renameStep : Step ℚ := rowStep (fun _ v => v) (fun c => c.map (fun s => s ++ "_d"))

def demoX (n : Nat) : Takens.Frame ℚ := ⟨["x"], (List.range n).map (fun i : Nat => ⟨0, (i : Int), [(i : ℚ)]⟩)⟩

/-- Both fits of the theorems on the first and on the second fit succeed, with different numbers as "matrix". -/
example : (learnEdmdFit (demoLearning true) true none (LearnEdmd.new [idStep]) (demoX 3)).1 = .ok () ∧ (learnEdmdFit (demoLearning true) true none (LearnEdmd.new [idStep]) (demoX 3)).2.pres = some true ∧
    (learnEdmdFit (demoLearning true) true none (learnEdmdFit (demoLearning true) true none (LearnEdmd.new [idStep]) (demoX 3)).2 (demoX 4)).1 = .ok () := by
  refine ⟨?_, ?_, ?_⟩ <;> rfl

/-- The fit with attached states succeeds. -/
example : (learnEdmdFit (demoLearning true) true none (LearnEdmd.new [renameStep]) (demoX 3)).1 = .ok () ∧ (learnEdmdFit (demoLearning true) true none (LearnEdmd.new [renameStep]) (demoX 3)).2.pres = some false := by
  refine ⟨?_, ?_⟩ <;> rfl

/-- A network that does not pass the states on is refused. -/
example : (learnEdmdFit (demoLearning false) true none (LearnEdmd.new [idStep]) (demoX 3)).1 = .error (.dict .projection) := by rfl

end Verif.Edmd
