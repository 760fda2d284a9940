import Verif.Edmd.RefusedFit
/-!
# Properties of `EDMD` models with calls that are refused (C209, C210)
-/

namespace Verif.Edmd

open Verif.Tsc Verif.Dict

variable {α κ δ ι : Type}

/-! ## Lemmas -/

lemma refitParts_steps (ps : List (Part α)) : ∀ X, (refitParts ps X).2.map (·.1) = ps.map (·.1) := by
  induction ps with
  | nil => intro X; rfl
  | cons p ps ih =>
    intro X
    simp only [refitParts]
    cases h : p.1 X with
    | error e => rfl
    | ok T =>
      dsimp only
      cases h2 : T X with
      | error e => rfl
      | ok Y => simp [ih Y]

lemma refitParts_fst (ps qs : List (Part α)) (h : ps.map (·.1) = qs.map (·.1)) : ∀ X, (refitParts ps X).1 = (refitParts qs X).1 := by
  induction ps generalizing qs with
  | nil => cases qs with
    | nil => intro X; rfl
    | cons q qs => simp at h
  | cons p ps ih => cases qs with
    | nil => simp at h
    | cons q qs =>
      simp only [List.map_cons, List.cons.injEq] at h
      intro X
      simp only [refitParts, h.1]
      cases hq : q.1 X with
      | error e => rfl
      | ok T =>
        dsimp only
        cases hT : T X with
        | error e => rfl
        | ok Y => exact ih qs h.2 Y

lemma refitParts_snd (ps qs : List (Part α)) (h : ps.map (·.1) = qs.map (·.1)) : ∀ X D, (refitParts ps X).1 = .ok D → (refitParts ps X).2 = (refitParts qs X).2 := by
  induction ps generalizing qs with
  | nil => cases qs with
    | nil => intro X D _; rfl
    | cons q qs => simp at h
  | cons p ps ih => cases qs with
    | nil => simp at h
    | cons q qs =>
      simp only [List.map_cons, List.cons.injEq] at h
      intro X D
      simp only [refitParts, h.1]
      cases hq : q.1 X with
      | error e => intro hD; cases hD
      | ok T =>
        dsimp only
        cases hT : T X with
        | error e => intro hD; cases hD
        | ok Y => intro hD; dsimp only at hD ⊢; rw [ih qs h.2 Y D hD]

/-- The parts of a pipeline that has been fitted are the result of the pure pipeline of `Edmd/Dictionary.lean`. -/
lemma refitParts_ok (ps : List (Part α)) : ∀ X D, (refitParts ps X).1 = .ok D ↔ ∃ Ts, fitSteps (ps.map (·.1)) X = .ok (Ts, D) := by
  induction ps with
  | nil => intro X D; simp [refitParts, fitSteps]
  | cons p ps ih =>
    intro X D
    simp only [refitParts, fitSteps, List.map_cons]
    cases hq : p.1 X with
    | error e => simp
    | ok T =>
      dsimp only
      cases hT : T X with
      | error e => simp
      | ok Y =>
        dsimp only
        rw [ih Y D]
        constructor
        · rintro ⟨Ts, h⟩; exact ⟨T :: Ts, by rw [h]⟩
        · rintro ⟨Ts, h⟩
          cases hf : fitSteps (ps.map (·.1)) Y with
          | error e => rw [hf] at h; cases h
          | ok r =>
            rw [hf] at h
            obtain ⟨Ts', D'⟩ := r
            simp only [Except.ok.injEq, Prod.mk.injEq] at h
            exact ⟨Ts', by rw [h.2]⟩

lemma refitParts_ok_parts (ps : List (Part α)) : ∀ X Ts D, fitSteps (ps.map (·.1)) X = .ok (Ts, D) → (refitParts ps X).2 = (ps.map (·.1)).zip (Ts.map some) := by
  induction ps with
  | nil => intro X Ts D h; rfl
  | cons p ps ih =>
    intro X Ts D h
    simp only [fitSteps, List.map_cons] at h
    simp only [refitParts, List.map_cons]
    cases hq : p.1 X with
    | error e => rw [hq] at h; cases h
    | ok T =>
      rw [hq] at h
      dsimp only at h ⊢
      cases hT : T X with
      | error e => rw [hT] at h; cases h
      | ok Y =>
        rw [hT] at h
        dsimp only at h ⊢
        cases hf : fitSteps (ps.map (·.1)) Y with
        | error e => rw [hf] at h; cases h
        | ok r =>
          rw [hf] at h
          obtain ⟨Ts', D'⟩ := r
          simp only [Except.ok.injEq, Prod.mk.injEq] at h
          rw [ih Y Ts' D' hf, ← h.1]
          simp

lemma fitTail_fields (S : LifeSetup α κ δ ι) (m : Held α δ ι) (a : FitCall α κ) (D : Takens.Frame α) :
    (fitTail S m a D).2.parts = m.parts ∧ (fitTail S m a D).2.partialMode = m.partialMode ∧ (fitTail S m a D).2.controlled = m.controlled := by
  simp only [fitTail]
  cases nSamplesIc (nTimesteps a.X.rows) (nTimesteps D.rows) with
  | error e => exact ⟨rfl, rfl, rfl⟩
  | ok n =>
    dsimp only
    cases withState S.includeId (preserves S.opt a.X.cols D.cols) a.X D with
    | error e => exact ⟨rfl, rfl, rfl⟩
    | ok D' =>
      dsimp only
      split
      · exact ⟨rfl, rfl, rfl⟩
      · cases S.fitDmd D' a.U with
        | error e => exact ⟨rfl, rfl, rfl⟩
        | ok A =>
          dsimp only
          split
          · exact ⟨rfl, rfl, rfl⟩
          · cases S.inverseMap (preserves S.opt a.X.cols D.cols) a.X D' with
            | error e => exact ⟨rfl, rfl, rfl⟩
            | ok B => exact ⟨rfl, rfl, rfl⟩

/-- The outcome of the last part and, if it is accepted, the model afterwards depend on the model only through the attributes set before. -/
lemma fitTail_congr (S : LifeSetup α κ δ ι) (m m' : Held α δ ι) (a : FitCall α κ) (D : Takens.Frame α) (hp : m.parts = m'.parts) (h1 : m.partialMode = m'.partialMode) (h2 : m.controlled = m'.controlled)
    (h3 : m.dt = m'.dt) (h4 : m.names = m'.names) :
    (fitTail S m a D).1 = (fitTail S m' a D).1 ∧ ((fitTail S m a D).1 = .ok () → (fitTail S m a D).2 = (fitTail S m' a D).2) := by
  simp only [fitTail]
  cases nSamplesIc (nTimesteps a.X.rows) (nTimesteps D.rows) with
  | error e => exact ⟨rfl, fun h => nomatch h⟩
  | ok n =>
    dsimp only
    cases withState S.includeId (preserves S.opt a.X.cols D.cols) a.X D with
    | error e => exact ⟨rfl, fun h => nomatch h⟩
    | ok D' =>
      dsimp only
      split
      · exact ⟨rfl, fun h => nomatch h⟩
      · cases S.fitDmd D' a.U with
        | error e => exact ⟨rfl, fun h => nomatch h⟩
        | ok A =>
          dsimp only
          split
          · exact ⟨rfl, fun _ => by rw [hp, h1, h2, h3, h4]⟩
          · cases S.inverseMap (preserves S.opt a.X.cols D.cols) a.X D' with
            | error e => exact ⟨rfl, fun h => nomatch h⟩
            | ok B => exact ⟨rfl, fun _ => by dsimp only; rw [hp, h1, h2, h3, h4]⟩

/-- What the last part leaves in the DMD model and the inverse map if it is refused. -/
lemma fitTail_refused (S : LifeSetup α κ δ ι) (m : Held α δ ι) (a : FitCall α κ) (D : Takens.Frame α) (e : LifeErr) (h : (fitTail S m a D).1 = .error e) :
    (fitTail S m a D).2.inv = m.inv ∧ ((fitTail S m a D).2.dmd = m.dmd ∨ ∃ D' A p, S.fitDmd D' a.U = .ok A ∧ S.inverseMap p a.X D' = .error e ∧ (fitTail S m a D).2.dmd = some A) := by
  simp only [fitTail] at h ⊢
  cases h1 : nSamplesIc (nTimesteps a.X.rows) (nTimesteps D.rows) with
  | error e => exact ⟨rfl, Or.inl rfl⟩
  | ok n =>
    rw [h1] at h
    dsimp only at h ⊢
    cases h2 : withState S.includeId (preserves S.opt a.X.cols D.cols) a.X D with
    | error e => exact ⟨rfl, Or.inl rfl⟩
    | ok D' =>
      rw [h2] at h
      dsimp only at h ⊢
      by_cases h3 : a.dmdOk = false
      · rw [if_pos h3]; exact ⟨rfl, Or.inl rfl⟩
      · rw [if_neg h3] at h ⊢
        cases h4 : S.fitDmd D' a.U with
        | error e => exact ⟨rfl, Or.inl rfl⟩
        | ok A =>
          rw [h4] at h
          dsimp only at h ⊢
          by_cases h5 : S.useInverse = true
          · rw [if_pos h5] at h; cases h
          · rw [if_neg h5] at h ⊢
            cases h6 : S.inverseMap (preserves S.opt a.X.cols D.cols) a.X D' with
            | error e' =>
              rw [h6] at h
              simp only [Except.error.injEq] at h
              exact ⟨rfl, Or.inr ⟨D', A, _, h4, by rw [h6, h], rfl⟩⟩
            | ok B => rw [h6] at h; cases h

lemma lifeFit_mode (S : LifeSetup α κ δ ι) (m : Held α δ ι) (a : FitCall α κ) : (lifeFit S m a).2.partialMode = if isConstDeltaTime .int a.X.rows = false then m.partialMode else if m.partialMode = some true then some true else some false := by
  unfold lifeFit
  by_cases h1 : isConstDeltaTime .int a.X.rows = false
  · rw [if_pos h1, if_pos h1]
  · rw [if_neg h1, if_neg h1]
    by_cases h2 : m.partialMode = some true
    · rw [if_pos h2, if_pos h2]; exact h2
    · rw [if_neg h2, if_neg h2]
      split
      · rfl
      · unfold fitDictionary
        split
        · rfl
        · rw [(fitTail_fields S _ a _).2.1]; rfl

lemma lifePartial_mode (u : Held α δ ι → Except LifeErr Unit × Held α δ ι) (m : Held α δ ι) (X : Takens.Frame α) :
    (lifePartial u m X).2.partialMode = if isConstDeltaTime .int X.rows = false then m.partialMode else if m.partialMode = some false then some false else some true := by
  unfold lifePartial
  by_cases h1 : isConstDeltaTime .int X.rows = false
  · rw [if_pos h1, if_pos h1]
  · rw [if_neg h1, if_neg h1]
    by_cases h2 : m.partialMode = some false
    · rw [if_pos h2, if_pos h2]; exact h2
    · rw [if_neg h2, if_neg h2]

lemma exec_mode_some (S : LifeSetup α κ δ ι) (m : Held α δ ι) (o : LifeOp α κ δ ι) (b : Bool) (h : m.partialMode = some b) : (o.exec S m).2.partialMode = some b := by
  cases o with
  | fit a =>
    show (lifeFit S m a).2.partialMode = some b
    rw [lifeFit_mode, h]
    cases b <;> simp
  | partialFit u X =>
    show (lifePartial u m X).2.partialMode = some b
    rw [lifePartial_mode, h]
    cases b <;> simp

lemma lifeRun_mode_some (S : LifeSetup α κ δ ι) (os : List (LifeOp α κ δ ι)) : ∀ m b, m.partialMode = some b → (lifeRun S m os).partialMode = some b := by
  induction os with
  | nil => intro m b h; exact h
  | cons o os ih => intro m b h; exact ih _ b (exec_mode_some S m o b h)

lemma exec_steps (S : LifeSetup α κ δ ι) (m : Held α δ ι) (a : FitCall α κ) : ((LifeOp.fit a).exec S m).2.parts.map (·.1) = m.parts.map (·.1) := by
  show (lifeFit S m a).2.parts.map (·.1) = _
  unfold lifeFit
  split
  · rfl
  · split
    · rfl
    · split
      · rfl
      · unfold fitDictionary
        split
        · exact refitParts_steps _ _
        · rw [(fitTail_fields S _ a _).1]; exact refitParts_steps _ _

/-! ## C209 -/

/-- The history consists of calls of `fit`. -/
def OnlyFits (os : List (LifeOp α κ δ ι)) : Prop := ∀ o ∈ os, ∃ a, o = .fit a

lemma lifeRun_steps (S : LifeSetup α κ δ ι) (os : List (LifeOp α κ δ ι)) (h : OnlyFits os) : ∀ m, (lifeRun S m os).parts.map (·.1) = m.parts.map (·.1) := by
  induction os with
  | nil => intro m; rfl
  | cons o os ih =>
    intro m
    obtain ⟨a, rfl⟩ := h o (by simp)
    exact (ih (fun o ho => h o (by simp [ho])) _).trans (exec_steps S m a)

lemma lifeRun_mode_fit (S : LifeSetup α κ δ ι) (os : List (LifeOp α κ δ ι)) (h : OnlyFits os) : ∀ m, m.partialMode ≠ some true → (lifeRun S m os).partialMode ≠ some true := by
  induction os with
  | nil => intro m hm; exact hm
  | cons o os ih =>
    intro m hm
    obtain ⟨a, rfl⟩ := h o (by simp)
    refine ih (fun o ho => h o (by simp [ho])) _ ?_
    show (lifeFit S m a).2.partialMode ≠ some true
    rw [lifeFit_mode]
    split
    · exact hm
    · simp

lemma lifeFit_congr (S : LifeSetup α κ δ ι) (m m' : Held α δ ι) (a : FitCall α κ) (hs : m.parts.map (·.1) = m'.parts.map (·.1)) (h : m.partialMode ≠ some true) (h' : m'.partialMode ≠ some true) :
    (lifeFit S m a).1 = (lifeFit S m' a).1 ∧ ((lifeFit S m a).1 = .ok () → (lifeFit S m a).2 = (lifeFit S m' a).2) := by
  simp only [lifeFit, if_neg h, if_neg h']
  split
  · exact ⟨rfl, fun h => nomatch h⟩
  · split
    · exact ⟨rfl, fun h => nomatch h⟩
    · simp only [fitDictionary, ← refitParts_fst _ _ hs a.X]
      cases hr : (refitParts m.parts a.X).1 with
      | error e => exact ⟨rfl, fun h => nomatch h⟩
      | ok D => exact fitTail_congr S _ _ a D (refitParts_snd _ _ hs a.X D hr) rfl rfl rfl rfl

/-- **C209 (part).** Whatever calls of `fit` have been made before, accepted or refused: a call of `fit` is accepted exactly if it is accepted by a new model with the same settings, and if it is accepted then all
attributes are those of the new model. -/
theorem C209_accepted_partial (S : LifeSetup α κ δ ι) (steps : List (Step α)) (os : List (LifeOp α κ δ ι)) (h : OnlyFits os) (a : FitCall α κ) :
    (lifeFit S (lifeRun S (.new steps) os) a).1 = (lifeFit S (.new steps) a).1 ∧
    ((lifeFit S (lifeRun S (.new steps) os) a).1 = .ok () → (lifeFit S (lifeRun S (.new steps) os) a).2 = (lifeFit S (.new steps) a).2) :=
  lifeFit_congr S _ _ a (lifeRun_steps S os h _) (lifeRun_mode_fit S os h _ (by simp [Held.new])) (by simp [Held.new])

/-- **C209 (part).** A call with data that have no constant sampling interval is refused and changes nothing. -/
theorem C209_data_partial (S : LifeSetup α κ δ ι) (m : Held α δ ι) :
    (∀ a : FitCall α κ, isConstDeltaTime .int a.X.rows = false → lifeFit S m a = (.error .data, m)) ∧
    (∀ u X, isConstDeltaTime .int X.rows = false → lifePartial u m X = (.error .data, m)) :=
  ⟨fun a h => by unfold lifeFit; rw [if_pos h], fun u X h => by unfold lifePartial; rw [if_pos h]⟩

/-- **C209 (part).** A refused call of `fit` keeps the matrix and the modes that map back to the original states, and it keeps the system of the DMD model unless these two could not be computed. -/
theorem C209_refused_partial (S : LifeSetup α κ δ ι) (m : Held α δ ι) (a : FitCall α κ) (e : LifeErr) (h : (lifeFit S m a).1 = .error e) :
    (lifeFit S m a).2.inv = m.inv ∧ ((lifeFit S m a).2.dmd = m.dmd ∨ ∃ D A p, S.fitDmd D a.U = .ok A ∧ S.inverseMap p a.X D = .error e ∧ (lifeFit S m a).2.dmd = some A) := by
  unfold lifeFit at h ⊢
  by_cases h1 : isConstDeltaTime .int a.X.rows = false
  · rw [if_pos h1]; exact ⟨rfl, Or.inl rfl⟩
  · rw [if_neg h1] at h ⊢
    by_cases h2 : m.partialMode = some true
    · rw [if_pos h2]; exact ⟨rfl, Or.inl rfl⟩
    · rw [if_neg h2] at h ⊢
      by_cases h3 : a.paramsOk = false
      · rw [if_pos h3]; exact ⟨rfl, Or.inl rfl⟩
      · rw [if_neg h3] at h ⊢
        unfold fitDictionary at h ⊢
        cases h4 : (refitParts m.parts a.X).1 with
        | error e => exact ⟨rfl, Or.inl rfl⟩
        | ok D =>
          rw [h4] at h
          obtain ⟨q1, q2⟩ := fitTail_refused S _ a D e h
          exact ⟨q1, q2⟩

/-- **C209 (part).** But the transformers are fitted in place: if the dictionary can be fitted to the data and the call is refused by the DMD model, then all transformers are those of the new data, while the DMD
model and the matrix that maps back are those of the data before. -/
theorem C209_mixed_violated (S : LifeSetup α κ δ ι) (m : Held α δ ι) (a : FitCall α κ) (hX : isConstDeltaTime .int a.X.rows = true) (hm : m.partialMode ≠ some true) (hp : a.paramsOk = true)
    (Ts : List (Transformer α)) (D : Takens.Frame α) (hT : fitSteps (m.parts.map (·.1)) a.X = .ok (Ts, D)) (hd : a.dmdOk = false ∨ ∀ D', ∃ e, S.fitDmd D' a.U = .error e) :
    (∃ e, (lifeFit S m a).1 = .error e) ∧ (lifeFit S m a).2.parts = (m.parts.map (·.1)).zip (Ts.map some) ∧ (lifeFit S m a).2.dmd = m.dmd ∧ (lifeFit S m a).2.inv = m.inv := by
  have hfit : lifeFit S m a = fitDictionary S m a := by
    unfold lifeFit
    rw [if_neg (by rw [hX]; simp), if_neg hm, if_neg (by rw [hp]; simp)]
  have hr : (refitParts m.parts a.X).1 = .ok D := (refitParts_ok _ _ _).2 ⟨Ts, hT⟩
  have hdict : fitDictionary S m a = fitTail S { fitTimes m a with parts := (refitParts m.parts a.X).2 } a D := by
    unfold fitDictionary; rw [hr]
  rw [hfit, hdict]
  have hparts := (fitTail_fields S { fitTimes m a with parts := (refitParts m.parts a.X).2 } a D).1
  refine ⟨?_, ?_, ?_⟩
  · simp only [fitTail]
    split
    · exact ⟨_, rfl⟩
    · split
      · exact ⟨_, rfl⟩
      · rcases hd with hd | hd
        · rw [if_pos hd]; exact ⟨_, rfl⟩
        · rename_i D' _
          obtain ⟨e, he⟩ := hd D'
          split
          · exact ⟨_, rfl⟩
          · rw [he]; exact ⟨_, rfl⟩
  · rw [hparts]; exact refitParts_ok_parts _ _ _ _ hT
  · simp only [fitTail]
    split
    · exact ⟨rfl, rfl⟩
    · split
      · exact ⟨rfl, rfl⟩
      · rcases hd with hd | hd
        · rw [if_pos hd]; exact ⟨rfl, rfl⟩
        · rename_i D' _
          obtain ⟨e, he⟩ := hd D'
          split
          · exact ⟨rfl, rfl⟩
          · rw [he]; exact ⟨rfl, rfl⟩

/-- **C209 (part).** If a step of the dictionary refuses the data, then exactly the transformers in front of it are those of the new data and all behind it those of the data before. -/
theorem C209_prefix_violated (ps : List (Part α)) : ∀ (X : Takens.Frame α) (e : DictErr), (refitParts ps X).1 = .error e →
    ∃ pre s o post Ts Y, ps = pre ++ (s, o) :: post ∧ fitSteps (pre.map (·.1)) X = .ok (Ts, Y) ∧
      ((s Y = .error e ∧ (refitParts ps X).2 = (pre.map (·.1)).zip (Ts.map some) ++ (s, o) :: post) ∨
       (∃ T, s Y = .ok T ∧ T Y = .error e ∧ (refitParts ps X).2 = (pre.map (·.1)).zip (Ts.map some) ++ (s, some T) :: post)) := by
  induction ps with
  | nil => intro X e h; simp [refitParts] at h
  | cons p ps ih =>
    intro X e h
    simp only [refitParts] at h ⊢
    cases h1 : p.1 X with
    | error e' =>
      rw [h1] at h
      simp only [Except.error.injEq] at h
      exact ⟨[], p.1, p.2, ps, [], X, rfl, rfl, Or.inl ⟨by rw [h1, h], rfl⟩⟩
    | ok T =>
      rw [h1] at h
      dsimp only at h ⊢
      cases h2 : T X with
      | error e' =>
        rw [h2] at h
        simp only [Except.error.injEq] at h
        exact ⟨[], p.1, p.2, ps, [], X, rfl, rfl, Or.inr ⟨T, h1, by rw [h2, h], rfl⟩⟩
      | ok Y =>
        rw [h2] at h
        dsimp only at h ⊢
        obtain ⟨pre, s, o, post, Ts, Z, q1, q2, q3⟩ := ih Y e h
        refine ⟨p :: pre, s, o, post, T :: Ts, Z, by rw [q1]; rfl, ?_, ?_⟩
        · simp only [List.map_cons, fitSteps, h1, h2, q2]
        · rcases q3 with ⟨q3, q4⟩ | ⟨T', q3, q4, q5⟩
          · exact Or.inl ⟨q3, by rw [q4]; rfl⟩
          · exact Or.inr ⟨T', q3, q4, by rw [q5]; rfl⟩

/-- **C209 (part).** In every history the first call with valid data decides between `fit` and `partial_fit`: after a call of `fit`, accepted or not, no call of `partial_fit` is accepted and no later call changes that;
and the other way round. -/
theorem C209_mode_violated (S : LifeSetup α κ δ ι) (m : Held α δ ι) (os : List (LifeOp α κ δ ι)) :
    (∀ a : FitCall α κ, isConstDeltaTime .int a.X.rows = true → m.partialMode ≠ some true → ∀ u X, ∃ e, (lifePartial u (lifeRun S (lifeFit S m a).2 os) X).1 = .error e) ∧
    (∀ u X, isConstDeltaTime .int X.rows = true → m.partialMode ≠ some false → ∀ a : FitCall α κ, ∃ e, (lifeFit S (lifeRun S (lifePartial u m X).2 os) a).1 = .error e) := by
  constructor
  · intro a ha hm u X
    have h : (lifeRun S (lifeFit S m a).2 os).partialMode = some false := lifeRun_mode_some S os _ _ (by rw [lifeFit_mode, if_neg (by rw [ha]; simp), if_neg hm])
    unfold lifePartial
    rw [h, if_pos rfl]
    split
    · exact ⟨_, rfl⟩
    · exact ⟨_, rfl⟩
  · intro u X hX hm a
    have h : (lifeRun S (lifePartial u m X).2 os).partialMode = some true := lifeRun_mode_some S os _ _ (by rw [lifePartial_mode, if_neg (by rw [hX]; simp), if_neg hm])
    unfold lifeFit
    rw [h, if_pos rfl]
    split
    · exact ⟨_, rfl⟩
    · exact ⟨_, rfl⟩

/-! ## An example with numbers: a min-max scaler and a DMD model of one feature -/

/-- Least squares solution of `d * B = x` for one column each (edmd.py 487-510). -/
def lsq1 (ds xs : List ℚ) : ℚ := ((ds.zip xs).map (fun p => p.1 * p.2)).sum / (ds.map (fun d => d * d)).sum

/-- The values of a frame with one column. -/
def column1 (X : Takens.Frame ℚ) : List ℚ := X.rows.map (fun r => r.val.getD 0 0)

/-- A min-max scaler that names its column `s`, a DMD model for one series of one feature, and a least squares inverse map. -/
def demoLife : LifeSetup ℚ Unit ℚ ℚ where
  includeId := false
  opt := none
  useInverse := false
  fitDmd D _ := .ok (lsq1 (column1 D).dropLast (column1 D).tail)
  inverseMap _ X D := .ok (lsq1 (column1 D) (column1 X))
  carries _ := false
  run A B _ D := ⟨["x"], D.rows.map (fun r => { r with val := [r.val.getD 0 0 * A * B.getD 1] })⟩

/-- The dictionary of the example. -/
def demoSteps : List (Step ℚ) := [rowStep minMax (fun _ => ["s"])]

/-- One series with the values `v`. -/
def series1 (v : List ℚ) : Takens.Frame ℚ := ⟨["x"], v.zipIdx.map (fun p => ⟨0, p.2, [p.1]⟩)⟩

/-- The model of the example after `fit` with the values 1, 1/2, 0. -/
def demoFirst : Except LifeErr Unit × Held ℚ ℚ ℚ := lifeFit demoLife (.new demoSteps) ⟨series1 [1, 1/2, 0], none, true, true⟩

/-- The model of the example after a further `fit` with the values 2, 1, 0 and a parameter that the DMD model does not know. -/
def demoSecond : Except LifeErr Unit × Held ℚ ℚ ℚ := lifeFit demoLife demoFirst.2 ⟨series1 [2, 1, 0], none, true, false⟩

/-- The numbers of an outcome. -/
def valuesOf (r : Except LifeErr (Takens.Frame ℚ)) : Option (List ℚ) := match r with
  | .ok Y => some (column1 Y)
  | .error _ => none

/-- **C209 (part).** In the example the first call is accepted, the second refused, and afterwards the same initial condition has another dictionary value and another prediction; the prediction is also not the one of
a model that is fitted to the new data. -/
theorem C209_values_violated : demoFirst.1 = .ok () ∧ demoSecond.1 = .error .dmd ∧
    valuesOf (lifeTransform demoLife demoFirst.2 (series1 [1])) = some [1] ∧ valuesOf (lifeTransform demoLife demoSecond.2 (series1 [1])) = some [1/2] ∧
    valuesOf (lifePredict demoLife demoFirst.2 (series1 [1]) none) = some [2/5] ∧ valuesOf (lifePredict demoLife demoSecond.2 (series1 [1]) none) = some [1/5] ∧
    valuesOf (lifePredict demoLife (lifeFit demoLife (.new demoSteps) ⟨series1 [2, 1, 0], none, true, true⟩).2 (series1 [1]) none) = some [2/5] := by
  refine ⟨by decide +kernel, by decide +kernel, by decide +kernel, by decide +kernel, by decide +kernel, by decide +kernel, by decide +kernel⟩

/-- The hypotheses of the theorems above are met in the example. -/
example : isConstDeltaTime .int (series1 [2, 1, 0]).rows = true ∧ demoFirst.2.partialMode ≠ some true ∧ (∃ Ts D, fitSteps (demoFirst.2.parts.map (·.1)) (series1 [2, 1, 0]) = .ok (Ts, D)) := by
  refine ⟨by decide +kernel, by decide +kernel, ?_⟩
  have h : (refitParts demoFirst.2.parts (series1 [2, 1, 0])).1.isOk = true := by decide +kernel
  cases hr : (refitParts demoFirst.2.parts (series1 [2, 1, 0])).1 with
  | error e => rw [hr] at h; cases h
  | ok D =>
    obtain ⟨Ts, hT⟩ := (refitParts_ok _ _ _).1 hr
    exact ⟨Ts, D, hT⟩

/-- The example with `dict_preserves_id_state=True`: the inverse map selects the original features among those of the dictionary and raises if one is missing (edmd.py 540-556). -/
def demoProject : LifeSetup ℚ Unit ℚ Unit where
  includeId := false
  opt := some true
  useInverse := false
  fitDmd D _ := .ok (lsq1 (column1 D).dropLast (column1 D).tail)
  inverseMap _ X D := if X.cols.all (fun n => decide (n ∈ D.cols)) then .ok () else .error .params
  carries _ := false
  run A _ _ D := ⟨["s"], D.rows.map (fun r => { r with val := [r.val.getD 0 0 * A] })⟩

/-- **C209 (part).** A model with `dict_preserves_id_state=True` that is fitted again to data with another name: the call is refused because the feature is not found in the dictionary, but the system is the one of the
new data, the matrix that maps back is the one of the data before, and the model predicts from initial conditions of the new data as if the call had succeeded. -/
theorem C209_system_violated :
    (lifeFit demoProject (.new demoSteps) ⟨⟨["s"], (series1 [1, 1/2, 0]).rows⟩, none, true, true⟩).1 = .ok () ∧
    (lifeFit demoProject (lifeFit demoProject (.new demoSteps) ⟨⟨["s"], (series1 [1, 1/2, 0]).rows⟩, none, true, true⟩).2 ⟨series1 [1, 1, 0], none, true, true⟩).1 = .error .params ∧
    (lifeFit demoProject (lifeFit demoProject (.new demoSteps) ⟨⟨["s"], (series1 [1, 1/2, 0]).rows⟩, none, true, true⟩).2 ⟨series1 [1, 1, 0], none, true, true⟩).2.dmd = some (1/2) ∧
    valuesOf (lifePredict demoProject (lifeFit demoProject (.new demoSteps) ⟨⟨["s"], (series1 [1, 1/2, 0]).rows⟩, none, true, true⟩).2 (series1 [1]) none) = none ∧
    valuesOf (lifePredict demoProject (lifeFit demoProject (lifeFit demoProject (.new demoSteps) ⟨⟨["s"], (series1 [1, 1/2, 0]).rows⟩, none, true, true⟩).2 ⟨series1 [1, 1, 0], none, true, true⟩).2 (series1 [1]) none) = some [1/2] := by
  refine ⟨by decide +kernel, by decide +kernel, by decide +kernel, by decide +kernel, by decide +kernel⟩

/-! ## C210 -/

/-- **C210 (part).** A model can predict exactly if it has been fitted, a control input is passed exactly if `is_controlled_` is set and exactly if its DMD model has a control part, and the initial condition is
accepted by the dictionary. -/
theorem C210_predict (S : LifeSetup α κ δ ι) (m : Held α δ ι) (X : Takens.Frame α) (U : Option κ) :
    (∃ Y, lifePredict S m X U = .ok Y) ↔ ∃ A B, m.dmd = some A ∧ m.inv = some B ∧ m.controlled = some U.isSome ∧ S.carries A = U.isSome ∧ ∃ D, lifeTransform S m X = .ok D := by
  unfold lifePredict
  cases hA : m.dmd with
  | none => simp
  | some A => cases hB : m.inv with
    | none => simp
    | some B => cases hc : m.controlled with
      | none => simp
      | some c =>
        dsimp only
        by_cases h1 : c = U.isSome
        · rw [if_neg (by simp [h1])]
          by_cases h2 : c = S.carries A
          · rw [if_neg (by simp [h2])]
            cases hD : lifeTransform S m X with
            | error e => simp
            | ok D => simp [← h1, ← h2]
          · rw [if_pos h2]
            constructor
            · rintro ⟨Y, h⟩; cases h
            · rintro ⟨A', B', hA', -, -, h3, -⟩
              simp only [Option.some.injEq] at hA'
              rw [← hA'] at h3
              exact absurd (h1.trans h3.symm) h2
        · rw [if_pos h1]; simp [h1]

lemma fitTail_ok (S : LifeSetup α κ δ ι) (m : Held α δ ι) (a : FitCall α κ) (D : Takens.Frame α) (h : (fitTail S m a D).1 = .ok ()) :
    (∃ D' A, S.fitDmd D' a.U = .ok A ∧ (fitTail S m a D).2.dmd = some A) ∧ ∃ B, (fitTail S m a D).2.inv = some B := by
  simp only [fitTail] at h ⊢
  cases h1 : nSamplesIc (nTimesteps a.X.rows) (nTimesteps D.rows) with
  | error e => rw [h1] at h; cases h
  | ok n =>
    rw [h1] at h
    dsimp only at h ⊢
    cases h2 : withState S.includeId (preserves S.opt a.X.cols D.cols) a.X D with
    | error e => rw [h2] at h; cases h
    | ok D' =>
      rw [h2] at h
      dsimp only at h ⊢
      by_cases h3 : a.dmdOk = false
      · rw [if_pos h3] at h; cases h
      · rw [if_neg h3] at h ⊢
        cases h4 : S.fitDmd D' a.U with
        | error e => rw [h4] at h; cases h
        | ok A =>
          rw [h4] at h
          dsimp only at h ⊢
          by_cases h5 : S.useInverse = true
          · rw [if_pos h5]; exact ⟨⟨D', A, h4, rfl⟩, ⟨_, rfl⟩⟩
          · rw [if_neg h5] at h ⊢
            cases h6 : S.inverseMap (preserves S.opt a.X.cols D.cols) a.X D' with
            | error e' => rw [h6] at h; cases h
            | ok B => exact ⟨⟨D', A, h4, rfl⟩, ⟨_, rfl⟩⟩

lemma lifeFit_ok_fields (S : LifeSetup α κ δ ι) (m : Held α δ ι) (a : FitCall α κ) (h : (lifeFit S m a).1 = .ok ()) :
    (lifeFit S m a).2.controlled = some a.U.isSome ∧ (∃ D A, S.fitDmd D a.U = .ok A ∧ (lifeFit S m a).2.dmd = some A) ∧ ∃ B, (lifeFit S m a).2.inv = some B := by
  unfold lifeFit at h ⊢
  by_cases h1 : isConstDeltaTime .int a.X.rows = false
  · rw [if_pos h1] at h; cases h
  · rw [if_neg h1] at h ⊢
    by_cases h2 : m.partialMode = some true
    · rw [if_pos h2] at h; cases h
    · rw [if_neg h2] at h ⊢
      by_cases h3 : a.paramsOk = false
      · rw [if_pos h3] at h; cases h
      · rw [if_neg h3] at h ⊢
        unfold fitDictionary at h ⊢
        cases h4 : (refitParts m.parts a.X).1 with
        | error e => rw [h4] at h; cases h
        | ok D =>
          rw [h4] at h
          dsimp only at h ⊢
          refine ⟨by rw [(fitTail_fields S _ a D).2.2]; rfl, ?_⟩
          exact fitTail_ok S _ a D h

/-- **C210 (part).** After an accepted `fit`, with a DMD model that has a control part exactly if it is fitted with a control input, the model predicts every initial condition that the dictionary accepts, provided that a
control input is passed exactly if one was passed to `fit`; without it, or with one too much, it does not predict. -/
theorem C210_fitted_partial (S : LifeSetup α κ δ ι) (hS : ∀ D U A, S.fitDmd D U = .ok A → S.carries A = U.isSome) (m : Held α δ ι) (a : FitCall α κ) (h : (lifeFit S m a).1 = .ok ()) (X : Takens.Frame α) (U : Option κ) :
    (∃ Y, lifePredict S (lifeFit S m a).2 X U = .ok Y) ↔ U.isSome = a.U.isSome ∧ ∃ D, lifeTransform S (lifeFit S m a).2 X = .ok D := by
  obtain ⟨h1, ⟨D, A, h2, h3⟩, B, h4⟩ := lifeFit_ok_fields S m a h
  rw [C210_predict, h1, h3, h4]
  constructor
  · rintro ⟨A', B', hA, -, hc, -, hD⟩
    simp only [Option.some.injEq] at hc
    exact ⟨hc.symm, hD⟩
  · rintro ⟨hc, hD⟩
    exact ⟨A, B, rfl, rfl, by rw [hc], by rw [hS D a.U A h2, hc], hD⟩

/-- **C210 (part).** A DMD model that ignores the control input (such as `DMDStandard`) makes a call of `fit` with control input succeed, but then the model can predict nothing, neither with nor without control input. -/
theorem C210_ignored_violated (S : LifeSetup α κ δ ι) (hS : ∀ A, S.carries A = false) (m : Held α δ ι) (a : FitCall α κ) (ha : a.U.isSome = true) (h : (lifeFit S m a).1 = .ok ()) (X : Takens.Frame α) (U : Option κ) :
    ∃ e, lifePredict S (lifeFit S m a).2 X U = .error e := by
  obtain ⟨h1, -, -⟩ := lifeFit_ok_fields S m a h
  cases hp : lifePredict S (lifeFit S m a).2 X U with
  | error e => exact ⟨e, rfl⟩
  | ok Y =>
    obtain ⟨A, B, -, -, hc, hA, -⟩ := (C210_predict S _ X U).1 ⟨Y, hp⟩
    rw [h1, ha] at hc
    simp only [Option.some.injEq] at hc
    rw [hS, ← hc] at hA
    cases hA

/-- In the example a call with control input is accepted. -/
example : (lifeFit demoLife (.new demoSteps) ⟨series1 [1, 1/2, 0], some (), true, true⟩).1 = .ok () := by decide +kernel

/-- **C210 (part).** If a model with control is fitted again without control input and the call is refused (because a parameter does not exist), or if `partial_fit` is called, which is refused, then the model can predict nothing any more, neither
with nor without control input. -/
theorem C210_refused_violated (S : LifeSetup α κ δ ι) (m : Held α δ ι) (A : δ) (hA : m.dmd = some A) (hc : S.carries A = true) (hm : m.partialMode = some false) (X : Takens.Frame α) (U : Option κ) :
    (∀ a : FitCall α κ, isConstDeltaTime .int a.X.rows = true → a.U = none → a.paramsOk = false →
      (lifeFit S m a).1 = .error .params ∧ ∃ e, lifePredict S (lifeFit S m a).2 X U = .error e) ∧
    (∀ u Z, isConstDeltaTime .int Z.rows = true → (lifePartial u m Z).1 = .error .mode ∧ ∃ e, lifePredict S (lifePartial u m Z).2 X U = .error e) := by
  have key : ∀ m' : Held α δ ι, m'.dmd = some A → m'.controlled = some false → ∃ e, lifePredict S m' X U = .error e := by
    intro m' h1 h2
    cases hp : lifePredict S m' X U with
    | error e => exact ⟨e, rfl⟩
    | ok Y =>
      obtain ⟨A', B, hA', -, hc', hA2, -⟩ := (C210_predict S _ X U).1 ⟨Y, hp⟩
      rw [h1] at hA'
      simp only [Option.some.injEq] at hA'
      rw [h2] at hc'
      simp only [Option.some.injEq] at hc'
      rw [← hA', hc, ← hc'] at hA2
      cases hA2
  constructor
  · intro a h1 h2 h3
    have : lifeFit S m a = (.error .params, fitFlags m a) := by
      unfold lifeFit
      rw [if_neg (by rw [h1]; simp), if_neg (by rw [hm]; simp), if_pos h3]
    rw [this]
    exact ⟨rfl, key _ hA (by simp [fitFlags, h2])⟩
  · intro u Z h1
    have : lifePartial u m Z = (.error .mode, { m with controlled := some false }) := by
      unfold lifePartial
      rw [if_neg (by rw [h1]; simp), if_pos hm]
    rw [this]
    exact ⟨rfl, key _ hA rfl⟩

/-- The example with a DMD model that has a control part if it is fitted with control input. -/
def demoControl : LifeSetup ℚ Unit (ℚ × Bool) ℚ where
  includeId := false
  opt := none
  useInverse := false
  fitDmd D U := .ok (lsq1 (column1 D).dropLast (column1 D).tail, U.isSome)
  inverseMap _ X D := .ok (lsq1 (column1 D) (column1 X))
  carries A := A.2
  run A B _ D := ⟨["x"], D.rows.map (fun r => { r with val := [r.val.getD 0 0 * A.1 * B.getD 1] })⟩

/-- A model with control that predicts before a refused call and not after it. -/
example : (∀ D U A, demoControl.fitDmd D U = .ok A → demoControl.carries A = U.isSome) ∧
    valuesOf (lifePredict demoControl (lifeFit demoControl (.new demoSteps) ⟨series1 [1, 1/2, 0], some (), true, true⟩).2 (series1 [1]) (some ())) = some [2/5] ∧
    valuesOf (lifePredict demoControl (lifePartial (fun m => (.ok (), m)) (lifeFit demoControl (.new demoSteps) ⟨series1 [1, 1/2, 0], some (), true, true⟩).2 (series1 [1, 2])).2 (series1 [1]) (some ())) = none := by
  refine ⟨?_, by decide +kernel, by decide +kernel⟩
  intro D U A h
  simp only [demoControl, Except.ok.injEq] at h
  simp [demoControl, ← h]

end Verif.Edmd
