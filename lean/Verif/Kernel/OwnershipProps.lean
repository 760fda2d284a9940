import Verif.Kernel.Ownership
import Verif.Kernel.CknnHistoryProps
/-!
# C207 and C208: a fitted kernel model does not depend on what happens to its kernel object afterwards; refused fits

The small specification is `freshValue`: what a model that is fitted to `X` with a kernel in state `s` returns for `Y`.
-/

namespace Verif.Kernel

variable {P σ A C T R : Type} {d : Nat}

/-- The values at `Y` of a model fitted to `X`, `t` with a kernel in state `s`. -/
def freshValue (S : KSetup P σ A C T R) (m : Nat) (s : σ) (X : List P) (t : T) (Y : List P) : Except KErr R :=
  match (S.layer m).pair s none X with
  | (.error e, _) => .error e
  | (.ok M, s', a) => match S.solve m t X.length M with
    | .error e => .error e
    | .ok c => ((S.layer m).comp s' a X Y).1.map (S.read m c Y.length X.length)

/-- Evaluating the kernel for new points does not change it once it has been evaluated pair-wise. -/
def Settles (S : KSetup P σ A C T R) : Prop :=
  ∀ i j s X M s' a', (S.layer i).pair s none X = (.ok M, s', a') → ∀ a X Y, ((S.layer j).comp s' a X Y).2 = s'

/-- The state of kernel object `k` after the changes made to it by the program (not by the models). -/
def changedBy (k : Nat) : List (KOp P σ T) → σ → σ
  | [], s => s
  | .change k' f :: h, s => changedBy k h (if k' = k then f s else s)
  | .assign _ _ :: h, s => changedBy k h s
  | .fit _ _ _ :: h, s => changedBy k h s
  | .use _ _ :: h, s => changedBy k h s

/-- The operation neither changes kernel object `k`, nor fits model `m`, nor fits geometric harmonics. -/
def Quiet (S : KSetup P σ A C T R) (k m : Nat) : KOp P σ T → Prop
  | .change k' _ => k' ≠ k
  | .assign _ _ => True
  | .fit m' _ _ => m' ≠ m ∧ S.kind m' ≠ .geometricHarmonics
  | .use _ _ => True

/-! ### Lemmas -/

theorem setModel_same (w : KWorld P σ A C) (m : Nat) (x : KModel P σ A C) : (w.setModel m x).model m = x := by simp [KWorld.setModel]

theorem setModel_other (w : KWorld P σ A C) {m i : Nat} (h : i ≠ m) (x : KModel P σ A C) : (w.setModel m x).model i = w.model i := by simp [KWorld.setModel, h]

theorem startFit_other (S : KSetup P σ A C T R) (w : KWorld P σ A C) {m i : Nat} (h : i ≠ m) (X : List P) : (startFit S w m X).model i = w.model i := by
  unfold startFit; split <;> exact setModel_other _ h _

theorem refusedEval_other (S : KSetup P σ A C T R) (w : KWorld P σ A C) {m i : Nat} (h : i ≠ m) (s : σ) (a : Option A) : (refusedEval S w m s a).model i = w.model i := by
  unfold refusedEval; split
  · exact setModel_other _ h _
  · exact setModel_other _ h _
  · rfl

theorem acceptedEval_other (S : KSetup P σ A C T R) (w : KWorld P σ A C) {m i : Nat} (h : i ≠ m) (s : σ) (a : Option A) : (acceptedEval S w m s a).model i = w.model i := by
  unfold acceptedEval; split <;> exact setModel_other _ h _

theorem fitModel_other (S : KSetup P σ A C T R) (w : KWorld P σ A C) {m i : Nat} (h : i ≠ m) (X : List P) (t : T) : (fitModel S w m X t).2.model i = w.model i := by
  unfold fitModel
  split
  · rfl
  · split
    · exact startFit_other S w h X
    · split
      · rw [refusedEval_other S _ h, startFit_other S w h]
      · split
        · rw [acceptedEval_other S _ h, startFit_other S w h]
        · rw [setModel_other _ h, acceptedEval_other S _ h, startFit_other S w h]

theorem startFit_kernels (S : KSetup P σ A C T R) (w : KWorld P σ A C) (m : Nat) (X : List P) : (startFit S w m X).kernels = w.kernels := by
  unfold startFit; split <;> rfl

theorem startFit_param (S : KSetup P σ A C T R) (w : KWorld P σ A C) (m : Nat) (X : List P) : (startFit S w m X).param = w.param := by
  unfold startFit; split <;> rfl

theorem fitModel_kernels (S : KSetup P σ A C T R) (w : KWorld P σ A C) {m : Nat} (h : S.kind m ≠ .geometricHarmonics) (X : List P) (t : T) : (fitModel S w m X t).2.kernels = w.kernels := by
  have h1 : ∀ w s a, (refusedEval S w m s a).kernels = w.kernels := by
    intro w s a; unfold refusedEval; split
    · rfl
    · exact absurd ‹_› h
    · rfl
  have h2 : ∀ w s a, (acceptedEval S w m s a).kernels = w.kernels := by
    intro w s a; unfold acceptedEval; split
    · rfl
    · exact absurd ‹_› h
    · rfl
  unfold fitModel
  split
  · rfl
  · split
    · exact startFit_kernels S w m X
    · split
      · rw [h1, startFit_kernels]
      · split
        · rw [h2, startFit_kernels]
        · show (acceptedEval S (startFit S w m X) m _ _).kernels = _
          rw [h2, startFit_kernels]

theorem useModel_other (S : KSetup P σ A C T R) (w : KWorld P σ A C) {m i : Nat} (h : i ≠ m) (Y : List P) : (useModel S w m Y).2.model i = w.model i := by
  unfold useModel
  split
  · rename_i hd _ _ _ _ _
    cases hd with
    | own s => exact setModel_other _ h _
    | ref k => rfl
  · rfl

/-- An accepted fit: what was evaluated, and the attributes afterwards. -/
theorem fitModel_ok {S : KSetup P σ A C T R} {w : KWorld P σ A C} {m : Nat} {X : List P} {t : T} (h : (fitModel S w m X t).1 = .ok ()) :
    ∃ M s a c, (S.layer m).pair (w.kernels (w.param m)) none X = (.ok M, s, a) ∧ S.solve m t X.length M = .ok c ∧
      (fitModel S w m X t).2.model m = ⟨some (if S.kind m = .geometricHarmonics then .ref (w.param m) else .own s), a, some X, some c⟩ ∧
      (S.kind m = .geometricHarmonics → (fitModel S w m X t).2.kernels (w.param m) = s) := by
  unfold fitModel at h ⊢
  split at h
  · cases h
  · rename_i h1
    rw [if_neg h1]
    split at h
    · cases h
    · rename_i h2
      rw [if_neg h2]
      split at h
      · cases h
      · rename_i M s a hp
        split at h
        · cases h
        · rename_i c hc
          rw [hp]
          dsimp only
          refine ⟨M, s, a, c, rfl, hc, ?_, ?_⟩
          · rw [setModel_same]
            cases hk : S.kind m <;> simp [acceptedEval, startFit, hk, KWorld.setModel, KWorld.setKernel]
          · intro hk
            simp [acceptedEval, startFit, hk, KWorld.setModel, KWorld.setKernel]

/-! ### C207 -/

/-- Helper: models with a kernel of their own. -/
theorem owned_run {S : KSetup P σ A C T R} {m : Nat} {s : σ} {a : Option A} {X : List P} {c : C} (hs : ∀ Y, ((S.layer m).comp s a X Y).2 = s) (h : List (KOp P σ T)) :
    ∀ w : KWorld P σ A C, w.model m = ⟨some (.own s), a, some X, some c⟩ → (∀ X' t', KOp.fit m X' t' ∉ h) → (kRun S w h).model m = ⟨some (.own s), a, some X, some c⟩ := by
  induction h with
  | nil => intro w hw _; exact hw
  | cons op h ih =>
    intro w hw hh
    have hh' : ∀ X' t', KOp.fit m X' t' ∉ h := fun X' t' hm => hh X' t' (List.mem_cons_of_mem _ hm)
    refine ih (kStep S w op) ?_ hh'
    cases op with
    | change k f => exact hw
    | assign m' k => exact hw
    | fit m' X' t' =>
      have hne : m ≠ m' := fun e => hh X' t' (by rw [e]; exact List.mem_cons_self)
      exact (fitModel_other S w hne X' t').trans hw
    | use m' Y =>
      by_cases hne : m = m'
      · subst hne
        show (useModel S w m Y).2.model m = _
        unfold useModel
        rw [hw]
        dsimp only
        show ((w.setModel m { w.model m with held := some (.own _) }).model m) = _
        rw [setModel_same, hw]
        simp only [KWorld.state]
        rw [hs Y]
      · exact (useModel_other S w hne Y).trans hw

/-- **C207 (models with a copy of the kernel).** Whatever has happened before, and whatever happens after an accepted fit (changes of the kernel object or of the parameter, fits of other models with the
same kernel object, evaluations), diffusion maps and jointly smooth functions return the values of a model fitted once to the data with the kernel as it was at the time of the fit. -/
theorem C207_owned {S : KSetup P σ A C T R} (hset : Settles S) {m : Nat} (hk : S.kind m ≠ .geometricHarmonics) {w : KWorld P σ A C} {X : List P} {t : T}
    (hfit : (fitModel S w m X t).1 = .ok ()) (h : List (KOp P σ T)) (hh : ∀ X' t', KOp.fit m X' t' ∉ h) (Y : List P) :
    (useModel S (kRun S (fitModel S w m X t).2 h) m Y).1 = freshValue S m (w.kernels (w.param m)) X t Y := by
  obtain ⟨M, s, a, c, hp, hc, hm, -⟩ := fitModel_ok hfit
  rw [if_neg hk] at hm
  have hr := owned_run (fun Y => hset m m _ _ _ _ _ hp a X Y) h _ hm hh
  unfold useModel freshValue
  rw [hr, hp]
  dsimp only
  rw [hc]
  rfl

/-- Helper: no model of this kind holds a kernel object of the program. -/
def NoRefs (S : KSetup P σ A C T R) (w : KWorld P σ A C) : Prop := ∀ m k, S.kind m ≠ .geometricHarmonics → (w.model m).held ≠ some (.ref k)

theorem noRefs_fit {S : KSetup P σ A C T R} {w : KWorld P σ A C} (hw : NoRefs S w) (m : Nat) (X : List P) (t : T) : NoRefs S (fitModel S w m X t).2 := by
  intro i k hi
  by_cases hne : i = m
  · subst hne
    have hstart : ((startFit S w i X).model i).held ≠ some (.ref k) := by
      unfold startFit; split
      · rw [setModel_same]; simp
      · exact absurd ‹_› hi
      · rw [setModel_same]; exact hw i k hi
    have href : ∀ s a, ((refusedEval S (startFit S w i X) i s a).model i).held ≠ some (.ref k) := by
      intro s a; unfold refusedEval; split
      · rw [setModel_same]; simp
      · exact absurd ‹_› hi
      · exact hstart
    have hacc : ∀ s a, ((acceptedEval S (startFit S w i X) i s a).model i).held ≠ some (.ref k) := by
      intro s a; unfold acceptedEval; split
      · rw [setModel_same]; simp
      · exact absurd ‹_› hi
      · rw [setModel_same]; simp
    unfold fitModel
    split
    · exact hw i k hi
    · split
      · exact hstart
      · split
        · exact href _ _
        · split
          · exact hacc _ _
          · rw [setModel_same]; exact hacc _ _
  · rw [fitModel_other S w hne]; exact hw i k hi

theorem noRefs_use {S : KSetup P σ A C T R} {w : KWorld P σ A C} (hw : NoRefs S w) (m : Nat) (Y : List P) : NoRefs S (useModel S w m Y).2 := by
  intro i k hi
  by_cases hne : i = m
  · subst hne
    unfold useModel
    split
    · rename_i hd _ _ heq _ _
      cases hd with
      | own s =>
        show ((w.setModel i _).model i).held ≠ _
        rw [setModel_same]; simp
      | ref k' => exact absurd heq (hw i k' hi)
    · exact hw i k hi
  · rw [useModel_other S w hne]; exact hw i k hi

/-- **C207 (the kernel object of the user).** Diffusion maps and jointly smooth functions never change a kernel object, by whatever history of fits and evaluations: it is as the program itself has changed
it.  In particular they can be fitted any number of times. -/
theorem C207_parameter {S : KSetup P σ A C T R} (hk : ∀ m, S.kind m ≠ .geometricHarmonics) (h : List (KOp P σ T)) :
    ∀ {w : KWorld P σ A C}, (∀ m, (w.model m).held = none) → ∀ k, (kRun S w h).kernels k = changedBy k h (w.kernels k) := by
  have key : ∀ (h : List (KOp P σ T)) (w : KWorld P σ A C), NoRefs S w → ∀ k, (kRun S w h).kernels k = changedBy k h (w.kernels k) := by
    intro h
    induction h with
    | nil => intro w _ k; rfl
    | cons op h ih =>
      intro w hw k
      cases op with
      | change k' f =>
        have := ih (kStep S w (.change k' f)) hw k
        show (kRun S (kStep S w (.change k' f)) h).kernels k = _
        rw [this]
        show changedBy k h _ = changedBy k h (if k' = k then f (w.kernels k) else w.kernels k)
        by_cases e : k' = k
        · subst e; simp [kStep, KWorld.setKernel]
        · simp [kStep, KWorld.setKernel, e, Ne.symm e]
      | assign m' k' => exact ih (kStep S w (.assign m' k')) hw k
      | fit m' X' t' =>
        have := ih (kStep S w (.fit m' X' t')) (noRefs_fit hw m' X' t') k
        show (kRun S (kStep S w (.fit m' X' t')) h).kernels k = _
        rw [this]
        show changedBy k h ((fitModel S w m' X' t').2.kernels k) = changedBy k h (w.kernels k)
        rw [fitModel_kernels S w (hk m')]
      | use m' Y =>
        have := ih (kStep S w (.use m' Y)) (noRefs_use hw m' Y) k
        show (kRun S (kStep S w (.use m' Y)) h).kernels k = _
        rw [this]
        show changedBy k h ((useModel S w m' Y).2.kernels k) = changedBy k h (w.kernels k)
        have : (useModel S w m' Y).2.kernels = w.kernels := by
          unfold useModel
          split
          · rename_i hd _ _ heq _ _
            cases hd with
            | own s => rfl
            | ref k' => exact absurd heq (hw m' k' (hk m'))
          · rfl
        rw [this]
  intro w hw k
  exact key h w (fun m k _ => by rw [hw m]; simp) k

/-- **C207 (geometric harmonics, the part that holds).** As long as the program does not change the kernel object and no geometric harmonics are fitted, the model returns the values of a model
fitted once to the data. -/
theorem C207_shared_partial {S : KSetup P σ A C T R} (hset : Settles S) {m : Nat} (hk : S.kind m = .geometricHarmonics) {w : KWorld P σ A C} {X : List P} {t : T}
    (hfit : (fitModel S w m X t).1 = .ok ()) (h : List (KOp P σ T)) (hh : ∀ op ∈ h, Quiet S (w.param m) m op) (Y : List P) :
    (useModel S (kRun S (fitModel S w m X t).2 h) m Y).1 = freshValue S m (w.kernels (w.param m)) X t Y := by
  obtain ⟨M, s, a, c, hp, hc, hm, hker⟩ := fitModel_ok hfit
  rw [if_pos hk] at hm
  have key : ∀ (h : List (KOp P σ T)) (v : KWorld P σ A C), v.model m = ⟨some (.ref (w.param m)), a, some X, some c⟩ → v.kernels (w.param m) = s → (∀ op ∈ h, Quiet S (w.param m) m op) →
      (kRun S v h).model m = ⟨some (.ref (w.param m)), a, some X, some c⟩ ∧ (kRun S v h).kernels (w.param m) = s := by
    intro h
    induction h with
    | nil => intro v h1 h2 _; exact ⟨h1, h2⟩
    | cons op h ih =>
      intro v h1 h2 h3
      have hq := h3 op List.mem_cons_self
      have hrest := fun op hm => h3 op (List.mem_cons_of_mem _ hm)
      cases op with
      | change k' f =>
        refine ih (kStep S v (.change k' f)) h1 ?_ hrest
        have : w.param m ≠ k' := Ne.symm hq
        simp [kStep, KWorld.setKernel, this, h2]
      | assign m' k' => exact ih (kStep S v (.assign m' k')) h1 h2 hrest
      | fit m' X' t' =>
        refine ih (kStep S v (.fit m' X' t')) ((fitModel_other S v (Ne.symm hq.1) X' t').trans h1) ?_ hrest
        show (fitModel S v m' X' t').2.kernels _ = s
        rw [fitModel_kernels S v hq.2]; exact h2
      | use m' Y =>
        refine ih (kStep S v (.use m' Y)) ?_ ?_ hrest
        · by_cases e : m = m'
          · subst e
            show (useModel S v m Y).2.model m = _
            unfold useModel
            rw [h1]
            dsimp only
            exact h1
          · exact (useModel_other S v e Y).trans h1
        · show (useModel S v m' Y).2.kernels _ = s
          unfold useModel
          split
          · rename_i hd X' _ _ _ _
            cases hd with
            | own s' => exact h2
            | ref k' =>
              by_cases e : w.param m = k'
              · show (v.setKernel k' _).kernels (w.param m) = s
                simp only [KWorld.setKernel, if_pos e, KWorld.state]
                rw [← e, h2]
                exact hset m m' _ _ _ _ _ hp _ _ _
              · show (v.setKernel k' _).kernels (w.param m) = s
                simp only [KWorld.setKernel, if_neg e, h2]
          · exact h2
  obtain ⟨h1, h2⟩ := key h _ hm (hker hk) hh
  unfold useModel freshValue
  rw [h1, hp]
  dsimp only
  rw [hc]
  simp only [KWorld.state, h2]

/-! ### The kernels -/

/-- The inner state after a pair-wise evaluation of the wrapped kernel is that of the inner kernel. -/
theorem dmapPair_inner {I : Internal P σ} (k : DmapKernel) (s : σ) (X : List P) : (dmapPair k I ⟨s, none⟩ X).2.inner = (I.pdist s X).2 := by
  unfold dmapPair
  dsimp only
  cases I.pdist s X with
  | mk r s2 => cases r <;> rfl

theorem dmapComp_inner {I : Internal P σ} (k : DmapKernel) (s : σ) (a : Option ((n : Nat) × Fitted (Fin n))) (X Y : List P) : (dmapComp k I ⟨s, a⟩ X Y).2.inner = (I.cdist s X Y).2 := by
  unfold dmapComp
  dsimp only
  cases I.cdist s X Y with
  | mk r s2 =>
    cases r with
    | error e => rfl
    | ok K =>
      cases a with
      | none => rfl
      | some f =>
        dsimp only
        cases castFit X.length f.2 <;> rfl

/-- **C207 (the hypothesis holds for the kernels).** A Gaussian kernel, with a number or a function as bandwidth, settles with its first evaluation, wrapped or not. -/
theorem settles_gauss (S : KSetup (Fin d → ℝ) Epsilon ((n : Nat) × Fitted (Fin n)) C T R) (ks : Nat → DmapKernel) (hl : ∀ i, S.layer i = dmapLayer (ks i) (gaussInternal d)) : Settles S := by
  intro i j s X M s' a' h a X' Y
  rw [hl i] at h
  have h2 : (dmapPair (ks i) (gaussInternal d) ⟨s, none⟩ X).2.inner = s' := congrArg (fun p => p.2.1) h
  rw [dmapPair_inner] at h2
  rw [hl j, ← h2]
  exact dmapComp_inner _ _ _ _ _

theorem settles_gauss_bare (S : KSetup (Fin d → ℝ) Epsilon Unit C T R) (hl : ∀ i, S.layer i = bareLayer (gaussInternal d)) : Settles S := by
  intro i j s X M s' a' h a X' Y
  rw [hl i] at h
  obtain rfl : s' = .number (s.resolve (sqDistMatrix X X)) := (congrArg (fun p => p.2.1) h).symm
  rw [hl j]
  rfl

/-- The same for a continuous nearest neighbour kernel. -/
theorem settles_cknn (c : CkNN) (Dp : (X : List P) → Except KErr (Matrix (Fin X.length) (Fin X.length) ℝ)) (Dc : (X Y : List P) → Except KErr (Matrix (Fin Y.length) (Fin X.length) ℝ))
    (S : KSetup P KnnAttr ((n : Nat) × Fitted (Fin n)) C T R) (ks : Nat → DmapKernel) (hl : ∀ i, S.layer i = dmapLayer (ks i) (cknnInternal c Dp Dc)) : Settles S := by
  intro i j s X M s' a' _ a X' Y
  rw [hl j]
  exact (dmapComp_inner _ _ _ _ _).trans (cknnComp_state c Dc s' X' Y)

/-- The same without the wrapper. -/
theorem settles_cknn_bare (c : CkNN) (Dp : (X : List P) → Except KErr (Matrix (Fin X.length) (Fin X.length) ℝ)) (Dc : (X Y : List P) → Except KErr (Matrix (Fin Y.length) (Fin X.length) ℝ))
    (S : KSetup P KnnAttr Unit C T R) (hl : ∀ i, S.layer i = bareLayer (cknnInternal c Dp Dc)) : Settles S := by
  intro i j s X M s' a' _ a X' Y
  rw [hl j]
  exact cknnComp_state c Dc s' X' Y

/-- An accepted evaluation of the wrapped kernel is one of the inner kernel. -/
theorem dmapPair_inner_ok {I : Internal P σ} (k : DmapKernel) (s : σ) (X : List P) {M} (h : (dmapPair k I ⟨s, none⟩ X).1 = .ok M) : ∃ K, (I.pdist s X).1 = .ok K := by
  unfold dmapPair at h
  dsimp only at h
  cases hp : I.pdist s X with
  | mk r s2 =>
    rw [hp] at h
    cases r with
    | error e => cases h
    | ok K => exact ⟨K, rfl⟩

/-- **C207 (violated: continuous nearest neighbour kernels can be used once).** After an accepted fit of geometric harmonics the kernel object of the user cannot be used any more: every later fit of
geometric harmonics with it, of the same or another model, to the same or other data, is refused. -/
theorem C207_once_violated (c : CkNN) (Dp : (X : List P) → Except KErr (Matrix (Fin X.length) (Fin X.length) ℝ)) (Dc : (X Y : List P) → Except KErr (Matrix (Fin Y.length) (Fin X.length) ℝ))
    (S : KSetup P KnnAttr ((n : Nat) × Fitted (Fin n)) C T R) (ks : Nat → DmapKernel) (hl : ∀ i, S.layer i = dmapLayer (ks i) (cknnInternal c Dp Dc)) {m m' : Nat} (hk : S.kind m = .geometricHarmonics)
    {w : KWorld P KnnAttr ((n : Nat) × Fitted (Fin n)) C} {X : List P} {t : T} (hfit : (fitModel S w m X t).1 = .ok ()) (hm : (fitModel S w m X t).2.param m' = w.param m) (X' : List P) (t' : T) :
    (fitModel S (fitModel S w m X t).2 m' X' t').1 ≠ .ok () := by
  obtain ⟨M, s, a, co, hp, -, -, hker⟩ := fitModel_ok hfit
  intro hfit'
  obtain ⟨M', s', a', c', hp', -⟩ := fitModel_ok hfit'
  rw [hm, hker hk, hl m'] at hp'
  rw [hl m] at hp
  have h1 : (dmapPair (ks m) (cknnInternal c Dp Dc) ⟨w.kernels (w.param m), none⟩ X).1 = .ok M := congrArg Prod.fst hp
  have h2 : (dmapPair (ks m) (cknnInternal c Dp Dc) ⟨w.kernels (w.param m), none⟩ X).2.inner = s := congrArg (fun p => p.2.1) hp
  have h3 : (dmapPair (ks m') (cknnInternal c Dp Dc) ⟨s, none⟩ X').1 = .ok M' := congrArg Prod.fst hp'
  obtain ⟨K, hK⟩ := dmapPair_inner_ok _ _ _ h1
  obtain ⟨K', hK'⟩ := dmapPair_inner_ok _ _ _ h3
  rw [dmapPair_inner] at h2
  have hs : ∃ v, s = some v := by
    rw [← h2]
    simp only [cknnInternal, cknnPair] at hK ⊢
    cases hD : Dp X with
    | error e => rw [hD] at hK; cases hK
    | ok D =>
      rw [hD] at hK
      dsimp only at hK ⊢
      cases hr : c.pdist (Option.map (fun _ _ => 0) (w.kernels (w.param m))) D with
      | error e => rw [hr] at hK; cases hK
      | ok r => exact ⟨_, rfl⟩
  obtain ⟨v, rfl⟩ := hs
  simp only [cknnInternal] at hK'
  cases hq : (cknnPair c Dp (some v) X').1 with
  | error e => rw [hq] at hK'; cases hK'
  | ok G => exact cknnPair_some c Dp v X' G hq

/-- **C207 (violated: functions as bandwidth).** After a fit of geometric harmonics to `X` with a function as bandwidth, the attribute of the kernel object of the user is a number, the bandwidth of `X`; a second
fit, also of another model, to `X'` has the values of a model with the bandwidth of `X`.  Models that copy the kernel use the bandwidth of `X'` (`C207_owned`, `C207_parameter`). -/
theorem C207_callable_violated (S : KSetup (Fin d → ℝ) Epsilon ((n : Nat) × Fitted (Fin n)) C T R) (ks : Nat → DmapKernel) (hl : ∀ i, S.layer i = dmapLayer (ks i) (gaussInternal d)) {m m' : Nat}
    (hk : S.kind m = .geometricHarmonics) {w : KWorld (Fin d → ℝ) Epsilon ((n : Nat) × Fitted (Fin n)) C} {f : (m n : Nat) → Matrix (Fin m) (Fin n) ℝ → ℝ} (hf : w.kernels (w.param m) = .callable f)
    {X X' : List (Fin d → ℝ)} {t t' : T} (hfit : (fitModel S w m X t).1 = .ok ()) (hm : (fitModel S w m X t).2.param m' = w.param m) (hfit' : (fitModel S (fitModel S w m X t).2 m' X' t').1 = .ok ())
    (Y : List (Fin d → ℝ)) :
    (useModel S (fitModel S (fitModel S w m X t).2 m' X' t').2 m' Y).1 = freshValue S m' (.number (f X.length X.length (sqDistMatrix X X))) X' t' Y := by
  obtain ⟨M, s, a, co, hp, -, -, hker⟩ := fitModel_ok hfit
  have hs : s = .number (f X.length X.length (sqDistMatrix X X)) := by
    rw [hl m, hf] at hp
    have h2 : (dmapPair (ks m) (gaussInternal d) ⟨.callable f, none⟩ X).2.inner = s := congrArg (fun p => p.2.1) hp
    rw [dmapPair_inner] at h2
    exact h2.symm
  have hset := settles_gauss S ks hl
  have hw : (fitModel S w m X t).2.kernels ((fitModel S w m X t).2.param m') = .number (f X.length X.length (sqDistMatrix X X)) := by rw [hm, hker hk, hs]
  rw [← hw]
  by_cases hk' : S.kind m' = .geometricHarmonics
  · exact C207_shared_partial hset hk' hfit' [] (by simp) Y
  · exact C207_owned hset hk' hfit' [] (by simp) Y

/-! ### A kernel that is changed after the fit -/

/-- The Gaussian kernel matrix. -/
noncomputable def gaussMat (e : ℝ) (X Y : List (Fin d → ℝ)) : Matrix (Fin Y.length) (Fin X.length) ℝ := Matrix.of (fun i j => Real.exp ((-1 / (2 * e)) * sqDist Y[i] X[j]))

/-- The kernel matrix times the coefficients (outofsample.py 240-245). -/
noncomputable def linRead (c : Nat → ℝ) (m n : Nat) (M : Matrix (Fin m) (Fin n) ℝ) : List ℝ := List.ofFn (fun i => ∑ j, M i j * c j)

theorem gauss_evaluate {e : ℝ} (he : 0 < e) (X Y : List (Fin d → ℝ)) : (Radial.gaussian e).evaluate (sqDistMatrix X Y) = .ok (gaussMat e X Y) := by
  have hc : (Radial.gaussian e).check = .ok () := if_pos he
  unfold Radial.evaluate
  rw [hc]
  rfl

theorem plain_layer_pair {e : ℝ} (he : 0 < e) (X : List (Fin d → ℝ)) : (dmapLayer plainKernel (gaussInternal d)).pair (.number e) none X = (.ok (gaussMat e X X), .number e, some ⟨X.length, ⟨none, none⟩⟩) := by
  simp only [dmapLayer, dmapPair, gaussInternal, Epsilon.resolve]
  rw [gauss_evaluate he]
  rfl

theorem plain_layer_comp {e : ℝ} (he : 0 < e) {n : Nat} (X Y : List (Fin d → ℝ)) : (dmapLayer plainKernel (gaussInternal d)).comp (.number e) (some ⟨n, ⟨none, none⟩⟩) X Y = (.ok (gaussMat e X Y), .number e) := by
  simp only [dmapLayer, dmapComp, gaussInternal, Epsilon.resolve]
  rw [gauss_evaluate he]
  rfl

/-- **C207 (violated: a kernel changed after the fit).** Geometric harmonics with a Gaussian kernel, fitted to two different points: if the bandwidth of the kernel object is changed after the fit, the values at the
training points change without a new fit, whatever the solver has returned except zero coefficients. -/
theorem C207_changed_violated (S : KSetup (Fin d → ℝ) Epsilon ((n : Nat) × Fitted (Fin n)) (Nat → ℝ) T (List ℝ)) (m : Nat) (hl : S.layer m = dmapLayer plainKernel (gaussInternal d))
    (hr : S.read m = linRead) (hk : S.kind m = .geometricHarmonics) {w : KWorld (Fin d → ℝ) Epsilon ((n : Nat) × Fitted (Fin n)) (Nat → ℝ)} {e e' : ℝ} (he : 0 < e) (he' : 0 < e') (hne : e ≠ e')
    (hw : w.kernels (w.param m) = .number e) {x₀ x₁ : Fin d → ℝ} (hx : 0 < sqDist x₀ x₁) {t : T} (hfit : (fitModel S w m [x₀, x₁] t).1 = .ok ())
    (hc : ∀ M c, S.solve m t 2 M = .ok c → c 0 ≠ 0 ∨ c 1 ≠ 0) :
    (useModel S (kStep S (fitModel S w m [x₀, x₁] t).2 (.change (w.param m) (fun _ => .number e'))) m [x₀, x₁]).1 ≠ (useModel S (fitModel S w m [x₀, x₁] t).2 m [x₀, x₁]).1 := by
  obtain ⟨M, s, a, c, hp, hs, hm, hker⟩ := fitModel_ok hfit
  rw [hl, hw, plain_layer_pair he] at hp
  obtain ⟨-, h2, h3⟩ : _ ∧ .number e = s ∧ some ⟨2, ⟨none, none⟩⟩ = a := by
    have := hp
    simp only [Prod.mk.injEq] at this
    exact this
  subst h2 h3
  rw [if_pos hk] at hm
  have hu : ∀ (v : KWorld (Fin d → ℝ) Epsilon ((n : Nat) × Fitted (Fin n)) (Nat → ℝ)) (b : ℝ), 0 < b → v.model m = (fitModel S w m [x₀, x₁] t).2.model m → v.kernels (w.param m) = .number b →
      (useModel S v m [x₀, x₁]).1 = .ok (linRead c 2 2 (gaussMat b [x₀, x₁] [x₀, x₁])) := by
    intro v b hb h1 h2
    unfold useModel
    rw [h1, hm]
    dsimp only [KWorld.state]
    rw [h2, hl, plain_layer_comp hb, hr]
    rfl
  rw [hu (fitModel S w m [x₀, x₁] t).2 e he rfl (hker hk), hu (kStep S (fitModel S w m [x₀, x₁] t).2 _) e' he' rfl (by simp [kStep, KWorld.setKernel])]
  intro h
  have h := List.ofFn_inj.1 (Except.ok.inj h)
  have h0 := congrFun h (0 : Fin 2)
  have h1 := congrFun h (1 : Fin 2)
  have z0 : sqDist x₀ x₀ = 0 := by simp [sqDist]
  have z1 : sqDist x₁ x₁ = 0 := by simp [sqDist]
  have zs : sqDist x₁ x₀ = sqDist x₀ x₁ := by unfold sqDist; exact Finset.sum_congr rfl (fun i _ => by ring)
  simp only [gaussMat, Matrix.of_apply, Fin.sum_univ_two] at h0 h1
  simp [z0, z1, zs] at h0 h1
  have hexp : Real.exp (-1 / (2 * e') * sqDist x₀ x₁) ≠ Real.exp (-1 / (2 * e) * sqDist x₀ x₁) := by
    intro heq
    have h5 := mul_right_cancel₀ hx.ne' (Real.exp_injective heq)
    rw [div_eq_div_iff (by positivity) (by positivity)] at h5
    exact hne (by linarith)
  rcases hc M c hs with h | h
  · rcases h1 with h1 | h1
    · exact hexp (by simpa using h1)
    · exact h h1
  · rcases h0 with h0 | h0
    · exact hexp (by simpa using h0)
    · exact h h0

/-! ### C208 -/

/-- **C208 (data that are not accepted).** A fit that is refused because of the data leaves everything as it was. -/
theorem C208_validated (S : KSetup P σ A C T R) (w : KWorld P σ A C) (m : Nat) {X : List P} {t : T} (h : S.accepts m X t = false) :
    (fitModel S w m X t).1 = .error .value ∧ ∀ (hist : List (KOp P σ T)) (m' : Nat) (Y : List P),
      (useModel S (kRun S (fitModel S w m X t).2 hist) m' Y).1 = (useModel S (kRun S w hist) m' Y).1 := by
  have : fitModel S w m X t = (.error .value, w) := if_pos h
  rw [this]
  exact ⟨rfl, fun _ _ _ => rfl⟩

/-- Helper: the attributes of the wrapped kernel stay missing. -/
theorem attrs_missing {S : KSetup P σ A C T R} {m : Nat} (h : List (KOp P σ T)) : ∀ w : KWorld P σ A C, (w.model m).attrs = none → (∀ X' t', KOp.fit m X' t' ∉ h) → ((kRun S w h).model m).attrs = none := by
  induction h with
  | nil => intro w hw _; exact hw
  | cons op h ih =>
    intro w hw hh
    have hh' : ∀ X' t', KOp.fit m X' t' ∉ h := fun X' t' hm => hh X' t' (List.mem_cons_of_mem _ hm)
    refine ih (kStep S w op) ?_ hh'
    cases op with
    | change k f => exact hw
    | assign m' k => exact hw
    | fit m' X' t' =>
      have hne : m ≠ m' := fun e => hh X' t' (by rw [e]; exact List.mem_cons_self)
      exact (congrArg KModel.attrs (fitModel_other S w hne X' t')).trans hw
    | use m' Y =>
      by_cases hne : m = m'
      · subst hne
        show ((useModel S w m Y).2.model m).attrs = _
        unfold useModel
        split
        · rename_i hd _ _ _ _ _
          cases hd with
          | own s =>
            show ((w.setModel m _).model m).attrs = none
            rw [setModel_same]; exact hw
          | ref k => exact hw
        · exact hw
      · exact (congrArg KModel.attrs (useModel_other S w hne Y)).trans hw

/-- **C208 (the part that holds).** If a fit of diffusion maps or geometric harmonics to accepted data is refused before the eigenproblem is solved, then the model cannot be used any more, whatever happens, until it is
fitted again: it never mixes the old with the new data. -/
theorem C208_refused_partial (S : KSetup P σ ((n : Nat) × Fitted (Fin n)) C T R) {m : Nat} (hk : S.kind m ≠ .jointlySmooth) {k : DmapKernel} {I : Internal P σ} (hl : S.layer m = dmapLayer k I)
    (w : KWorld P σ ((n : Nat) × Fitted (Fin n)) C) {X : List P} {t : T} (ha : S.accepts m X t = true) (hfit : (fitModel S w m X t).1 ≠ .ok ())
    (hs : ∀ M, ((S.layer m).pair (w.kernels (w.param m)) none X).1 = .ok M → ∃ c, S.solve m t X.length M = .ok c)
    (h : List (KOp P σ T)) (hh : ∀ X' t', KOp.fit m X' t' ∉ h) (Y : List P) (r : R) : (useModel S (kRun S (fitModel S w m X t).2 h) m Y).1 ≠ .ok r := by
  have hstart : ((startFit S w m X).model m).attrs = none := by
    unfold startFit; split
    · rw [setModel_same]
    · rw [setModel_same]
    · exact absurd ‹_› hk
  have hnone : ((fitModel S w m X t).2.model m).attrs = none := by
    unfold fitModel at hfit ⊢
    rw [if_neg (by simp [ha])] at hfit ⊢
    split
    · exact hstart
    · rename_i hcheck
      rw [if_neg hcheck] at hfit
      split
      · rename_i e s a hp
        have han : a = none := by
          rw [hl] at hp
          have h1 : (dmapPair k I ⟨w.kernels (w.param m), none⟩ X).1 = .error e := congrArg Prod.fst hp
          have h2 : (dmapPair k I ⟨w.kernels (w.param m), none⟩ X).2.fitted = a := congrArg (fun p => p.2.2) hp
          rw [← h2]
          unfold dmapPair at h1 ⊢
          dsimp only at h1 ⊢
          cases hi : I.pdist (w.kernels (w.param m)) X with
          | mk q s2 =>
            rw [hi] at h1
            cases q with
            | error e => rfl
            | ok K =>
              dsimp only at h1 ⊢
              cases hev : evalPdist k none K with
              | error e => rfl
              | ok x => rw [hev] at h1; cases h1
        subst han
        unfold refusedEval; split
        · rw [setModel_same]
        · rw [setModel_same]
        · exact absurd ‹_› hk
      · rename_i M s a hp
        obtain ⟨c, hc⟩ := hs M (by rw [hp])
        rw [hp] at hfit
        dsimp only at hfit
        rw [hc] at hfit
        exact absurd rfl hfit
  have hn := attrs_missing (S := S) h _ hnone hh
  unfold useModel
  split
  · rename_i hd X' c _ _ _
    dsimp only
    rw [hn, hl]
    have key : ∀ s, (((dmapLayer k I).comp s none X' Y).1.map (S.read m c Y.length X'.length)) ≠ .ok r := by
      intro s
      simp only [dmapLayer, dmapComp]
      cases I.cdist s X' Y with
      | mk q s2 => cases q <;> exact nofun
    exact key _
  · exact nofun

/-- **C208 (violated: the eigenproblem).** If the eigenproblem of a second fit cannot be solved, the model is as after a fit to the new data, with the old eigenpairs: it returns what has been computed of the kernel matrix
between `Y` and the new data and of the old eigenpairs. -/
theorem C208_solver_violated (S : KSetup P σ A C T R) (m : Nat) (w : KWorld P σ A C) {X : List P} {t : T} {c : C} (hold : (w.model m).coef = some c) (ha : S.accepts m X t = true) (hch : S.check m X = true)
    {M s a} (hp : (S.layer m).pair (w.kernels (w.param m)) none X = (.ok M, s, a)) {e} (hs : S.solve m t X.length M = .error e) (Y : List P) :
    (fitModel S w m X t).1 = .error e ∧ (useModel S (fitModel S w m X t).2 m Y).1 = ((S.layer m).comp s a X Y).1.map (S.read m c Y.length X.length) := by
  have h1 : fitModel S w m X t = (.error e, acceptedEval S (startFit S w m X) m s a) := by
    unfold fitModel
    rw [if_neg (by simp [ha]), if_neg (by simp [hch]), hp]
    dsimp only
    rw [hs]
  have h2 : (acceptedEval S (startFit S w m X) m s a).model m = ⟨some (if S.kind m = .geometricHarmonics then .ref (w.param m) else .own s), a, some X, some c⟩ := by
    cases hk : S.kind m <;> simp [acceptedEval, startFit, hk, KWorld.setModel, KWorld.setKernel, hold]
  rw [h1]
  refine ⟨rfl, ?_⟩
  unfold useModel
  rw [h2]
  dsimp only
  by_cases hk : S.kind m = .geometricHarmonics
  · rw [if_pos hk]
    have : (acceptedEval S (startFit S w m X) m s a).kernels (w.param m) = s := by simp [acceptedEval, startFit, hk, KWorld.setModel, KWorld.setKernel]
    simp only [KWorld.state, this]
  · rw [if_neg hk]
    rfl

/-- **C208 (violated: jointly smooth functions).** If a second fit of jointly smooth functions to accepted data is refused, by a check or by the evaluation of the kernel, then the model returns what has been computed of the
old kernel, between `Y` and the new data, and of the old eigenvectors. -/
theorem C208_jointly_violated (S : KSetup P σ A C T R) {m : Nat} (hk : S.kind m = .jointlySmooth) (w : KWorld P σ A C) {X₀ X : List P} {t : T} {c : C} {s : σ} {a : Option A}
    (hold : w.model m = ⟨some (.own s), a, some X₀, some c⟩) (ha : S.accepts m X t = true) (hbad : S.check m X = false ∨ ∃ e, ((S.layer m).pair (w.kernels (w.param m)) none X).1 = .error e) (Y : List P) :
    (∃ e, (fitModel S w m X t).1 = .error e) ∧ (useModel S (fitModel S w m X t).2 m Y).1 = ((S.layer m).comp s a X Y).1.map (S.read m c Y.length X.length) := by
  have hstart : startFit S w m X = w.setModel m ⟨some (.own s), a, some X, some c⟩ := by
    unfold startFit; rw [hk]; dsimp only; rw [hold]
  have h1 : ∃ e, fitModel S w m X t = (.error e, w.setModel m ⟨some (.own s), a, some X, some c⟩) := by
    unfold fitModel
    rw [if_neg (by simp [ha])]
    by_cases hc : S.check m X = false
    · rw [if_pos hc, hstart]; exact ⟨_, rfl⟩
    · rw [if_neg hc]
      obtain ⟨e, he⟩ := hbad.resolve_left hc
      cases hp : (S.layer m).pair (w.kernels (w.param m)) none X with
      | mk q r =>
        rw [hp] at he
        dsimp only at he
        subst he
        refine ⟨e, ?_⟩
        dsimp only
        unfold refusedEval
        rw [hk, hstart]
  obtain ⟨e, h1⟩ := h1
  rw [h1]
  refine ⟨⟨e, rfl⟩, ?_⟩
  unfold useModel
  rw [setModel_same]
  rfl

/-! ### Cases that meet the hypotheses -/

/-- One model of a kind with the Gaussian kernel, its own eigenproblem solver, and coefficients that are one. -/
noncomputable def demoSetup (kind : KModelKind) (solve : Bool → Bool) : KSetup (Fin 1 → ℝ) Epsilon ((n : Nat) × Fitted (Fin n)) (Nat → ℝ) Bool (List ℝ) where
  kind _ := kind
  layer _ := dmapLayer plainKernel (gaussInternal 1)
  accepts _ X _ := !X.isEmpty
  check _ _ := true
  solve _ t _ _ := if solve t then .ok (fun _ => 1) else .error .value
  read _ := linRead

/-- Kernel objects with one bandwidth, models that are not fitted, kernel 0 as parameter of all models. -/
def demoWorld (b : Epsilon) : KWorld (Fin 1 → ℝ) Epsilon ((n : Nat) × Fitted (Fin n)) (Nat → ℝ) := ⟨fun _ => b, fun _ => 0, fun _ => ⟨none, none, none, none⟩⟩

theorem demo_fit (kind : KModelKind) (solve : Bool → Bool) (b : Epsilon) (X : List (Fin 1 → ℝ)) (hX : X ≠ []) (hb : 0 < b.resolve (sqDistMatrix X X)) (t : Bool) (ht : solve t = true)
    (w : KWorld (Fin 1 → ℝ) Epsilon ((n : Nat) × Fitted (Fin n)) (Nat → ℝ)) (m : Nat) (hw : w.kernels (w.param m) = b) : (fitModel (demoSetup kind solve) w m X t).1 = .ok () := by
  have hp : (dmapLayer plainKernel (gaussInternal 1)).pair b none X = (.ok (gaussMat (b.resolve (sqDistMatrix X X)) X X), .number (b.resolve (sqDistMatrix X X)), some ⟨X.length, ⟨none, none⟩⟩) := by
    simp only [dmapLayer, dmapPair, gaussInternal]
    rw [gauss_evaluate hb]
    rfl
  unfold fitModel
  rw [if_neg (by simpa [demoSetup] using hX), if_neg (by simp [demoSetup]), hw]
  rw [show ((demoSetup kind solve).layer m).pair b none X = _ from hp]
  dsimp only
  have : (demoSetup kind solve).solve m t X.length (gaussMat (b.resolve (sqDistMatrix X X)) X X) = .ok (fun _ => 1) := by simp [demoSetup, ht]
  rw [this]

/-- The hypotheses of `C207_owned` and `C207_shared_partial`, with a history in which other models are fitted and the kernel is evaluated. -/
example : Settles (demoSetup .diffusionMaps (fun _ => true)) ∧ (fitModel (demoSetup .diffusionMaps (fun _ => true)) (demoWorld (.number 1)) 0 [fun _ => 0, fun _ => 1] true).1 = .ok () ∧
    (fitModel (demoSetup .geometricHarmonics (fun _ => true)) (demoWorld (.callable sumBandwidth)) 0 [fun _ => 0, fun _ => 1] true).1 = .ok () :=
  ⟨settles_gauss _ (fun _ => plainKernel) (fun _ => rfl), demo_fit _ _ (.number 1) _ (by simp) (by simp [Epsilon.resolve]) _ rfl _ _ rfl,
    demo_fit _ _ (.callable sumBandwidth) _ (by simp) (by simp [Epsilon.resolve, sumBandwidth, sqDistMatrix, sqDist, Fin.sum_univ_succ]) _ rfl _ _ rfl⟩

/-- The hypotheses of `C207_changed_violated`. -/
example : (useModel (demoSetup .geometricHarmonics (fun _ => true)) (kStep (demoSetup .geometricHarmonics (fun _ => true))
      (fitModel (demoSetup .geometricHarmonics (fun _ => true)) (demoWorld (.number 1)) 0 [fun _ => 0, fun _ => 1] true).2 (.change 0 (fun _ => .number 2))) 0 [fun _ => 0, fun _ => 1]).1 ≠
    (useModel (demoSetup .geometricHarmonics (fun _ => true)) (fitModel (demoSetup .geometricHarmonics (fun _ => true)) (demoWorld (.number 1)) 0 [fun _ => 0, fun _ => 1] true).2 0 [fun _ => 0, fun _ => 1]).1 :=
  C207_changed_violated _ 0 rfl rfl rfl one_pos two_pos (by norm_num) rfl (by simp [sqDist]) (demo_fit _ _ (.number 1) _ (by simp) (by simp [Epsilon.resolve]) _ rfl _ _ rfl)
    (fun M c h => Or.inl (by
      have : c = fun _ => 1 := (Except.ok.inj h).symm
      rw [this]; exact one_ne_zero))

/-- Values of the model in the example of `C208_solver_violated`. -/
theorem demo_fresh (kind : KModelKind) (solve : Bool → Bool) (m : Nat) {e : ℝ} (he : 0 < e) (X : List (Fin 1 → ℝ)) (t : Bool) (ht : solve t = true) (Y : List (Fin 1 → ℝ)) :
    freshValue (demoSetup kind solve) m (.number e) X t Y = .ok (linRead (fun _ => 1) _ _ (gaussMat e X Y)) := by
  unfold freshValue
  rw [show ((demoSetup kind solve).layer m).pair (.number e) none X = _ from plain_layer_pair he X]
  dsimp only
  have : (demoSetup kind solve).solve m t X.length (gaussMat e X X) = .ok (fun _ => 1) := by simp [demoSetup, ht]
  rw [this]
  dsimp only
  have h2 : ((demoSetup kind solve).layer m).comp (.number e) (some ⟨X.length, ⟨none, none⟩⟩) X Y = (.ok (gaussMat e X Y), .number e) := plain_layer_comp he X Y
  rw [h2]
  rfl

/-- **C207 (violated: functions as bandwidth, values).** Geometric harmonics with the sum of the distances as bandwidth, fitted to the points 0, 1 and then, as another model, to the points 0, 2: the second model does not
have the values of a model that is fitted only to the points 0, 2. -/
theorem C207_callable_example : ∃ X X' Y : List (Fin 1 → ℝ),
    (useModel (demoSetup .geometricHarmonics (fun _ => true)) (fitModel (demoSetup .geometricHarmonics (fun _ => true))
      (fitModel (demoSetup .geometricHarmonics (fun _ => true)) (demoWorld (.callable sumBandwidth)) 0 X true).2 1 X' true).2 1 Y).1 ≠
    (useModel (demoSetup .geometricHarmonics (fun _ => true)) (fitModel (demoSetup .geometricHarmonics (fun _ => true)) (demoWorld (.callable sumBandwidth)) 1 X' true).2 1 Y).1 := by
  refine ⟨[fun _ => 0, fun _ => 1], [fun _ => 0, fun _ => 2], [fun _ => 0], ?_⟩
  have e1 : sumBandwidth _ _ (sqDistMatrix ([fun _ => 0, fun _ => 1] : List (Fin 1 → ℝ)) [fun _ => 0, fun _ => 1]) = 2 := by
    simp [sumBandwidth, sqDistMatrix, sqDist, Fin.sum_univ_succ]; norm_num
  have e2 : sumBandwidth _ _ (sqDistMatrix ([fun _ => 0, fun _ => 2] : List (Fin 1 → ℝ)) [fun _ => 0, fun _ => 2]) = 8 := by
    simp [sumBandwidth, sqDistMatrix, sqDist, Fin.sum_univ_succ]; norm_num
  have hf1 : (fitModel (demoSetup .geometricHarmonics (fun _ => true)) (demoWorld (.callable sumBandwidth)) 0 [fun _ => 0, fun _ => 1] true).1 = .ok () :=
    demo_fit _ _ (.callable sumBandwidth) _ (by simp) (by show 0 < sumBandwidth _ _ _; rw [e1]; norm_num) _ rfl _ _ rfl
  have hf2 : (fitModel (demoSetup .geometricHarmonics (fun _ => true)) (demoWorld (.callable sumBandwidth)) 1 [fun _ => 0, fun _ => 2] true).1 = .ok () :=
    demo_fit _ _ (.callable sumBandwidth) _ (by simp) (by show 0 < sumBandwidth _ _ _; rw [e2]; norm_num) _ rfl _ _ rfl
  obtain ⟨M, s, a, co, hp, -, -, hker⟩ := fitModel_ok hf1
  have hs : s = .number 2 := by
    have h2 : (dmapPair plainKernel (gaussInternal 1) ⟨.callable sumBandwidth, none⟩ [fun _ => 0, fun _ => 1]).2.inner = s := congrArg (fun p => p.2.1) hp
    rw [dmapPair_inner] at h2
    rw [← h2, ← e1]
    rfl
  have hpar : (fitModel (demoSetup .geometricHarmonics (fun _ => true)) (demoWorld (.callable sumBandwidth)) 0 [fun _ => 0, fun _ => 1] true).2.param 1 = 0 := by
    rw [show (fitModel (demoSetup .geometricHarmonics (fun _ => true)) (demoWorld (.callable sumBandwidth)) 0 [fun _ => 0, fun _ => 1] true).2.param = (demoWorld (.callable sumBandwidth)).param from ?_]
    · rfl
    · unfold fitModel
      split
      · rfl
      · split
        · rfl
        · split
          · rfl
          · split <;> rfl
  have hf12 := demo_fit .geometricHarmonics (fun _ => true) (.number 2) [fun _ => 0, fun _ => 2] (by simp) (by simp [Epsilon.resolve]) true rfl _ 1 (by
    rw [hpar]; exact (hker rfl).trans hs)
  rw [C207_callable_violated (demoSetup .geometricHarmonics (fun _ => true)) (fun _ => plainKernel) (fun _ => rfl) (m := 0) (m' := 1) rfl (f := sumBandwidth) rfl hf1 hpar hf12 [fun _ => 0]]
  have h3 := C207_shared_partial (settles_gauss (demoSetup .geometricHarmonics (fun _ => true)) (fun _ => plainKernel) (fun _ => rfl)) rfl hf2 [] (by simp) [fun _ => 0]
  rw [show (useModel _ (fitModel _ (demoWorld (.callable sumBandwidth)) 1 [fun _ => 0, fun _ => 2] true).2 1 [fun _ => 0]).1 = _ from h3, e1, demo_fresh _ _ _ (by norm_num) _ _ rfl]
  have h4 : freshValue (demoSetup .geometricHarmonics (fun _ => true)) 1 (.callable sumBandwidth) [fun _ => 0, fun _ => 2] true [fun _ => 0] =
      freshValue (demoSetup .geometricHarmonics (fun _ => true)) 1 (.number 8) [fun _ => 0, fun _ => 2] true [fun _ => 0] := by
    have : ((demoSetup .geometricHarmonics (fun _ => true)).layer 1).pair (.callable sumBandwidth) none [fun _ => 0, fun _ => 2] = ((demoSetup .geometricHarmonics (fun _ => true)).layer 1).pair (.number 8) none [fun _ => 0, fun _ => 2] := by
      have hI : (gaussInternal 1).pdist (.callable sumBandwidth) [fun _ => 0, fun _ => 2] = (gaussInternal 1).pdist (.number 8) [fun _ => 0, fun _ => 2] := by
        rw [← e2]; rfl
      simp only [demoSetup, dmapLayer, dmapPair, hI]
    unfold freshValue
    rw [this]
  rw [show (demoWorld (.callable sumBandwidth)).kernels ((demoWorld (.callable sumBandwidth)).param 1) = .callable sumBandwidth from rfl, h4, demo_fresh _ _ _ (by norm_num) _ _ rfl]
  intro h
  have h := congrFun (List.ofFn_inj.1 (Except.ok.inj h)) (0 : Fin 1)
  simp only [gaussMat, Matrix.of_apply, Fin.sum_univ_two] at h
  simp [sqDist] at h
  norm_num at h

/-- **C208 (violated, values).** Diffusion maps fitted to the points 0, 1; a second fit to the points 0, 3 whose eigenproblem cannot be solved is refused; afterwards the model returns other values than before, without any sign
of the refused fit. -/
theorem C208_solver_example : ∃ (X X' Y : List (Fin 1 → ℝ)) (r r' : List ℝ), r' ≠ r ∧
    (useModel (demoSetup .diffusionMaps id) (fitModel (demoSetup .diffusionMaps id) (demoWorld (.number 1)) 0 X true).2 0 Y).1 = .ok r ∧
    (fitModel (demoSetup .diffusionMaps id) (fitModel (demoSetup .diffusionMaps id) (demoWorld (.number 1)) 0 X true).2 0 X' false).1 = .error .value ∧
    (useModel (demoSetup .diffusionMaps id) (fitModel (demoSetup .diffusionMaps id) (fitModel (demoSetup .diffusionMaps id) (demoWorld (.number 1)) 0 X true).2 0 X' false).2 0 Y).1 = .ok r' := by
  refine ⟨[fun _ => 0, fun _ => 1], [fun _ => 0, fun _ => 3], [fun _ => 0], linRead (fun _ => 1) 1 2 (gaussMat (d := 1) 1 [fun _ => 0, fun _ => 1] [fun _ => 0]),
    linRead (fun _ => 1) 1 2 (gaussMat (d := 1) 1 [fun _ => 0, fun _ => 3] [fun _ => 0]), ?_, ?_⟩
  · intro h
    have h := congrFun (List.ofFn_inj.1 h) (0 : Fin 1)
    simp only [gaussMat, Matrix.of_apply, Fin.sum_univ_two] at h
    simp [sqDist] at h
    norm_num at h
  · have hset := settles_gauss (demoSetup .diffusionMaps id) (fun _ => plainKernel) (fun _ => rfl)
    have hf : (fitModel (demoSetup .diffusionMaps id) (demoWorld (.number 1)) 0 [fun _ => 0, fun _ => 1] true).1 = .ok () := demo_fit _ _ (.number 1) _ (by simp) (by simp [Epsilon.resolve]) _ rfl _ _ rfl
    have h1 := C207_owned hset (m := 0) (by decide) hf [] (by simp) [fun _ => 0]
    obtain ⟨M, s, a, c, hp, hc, hm, -⟩ := fitModel_ok hf
    have hc1 : c = fun _ => 1 := (Except.ok.inj hc).symm
    have hker : (fitModel (demoSetup .diffusionMaps id) (demoWorld (.number 1)) 0 [fun _ => 0, fun _ => 1] true).2.kernels = (demoWorld (.number 1)).kernels := fitModel_kernels _ _ (by decide) _ _
    have h2 := C208_solver_violated (demoSetup .diffusionMaps id) 0 (fitModel (demoSetup .diffusionMaps id) (demoWorld (.number 1)) 0 [fun _ => 0, fun _ => 1] true).2 (X := [fun _ => 0, fun _ => 3]) (t := false)
      (c := c) (by rw [hm]) rfl rfl (by rw [hker]; exact plain_layer_pair one_pos _) (e := .value) rfl [fun _ => 0]
    refine ⟨?_, h2.1, ?_⟩
    · exact h1.trans (demo_fresh _ _ _ one_pos _ _ rfl _)
    · rw [h2.2, hc1]
      have h3 : ((demoSetup .diffusionMaps id).layer 0).comp (.number 1) (some ⟨2, ⟨none, none⟩⟩) [fun _ => 0, fun _ => 3] [fun _ => 0] = (.ok (gaussMat 1 [fun _ => 0, fun _ => 3] [fun _ => 0]), .number 1) :=
        plain_layer_comp one_pos _ _
      exact congrArg (fun p => p.1.map (linRead (fun _ => 1) 1 2)) h3

/-- The hypotheses of `C207_once_violated`: geometric harmonics are fitted to the points 0, 1, 3 of the line. -/
example : (fitModel (⟨fun _ => .geometricHarmonics, fun _ => dmapLayer plainKernel (cknnInternal lineCknn (fun X => .ok (lineDist X X)) (fun X Y => .ok (lineDist X Y))), fun _ _ _ => true, fun _ _ => true,
      fun _ _ _ _ => .ok (), fun _ _ _ _ _ => ()⟩ : KSetup ℝ KnnAttr ((n : Nat) × Fitted (Fin n)) Unit Unit Unit) ⟨fun _ => none, fun _ => 0, fun _ => ⟨none, none, none, none⟩⟩ 0 [0, 1, 3] ()).1 = .ok () := by
  obtain ⟨G, v, h, -⟩ := C101_graph_partial lineCknn lineCknn_admissible (lineDist [0, 1, 3] [0, 1, 3]) (lineDist_isDistance _) (by simp) (by decide)
    (fun i v h => line_pos 1 3 (by norm_num) (by norm_num) i v h)
  unfold fitModel
  simp only [dmapLayer, dmapPair, cknnInternal, cknnPair, Option.map_none]
  rw [h]
  rfl

/-- The hypotheses of `C208_refused_partial`: a bandwidth that is not positive is refused by the evaluation. -/
example : (fitModel (demoSetup .diffusionMaps id) (demoWorld (.number (-1))) 0 [fun _ => 0, fun _ => 1] true).1 ≠ .ok () ∧
    ∀ M, (((demoSetup .diffusionMaps id).layer 0).pair (.number (-1)) none [fun _ => 0, fun _ => 1]).1 = .ok M → ∃ c, (demoSetup .diffusionMaps id).solve 0 true 2 M = .ok c := by
  have h : (Radial.gaussian (-1)).check ≠ .ok () := by
    have : (Radial.gaussian (-1)).check = .error .value := if_neg (by norm_num)
    rw [this]
    exact nofun
  refine ⟨fun hf => ?_, fun M _ => ⟨_, rfl⟩⟩
  obtain ⟨M, s, a, c, hp, -⟩ := fitModel_ok hf
  have h1 : (dmapPair plainKernel (gaussInternal 1) ⟨.number (-1), none⟩ [fun _ => 0, fun _ => 1]).1 = .ok M := congrArg Prod.fst hp
  obtain ⟨K, hK⟩ := dmapPair_inner_ok _ _ _ h1
  simp only [gaussInternal, Epsilon.resolve, Radial.evaluate] at hK
  cases hc : (Radial.gaussian (-1)).check with
  | error e => rw [hc] at hK; cases hK
  | ok u => exact h (by rw [hc])

/-- The hypotheses of `C208_jointly_violated`: jointly smooth functions have been fitted, and the bandwidth is then set to a number that is not positive. -/
example : ((kStep (demoSetup .jointlySmooth id) (fitModel (demoSetup .jointlySmooth id) (demoWorld (.number 1)) 0 [fun _ => 0, fun _ => 1] true).2 (.change 0 (fun _ => .number (-1)))).model 0 =
    ⟨some (.own (.number 1)), some ⟨2, ⟨none, none⟩⟩, some [fun _ => 0, fun _ => 1], some (fun _ => 1)⟩) := by
  have hf : (fitModel (demoSetup .jointlySmooth id) (demoWorld (.number 1)) 0 [fun _ => 0, fun _ => 1] true).1 = .ok () :=
    demo_fit _ _ (.number 1) _ (by simp) (by simp [Epsilon.resolve]) _ rfl _ _ rfl
  obtain ⟨M, s, a, c, hp, hc, hm, -⟩ := fitModel_ok hf
  have hp' : (dmapLayer plainKernel (gaussInternal 1)).pair (.number 1) none [fun _ => 0, fun _ => 1] = (.ok M, s, a) := hp
  rw [plain_layer_pair one_pos] at hp'
  obtain ⟨-, h2, h3⟩ : _ ∧ .number 1 = s ∧ some ⟨2, ⟨none, none⟩⟩ = a := by
    have := hp'
    simp only [Prod.mk.injEq] at this
    exact this
  obtain rfl : (fun _ => 1) = c := Except.ok.inj hc
  exact hm.trans (by rw [← h2, ← h3, if_neg (by decide)])

end Verif.Kernel
