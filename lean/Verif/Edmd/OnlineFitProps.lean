import Verif.Edmd.OnlineFit
import Verif.Edmd.ClosedProps
import Verif.Dmd.OnlineProps
/-!
# C204: online EDMD
-/

namespace Verif.Edmd

open Verif.Tsc Verif.Lin Verif.Dmd Verif.Dict Verif.Dyn Matrix

/-! ## The dictionary -/

section dictionary
variable {α : Type}

/-- The transformers of `ss` in the fitted state `Ts`. -/
def fittedSteps (ss : List (Step α)) (Ts : List (Transformer α)) : List (PStep α (Transformer α) × Option (Transformer α)) := List.zipWith (fun s T => (fitOnce s, some T)) ss Ts

theorem fitSteps_length : ∀ {ss : List (Step α)} {X : Takens.Frame α} {Ts D}, fitSteps ss X = .ok (Ts, D) → Ts.length = ss.length ∧ runSteps Ts X = .ok D
  | [], X, Ts, D, h => by cases h; exact ⟨rfl, rfl⟩
  | s :: ss, X, Ts, D, h => by
    unfold fitSteps at h
    cases hs : s X with
    | error e => rw [hs] at h; cases h
    | ok T =>
      rw [hs] at h
      dsimp only at h
      cases hT : T X with
      | error e => rw [hT] at h; cases h
      | ok Y =>
        rw [hT] at h
        dsimp only at h
        cases hr : fitSteps ss Y with
        | error e => rw [hr] at h; cases h
        | ok r =>
          rw [hr] at h
          cases h
          obtain ⟨h1, h2⟩ := fitSteps_length hr
          exact ⟨by simp [h1], by unfold runSteps; rw [hT]; exact h2⟩

theorem partialSteps_first : ∀ (ss : List (Step α)) (X : Takens.Frame α),
    partialSteps (ss.map (fun s => (fitOnce s, none))) X = (fitSteps ss X).map (fun r => (fittedSteps ss r.1, r.2))
  | [], X => rfl
  | s :: ss, X => by
    rw [List.map_cons]
    unfold partialSteps fitSteps
    dsimp only [fitOnce]
    cases hs : s X with
    | error e => rfl
    | ok T =>
      dsimp only
      cases hT : T X with
      | error e => rfl
      | ok Y =>
        dsimp only
        have ih := partialSteps_first ss Y
        simp only [fitOnce] at ih
        rw [ih]
        cases fitSteps ss Y with
        | error e => rfl
        | ok r => rfl

theorem partialSteps_fitted : ∀ (ss : List (Step α)) (Ts : List (Transformer α)) (_ : Ts.length = ss.length) (X : Takens.Frame α),
    partialSteps (fittedSteps ss Ts) X = (runSteps Ts X).map (fun D => (fittedSteps ss Ts, D))
  | [], [], _, X => rfl
  | s :: ss, T :: Ts, h, X => by
    have hl : Ts.length = ss.length := by simpa using h
    have e : fittedSteps (s :: ss) (T :: Ts) = (fitOnce s, some T) :: fittedSteps ss Ts := rfl
    rw [e]
    unfold partialSteps runSteps
    have e1 : (fitOnce s).update (some T) X = .ok T := rfl
    have e2 : (fitOnce s).run T X = T X := rfl
    dsimp only
    rw [e1]
    dsimp only
    rw [e2]
    cases hT : T X with
    | error e => rfl
    | ok Y =>
      dsimp only
      rw [partialSteps_fitted ss Ts hl Y]
      cases runSteps Ts Y with
      | error e => rfl
      | ok r => rfl
  | [], _ :: _, h, _ => by simp at h
  | _ :: _, [], h, _ => by simp at h

theorem finalTransformers_fitted : ∀ (ss : List (Step α)) (Ts : List (Transformer α)), Ts.length = ss.length → finalTransformers (fittedSteps ss Ts) = Ts
  | [], [], _ => rfl
  | s :: ss, T :: Ts, h => by
    have ih := finalTransformers_fitted ss Ts (by simpa using h)
    have e : fittedSteps (s :: ss) (T :: Ts) = (fitOnce s, some T) :: fittedSteps ss Ts := rfl
    unfold finalTransformers at ih ⊢
    rw [e, List.filterMap_cons]
    simp only [Option.map_some, ih]
    rfl
  | [], _ :: _, h => by simp at h
  | _ :: _, [], h => by simp at h

theorem partialFits_fitted (ss : List (Step α)) (Ts : List (Transformer α)) (hl : Ts.length = ss.length) : ∀ (Xs Ds : List (Takens.Frame α)) (ps : List (PStep α (Transformer α) × Option (Transformer α))),
    partialFits (fittedSteps ss Ts) Xs = .ok (ps, Ds) ↔ ps = fittedSteps ss Ts ∧ List.Forall₂ (fun X D => runSteps Ts X = .ok D) Xs Ds
  | [], Ds, ps => by
    unfold partialFits
    constructor
    · intro h; cases h; exact ⟨rfl, .nil⟩
    · rintro ⟨rfl, h⟩; cases h; rfl
  | X :: Xs, Ds, ps => by
    unfold partialFits
    rw [partialSteps_fitted ss Ts hl X]
    cases hr : runSteps Ts X with
    | error e =>
      simp only [Except.map]
      constructor
      · intro h; cases h
      · rintro ⟨-, h⟩
        cases h with
        | cons h1 h2 => rw [hr] at h1; cases h1
    | ok D =>
      simp only [Except.map]
      cases hq : partialFits (fittedSteps ss Ts) Xs with
      | error e =>
        constructor
        · intro h; cases h
        · rintro ⟨-, h⟩
          cases h with
          | cons h1 h2 =>
            have := (partialFits_fitted ss Ts hl Xs _ _).2 ⟨rfl, h2⟩
            rw [hq] at this
            cases this
      | ok q =>
        obtain ⟨q1, q2⟩ := q
        obtain ⟨h1, h2⟩ := (partialFits_fitted ss Ts hl Xs q2 q1).1 hq
        constructor
        · intro h
          cases h
          exact ⟨h1, .cons hr h2⟩
        · rintro ⟨rfl, h⟩
          cases h with
          | cons h3 h4 =>
            have h5 := (partialFits_fitted ss Ts hl Xs _ _).2 ⟨rfl, h4⟩
            rw [hq] at h5
            cases h5
            rw [hr] at h3
            cases h3
            rfl

/-- C204, the dictionary: with transformers that are fitted once, a series of batches is accepted exactly if the dictionary can be fitted to the first batch and accepts all others, and all batches are mapped with
one dictionary, the one that `fit` finds for the first batch. -/
theorem C204_dictionary (ss : List (Step α)) (X₀ : Takens.Frame α) (Xs Ds : List (Takens.Frame α)) (Ts : List (Transformer α)) :
    (∃ ps, partialFits (ss.map (fun s => (fitOnce s, none))) (X₀ :: Xs) = .ok (ps, Ds) ∧ finalTransformers ps = Ts) ↔
      (∃ D₀, fitSteps ss X₀ = .ok (Ts, D₀)) ∧ List.Forall₂ (fun X D => runSteps Ts X = .ok D) (X₀ :: Xs) Ds := by
  rw [partialFits, partialSteps_first]
  cases hf : fitSteps ss X₀ with
  | error e =>
    simp only [Except.map]
    exact ⟨fun ⟨ps, h, _⟩ => (by cases h), fun ⟨⟨D, h⟩, _⟩ => (by cases h)⟩
  | ok r =>
    obtain ⟨Ts', D₀⟩ := r
    obtain ⟨hl, hrun⟩ := fitSteps_length hf
    simp only [Except.map]
    constructor
    · rintro ⟨ps, h, hT⟩
      cases hq : partialFits (fittedSteps ss Ts') Xs with
      | error e => rw [hq] at h; cases h
      | ok q =>
        rw [hq] at h
        obtain ⟨h1, h2⟩ := (partialFits_fitted ss Ts' hl Xs q.2 q.1).1 hq
        cases h
        rw [h1, finalTransformers_fitted ss Ts' hl] at hT
        subst hT
        exact ⟨⟨D₀, rfl⟩, .cons hrun h2⟩
    · rintro ⟨⟨D, h⟩, hall⟩
      cases h
      cases hall with
      | cons h1 h2 =>
        rw [hrun] at h1
        cases h1
        have := (partialFits_fitted ss Ts hl Xs _ _).2 ⟨rfl, h2⟩
        rw [this]
        exact ⟨_, rfl, finalTransformers_fitted ss Ts hl⟩

end dictionary

/-! ## The system matrix -/

variable {ι δ : Type} [Fintype ι] [Fintype δ] [DecidableEq δ]

/-- A batch that OnlineDMD accepts (dmd.py 2581-2588): every series has at least two samples. The order of the IDs as in C03. -/
def GoodBatch {V : Type} (c : List (Row Int V)) : Prop := c ≠ [] ∧ Valid c ∧ (∀ i, HasId c i → 2 ≤ (series c i).length) ∧ (IdsAscending c ∨ EqualLengths c)

/-- All snapshot pairs of some batches in dictionary values. -/
def liftedPairs (g : (ι → ℝ) → (δ → ℝ)) (cs : List (List (Row Int (ι → ℝ)))) : List ((δ → ℝ) × (δ → ℝ)) := (cs.flatMap snapshotPairs).map (fun p => (g p.1, g p.2))

omit [Fintype ι] [Fintype δ] [DecidableEq δ] in
theorem GoodBatch.map {g : (ι → ℝ) → (δ → ℝ)} {c : List (Row Int (ι → ℝ))} (h : GoodBatch c) : GoodBatch (mapVal g c) := by
  obtain ⟨h1, h2, h3, h4⟩ := h
  refine ⟨mapVal_ne_nil.2 h1, mapVal_valid.2 h2, fun i hi => ?_, ?_⟩
  · rw [mapVal_series, mapVal_length]
    exact h3 i (mapVal_hasId.1 hi)
  · rcases h4 with h4 | h4
    · exact Or.inl (mapVal_idsAscending.2 h4)
    · exact Or.inr (mapVal_equalLengths.2 h4)

theorem onlineEdmd_fold (ρ : ℝ) (g : (ι → ℝ) → (δ → ℝ)) (cs : List (List (Row Int (ι → ℝ)))) (h : ∀ c ∈ cs, GoodBatch c) (s : Online δ) :
    cs.foldlM (onlineEdmd ρ g) s = .ok ((liftedPairs g cs).foldl (onlineStep ρ) s) := by
  have h1 := C32_cut ρ (cs.map (mapVal g)) (fun c hc => by
    obtain ⟨c', hc', rfl⟩ := List.mem_map.1 hc
    exact (h c' hc').map) s
  rw [List.foldlM_map] at h1
  have e : (cs.map (mapVal g)).flatMap snapshotPairs = liftedPairs g cs := by
    unfold liftedPairs
    rw [List.flatMap_map, List.map_flatMap]
    exact congrArg (fun f => cs.flatMap f) (funext (fun c => mapVal_snapshotPairs g c))
  rw [e] at h1
  exact h1

theorem OnlineEdmdFirst.batch {ρ : ℝ} {g : (ι → ℝ) → (δ → ℝ)} {c : List (Row Int (ι → ℝ))} (hc : GoodBatch c) {s : Online δ} (h : OnlineEdmdFirst ρ g c s) :
    OnlineBatch ρ ((snapshotPairs c).map (fun p => (g p.1, g p.2))) s := by
  obtain ⟨L, R, h1, h2⟩ := h
  obtain ⟨g1, g2, g3, g4⟩ := hc.map (g := g)
  obtain ⟨L', R', hs, -, hz⟩ := C03_shift_matrices_partial g1 g2 g3 g4
  rw [h1] at hs
  cases hs
  rw [hz, mapVal_snapshotPairs] at h2
  exact h2

omit [DecidableEq δ] in
theorem totalError_zero {w : List ℝ} {ps : List ((δ → ℝ) × (δ → ℝ))} {K : Matrix δ δ ℝ} (h : ∀ p ∈ ps, p.2 = K *ᵥ p.1) : totalError w ps K = 0 := by
  unfold totalError
  apply List.sum_eq_zero
  intro x hx
  obtain ⟨q, hq, rfl⟩ := List.mem_map.1 hx
  have := List.of_mem_zip hq
  rw [stepError_eq_zero.2 (h q.2 this.2).symm, mul_zero]

omit [DecidableEq δ] in
theorem totalError_nonneg {w : List ℝ} (hw : ∀ a ∈ w, 0 ≤ a) (ps : List ((δ → ℝ) × (δ → ℝ))) (K : Matrix δ δ ℝ) : 0 ≤ totalError w ps K := by
  unfold totalError
  apply List.sum_nonneg
  intro x hx
  obtain ⟨q, hq, rfl⟩ := List.mem_map.1 hx
  exact mul_nonneg (hw _ (List.of_mem_zip hq).1) (stepError_nonneg _ _ _)

theorem expWeights_nonneg {ρ : ℝ} (hρ : 0 < ρ) (n : Nat) : ∀ a ∈ expWeights ρ n, 0 ≤ a := by
  intro a ha
  unfold expWeights at ha
  obtain ⟨i, -, rfl⟩ := List.mem_map.1 ha
  positivity

/-- C204, least squares: the first batch is fitted together and spans the dictionary space; after any number of further batches the system matrix is the unique minimiser of the exponentially weighted one step error in
dictionary values over all samples seen so far.  It depends on the batches through the stream of snapshot pairs only, not on the places where it is cut. -/
theorem C204_least_squares {ρ : ℝ} (hρ : 0 < ρ) (g : (ι → ℝ) → (δ → ℝ)) (c₀ : List (Row Int (ι → ℝ))) (cs : List (List (Row Int (ι → ℝ)))) (h₀ : GoodBatch c₀) (h : ∀ c ∈ cs, GoodBatch c)
    (hspan : Submodule.span ℝ {z | ∃ p ∈ snapshotPairs c₀, g p.1 = z} = ⊤) {s : Online δ} (hs : OnlineEdmdFirst ρ g c₀ s) :
    ∃ s', cs.foldlM (onlineEdmd ρ g) s = .ok s' ∧ ∀ K, K ≠ s'.A →
      totalError (expWeights ρ (liftedPairs g (c₀ :: cs)).length) (liftedPairs g (c₀ :: cs)) s'.A < totalError (expWeights ρ (liftedPairs g (c₀ :: cs)).length) (liftedPairs g (c₀ :: cs)) K := by
  refine ⟨_, onlineEdmd_fold ρ g cs h s, fun K hK => ?_⟩
  have hsp : Submodule.span ℝ {x | ∃ p ∈ (snapshotPairs c₀).map (fun p => (g p.1, g p.2)), p.1 = x} = ⊤ := by
    rw [← hspan]
    congr 1
    ext z
    simp
  have := C32_batch_partial hρ hsp (hs.batch h₀) (liftedPairs g cs) K hK
  have e : (snapshotPairs c₀).map (fun p => (g p.1, g p.2)) ++ liftedPairs g cs = liftedPairs g (c₀ :: cs) := by
    unfold liftedPairs
    rw [List.flatMap_cons, List.map_append]
  rw [e] at this
  exact this

/-- C204: every batch that spans the dictionary space can be the first one; a concrete closed dictionary with such a batch is the example of C84. -/
theorem C204_exists {ρ : ℝ} (hρ : 0 < ρ) (g : (ι → ℝ) → (δ → ℝ)) (c₀ : List (Row Int (ι → ℝ))) (h₀ : GoodBatch c₀) (hspan : Submodule.span ℝ {z | ∃ p ∈ snapshotPairs c₀, g p.1 = z} = ⊤) :
    ∃ s, OnlineEdmdFirst ρ g c₀ s := by
  obtain ⟨g1, g2, g3, g4⟩ := h₀.map (g := g)
  obtain ⟨L, R, hs, -, hz⟩ := C03_shift_matrices_partial g1 g2 g3 g4
  have hsp : Submodule.span ℝ {x | ∃ p ∈ L.zip R, p.1 = x} = ⊤ := by
    rw [hz, mapVal_snapshotPairs, ← hspan]
    congr 1
    ext z
    simp
  obtain ⟨s, h⟩ := C32_exists hρ hsp
  exact ⟨s, L, R, hs, h⟩

/-- C204, agreement with `fit`: without forgetting (weight one) the system matrix after any batches is the one that `fit` finds for one collection with all the data. -/
theorem C204_fit (g : (ι → ℝ) → (δ → ℝ)) (c₀ : List (Row Int (ι → ℝ))) (cs : List (List (Row Int (ι → ℝ)))) (h₀ : GoodBatch c₀) (h : ∀ c ∈ cs, GoodBatch c)
    (hspan : Submodule.span ℝ {z | ∃ p ∈ snapshotPairs c₀, g p.1 = z} = ⊤) {s : Online δ} (hs : OnlineEdmdFirst 1 g c₀ s)
    (k : TimeKind) (c : List (Row Int (ι → ℝ))) (hc : GoodBatch c) (hk : isConstDeltaTime k c = true) (hperm : (snapshotPairs c).Perm ((c₀ :: cs).flatMap snapshotPairs))
    {K : Matrix δ δ ℝ} {B : Matrix δ ι ℝ} (hfit : FitsEdmd k g c K B) : ∃ s', cs.foldlM (onlineEdmd 1 g) s = .ok s' ∧ s'.A = K := by
  obtain ⟨s', h1, h2⟩ := C204_least_squares one_pos g c₀ cs h₀ h hspan hs
  refine ⟨s', h1, ?_⟩
  by_contra hne
  have hlt := h2 K (Ne.symm hne)
  obtain ⟨g1, g2, g3, g4⟩ := hc.map (g := g)
  have hls := (C30_least_squares_partial g1 g2 g4 g3 (by rw [mapVal_isConstDeltaTime]; exact hk) none (by simp) K).1 hfit.1 s'.A
  have hone : ∀ (ps : List ((δ → ℝ) × (δ → ℝ))) (K : Matrix δ δ ℝ), totalError (expWeights 1 ps.length) ps K = (ps.map (fun p => stepError K p.1 p.2)).sum := by
    intro ps K
    have e1 : expWeights 1 ps.length = List.replicate ps.length 1 := by
      unfold expWeights
      simp
    rw [e1]
    unfold totalError
    induction ps with
    | nil => rfl
    | cons p ps ih =>
      simp only [List.length_cons, List.replicate_succ, List.zip_cons_cons, List.map_cons, List.sum_cons, one_mul]
      rw [ih (by unfold expWeights; simp)]
  have hrep : ∀ (ps : List ((δ → ℝ) × (δ → ℝ))) (K : Matrix δ δ ℝ), totalError (weightsOf none ps.length) ps K = (ps.map (fun p => stepError K p.1 p.2)).sum := by
    intro ps K
    rw [← hone]
    unfold weightsOf expWeights
    simp
  rw [hrep, hrep, mapVal_snapshotPairs] at hls
  rw [hone, hone] at hlt
  have hp : ((snapshotPairs c).map (fun p => (g p.1, g p.2))).Perm (liftedPairs g (c₀ :: cs)) := hperm.map _
  have e : ∀ K : Matrix δ δ ℝ, (((snapshotPairs c).map (fun p => (g p.1, g p.2))).map (fun p => stepError K p.1 p.2)).sum = ((liftedPairs g (c₀ :: cs)).map (fun p => stepError K p.1 p.2)).sum :=
    fun K => (hp.map _).sum_eq
  rw [e, e] at hls
  exact absurd hlt (not_lt.2 hls)

/-- C204, exactness: if all batches are trajectories of a system for which the dictionary is closed, the model is exact after every batch and predicts the states of the system from any initial conditions for any
number of steps. -/
theorem C204_exact_partial {ρ : ℝ} (hρ : 0 < ρ) {S : Set (ι → ℝ)} {F : (ι → ℝ) → (ι → ℝ)} {g : (ι → ℝ) → (δ → ℝ)} {K₀ : Matrix δ δ ℝ} {B : Matrix δ ι ℝ} (hcl : ClosedDictionary S F g K₀ B)
    (c₀ : List (Row Int (ι → ℝ))) (cs : List (List (Row Int (ι → ℝ)))) (h : ∀ c ∈ c₀ :: cs, GoodBatch c ∧ (∀ r ∈ c, r.val ∈ S) ∧ ∀ p ∈ snapshotPairs c, p.2 = F p.1)
    (hspan : Submodule.span ℝ {z | ∃ p ∈ snapshotPairs c₀, g p.1 = z} = ⊤) {s : Online δ} (hs : OnlineEdmdFirst ρ g c₀ s) :
    ∃ s', cs.foldlM (onlineEdmd ρ g) s = .ok s' ∧ s'.A = K₀ ∧
      ∀ (dt t0 : Int), 0 < dt → ∀ (X : List (Row Int (ι → ℝ))), X ≠ [] → (X.map (·.id)).Nodup → (∀ r ∈ X, r.val ∈ S) → ∀ (ks : List Nat), (0 :: ks).Pairwise (· < ·) →
        ∃ d, edmdPredict g s'.A B dt X (timesAt t0 dt (0 :: ks)) = .ok d ∧ Valid d ∧ (∀ i, HasId d i ↔ HasId X i) ∧
          ∀ r ∈ X, content d r.id = (0 :: ks).map (fun (m : Nat) => (t0 + m * dt, F^[m] r.val)) := by
  obtain ⟨s', h1, h2⟩ := C204_least_squares hρ g c₀ cs (h c₀ (by simp)).1 (fun c hc => (h c (by simp [hc])).1) hspan hs
  have hlin : ∀ p ∈ liftedPairs g (c₀ :: cs), p.2 = K₀ *ᵥ p.1 := by
    intro p hp
    unfold liftedPairs at hp
    obtain ⟨q, hq, rfl⟩ := List.mem_map.1 hp
    obtain ⟨c, hc, hq⟩ := List.mem_flatMap.1 hq
    obtain ⟨-, hS, hF⟩ := h c hc
    obtain ⟨r, hr, hrv⟩ := fst_mem_of_snapshotPairs hq
    dsimp only
    rw [hF q hq, hcl.step q.1 (by rw [← hrv]; exact hS r hr)]
  have hA : s'.A = K₀ := by
    by_contra hne
    have := h2 K₀ (Ne.symm hne)
    rw [totalError_zero hlin] at this
    exact absurd this (not_lt.2 (totalError_nonneg (expWeights_nonneg hρ _) _ _))
  refine ⟨s', h1, hA, fun dt t0 hdt X hX hnd hXS ks hks => ?_⟩
  rw [hA]
  obtain ⟨d, hd, hvd, -, hid, hcon⟩ := C26_flowmap K₀ dt t0 hdt (mapVal g X) (mapVal_ne_nil.2 hX) (by rw [mapVal_ids]; exact hnd) ks hks
  refine ⟨mapVal (fun z => z ᵥ* B) d, by simp only [edmdPredict, hd], mapVal_valid.2 hvd, fun i => ?_, ?_⟩
  · rw [mapVal_hasId, hid, mapVal_hasId]
  · intro r hr
    rw [mapVal_content, hcon ⟨r.id, r.time, g r.val⟩ (List.mem_map.2 ⟨r, hr, rfl⟩), List.map_map]
    apply List.map_congr_left
    intro m _
    have := closed_iterate hcl m r.val (hXS r hr)
    simp only [Function.comp]
    rw [this.2, hcl.decode _ this.1]

/-- C204, the default start (no `batch_fit`), true part: for exact data of a closed dictionary the weighted one step error of the model over all samples seen so far is at most `ρ^n / (α ρ)` times the squared
distance of the random start matrix from the exact one (`α = 10¹⁵`, `n` the number of snapshot pairs). -/
theorem C204_default_partial {ρ α : ℝ} (hρ : 0 < ρ) (hα : 0 < α) (A₀ K₀ : Matrix δ δ ℝ) (g : (ι → ℝ) → (δ → ℝ)) (cs : List (List (Row Int (ι → ℝ)))) (h : ∀ c ∈ cs, GoodBatch c)
    (hlin : ∀ p ∈ liftedPairs g cs, p.2 = K₀ *ᵥ p.1) :
    ∃ s', cs.foldlM (onlineEdmd ρ g) (onlineInit α A₀) = .ok s' ∧
      totalError (expWeights ρ (liftedPairs g cs).length) (liftedPairs g cs) s'.A ≤ ρ ^ (liftedPairs g cs).length / (α * ρ) * sqSum (K₀ - A₀) := by
  refine ⟨_, onlineEdmd_fold ρ g cs h _, ?_⟩
  by_cases hK : K₀ = ((liftedPairs g cs).foldl (onlineStep ρ) (onlineInit α A₀)).A
  · rw [← hK, totalError_zero hlin]
    exact mul_nonneg (by positivity) (sqSum_nonneg _)
  · have := C32_default_partial hρ hα A₀ (liftedPairs g cs) K₀ hK
    rw [totalError_zero hlin] at this
    have h0 : 0 ≤ ρ ^ (liftedPairs g cs).length / (α * ρ) * sqSum (((liftedPairs g cs).foldl (onlineStep ρ) (onlineInit α A₀)).A - A₀) := mul_nonneg (by positivity) (sqSum_nonneg _)
    linarith

/-- C204 is violated with the default start: whatever exact data are given, in whatever batches, the system matrix is never the exact one, unless the random start matrix already is. -/
theorem C204_default_violated {ρ α : ℝ} (hρ : 0 < ρ) (hα : 0 < α) (A₀ K₀ : Matrix δ δ ℝ) (hne : A₀ ≠ K₀) (g : (ι → ℝ) → (δ → ℝ)) (cs : List (List (Row Int (ι → ℝ)))) (h : ∀ c ∈ cs, GoodBatch c)
    (hlin : ∀ p ∈ liftedPairs g cs, p.2 = K₀ *ᵥ p.1) : ∃ s', cs.foldlM (onlineEdmd ρ g) (onlineInit α A₀) = .ok s' ∧ s'.A ≠ K₀ := by
  refine ⟨_, onlineEdmd_fold ρ g cs h _, fun hA => ?_⟩
  generalize liftedPairs g cs = qs at hlin hA
  set N := sqSum (K₀ - A₀) with hN
  set c := ρ ^ qs.length / (α * ρ) with hc
  set E := totalError (expWeights ρ qs.length) qs A₀ with hE
  have hN0 : 0 < N := by
    rcases eq_or_lt_of_le (sqSum_nonneg (K₀ - A₀)) with h0 | h0
    · exact absurd (sub_eq_zero.1 (sqSum_eq_zero.1 h0.symm)).symm hne
    · exact h0
  have hc0 : 0 < c := by positivity
  have hE0 : 0 ≤ E := totalError_nonneg (expWeights_nonneg hρ _) _ _
  have key : ∀ t : ℝ, t ≠ 0 → c * N < c * ((1 - t) ^ 2 * N) + t ^ 2 * E := by
    intro t ht
    have hK : K₀ + t • (A₀ - K₀) ≠ (qs.foldl (onlineStep ρ) (onlineInit α A₀)).A := by
      rw [hA]
      intro hx
      have : t • (A₀ - K₀) = 0 := by simpa using hx
      rcases smul_eq_zero.1 this with h0 | h0
      · exact ht h0
      · exact hne (sub_eq_zero.1 h0)
    have h1 := C32_default_partial hρ hα A₀ qs _ hK
    rw [hA, totalError_zero hlin, add_zero] at h1
    have e1 : sqSum (K₀ + t • (A₀ - K₀) - A₀) = (1 - t) ^ 2 * N := by
      rw [hN]
      unfold sqSum
      rw [Finset.mul_sum]
      refine Finset.sum_congr rfl (fun i _ => ?_)
      rw [Finset.mul_sum]
      refine Finset.sum_congr rfl (fun j _ => ?_)
      simp only [Matrix.sub_apply, Matrix.add_apply, Matrix.smul_apply, smul_eq_mul]
      ring
    have e2 : totalError (expWeights ρ qs.length) qs (K₀ + t • (A₀ - K₀)) = t ^ 2 * E := by
      rw [hE]
      unfold totalError
      rw [← List.sum_map_mul_left]
      congr 1
      apply List.map_congr_left
      intro q hq
      have hq2 := hlin q.2 (List.of_mem_zip hq).2
      have : stepError (K₀ + t • (A₀ - K₀)) q.2.1 q.2.2 = t ^ 2 * stepError A₀ q.2.1 q.2.2 := by
        unfold stepError
        rw [Finset.mul_sum]
        refine Finset.sum_congr rfl (fun i _ => ?_)
        rw [hq2]
        simp only [Matrix.add_mulVec, Matrix.smul_mulVec, Matrix.sub_mulVec, Pi.add_apply, Pi.smul_apply, Pi.sub_apply, smul_eq_mul]
        ring
      rw [this]
      ring
    rw [e1, e2] at h1
    exact h1
  have hcN : 0 < c * N := mul_pos hc0 hN0
  have ht := key (c * N / (c * N + E)) (by positivity)
  have hden : c * N + E ≠ 0 := by positivity
  have h3 : c * N / (c * N + E) * (c * N + E) = c * N := div_mul_cancel₀ _ hden
  have hpos : 0 < c * N / (c * N + E) := by positivity
  set t := c * N / (c * N + E) with htdef
  have : c * ((1 - t) ^ 2 * N) + t ^ 2 * E = c * N - 2 * t * (c * N) + t * (t * (c * N + E)) := by ring
  rw [this, h3] at ht
  nlinarith [mul_pos hpos hcN]

/-! ## Dictionaries that change -/

/-- Two batches of one series. -/
def pcaFirst : Takens.Frame ℚ := ⟨["x"], [⟨0, 0, [0]⟩, ⟨0, 1, [2]⟩]⟩
def pcaSecond : Takens.Frame ℚ := ⟨["x"], [⟨0, 0, [4]⟩, ⟨0, 1, [6]⟩]⟩

/-- C204 is violated for dictionaries that change with the data (`TSCIncrementalPCA`): the first batch 0, 2 is handed to the DMD model centred at 1, the second batch 4, 6 centred at 3, although the dictionary in the end
maps the first batch to -3, -1.  The system matrix is 1 (here for a first batch fitted together and weight one), which is not the least squares solution for the data in terms of the final dictionary. -/
theorem C204_adaptive_violated :
    (∃ ps, partialFits [(pcaStep, none)] [pcaFirst, pcaSecond] = .ok (ps, [⟨["pca0"], [⟨0, 0, [-1]⟩, ⟨0, 1, [1]⟩]⟩, ⟨["pca0"], [⟨0, 0, [1]⟩, ⟨0, 1, [3]⟩]⟩]) ∧
      runSteps (finalTransformers ps) pcaFirst = .ok ⟨["pca0"], [⟨0, 0, [-3]⟩, ⟨0, 1, [-1]⟩]⟩ ∧ runSteps (finalTransformers ps) pcaSecond = .ok ⟨["pca0"], [⟨0, 0, [1]⟩, ⟨0, 1, [3]⟩]⟩) ∧
    ∀ s : Online (Fin 1), OnlineBatch 1 [(![-1], ![1])] s →
      ∃ K, totalError [1, 1] [(![-3], ![-1]), (![1], ![3])] K < totalError [1, 1] [(![-3], ![-1]), (![1], ![3])] (onlineStep 1 s (![1], ![3])).A := by
  refine ⟨⟨[(pcaStep, some (["x"], 4, 3))], by with_unfolding_all rfl, by with_unfolding_all rfl, by with_unfolding_all rfl⟩, fun s hs => ⟨!![3 / 5], ?_⟩⟩
  have hspan : Submodule.span ℝ {x | ∃ p ∈ ([(![-1], ![1])] : List ((Fin 1 → ℝ) × (Fin 1 → ℝ))), p.1 = x} = ⊤ := by
    rw [Submodule.eq_top_iff']
    intro x
    have : x = (-(x 0)) • (![-1] : Fin 1 → ℝ) := by
      funext i
      fin_cases i
      simp
    rw [this]
    exact Submodule.smul_mem _ _ (Submodule.subset_span ⟨_, List.mem_singleton_self _, rfl⟩)
  have herr : ∀ (x y : ℝ) (K : Matrix (Fin 1) (Fin 1) ℝ), stepError K ![x] ![y] = (y - K 0 0 * x) ^ 2 := by
    intro x y K
    simp [stepError, Matrix.mulVec, dotProduct]
  have hA : (onlineStep 1 s (![1], ![3])).A 0 0 = 1 := by
    by_contra hne
    have h1 := C32_batch_partial one_pos hspan hs [(![1], ![3])] !![1] (fun h => hne (by
      have e : (onlineStep 1 s (![1], ![3])).A = !![1] := h.symm
      rw [e]
      rfl))
    simp only [totalError, expWeights, List.foldl_cons, List.foldl_nil, List.cons_append, List.nil_append, List.length_cons, List.length_nil, List.range_succ, List.range_zero, List.map_cons, List.map_nil,
      List.zip_cons_cons, List.zip_nil_left, List.sum_cons, List.sum_nil, herr] at h1
    norm_num at h1
    nlinarith [sq_nonneg ((onlineStep 1 s (![1], ![3])).A 0 0 - 1)]
  simp only [totalError, List.map_cons, List.map_nil, List.zip_cons_cons, List.zip_nil_left, List.sum_cons, List.sum_nil, herr, hA]
  norm_num

/-- Two batches are accepted by a dictionary that squares the sample. -/
example : ∃ ps, partialFits [(fitOnce (rowStep (fun _ v => v ++ v.map (fun x => x * x)) (fun l => l ++ ["sq"])), none)] [pcaFirst, pcaSecond] =
    .ok (ps, [⟨["x", "sq"], [⟨0, 0, [0, 0]⟩, ⟨0, 1, [2, 4]⟩]⟩, ⟨["x", "sq"], [⟨0, 0, [4, 16]⟩, ⟨0, 1, [6, 36]⟩]⟩]) := ⟨_, by with_unfolding_all rfl⟩

/-- The batches of C204 exist: exact data of a closed dictionary. -/
example : GoodBatch exC := by
  refine ⟨by simp [exC], by rw [valid_iff]; exact ⟨by decide, by unfold Before; decide⟩, ?_, Or.inl (by unfold IdsAscending; decide)⟩
  rintro i ⟨r, hr, rfl⟩
  simp only [exC, List.mem_cons, List.not_mem_nil, or_false] at hr
  rcases hr with rfl | rfl | rfl | rfl <;> decide

end Verif.Edmd
