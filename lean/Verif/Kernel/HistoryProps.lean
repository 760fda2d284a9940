import Verif.Kernel.History
import Verif.Kernel.NeighborProps
import Verif.Kernel.NormalizeProps
import Mathlib.Analysis.SpecialFunctions.Exp
import Mathlib.Tactic.NormNum
/-!
# C189: a diffusion kernel object remembers exactly its first accepted pair-wise evaluation
-/

namespace Verif.Kernel

variable {P σ : Type}

/-- A new kernel object accepts the points `X` for a pair-wise evaluation. -/
def Accepts (k : DmapKernel) (I : Internal P Unit) (X : List P) : Prop := ∃ M, (dmapPair k I (DmapState.new ()) X).1 = .ok M

section
variable (k : DmapKernel) (K : (X : List P) → Except KErr (Matrix (Fin X.length) (Fin X.length) ℝ)) (C : (X Y : List P) → Except KErr (Matrix (Fin Y.length) (Fin X.length) ℝ))

/-- Helper: a refused pair-wise evaluation leaves a new object as it is. -/
theorem afterCall_pair_refused (X : List P) (h : ¬ Accepts k (Internal.pure K C) X) : afterCall k (Internal.pure K C) (DmapState.new ()) (.pair X) = DmapState.new () := by
  unfold Accepts at h
  simp only [afterCall]
  unfold dmapPair Internal.pure DmapState.new at h ⊢
  dsimp only at h ⊢
  cases hK : K X with
  | error e => rfl
  | ok A =>
    rw [hK] at h
    dsimp only at h ⊢
    cases he : evalPdist k none A with
    | error e => rfl
    | ok x =>
      rw [he] at h
      exact absurd ⟨x.1, rfl⟩ h

/-- Helper: a component-wise evaluation never changes the object. -/
theorem afterCall_comp (st : DmapState Unit) (X Y : List P) : afterCall k (Internal.pure K C) st (.comp X Y) = st := by
  simp only [afterCall]
  unfold dmapComp Internal.pure
  obtain ⟨s, f⟩ := st
  dsimp only
  cases C X Y with
  | error e => rfl
  | ok A =>
    cases f with
    | none => rfl
    | some f =>
      dsimp only
      cases castFit X.length f.2 <;> rfl

/-- Helper: an object with attributes is not changed by any call. -/
theorem afterCall_fitted (f : (n : Nat) × Fitted (Fin n)) (c : KCall P) : afterCall k (Internal.pure K C) ⟨(), some f⟩ c = ⟨(), some f⟩ := by
  cases c with
  | comp X Y => exact afterCall_comp k K C _ X Y
  | pair X =>
    simp only [afterCall]
    unfold dmapPair Internal.pure
    dsimp only
    cases K X <;> rfl

/-- Helper: the same for histories. -/
theorem afterCalls_fitted (f : (n : Nat) × Fitted (Fin n)) (h : List (KCall P)) : afterCalls k (Internal.pure K C) ⟨(), some f⟩ h = ⟨(), some f⟩ := by
  unfold afterCalls
  induction h with
  | nil => rfl
  | cons c h ih => rw [List.foldl_cons, afterCall_fitted, ih]

/-- Helper: a history without accepted pair-wise evaluation. -/
theorem afterCalls_new (h : List (KCall P)) (hh : ∀ X, KCall.pair X ∈ h → ¬ Accepts k (Internal.pure K C) X) : afterCalls k (Internal.pure K C) (DmapState.new ()) h = DmapState.new () := by
  unfold afterCalls
  induction h with
  | nil => rfl
  | cons c h ih =>
    rw [List.foldl_cons]
    have hc : afterCall k (Internal.pure K C) (DmapState.new ()) c = DmapState.new () := by
      cases c with
      | comp X Y => exact afterCall_comp k K C _ X Y
      | pair X => exact afterCall_pair_refused k K C X (hh X List.mem_cons_self)
    rw [hc]
    exact ih (fun X hX => hh X (List.mem_cons_of_mem _ hX))

/-- Helper: an accepted evaluation stores attributes. -/
theorem afterCall_accepted (X : List P) (h : Accepts k (Internal.pure K C) X) : ∃ f, afterCall k (Internal.pure K C) (DmapState.new ()) (.pair X) = ⟨(), some f⟩ := by
  obtain ⟨M, h⟩ := h
  simp only [afterCall]
  unfold dmapPair Internal.pure DmapState.new at h ⊢
  dsimp only at h ⊢
  cases hK : K X with
  | error e => rw [hK] at h; cases h
  | ok A =>
    rw [hK] at h
    dsimp only at h ⊢
    cases he : evalPdist k none A with
    | error e => rw [he] at h; cases h
    | ok x => exact ⟨⟨_, x.2⟩, rfl⟩

/-! ## C189 -/

/-- C189, internal kernels without state: before a pair-wise evaluation is accepted, refused calls have no effect; a pair-wise evaluation gives what a new object gives, a component-wise one is refused. -/
theorem C189_before_partial (h : List (KCall P)) (hh : ∀ X, KCall.pair X ∈ h → ¬ Accepts k (Internal.pure K C) X) :
    (∀ X, (dmapPair k (Internal.pure K C) (afterCalls k (Internal.pure K C) (DmapState.new ()) h) X).1 = (dmapPair k (Internal.pure K C) (DmapState.new ()) X).1) ∧
    ∀ X Y M, (dmapComp k (Internal.pure K C) (afterCalls k (Internal.pure K C) (DmapState.new ()) h) X Y).1 ≠ .ok M := by
  rw [afterCalls_new k K C h hh]
  refine ⟨fun X => rfl, fun X Y M hM => ?_⟩
  unfold dmapComp Internal.pure DmapState.new at hM
  dsimp only at hM
  cases hC : C X Y with
  | error e => rw [hC] at hM; cases hM
  | ok A => rw [hC] at hM; cases hM

/-- C189, internal kernels without state: after the first accepted pair-wise evaluation, all component-wise evaluations are those of an object that only made this one evaluation, whatever was called before and
after it; every further pair-wise evaluation is refused. -/
theorem C189_after_partial (pre post : List (KCall P)) (X₀ : List P) (hpre : ∀ X, KCall.pair X ∈ pre → ¬ Accepts k (Internal.pure K C) X) (h₀ : Accepts k (Internal.pure K C) X₀) :
    (∀ X Y, (dmapComp k (Internal.pure K C) (afterCalls k (Internal.pure K C) (DmapState.new ()) (pre ++ .pair X₀ :: post)) X Y).1 =
      (dmapComp k (Internal.pure K C) (dmapPair k (Internal.pure K C) (DmapState.new ()) X₀).2 X Y).1) ∧
    ∀ X M, (dmapPair k (Internal.pure K C) (afterCalls k (Internal.pure K C) (DmapState.new ()) (pre ++ .pair X₀ :: post)) X).1 ≠ .ok M := by
  obtain ⟨f, hf⟩ := afterCall_accepted k K C X₀ h₀
  have h1 : afterCalls k (Internal.pure K C) (DmapState.new ()) (pre ++ .pair X₀ :: post) = ⟨(), some f⟩ := by
    have e1 : afterCalls k (Internal.pure K C) (DmapState.new ()) (pre ++ .pair X₀ :: post) =
        afterCalls k (Internal.pure K C) (afterCall k (Internal.pure K C) (afterCalls k (Internal.pure K C) (DmapState.new ()) pre) (.pair X₀)) post := by
      unfold afterCalls
      rw [List.foldl_append, List.foldl_cons]
    rw [e1, afterCalls_new k K C pre hpre, hf, afterCalls_fitted]
  have h2 : (dmapPair k (Internal.pure K C) (DmapState.new ()) X₀).2 = ⟨(), some f⟩ := hf
  rw [h1, h2]
  refine ⟨fun X Y => rfl, fun X M hM => ?_⟩
  unfold dmapPair Internal.pure at hM
  dsimp only at hM
  cases hK : K X with
  | error e => rw [hK] at hM; cases hM
  | ok A => rw [hK] at hM; cases hM

/-- Helper: the attributes for a cloud with the same number of points. -/
theorem castFit_ok {n N : Nat} (h : N = n) (A : Matrix (Fin n) (Fin n) ℝ) (b : Option (Fin n → ℝ)) :
    castFit N ⟨alphaAttr k A, b⟩ = .ok ⟨alphaAttr k (A.submatrix (Fin.cast h) (Fin.cast h)), none⟩ := by
  subst h
  unfold castFit alphaAttr
  by_cases h0 : 0 < k.alpha
  · simp only [if_pos h0, dif_pos]
    rfl
  · simp only [if_neg h0]

/-- Helper: what an accepted evaluation stores. -/
theorem evalPdist_attrs (hk : k.Admissible) (hst : k.isStochastic = true) {n : Nat} (A : Matrix (Fin n) (Fin n) ℝ) (hA : Connected A) (hsym : k.distSymmetric = true → A.transpose = A) :
    ∃ M b, evalPdist k none A = .ok (M, ⟨alphaAttr k A, b⟩) := by
  have hs := hA.rowSums_pos
  cases hc : k.isConjugate with
  | false => exact ⟨_, _, evalPdist_stochastic hk hst hc hA.1 hs (fun h i j => by rw [← congrFun (congrFun (hsym h) i) j]; rfl)⟩
  | true =>
    have hd : k.distSymmetric = true := by
      rw [isConjugate_eq] at hc
      simp only [Bool.and_eq_true] at hc
      exact hc.2
    exact ⟨_, _, evalPdist_conjugate hk hc hA.1 hs (fun i j => by rw [← congrFun (congrFun (hsym hd) i) j]; rfl)⟩

/-- C189, the values: after the first accepted pair-wise evaluation of the points `X₀` with the kernel matrix `A`, whatever is called before and after it, a component-wise evaluation gives the Markov matrix with
the densities of the points `X₀`; with `alpha > 0` another number of reference points is refused. -/
theorem C189_values (hk : k.Admissible) (hst : k.isStochastic = true) (pre post : List (KCall P)) (X₀ : List P) (hpre : ∀ X, KCall.pair X ∈ pre → ¬ Accepts k (Internal.pure K C) X)
    (A : Matrix (Fin X₀.length) (Fin X₀.length) ℝ) (hK : K X₀ = .ok A) (hA : Connected A) (hsym : k.distSymmetric = true → A.transpose = A) :
    (∀ X Y Kc (h : X.length = X₀.length), C X Y = .ok Kc → Connected Kc →
      ∃ M, (dmapComp k (Internal.pure K C) (afterCalls k (Internal.pure K C) (DmapState.new ()) (pre ++ .pair X₀ :: post)) X Y).1 = .ok M ∧
        IsMarkov k.alpha (fun j => ∑ l, A (j.cast h) l) Kc M) ∧
    (0 < k.alpha → ∀ X Y M, X.length ≠ X₀.length →
      (dmapComp k (Internal.pure K C) (afterCalls k (Internal.pure K C) (DmapState.new ()) (pre ++ .pair X₀ :: post)) X Y).1 ≠ .ok M) := by
  obtain ⟨M₀, b, he⟩ := evalPdist_attrs k hk hst A hA hsym
  have hst0 : (dmapPair k (Internal.pure K C) (DmapState.new ()) X₀) = (.ok M₀, ⟨(), some ⟨X₀.length, ⟨alphaAttr k A, b⟩⟩⟩) := by
    unfold dmapPair Internal.pure DmapState.new
    dsimp only
    rw [hK]
    dsimp only
    rw [he]
    rfl
  have hacc : Accepts k (Internal.pure K C) X₀ := ⟨M₀, by rw [hst0]⟩
  have h1 := (C189_after_partial k K C pre post X₀ hpre hacc).1
  refine ⟨fun X Y Kc h hC hKc => ?_, fun hα X Y M hne hM => ?_⟩
  · have hs : ∀ i, 0 < rowSums (A.submatrix (Fin.cast h) (Fin.cast h)) i := by
      intro i
      have hcon : Connected (A.submatrix (Fin.cast h) (Fin.cast h)) := by
        refine ⟨fun i j => hA.1 _ _, fun i => ?_⟩
        obtain ⟨j, hj⟩ := hA.2 (i.cast h)
        exact ⟨j.cast h.symm, hj⟩
      exact hcon.rowSums_pos i
    refine ⟨diffusion k.alpha (rowSums (A.submatrix (Fin.cast h) (Fin.cast h))) Kc, ?_, ?_⟩
    · rw [h1, hst0]
      unfold dmapComp Internal.pure
      dsimp only
      rw [hC]
      dsimp only
      rw [castFit_ok k h]
      dsimp only
      exact evalCdist_stochastic hk hst hs hKc.1 hKc.rowSums_pos
    · intro i j
      have hsum : ∀ j, rowSums (A.submatrix (Fin.cast h) (Fin.cast h)) j = ∑ l, A (j.cast h) l := by
        intro j
        unfold rowSums
        exact Fintype.sum_equiv (finCongr h) _ _ (fun l => rfl)
      simp only [diffusion, hsum, Matrix.of_apply]
  · rw [h1, hst0] at hM
    unfold dmapComp Internal.pure at hM
    dsimp only at hM
    cases hC : C X Y with
    | error e => rw [hC] at hM; cases hM
    | ok Kc =>
      rw [hC] at hM
      dsimp only at hM
      have : castFit X.length (⟨alphaAttr k A, b⟩ : Fitted (Fin X₀.length)) = .error .value := by
        unfold castFit alphaAttr
        simp only [if_pos hα, dif_neg hne]
      rw [this] at hM
      cases hM

end

/-- C189 is violated for a Gaussian kernel with a callable bandwidth: a refused component-wise evaluation of a new object fixes the bandwidth.  The following pair-wise evaluation uses the bandwidth of the
distances to the query points, for every function, all points and all parameters. -/
theorem C189_callable_violated (k : DmapKernel) (d : Nat) (f : (m n : Nat) → Matrix (Fin m) (Fin n) ℝ → ℝ) (X Y : List (Fin d → ℝ)) :
    (∀ M, (dmapComp k (gaussInternal d) (DmapState.new (.callable f)) X Y).1 ≠ .ok M) ∧
    (dmapPair k (gaussInternal d) (dmapComp k (gaussInternal d) (DmapState.new (.callable f)) X Y).2 X).1 = (dmapPair k (gaussInternal d) (DmapState.new (.number (f _ _ (sqDistMatrix X Y)))) X).1 ∧
    (dmapPair k (gaussInternal d) (DmapState.new (.callable f)) X).1 = (dmapPair k (gaussInternal d) (DmapState.new (.number (f _ _ (sqDistMatrix X X)))) X).1 := by
  have e : dmapComp k (gaussInternal d) (DmapState.new (.callable f)) X Y = (match (Radial.gaussian (f _ _ (sqDistMatrix X Y))).evaluate (sqDistMatrix X Y) with
      | .error e => .error e
      | .ok _ => .error .attribute, DmapState.new (.number (f _ _ (sqDistMatrix X Y)))) := by
    unfold dmapComp gaussInternal DmapState.new
    dsimp only [Epsilon.resolve]
    cases (Radial.gaussian (f _ _ (sqDistMatrix X Y))).evaluate (sqDistMatrix X Y) <;> rfl
  rw [e]
  refine ⟨fun M hM => ?_, rfl, rfl⟩
  dsimp only at hM
  cases h : (Radial.gaussian (f _ _ (sqDistMatrix X Y))).evaluate (sqDistMatrix X Y) with
  | error e => rw [h] at hM; cases hM
  | ok A => rw [h] at hM; cases hM

/-- Helper: the sum of all distances as bandwidth. -/
noncomputable def sumBandwidth (m n : Nat) (D : Matrix (Fin m) (Fin n) ℝ) : ℝ := ∑ i, ∑ j, D i j

/-- Helper: the parameters of a kernel without normalisation. -/
noncomputable def plainKernel : DmapKernel := ⟨false, 0, true, true⟩

/-- Helper: the plain kernel matrix of the points 0 and 1 for a positive bandwidth. -/
theorem plain_pair (e : ℝ) (he : 0 < e) : (dmapPair plainKernel (gaussInternal 1) (DmapState.new (.number e)) [fun _ => 0, fun _ => 1]).1 =
    .ok (Matrix.of (fun i j => Real.exp ((-1 / (2 * e)) * sqDistMatrix [fun _ => 0, fun _ => 1] [fun _ => 0, fun _ => 1] i j))) := by
  have h1 : (Radial.gaussian e).evaluate (sqDistMatrix ([fun _ => 0, fun _ => 1] : List (Fin 1 → ℝ)) [fun _ => 0, fun _ => 1]) =
      .ok (Matrix.of (fun i j => Real.exp ((-1 / (2 * e)) * sqDistMatrix [fun _ => 0, fun _ => 1] [fun _ => 0, fun _ => 1] i j))) := by
    have hc : (Radial.gaussian e).check = .ok () := if_pos he
    unfold Radial.evaluate
    rw [hc]
    rfl
  unfold dmapPair gaussInternal DmapState.new
  dsimp only [Epsilon.resolve]
  rw [h1]
  rfl

/-- C189 is violated, with numbers: the matrix of the points 0, 1 with the sum of the distances as bandwidth, with and without a refused evaluation for the query point 3. -/
theorem C189_callable_example : ∃ X Y : List (Fin 1 → ℝ),
    (dmapPair plainKernel (gaussInternal 1) (dmapComp plainKernel (gaussInternal 1) (DmapState.new (.callable sumBandwidth)) X Y).2 X).1 ≠
      (dmapPair plainKernel (gaussInternal 1) (DmapState.new (.callable sumBandwidth)) X).1 := by
  refine ⟨[fun _ => 0, fun _ => 1], [fun _ => 3], fun h => ?_⟩
  obtain ⟨-, h1, h2⟩ := C189_callable_violated plainKernel 1 sumBandwidth [fun _ => 0, fun _ => 1] [fun _ => 3]
  rw [h1, h2] at h
  have e1 : sumBandwidth _ _ (sqDistMatrix ([fun _ => 0, fun _ => 1] : List (Fin 1 → ℝ)) [fun _ => 3]) = 13 := by
    simp [sumBandwidth, sqDistMatrix, sqDist, Fin.sum_univ_succ]
    norm_num
  have e2 : sumBandwidth _ _ (sqDistMatrix ([fun _ => 0, fun _ => 1] : List (Fin 1 → ℝ)) [fun _ => 0, fun _ => 1]) = 2 := by
    simp [sumBandwidth, sqDistMatrix, sqDist, Fin.sum_univ_succ]
    norm_num
  rw [e1, e2, plain_pair 13 (by norm_num), plain_pair 2 (by norm_num)] at h
  have h3 := congrFun (congrFun (Except.ok.inj h) (0 : Fin 2)) (1 : Fin 2)
  simp only [Matrix.of_apply, Real.exp_eq_exp] at h3
  simp [sqDistMatrix, sqDist] at h3
  norm_num at h3

/-- C189 is violated for the continuous nearest neighbour kernel: `evaluate` of a new object refuses every matrix of pair-wise distances, also those for which the call with the points gives the adjacency matrix
of the neighbour graph (shown without further normalisation). -/
theorem C189_evaluate_violated {n : Nat} (c : CkNN) (hc : c.Admissible) (D : Matrix (Fin n) (Fin n) ℝ) (hD : IsDistance D) (hn : 0 < n) (hk : c.k ≤ n)
    (hpos : ∀ i v, IsKth (List.ofFn (D i)) c.k v → 0 < v) :
    (∀ k M, dmapEvaluateCknn k c D ≠ .ok M) ∧ ∀ k : DmapKernel, k.isStochastic = false → ∃ (M : Matrix (Fin n) (Fin n) ℝ) (v : Fin n → ℝ), dmapCallCknn k c D = .ok M ∧ (∀ i, IsKth (List.ofFn (D i)) c.k (v i)) ∧
      ∀ i j, (D i j < c.delta * Real.sqrt (v i * v j) → M i j = 1) ∧ (¬ D i j < c.delta * Real.sqrt (v i * v j) → M i j = 0) := by
  refine ⟨fun k M => ?_, fun k hs => ?_⟩
  · unfold dmapEvaluateCknn CkNN.cdist
    split
    · simp
    · rename_i G h
      split at h <;> cases h
  · obtain ⟨G, v, h1, h2, h3, -⟩ := C101_graph_partial c hc D hD hn hk hpos
    have h4 : dmapCallCknn k c D = .ok (adjacency G) := by
      unfold dmapCallCknn
      rw [h1]
      dsimp only
      unfold evalPdist
      simp only [hs]
      rfl
    refine ⟨adjacency G, v, h4, h2, fun i j => ⟨fun h => ?_, fun h => ?_⟩⟩
    · exact if_pos ((h3 i j).2 h)
    · exact if_neg (fun hg => h ((h3 i j).1 hg))

/-- non-vacuity of `C189_values`: two points with the kernel matrix of ones, after a refused evaluation of no points -/
example : (⟨true, 1, true, true⟩ : DmapKernel).Admissible ∧ Connected (Matrix.of (fun _ _ => 1) : Matrix (Fin [1, 2].length) (Fin [1, 2].length) ℝ) ∧
    ¬ Accepts ⟨true, 1, true, true⟩ (Internal.pure (fun X : List Nat => if X = [] then .error .value else .ok (Matrix.of (fun _ _ => 1))) (fun _ _ => .ok (Matrix.of (fun _ _ => 1)))) [] :=
  ⟨⟨zero_le_one, le_rfl⟩, ⟨fun _ _ => zero_le_one, fun i => ⟨i, zero_lt_one⟩⟩, fun ⟨_, h⟩ => by cases h⟩

example : Accepts plainKernel (Internal.pure (fun X : List Nat => .ok (1 : Matrix (Fin X.length) (Fin X.length) ℝ)) (fun _ _ => .error .value)) [1, 2] ∧
    ¬ Accepts plainKernel (Internal.pure (fun X : List Nat => if X = [] then .error .value else .ok (1 : Matrix (Fin X.length) (Fin X.length) ℝ)) (fun _ _ => .error .value)) [] :=
  ⟨⟨1, rfl⟩, fun ⟨_, h⟩ => by cases h⟩

end Verif.Kernel
