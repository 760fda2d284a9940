import Verif.Kernel.CknnHistory
import Verif.Kernel.HistoryProps
/-!
# C203: a continuous nearest neighbour kernel object remembers exactly its first accepted pair-wise evaluation
-/

namespace Verif.Kernel

variable {P : Type}

section
variable (c : CkNN) (Dp : (X : List P) → Except KErr (Matrix (Fin X.length) (Fin X.length) ℝ)) (Dc : (X Y : List P) → Except KErr (Matrix (Fin Y.length) (Fin X.length) ℝ))

/-- A new kernel object accepts the points `X` for a pair-wise evaluation. -/
def CknnAccepts (X : List P) : Prop := ∃ G, (cknnPair c Dp none X).1 = .ok G

/-! ## Helper lemmas -/

theorem cknnComp_state (st : KnnAttr) (X Y : List P) : (cknnComp c Dc st X Y).2 = st := by
  unfold cknnComp
  cases Dc X Y with
  | error e => rfl
  | ok D =>
    dsimp only
    cases castKnn X.length st <;> rfl

theorem cknnPair_refused (st : KnnAttr) (X : List P) (h : ¬ ∃ G, (cknnPair c Dp st X).1 = .ok G) : (cknnPair c Dp st X).2 = st := by
  unfold cknnPair at h ⊢
  cases hD : Dp X with
  | error e => rfl
  | ok D =>
    rw [hD] at h
    dsimp only at h ⊢
    cases he : c.pdist (st.map (fun _ _ => 0)) D with
    | error e => rfl
    | ok r =>
      rw [he] at h
      exact absurd ⟨r.1, rfl⟩ h

theorem cknnPair_some (s : (n : Nat) × (Fin n → ℝ)) (X : List P) (G) : (cknnPair c Dp (some s) X).1 ≠ .ok G := by
  intro h
  unfold cknnPair at h
  cases hD : Dp X with
  | error e => rw [hD] at h; cases h
  | ok D =>
    rw [hD] at h
    dsimp only at h
    have : ∃ e, c.pdist ((some s : KnnAttr).map (fun _ _ => 0)) D = .error e := by
      unfold CkNN.pdist
      split
      · exact ⟨_, rfl⟩
      · exact ⟨_, rfl⟩
    obtain ⟨e, he⟩ := this
    rw [he] at h
    cases h

theorem cknnAfter_some (s : (n : Nat) × (Fin n → ℝ)) (a : KCall P) : cknnAfter c Dp Dc (some s) a = some s := by
  cases a with
  | pair X => exact cknnPair_refused c Dp _ X (fun ⟨G, h⟩ => cknnPair_some c Dp s X G h)
  | comp X Y => exact cknnComp_state c Dc _ X Y

theorem cknnAfterCalls_some (s : (n : Nat) × (Fin n → ℝ)) (h : List (KCall P)) : cknnAfterCalls c Dp Dc (some s) h = some s := by
  unfold cknnAfterCalls
  induction h with
  | nil => rfl
  | cons a h ih => rw [List.foldl_cons, cknnAfter_some, ih]

theorem cknnAfterCalls_none (h : List (KCall P)) (hh : ∀ X, KCall.pair X ∈ h → ¬ CknnAccepts c Dp X) : cknnAfterCalls c Dp Dc none h = none := by
  unfold cknnAfterCalls
  induction h with
  | nil => rfl
  | cons a h ih =>
    rw [List.foldl_cons]
    have ha : cknnAfter c Dp Dc none a = none := by
      cases a with
      | comp X Y => exact cknnComp_state c Dc _ X Y
      | pair X => exact cknnPair_refused c Dp _ X (hh X List.mem_cons_self)
    rw [ha]
    exact ih (fun X hX => hh X (List.mem_cons_of_mem _ hX))

/-- Helper: what an accepted evaluation returns and stores. -/
theorem cknnPair_ok (X : List P) (h : CknnAccepts c Dp X) :
    ∃ D G v, Dp X = .ok D ∧ c.pdist none D = .ok (G, v) ∧ cknnPair c Dp none X = (.ok G, some ⟨X.length, v⟩) := by
  obtain ⟨G, h⟩ := h
  unfold cknnPair at h ⊢
  cases hD : Dp X with
  | error e => rw [hD] at h; cases h
  | ok D =>
    rw [hD] at h
    dsimp only [Option.map_none] at h ⊢
    cases he : c.pdist none D with
    | error e => rw [he] at h; cases h
    | ok r => exact ⟨D, r.1, r.2, rfl, he, rfl⟩

theorem cknnAfterCalls_first (pre post : List (KCall P)) (X₀ : List P) (hpre : ∀ X, KCall.pair X ∈ pre → ¬ CknnAccepts c Dp X) (h₀ : CknnAccepts c Dp X₀) :
    cknnAfterCalls c Dp Dc none (pre ++ .pair X₀ :: post) = (cknnPair c Dp none X₀).2 ∧ ∃ s, (cknnPair c Dp none X₀).2 = some s := by
  obtain ⟨D, G, v, -, -, h⟩ := cknnPair_ok c Dp X₀ h₀
  have e1 : cknnAfterCalls c Dp Dc none (pre ++ .pair X₀ :: post) = cknnAfterCalls c Dp Dc (cknnAfter c Dp Dc (cknnAfterCalls c Dp Dc none pre) (.pair X₀)) post := by
    unfold cknnAfterCalls
    rw [List.foldl_append, List.foldl_cons]
  have e2 : cknnAfter c Dp Dc none (.pair X₀) = some ⟨X₀.length, v⟩ := by
    simp only [cknnAfter]
    rw [h]
  refine ⟨?_, _, by rw [h]⟩
  rw [e1, cknnAfterCalls_none c Dp Dc pre hpre, e2, cknnAfterCalls_some, h]

/-! ## C203 -/

/-- C203: before a pair-wise evaluation is accepted, refused calls have no effect: a pair-wise evaluation gives what a new object gives, a component-wise one is refused. -/
theorem C203_before (h : List (KCall P)) (hh : ∀ X, KCall.pair X ∈ h → ¬ CknnAccepts c Dp X) :
    (∀ X, (cknnPair c Dp (cknnAfterCalls c Dp Dc none h) X).1 = (cknnPair c Dp none X).1) ∧
    ∀ X Y G, (cknnComp c Dc (cknnAfterCalls c Dp Dc none h) X Y).1 ≠ .ok G := by
  rw [cknnAfterCalls_none c Dp Dc h hh]
  refine ⟨fun X => rfl, fun X Y G hG => ?_⟩
  unfold cknnComp castKnn CkNN.cdist at hG
  cases hD : Dc X Y with
  | error e => rw [hD] at hG; cases hG
  | ok D =>
    rw [hD] at hG
    dsimp only at hG
    split at hG <;> cases hG

/-- C203: after the first accepted pair-wise evaluation, all component-wise evaluations are those of an object that only made this one evaluation, whatever was called before and after it; every further pair-wise
evaluation is refused, also that of the same points. -/
theorem C203_after (pre post : List (KCall P)) (X₀ : List P) (hpre : ∀ X, KCall.pair X ∈ pre → ¬ CknnAccepts c Dp X) (h₀ : CknnAccepts c Dp X₀) :
    (∀ X Y, (cknnComp c Dc (cknnAfterCalls c Dp Dc none (pre ++ .pair X₀ :: post)) X Y).1 = (cknnComp c Dc (cknnPair c Dp none X₀).2 X Y).1) ∧
    ∀ X G, (cknnPair c Dp (cknnAfterCalls c Dp Dc none (pre ++ .pair X₀ :: post)) X).1 ≠ .ok G := by
  obtain ⟨h1, s, hs⟩ := cknnAfterCalls_first c Dp Dc pre post X₀ hpre h₀
  refine ⟨fun X Y => by rw [h1], fun X G => ?_⟩
  rw [h1, hs]
  exact cknnPair_some c Dp s X G

/-- Helper: the component-wise evaluation with given reference distances. -/
theorem cdist_spec (hc : c.Admissible) {m n : Nat} (D : Matrix (Fin m) (Fin n) ℝ) (w : Fin n → ℝ) (hw : ∀ j, 0 < w j) (hk : c.k ≤ n - 1) (hpos : ∀ i u, IsKth (List.ofFn (D i)) c.k u → 0 < u) :
    ∃ G, c.cdist (some w) D = .ok G ∧ ∀ i j u, IsKth (List.ofFn (D i)) c.k u → (G i j ↔ D i j < c.delta * Real.sqrt (u * w j)) := by
  have hk1 := hc.2
  have hkth : ∀ i, IsKth (List.ofFn (D i)) c.k (kthSmallest (List.ofFn (D i)) c.k) := fun i => kthSmallest_isKth _ hc.2 (by rw [List.length_ofFn]; omega)
  have hv : ∀ i, 0 < kthSmallest (List.ofFn (D i)) c.k := fun i => hpos i _ (hkth i)
  have hd : kthDense D c.k = .ok (fun i => kthSmallest (List.ofFn (D i)) c.k) := by
    unfold kthDense
    rw [if_pos ⟨hc.2, by omega⟩]
  refine ⟨fun i j => (Real.sqrt (kthSmallest (List.ofFn (D i)) c.k))⁻¹ * D i j * (Real.sqrt (w j))⁻¹ < c.delta, ?_, ?_⟩
  · unfold CkNN.cdist
    rw [if_neg (by omega)]
    simp only [hd]
    unfold divide
    rw [if_neg (by push Not; exact fun i => (Real.sqrt_pos.mpr (hv i)).ne'), if_neg (by push Not; exact fun i => (Real.sqrt_pos.mpr (hw i)).ne')]
    rfl
  · intro i j u hu
    beta_reduce
    rw [(hkth i).unique hu] at *
    have hu0 := hpos i u hu
    rw [mul_inv_lt (Real.sqrt_pos.mpr hu0) (Real.sqrt_pos.mpr (hw j)), Real.sqrt_mul hu0.le]

/-- Helper: a component-wise evaluation is refused if the number of neighbours is too large or a query point has a `k`-th neighbour at distance zero. -/
theorem cdist_refuses (hc : c.Admissible) {m n : Nat} (D : Matrix (Fin m) (Fin n) ℝ) (w : Fin n → ℝ) (h : n - 1 < c.k ∨ ∃ i, IsKth (List.ofFn (D i)) c.k 0) (G) : c.cdist (some w) D ≠ .ok G := by
  intro hG
  unfold CkNN.cdist at hG
  have hk1 := hc.2
  by_cases hk : c.k < 1 ∨ c.k > n - 1
  · rw [if_pos hk] at hG
    cases hG
  · rw [if_neg hk] at hG
    obtain ⟨i, hi⟩ : ∃ i, IsKth (List.ofFn (D i)) c.k 0 := h.resolve_left (by omega)
    have hd : kthDense D c.k = .ok (fun i => kthSmallest (List.ofFn (D i)) c.k) := by
      unfold kthDense
      rw [if_pos ⟨hc.2, by omega⟩]
    simp only [hd] at hG
    unfold divide at hG
    rw [if_pos ⟨i, by beta_reduce; rw [(kthSmallest_isKth (List.ofFn (D i)) hc.2 (by rw [List.length_ofFn]; omega)).unique hi]; exact Real.sqrt_zero⟩] at hG
    cases hG

/-- C203, the values: after the first accepted pair-wise evaluation of the points `X₀`, whatever is called before and after it, a component-wise evaluation at `Y` with the reference points `X` is accepted exactly if there
are as many reference points as points `X₀`, more than `k` of them, and no query point has its `k`-th neighbour at distance zero.  There is an edge from `y` to the `j`-th reference point exactly if their distance is
less than `delta * √(d_k(y) d_k(j))`, with the distance `d_k(y)` of `y` to its `k`-th neighbour in `X` and the distance `d_k(j)` of the `j`-th point of `X₀` to its `k`-th neighbour in `X₀`. -/
theorem C203_values (hc : c.Admissible) (pre post : List (KCall P)) (X₀ : List P) (hpre : ∀ X, KCall.pair X ∈ pre → ¬ CknnAccepts c Dp X)
    (D₀ : Matrix (Fin X₀.length) (Fin X₀.length) ℝ) (hD₀ : Dp X₀ = .ok D₀) (hdist : IsDistance D₀) (hn : X₀ ≠ []) (hk : c.k ≤ X₀.length) (hpos : ∀ i v, IsKth (List.ofFn (D₀ i)) c.k v → 0 < v)
    (X Y : List P) (D : Matrix (Fin Y.length) (Fin X.length) ℝ) (hD : Dc X Y = .ok D) (hnn : ∀ i j, 0 ≤ D i j) :
    ((∃ G, (cknnComp c Dc (cknnAfterCalls c Dp Dc none (pre ++ .pair X₀ :: post)) X Y).1 = .ok G) ↔ X.length = X₀.length ∧ c.k ≤ X.length - 1 ∧ ∀ i, ¬ IsKth (List.ofFn (D i)) c.k 0) ∧
    ∀ G, (cknnComp c Dc (cknnAfterCalls c Dp Dc none (pre ++ .pair X₀ :: post)) X Y).1 = .ok G → ∀ (h : X.length = X₀.length) i j u w,
      IsKth (List.ofFn (D i)) c.k u → IsKth (List.ofFn (D₀ (j.cast h))) c.k w → (G i j ↔ D i j < c.delta * Real.sqrt (u * w)) := by
  obtain ⟨G₀, v, hp, hv, -⟩ := C101_graph_partial c hc D₀ hdist (List.length_pos_iff.mpr hn) hk hpos
  have hst : cknnPair c Dp none X₀ = (.ok G₀, some ⟨X₀.length, v⟩) := by
    unfold cknnPair
    rw [hD₀]
    dsimp only [Option.map_none]
    rw [hp]
  have h₀ : CknnAccepts c Dp X₀ := ⟨G₀, by rw [hst]⟩
  rw [(cknnAfterCalls_first c Dp Dc pre post X₀ hpre h₀).1, hst]
  by_cases h : X.length = X₀.length
  · have hcast : castKnn X.length (some ⟨X₀.length, v⟩) = .ok (some (fun j => v (j.cast h))) := by
      unfold castKnn
      dsimp only
      rw [dif_pos h]
    have hcomp : (cknnComp c Dc (some ⟨X₀.length, v⟩) X Y).1 = c.cdist (some (fun j => v (j.cast h))) D := by
      unfold cknnComp
      rw [hD]
      dsimp only
      rw [hcast]
    rw [hcomp]
    by_cases hb : c.k ≤ X.length - 1 ∧ ∀ i, ¬ IsKth (List.ofFn (D i)) c.k 0
    · have hq : ∀ i u, IsKth (List.ofFn (D i)) c.k u → 0 < u := by
        intro i u hu
        obtain ⟨j, hj⟩ := List.mem_ofFn.mp hu.1
        rcases eq_or_lt_of_le (hnn i j) with h0 | h0
        · rw [hj] at h0
          rw [← h0] at hu
          exact absurd hu (hb.2 i)
        · rw [← hj]
          exact h0
      obtain ⟨G, hG, hedge⟩ := cdist_spec c hc D (fun j => v (j.cast h)) (fun j => hpos _ _ (hv _)) hb.1 hq
      refine ⟨⟨fun _ => ⟨h, hb⟩, fun _ => ⟨G, hG⟩⟩, fun G' hG' h' i j u w hu hw => ?_⟩
      rw [hG] at hG'
      cases hG'
      rw [hedge i j u hu, (hv (j.cast h)).unique hw]
    · have hno : ∀ G, c.cdist (some (fun j => v (j.cast h))) D ≠ .ok G := by
        refine cdist_refuses c hc D _ ?_
        rcases Nat.lt_or_ge (X.length - 1) c.k with h1 | h1
        · exact Or.inl h1
        · refine Or.inr ?_
          by_contra hcon
          exact hb ⟨h1, fun i hi => hcon ⟨i, hi⟩⟩
      exact ⟨⟨fun ⟨G, hG⟩ => absurd hG (hno G), fun hx => absurd hx.2 hb⟩, fun G hG => absurd hG (hno G)⟩
  · have hno : ∀ G, (cknnComp c Dc (some ⟨X₀.length, v⟩) X Y).1 ≠ .ok G := by
      intro G hG
      unfold cknnComp castKnn at hG
      rw [hD] at hG
      dsimp only at hG
      rw [dif_neg h] at hG
      cases hG
    exact ⟨⟨fun ⟨G, hG⟩ => absurd hG (hno G), fun hx => absurd hx.1 h⟩, fun G hG => absurd hG (hno G)⟩

/-! ## The kernel inside a diffusion kernel -/

/-- Helper: an accepted pair-wise evaluation of a distance matrix is a symmetric graph with all self-loops. -/
theorem pdist_connected (hc : c.Admissible) {n : Nat} (D : Matrix (Fin n) (Fin n) ℝ) (hD : IsDistance D) {G v} (h : c.pdist none D = .ok (G, v)) :
    Connected (adjacency G) ∧ (adjacency G).transpose = adjacency G := by
  have hn : 0 < n := by
    rcases Nat.eq_zero_or_pos n with rfl | h0
    · unfold CkNN.pdist at h
      rw [if_pos (fun i => i.elim0)] at h
      cases h
    · exact h0
  have hk : c.k ≤ n ∧ ∀ i v, IsKth (List.ofFn (D i)) c.k v → 0 < v := by
    unfold CkNN.pdist at h
    rw [if_neg (by push Not; exact ⟨⟨0, hn⟩, hD.2.2 _⟩)] at h
    simp only [Option.isSome_none, Bool.false_eq_true, if_false] at h
    rcases C100_dense D c.k with ⟨⟨u, hu, hkth⟩, h1, h2⟩ | ⟨he, -⟩
    · refine ⟨h2, fun i w hw => ?_⟩
      rw [hu] at h
      dsimp only at h
      unfold divideSquare divide at h
      by_cases hz : ∃ i, Real.sqrt (u i) = 0
      · rw [if_pos hz] at h
        cases h
      · push Not at hz
        rw [hw.unique (hkth i)]
        by_contra hcon
        exact hz i (Real.sqrt_eq_zero_of_nonpos (not_lt.mp hcon))
    · rw [he] at h
      cases h
  obtain ⟨G', v', h', -, -, hsym, hself, -⟩ := C101_graph_partial c hc D hD hn hk.1 hk.2
  rw [h] at h'
  cases h'
  refine ⟨⟨fun i j => ?_, fun i => ⟨i, ?_⟩⟩, ?_⟩
  · simp only [adjacency, Matrix.of_apply]
    split <;> norm_num
  · simp only [adjacency, Matrix.of_apply]
    rw [if_pos (hself i)]
    exact one_pos
  · ext i j
    simp only [adjacency, Matrix.transpose_apply, Matrix.of_apply]
    by_cases hg : G i j
    · rw [if_pos hg, if_pos ((hsym i j).1 hg)]
    · rw [if_neg hg, if_neg (fun hx => hg ((hsym i j).2 hx))]

/-- Helper: the first accepted evaluation through a diffusion kernel. -/
theorem dmapPair_cknn (k : DmapKernel) (hk : k.Admissible) (hst : k.isStochastic = true) (hc : c.Admissible) (hdist : ∀ X D, Dp X = .ok D → IsDistance D) (X : List P) (h : CknnAccepts c Dp X) :
    ∃ M G v b, (cknnPair c Dp none X) = (.ok G, some ⟨X.length, v⟩) ∧ Connected (adjacency G) ∧
      dmapPair k (cknnInternal c Dp Dc) (DmapState.new none) X = (.ok M, ⟨some ⟨X.length, v⟩, some ⟨X.length, ⟨alphaAttr k (adjacency G), b⟩⟩⟩) := by
  obtain ⟨D, G, v, hD, hp, hpair⟩ := cknnPair_ok c Dp X h
  obtain ⟨hcon, hsym⟩ := pdist_connected c hc D (hdist X D hD) hp
  obtain ⟨M, b, he⟩ := evalPdist_attrs k hk hst (adjacency G) hcon (fun _ => hsym)
  refine ⟨M, G, v, b, hpair, hcon, ?_⟩
  unfold dmapPair cknnInternal DmapState.new
  dsimp only
  rw [hpair]
  dsimp only [Except.map]
  rw [he]
  rfl

theorem afterCall_cknn_none (k : DmapKernel) (a : KCall P) (ha : ∀ X, a = .pair X → ¬ CknnAccepts c Dp X) :
    afterCall k (cknnInternal c Dp Dc) (DmapState.new none) a = DmapState.new none := by
  cases a with
  | pair X =>
    have h1 := ha X rfl
    have h2 := cknnPair_refused c Dp none X h1
    simp only [afterCall]
    unfold dmapPair cknnInternal DmapState.new
    dsimp only
    rw [h2]
    cases hr : (cknnPair c Dp none X).1 with
    | error e => rfl
    | ok G => exact absurd ⟨G, hr⟩ h1
  | comp X Y =>
    simp only [afterCall]
    unfold dmapComp cknnInternal DmapState.new
    dsimp only
    rw [cknnComp_state]
    cases (cknnComp c Dc none X Y).1 <;> rfl

theorem afterCall_cknn_some (k : DmapKernel) (s : (n : Nat) × (Fin n → ℝ)) (f : (n : Nat) × Fitted (Fin n)) (a : KCall P) :
    afterCall k (cknnInternal c Dp Dc) ⟨some s, some f⟩ a = ⟨some s, some f⟩ := by
  cases a with
  | pair X =>
    have h2 := cknnPair_refused c Dp (some s) X (fun ⟨G, h⟩ => cknnPair_some c Dp s X G h)
    simp only [afterCall]
    unfold dmapPair cknnInternal
    dsimp only
    rw [h2]
    cases (cknnPair c Dp (some s) X).1 <;> rfl
  | comp X Y =>
    simp only [afterCall]
    unfold dmapComp cknnInternal
    dsimp only
    rw [cknnComp_state]
    cases (cknnComp c Dc (some s) X Y).1 with
    | error e => rfl
    | ok G =>
      dsimp only [Except.map]
      cases castFit X.length f.2 <;> rfl

/-- C203, inside a diffusion kernel with stochastic normalisation: the two objects fix their attributes with the same evaluation.  Before it, every call leaves the new object; after it, whatever is called before and
after, the object is the one that only evaluated these points; every further pair-wise evaluation is refused. -/
theorem C203_diffusion (k : DmapKernel) (hk : k.Admissible) (hst : k.isStochastic = true) (hc : c.Admissible) (hdist : ∀ X D, Dp X = .ok D → IsDistance D)
    (pre post : List (KCall P)) (hpre : ∀ X, KCall.pair X ∈ pre → ¬ CknnAccepts c Dp X) :
    afterCalls k (cknnInternal c Dp Dc) (DmapState.new none) pre = DmapState.new none ∧
    ∀ X₀, CknnAccepts c Dp X₀ →
      (∃ M, (dmapPair k (cknnInternal c Dp Dc) (DmapState.new none) X₀).1 = .ok M) ∧
      afterCalls k (cknnInternal c Dp Dc) (DmapState.new none) (pre ++ .pair X₀ :: post) = (dmapPair k (cknnInternal c Dp Dc) (DmapState.new none) X₀).2 ∧
      ∀ X M, (dmapPair k (cknnInternal c Dp Dc) (afterCalls k (cknnInternal c Dp Dc) (DmapState.new none) (pre ++ .pair X₀ :: post)) X).1 ≠ .ok M := by
  have h1 : afterCalls k (cknnInternal c Dp Dc) (DmapState.new none) pre = DmapState.new none := by
    unfold afterCalls
    induction pre with
    | nil => rfl
    | cons a h ih =>
      rw [List.foldl_cons, afterCall_cknn_none c Dp Dc k a (fun X hX => hpre X (by rw [hX]; exact List.mem_cons_self))]
      exact ih (fun X hX => hpre X (List.mem_cons_of_mem _ hX))
  refine ⟨h1, fun X₀ h₀ => ?_⟩
  obtain ⟨M₀, G, v, b, hpair, -, hd⟩ := dmapPair_cknn c Dp Dc k hk hst hc hdist X₀ h₀
  have h2 : afterCalls k (cknnInternal c Dp Dc) (DmapState.new none) (pre ++ .pair X₀ :: post) = (dmapPair k (cknnInternal c Dp Dc) (DmapState.new none) X₀).2 := by
    have e1 : afterCalls k (cknnInternal c Dp Dc) (DmapState.new none) (pre ++ .pair X₀ :: post) =
        afterCalls k (cknnInternal c Dp Dc) (afterCall k (cknnInternal c Dp Dc) (afterCalls k (cknnInternal c Dp Dc) (DmapState.new none) pre) (.pair X₀)) post := by
      unfold afterCalls
      rw [List.foldl_append, List.foldl_cons]
    rw [e1, h1]
    simp only [afterCall]
    rw [hd]
    dsimp only
    unfold afterCalls
    clear e1 h1 hpre
    induction post with
    | nil => rfl
    | cons a h ih => rw [List.foldl_cons, afterCall_cknn_some, ih]
  refine ⟨⟨M₀, by rw [hd]⟩, h2, fun X M hM => ?_⟩
  rw [h2, hd] at hM
  unfold dmapPair cknnInternal at hM
  dsimp only at hM
  cases hr : (cknnPair c Dp (some ⟨X₀.length, v⟩) X).1 with
  | error e => rw [hr] at hM; cases hM
  | ok G' => exact cknnPair_some c Dp _ X G' hr

/-- C203, the values inside a diffusion kernel: after the first accepted evaluation of the points `X₀`, a component-wise evaluation whose graph connects every query point gives the Markov matrix of this graph with
the degrees of the points `X₀` in their own graph as densities. -/
theorem C203_diffusion_values (k : DmapKernel) (hk : k.Admissible) (hst : k.isStochastic = true) (hc : c.Admissible) (hdist : ∀ X D, Dp X = .ok D → IsDistance D)
    (pre post : List (KCall P)) (hpre : ∀ X, KCall.pair X ∈ pre → ¬ CknnAccepts c Dp X) (X₀ : List P) (G₀) (h₀ : (cknnPair c Dp none X₀).1 = .ok G₀)
    (X Y : List P) (h : X.length = X₀.length) (G) (hG : (cknnComp c Dc (cknnPair c Dp none X₀).2 X Y).1 = .ok G) (hcon : ∀ i, ∃ j, G i j) :
    ∃ M, (dmapComp k (cknnInternal c Dp Dc) (afterCalls k (cknnInternal c Dp Dc) (DmapState.new none) (pre ++ .pair X₀ :: post)) X Y).1 = .ok M ∧
      IsMarkov k.alpha (fun j => ∑ l, adjacency G₀ (j.cast h) l) (adjacency G) M := by
  have hacc : CknnAccepts c Dp X₀ := ⟨G₀, h₀⟩
  obtain ⟨M₀, G₁, v, b, hpair, hA, hd⟩ := dmapPair_cknn c Dp Dc k hk hst hc hdist X₀ hacc
  rw [hpair] at h₀ hG
  cases h₀
  have hs : ∀ i, 0 < rowSums ((adjacency G₀).submatrix (Fin.cast h) (Fin.cast h)) i := by
    intro i
    have hcon : Connected ((adjacency G₀).submatrix (Fin.cast h) (Fin.cast h)) := by
      refine ⟨fun i j => hA.1 _ _, fun i => ?_⟩
      obtain ⟨j, hj⟩ := hA.2 (i.cast h)
      exact ⟨j.cast h.symm, hj⟩
    exact hcon.rowSums_pos i
  have hKc : Connected (adjacency G) := by
    refine ⟨fun i j => ?_, fun i => ?_⟩
    · simp only [adjacency, Matrix.of_apply]
      split <;> norm_num
    · obtain ⟨j, hj⟩ := hcon i
      refine ⟨j, ?_⟩
      simp only [adjacency, Matrix.of_apply]
      rw [if_pos hj]
      exact one_pos
  refine ⟨diffusion k.alpha (rowSums ((adjacency G₀).submatrix (Fin.cast h) (Fin.cast h))) (adjacency G), ?_, ?_⟩
  · rw [((C203_diffusion c Dp Dc k hk hst hc hdist pre post hpre).2 X₀ hacc).2.1, hd]
    unfold dmapComp cknnInternal
    dsimp only
    rw [hG]
    dsimp only [Except.map]
    rw [castFit_ok k h]
    dsimp only
    exact evalCdist_stochastic hk hst hs hKc.1 hKc.rowSums_pos
  · intro i j
    have hsum : ∀ j, rowSums ((adjacency G₀).submatrix (Fin.cast h) (Fin.cast h)) j = ∑ l, adjacency G₀ (j.cast h) l := by
      intro j
      unfold rowSums
      exact Fintype.sum_equiv (finCongr h) _ _ (fun l => rfl)
    simp only [diffusion, hsum, Matrix.of_apply]

end

/-! ## Points on the line -/

/-- The distances between points on the line. -/
def lineDist (X Y : List ℝ) : Matrix (Fin Y.length) (Fin X.length) ℝ := Matrix.of (fun i j => |Y[i] - X[j]|)

theorem lineDist_isDistance (X : List ℝ) : IsDistance (lineDist X X) := by
  refine ⟨fun i j => abs_nonneg _, fun i j => abs_sub_comm _ _, fun i => ?_⟩
  simp [lineDist]

/-- The kernel on the line that takes the second neighbour, with `delta=1`. -/
noncomputable def lineCknn : CkNN := ⟨2, 1, true⟩

theorem lineCknn_admissible : lineCknn.Admissible := ⟨one_pos, by decide⟩

open Classical in
/-- Helper: the second neighbours within three points. -/
theorem line_second (a b : ℝ) (ha : 0 < a) (hb : 2 * a ≤ b) :
    IsKth (List.ofFn (lineDist [0, a, b] [0, a, b] 0)) 2 a ∧ IsKth (List.ofFn (lineDist [0, a, b] [0, a, b] 1)) 2 a ∧ IsKth (List.ofFn (lineDist [0, a, b] [0, a, b] 2)) 2 (b - a) := by
  have hab : a < b := by linarith
  have e0 : List.ofFn (lineDist [0, a, b] [0, a, b] 0) = [0, a, b] := by
    simp [lineDist, List.ofFn_succ, abs_of_pos ha, abs_of_pos (ha.trans hab)]
  have e1 : List.ofFn (lineDist [0, a, b] [0, a, b] 1) = [a, 0, b - a] := by
    simp [lineDist, List.ofFn_succ, abs_of_pos ha, abs_sub_comm a b, abs_of_pos (sub_pos.mpr hab)]
  have e2 : List.ofFn (lineDist [0, a, b] [0, a, b] 2) = [b, b - a, 0] := by
    simp [lineDist, List.ofFn_succ, abs_of_pos (ha.trans hab), abs_of_pos (sub_pos.mpr hab)]
  have h1 : ¬ b < a := by linarith
  have h2 : ¬ b - a < a := by linarith
  have h3 : ¬ b < b - a := by linarith
  have h4 : 0 < b - a := by linarith
  rw [e0, e1, e2]
  refine ⟨⟨by simp, ?_, ?_⟩, ⟨by simp, ?_, ?_⟩, ⟨by simp, ?_, ?_⟩⟩ <;> simp [List.countP_cons, ha, ha.le, h1, h2, h3, h4, h4.le, hab]

theorem line_pos (a b : ℝ) (ha : 0 < a) (hb : 2 * a ≤ b) (i : Fin 3) (v : ℝ) (h : IsKth (List.ofFn (lineDist [0, a, b] [0, a, b] i)) 2 v) : 0 < v := by
  obtain ⟨h0, h1, h2⟩ := line_second a b ha hb
  fin_cases i
  · rw [h.unique h0]; exact ha
  · rw [h.unique h1]; exact ha
  · rw [h.unique h2]; linarith

open Classical in
theorem line_query : IsKth (List.ofFn (lineDist [0, 10, 30] [5] 0)) 2 5 := by
  have e : List.ofFn (lineDist [0, 10, 30] [5] 0) = [5, 5, 25] := by
    simp only [lineDist, List.ofFn_succ]
    norm_num [abs_of_pos, abs_of_neg]
  rw [e]
  refine ⟨by simp, ?_, ?_⟩ <;> norm_num [List.countP_cons]

/-- C203 is violated for the reference points: an object that evaluated the points 0, 1, 3 accepts the other reference points 0, 10, 30, because their number is the same, and uses the neighbour distances of the
points 0, 1, 3: the query 5 is not connected to 0, although it is with an object that evaluated 0, 10, 30. -/
theorem C203_reference_violated :
    (∃ G, (cknnComp lineCknn (fun X Y => .ok (lineDist X Y)) (cknnPair lineCknn (fun X => .ok (lineDist X X)) none [0, 1, 3]).2 [0, 10, 30] [5]).1 = .ok G ∧ ¬ G 0 0) ∧
    ∃ G, (cknnComp lineCknn (fun X Y => .ok (lineDist X Y)) (cknnPair lineCknn (fun X => .ok (lineDist X X)) none [0, 10, 30]).2 [0, 10, 30] [5]).1 = .ok G ∧ G 0 0 := by
  have key : ∀ a b : ℝ, 0 < a → 2 * a ≤ b →
      ∃ G, (cknnComp lineCknn (fun X Y => .ok (lineDist X Y)) (cknnPair lineCknn (fun X => .ok (lineDist X X)) none [0, a, b]).2 [0, 10, 30] [5]).1 = .ok G ∧ (G 0 0 ↔ 5 < Real.sqrt (5 * a)) := by
    intro a b ha hb
    have hv := C203_values lineCknn (fun X => .ok (lineDist X X)) (fun X Y => .ok (lineDist X Y)) lineCknn_admissible [] [] [0, a, b] (fun X hX => by cases hX) (lineDist _ _) rfl
      (lineDist_isDistance _) (by simp) (by simp [lineCknn]) (fun i v h => line_pos a b ha hb i v h) [0, 10, 30] [5] (lineDist _ _) rfl (fun i j => abs_nonneg _)
    have hnz : ∀ i : Fin 1, ¬ IsKth (List.ofFn (lineDist [0, 10, 30] [5] i)) 2 0 := by
      intro i h
      fin_cases i
      have := h.unique line_query
      norm_num at this
    obtain ⟨G, hG⟩ := hv.1.2 ⟨rfl, by decide, hnz⟩
    refine ⟨G, hG, ?_⟩
    rw [hv.2 G hG rfl 0 0 5 a line_query (line_second a b ha hb).1]
    have e : lineDist [0, 10, 30] [5] 0 0 = 5 := by
      simp [lineDist]
    rw [e, lineCknn, one_mul]
  obtain ⟨G, hG, h1⟩ := key 1 3 (by norm_num) (by norm_num)
  obtain ⟨G', hG', h2⟩ := key 10 30 (by norm_num) (by norm_num)
  refine ⟨⟨G, hG, ?_⟩, G', hG', ?_⟩
  · rw [h1, not_lt]
    exact Real.sqrt_le_iff.mpr ⟨by norm_num, by norm_num⟩
  · rw [h2]
    exact Real.lt_sqrt_of_sq_lt (by norm_num)

/-- The points 0, 1, 3 are accepted, so that the hypotheses of C203 are met; a single point is refused. -/
example : CknnAccepts lineCknn (fun X : List ℝ => .ok (lineDist X X)) [0, 1, 3] ∧ ¬ CknnAccepts lineCknn (fun X : List ℝ => .ok (lineDist X X)) [0] := by
  refine ⟨?_, ?_⟩
  · obtain ⟨G, v, h, -⟩ := C101_graph_partial lineCknn lineCknn_admissible (lineDist [0, 1, 3] [0, 1, 3]) (lineDist_isDistance _) (by simp) (by decide)
      (fun i v h => line_pos 1 3 (by norm_num) (by norm_num) i v h)
    refine ⟨G, ?_⟩
    unfold cknnPair
    dsimp only [Option.map_none]
    rw [h]
  · intro ⟨G, h⟩
    unfold cknnPair CkNN.pdist kthDense at h
    dsimp only [Option.map_none] at h
    rw [if_neg (by push Not; exact ⟨0, by simp [lineDist]⟩)] at h
    simp [lineCknn] at h

end Verif.Kernel
