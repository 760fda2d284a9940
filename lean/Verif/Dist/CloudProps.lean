import Verif.Dist.Cloud
import Verif.Dist.Props
import Mathlib.Data.List.FinRange
import Mathlib.Algebra.BigOperators.Group.List.Basic
/-!
# C52, C53: outliers and subsampling
-/

namespace Verif.Dist

variable {P : Type}

/-! ## `np.array_split` -/

theorem takeBlocks_flatten {α : Type} (ss : List Nat) (l : List α) : (takeBlocks ss l).flatten = l.take ss.sum := by
  induction ss generalizing l with
  | nil => simp [takeBlocks]
  | cons s ss ih =>
    simp only [takeBlocks, List.flatten_cons, ih, List.sum_cons]
    rw [List.take_add]

theorem takeBlocks_length {α : Type} (ss : List Nat) (l : List α) : (takeBlocks ss l).length = ss.length := by
  induction ss generalizing l with
  | nil => rfl
  | cons s ss ih => simp [takeBlocks, ih]

theorem sum_lt_indicator (k a r : Nat) : ((List.range k).map (fun b => a + if b < r then 1 else 0)).sum = k * a + min k r := by
  induction k with
  | zero => simp
  | succ k ih =>
    rw [List.range_succ, List.map_append, List.sum_append, ih]
    simp only [List.map_cons, List.map_nil, List.sum_cons, List.sum_nil]
    rw [Nat.succ_mul]
    split <;> omega

theorem splitSizes_sum (n k : Nat) (hk : 0 < k) : (splitSizes n k).sum = n := by
  unfold splitSizes
  rw [sum_lt_indicator, min_eq_right (Nat.mod_lt n hk).le]
  exact Nat.div_add_mod n k

theorem arraySplit_flatten {α : Type} (l : List α) (k : Nat) (hk : 0 < k) : (arraySplit l k).flatten = l := by
  unfold arraySplit
  rw [takeBlocks_flatten, splitSizes_sum _ _ hk, List.take_length]

theorem arraySplit_length {α : Type} (l : List α) (k : Nat) : (arraySplit l k).length = k := by
  unfold arraySplit
  rw [takeBlocks_length]
  simp [splitSizes]

/-! ## C53 -/

/-- What `pcm_subsample` should do with the blocks: `adds` are the points that are selected from the visited blocks.  From each visited block exactly the points that are at least `c` away from all points
selected before are selected, in order; not all blocks are visited only if the last visited one adds at most `minAdded` points. -/
structure Greedy (e : P → P → ℝ) {n : Nat} (pt : Fin n → P) (c : ℝ) (minAdded : Nat) (first : List (Fin n)) (blocks adds : List (List (Fin n))) : Prop where
  le : adds.length ≤ blocks.length
  order : ∀ i (h : i < adds.length), adds[i].Sublist (blocks[i]'(h.trans_le le))
  far : ∀ i (h : i < adds.length) x, x ∈ adds[i] ↔ x ∈ blocks[i]'(h.trans_le le) ∧ ∀ y ∈ first ++ (adds.take i).flatten, c ≤ e (pt x) (pt y)
  stop : adds.length = blocks.length ∨ ∃ last ∈ adds.getLast?, last.length ≤ minAdded

theorem subsampleLoop_greedy (e : P → P → ℝ) {n : Nat} (pt : Fin n → P) (c : ℝ) (minAdded : Nat) (sel : List (Fin n)) (bs : List (List (Fin n))) :
    ∃ adds, subsampleLoop e pt c minAdded sel bs = sel ++ adds.flatten ∧ Greedy e pt c minAdded sel bs adds := by
  classical
  induction bs generalizing sel with
  | nil => exact ⟨[], by simp [subsampleLoop], ⟨le_refl _, by simp, by simp, Or.inl rfl⟩⟩
  | cons b bs ih =>
    have hmem : ∀ x, x ∈ b.filter (fun i => decide (∀ j ∈ sel, ¬ e (pt i) (pt j) < c)) ↔ x ∈ b ∧ ∀ y ∈ sel, c ≤ e (pt x) (pt y) := by
      intro x
      simp [List.mem_filter]
    set add := b.filter (fun i => decide (∀ j ∈ sel, ¬ e (pt i) (pt j) < c)) with hadd
    have hsub : add.Sublist b := List.filter_sublist
    have hloop : subsampleLoop e pt c minAdded sel (b :: bs) = if add.length ≤ minAdded then sel ++ add else subsampleLoop e pt c minAdded (sel ++ add) bs := by
      simp only [subsampleLoop, hadd]
    rw [hloop]
    split
    · rename_i hle
      refine ⟨[add], by simp, ⟨by simp, ?_, ?_, Or.inr ⟨add, by simp, hle⟩⟩⟩
      · intro i h
        have : i = 0 := by simpa using h
        subst this
        exact hsub
      · intro i h x
        have : i = 0 := by simpa using h
        subst this
        simpa using hmem x
    · obtain ⟨adds, h1, h2⟩ := ih (sel ++ add)
      refine ⟨add :: adds, by rw [h1]; simp, ⟨by simpa using h2.le, ?_, ?_, ?_⟩⟩
      · intro i h
        cases i with
        | zero => exact hsub
        | succ i => exact h2.order i (by simpa using h)
      · intro i h x
        cases i with
        | zero => simpa using hmem x
        | succ i =>
          have := h2.far i (by simpa using h) x
          simpa [List.append_assoc] using this
      · rcases h2.stop with h | ⟨last, h, h'⟩
        · exact Or.inl (by simp [h])
        · refine Or.inr ⟨last, ?_, h'⟩
          cases adds with
          | nil => simp at h
          | cons a as => simpa using h

/-- C53, the part that holds: the selected indices are distinct, the first block is taken completely, and the further blocks are handled as specified until one of them adds at most
`min_added_per_iteration` points. -/
theorem C53_greedy_partial (e : P → P → ℝ) {n : Nat} (pt : Fin n → P) (perm : List (Fin n)) (hperm : perm.Nodup) (nSamples : Nat) (c : ℝ) (hc : 0 < c) (minAdded : Nat) (sel : List (Fin n))
    (h : pcmSubsample e pt perm nSamples (some c) minAdded = .ok sel) :
    sel.Nodup ∧ (∀ x ∈ sel, x ∈ perm) ∧ ∃ first blocks adds, (first :: blocks).flatten = perm ∧ blocks.length = n / nSamples ∧ sel = first ++ adds.flatten ∧ Greedy e pt c minAdded first blocks adds := by
  have key : ∃ first blocks adds, (first :: blocks).flatten = perm ∧ blocks.length = n / nSamples ∧ sel = first ++ adds.flatten ∧ Greedy e pt c minAdded first blocks adds := by
    unfold pcmSubsample at h
    split at h
    · cases h
    · have hf := arraySplit_flatten perm (n / nSamples + 1) (Nat.succ_pos _)
      have hl := arraySplit_length perm (n / nSamples + 1)
      split at h
      · cases h
      · rename_i b hb
        rw [hb] at hf hl
        obtain rfl := Except.ok.inj h
        exact ⟨b, [], [], hf, by simp only [List.length_cons, List.length_nil] at hl ⊢; omega, by simp, ⟨le_refl _, by simp, by simp, Or.inl rfl⟩⟩
      · rename_i b bs hb' hb
        rw [hb] at hf hl
        rw [(C48_cut_off .euclidean c).1 hc] at h
        simp only [Metric.apply] at h
        split at h
        · cases h
        · obtain ⟨adds, h1, h2⟩ := subsampleLoop_greedy e pt c minAdded b bs
          rw [h1] at h
          exact ⟨b, bs, adds, hf, by simpa using hl, (Except.ok.inj h).symm, h2⟩
  obtain ⟨first, blocks, adds, h1, h2, h3, h4⟩ := key
  have hsub : sel.Sublist perm := by
    rw [h3, ← h1, List.flatten_cons]
    refine List.Sublist.append (List.Sublist.refl _) ?_
    have : ∀ (as bs : List (List (Fin n))) (hle : as.length ≤ bs.length), (∀ i (h : i < as.length), as[i].Sublist (bs[i]'(h.trans_le hle))) → as.flatten.Sublist bs.flatten := by
      intro as
      induction as with
      | nil => intro bs _ _; simp
      | cons a as ih =>
        intro bs hle ho
        cases bs with
        | nil => simp at hle
        | cons b bs =>
          simp only [List.flatten_cons]
          refine List.Sublist.append (ho 0 (by simp)) (ih bs (by simpa using hle) (fun i h => ?_))
          have := ho (i + 1) (by simpa using h)
          simpa using this
    exact this adds blocks h4.le h4.order
  exact ⟨hperm.sublist hsub, fun x hx => hsub.subset hx, first, blocks, adds, h1, h2, h3, h4⟩

/-- C53: if all blocks are visited, every point of the cloud is selected or closer than `c` to a selected one. -/
theorem C53_cover (e : P → P → ℝ) {n : Nat} (pt : Fin n → P) (c : ℝ) (minAdded : Nat) (first : List (Fin n)) (blocks adds : List (List (Fin n))) (h : Greedy e pt c minAdded first blocks adds)
    (hall : adds.length = blocks.length) (x : Fin n) (hx : x ∈ (first :: blocks).flatten) : x ∈ first ++ adds.flatten ∨ ∃ y ∈ first ++ adds.flatten, e (pt x) (pt y) < c := by
  rw [List.flatten_cons, List.mem_append] at hx
  rcases hx with hx | hx
  · exact Or.inl (List.mem_append_left _ hx)
  · obtain ⟨b, hb, hxb⟩ := List.mem_flatten.mp hx
    obtain ⟨i, hi, rfl⟩ := List.getElem_of_mem hb
    have hi' : i < adds.length := by omega
    by_cases hsel : x ∈ adds[i]
    · exact Or.inl (List.mem_append_right _ (List.mem_flatten.mpr ⟨_, List.getElem_mem hi', hsel⟩))
    · have := mt (h.far i hi' x).mpr hsel
      push Not at this
      obtain ⟨y, hy, hlt⟩ := this hxb
      refine Or.inr ⟨y, ?_, hlt⟩
      rcases List.mem_append.mp hy with hy | hy
      · exact List.mem_append_left _ hy
      · refine List.mem_append_right _ ?_
        obtain ⟨a, ha, hya⟩ := List.mem_flatten.mp hy
        exact List.mem_flatten.mpr ⟨a, List.mem_of_mem_take ha, hya⟩

/-- C53 is violated: `min_added_per_iteration=0` does not iterate the entire point cloud.  For every permutation of four points in blocks there is a point cloud with a point that is far away from all
selected points and not selected. -/
theorem C53_violated (p : Fin 4 → Fin 4) (hp : Function.Injective p) : ∃ (pt : Fin 4 → ℝ) (sel : List (Fin 4)),
    pcmSubsample (fun x y : ℝ => |x - y|) pt [p 0, p 1, p 2, p 3] 2 (some 10) 0 = .ok sel ∧ ∃ x, x ∉ sel ∧ ∀ y ∈ sel, 10 ≤ |pt x - pt y| := by
  classical
  let pt : Fin 4 → ℝ := fun i => if i = p 3 then 100 else 0
  have h0 : pt (p 0) = 0 := if_neg (fun h => by simpa using hp h)
  have h1 : pt (p 1) = 0 := if_neg (fun h => by simpa using hp h)
  have h2 : pt (p 2) = 0 := if_neg (fun h => by simpa using hp h)
  have h3 : pt (p 3) = 100 := if_pos rfl
  refine ⟨pt, [p 0, p 1], ?_, p 3, ?_, ?_⟩
  · have hs : arraySplit [p 0, p 1, p 2, p 3] (4 / 2 + 1) = [[p 0, p 1], [p 2], [p 3]] := by simp [arraySplit, splitSizes, takeBlocks, List.range_succ]
    have hl : subsampleLoop (fun x y : ℝ => |x - y|) pt 10 0 [p 0, p 1] [[p 2], [p 3]] = [p 0, p 1] := by
      have h10 : ¬ (10 : ℝ) ≤ 0 := by norm_num
      simp [subsampleLoop, List.filter, h0, h1, h2, h10]
    unfold pcmSubsample
    rw [hs, if_neg (by norm_num)]
    simp only [(C48_cut_off .euclidean 10).1 (by norm_num), Metric.apply]
    rw [if_neg (by simp), hl]
  · intro hc
    simp only [List.mem_cons, List.not_mem_nil, or_false] at hc
    rcases hc with hc | hc <;> exact absurd (hp hc) (by decide)
  · intro y hy
    simp only [List.mem_cons, List.not_mem_nil, or_false] at hy
    rcases hy with rfl | rfl <;> norm_num [h0, h1, h3]

/-- C53 is violated for blocks of one point: every call is rejected. -/
theorem C53_violated_one (e : P → P → ℝ) {n : Nat} (hn : 0 < n) (pt : Fin n → P) (perm : List (Fin n)) (hperm : perm.length = n) (minDistance : Option ℝ) (minAdded : Nat) :
    pcmSubsample e pt perm 1 minDistance minAdded = .error .value := by
  have hl := arraySplit_length perm (n / 1 + 1)
  rw [Nat.div_one] at hl
  unfold pcmSubsample
  rw [if_neg one_ne_zero, Nat.div_one]
  have hfirst : ∀ b bs, arraySplit perm (n + 1) = b :: bs → b.length ≤ 1 := by
    intro b bs h
    have : arraySplit perm (n + 1) = takeBlocks ((n / (n + 1) + if 0 < n % (n + 1) then 1 else 0) :: ((List.range n).map Nat.succ).map (fun b => n / (n + 1) + if b < n % (n + 1) then 1 else 0)) perm := by
      unfold arraySplit splitSizes
      rw [hperm, List.range_succ_eq_map]
      rfl
    rw [this] at h
    simp only [takeBlocks, List.cons.injEq] at h
    rw [← h.1, List.length_take, Nat.div_eq_of_lt (Nat.lt_succ_self n)]
    split <;> omega
  split
  · rfl
  · rename_i b hb
    rw [hb] at hl
    simp only [List.length_cons, List.length_nil] at hl
    omega
  · rename_i b bs _ hb
    have hb1 := hfirst b bs hb
    cases hcut : setCutOff .euclidean minDistance with
    | error err =>
      cases minDistance with
      | none => cases hcut
      | some c =>
        simp only [setCutOff] at hcut
        split at hcut
        · cases hcut
        · split at hcut
          · rw [← Except.error.inj hcut]
          · cases hcut
    | ok cut =>
      cases cut with
      | none => exact if_pos hb1
      | some c => exact if_pos hb1

/-- C53 is violated for point clouds without cut-off (the default): as soon as there are several blocks, the call is rejected. -/
theorem C53_violated_default (e : P → P → ℝ) {n : Nat} (pt : Fin n → P) (perm : List (Fin n)) (nSamples : Nat) (h : 0 < nSamples) (hn : nSamples ≤ n) (minAdded : Nat) :
    ∃ err, pcmSubsample e pt perm nSamples none minAdded = .error err := by
  have hl := arraySplit_length perm (n / nSamples + 1)
  have hd : 1 ≤ n / nSamples := (Nat.one_le_div_iff h).mpr hn
  unfold pcmSubsample
  rw [if_neg (by omega)]
  split
  · exact ⟨_, rfl⟩
  · rename_i b hb
    rw [hb] at hl
    simp only [List.length_cons, List.length_nil] at hl
    omega
  · simp only [setCutOff]
    split
    · exact ⟨_, rfl⟩
    · exact ⟨_, rfl⟩

example : ∃ sel, pcmSubsample (fun x y : ℝ => |x - y|) ![0, 0, 0, 100] [0, 1, 2, 3] 2 (some 10) 0 = .ok sel := by
  have hs : arraySplit ([0, 1, 2, 3] : List (Fin 4)) (4 / 2 + 1) = [[0, 1], [2], [3]] := by simp [arraySplit, splitSizes, takeBlocks, List.range_succ]
  unfold pcmSubsample
  rw [hs, if_neg (by norm_num)]
  simp only [(C48_cut_off .euclidean 10).1 (by norm_num), Metric.apply]
  exact ⟨_, if_neg (by simp)⟩

/-! ## C52 -/

open Classical in
/-- Number of other points within the range of a point. -/
noncomputable def neighbours (e : P → P → ℝ) (X : Cloud P) (near : ℝ → Prop) (i : Fin X.n) : Nat := (Finset.univ.filter (fun j => j ≠ i ∧ near (e (X.pt i) (X.pt j)))).card

theorem neighbours_zero {e : P → P → ℝ} {X : Cloud P} {near : ℝ → Prop} {i : Fin X.n} (h : ∀ j, j ≠ i → ¬ near (e (X.pt i) (X.pt j))) : neighbours e X near i = 0 := by
  classical
  unfold neighbours
  rw [Finset.card_eq_zero, Finset.filter_eq_empty_iff]
  intro j _ hj
  exact h j hj.1 hj.2

theorem splitByCount_spec {n : Nat} (kmin : Int) (f : Fin n → Nat) : (∀ i, i ∈ (splitByCount kmin f).1 ↔ kmin ≤ f i) ∧ (∀ i, i ∈ (splitByCount kmin f).2 ↔ i ∉ (splitByCount kmin f).1) ∧
    (splitByCount kmin f).1.Pairwise (· < ·) ∧ (splitByCount kmin f).2.Pairwise (· < ·) := by
  refine ⟨fun i => ?_, fun i => ?_, (List.pairwise_lt_finRange n).filter _, (List.pairwise_lt_finRange n).filter _⟩
  · simp [splitByCount]
  · simp [splitByCount]

/-- C52 with a cut-off: a point is kept exactly if it has at least `kmin - 1` other points in the range; the removed points are the others; both in order. -/
theorem C52_range_partial (e : P → P → ℝ) (he : IsDist e) (X : Cloud P) (hX : 1 < X.n) (kmin : Int) (hk : 0 < kmin) (c : ℝ) (hc : 0 < c) : ∃ kept removed,
    removeOutlier e X kmin (some c) = .ok (kept, removed) ∧ (∀ i, i ∈ kept ↔ kmin - 1 ≤ neighbours e X (fun r => r ≤ c) i) ∧ (∀ i, i ∈ removed ↔ i ∉ kept) ∧
    kept.Pairwise (· < ·) ∧ removed.Pairwise (· < ·) := by
  classical
  have hcount : ∀ i, nnz (radiusQuery e .sqeuclidean (some c) X X) i = neighbours e X (fun r => r ≤ c) i + 1 := by
    intro i
    have : Finset.univ.filter (fun j => (radiusQuery e .sqeuclidean (some c) X X i j).isSome = true) = insert i (Finset.univ.filter (fun j => j ≠ i ∧ e (X.pt i) (X.pt j) ≤ c)) := by
      ext j
      simp only [Finset.mem_filter, Finset.mem_univ, true_and, Finset.mem_insert, radiusQuery]
      by_cases hij : j = i
      · subst hij
        simp [he.self, hc.le]
      · by_cases hle : e (X.pt i) (X.pt j) ≤ c <;> simp [hij, hle]
    unfold nnz neighbours
    rw [this, Finset.card_insert_of_notMem (by simp)]
  obtain ⟨s1, s2, s3, s4⟩ := splitByCount_spec kmin (nnz (radiusQuery e .sqeuclidean (some c) X X))
  refine ⟨_, _, ?_, fun i => ?_, s2, s3, s4⟩
  · unfold removeOutlier
    rw [if_neg (by omega)]
    simp only [(C48_cut_off .sqeuclidean c).1 hc, radius_apply _ hc]
    rw [if_neg (by omega)]
  · rw [s1, hcount i]
    push_cast
    omega

/-- C52 without cut-off: a point is kept exactly if there are at least `kmin` points at a *different* place. -/
theorem C52_dense_partial (e : P → P → ℝ) (he : IsDist e) (X : Cloud P) (hX : 1 < X.n) (kmin : Int) (hk : 0 < kmin) : ∃ kept removed, removeOutlier e X kmin none = .ok (kept, removed) ∧
    (∀ i, i ∈ kept ↔ kmin ≤ neighbours e X (fun r => r ≠ 0) i) ∧ (∀ i, i ∈ removed ↔ i ∉ kept) := by
  classical
  have hcount : ∀ i, positiveCount (pdistMatrix (fun x y => Metric.sqeuclidean.apply (e x y)) X) i = neighbours e X (fun r => r ≠ 0) i := by
    intro i
    unfold neighbours positiveCount
    congr 1
    ext j
    simp only [Finset.mem_filter, Finset.mem_univ, true_and]
    rw [pdistMatrix_eq e he]
    simp only [Metric.apply]
    constructor
    · intro h
      have h0 : e (X.pt i) (X.pt j) ≠ 0 := fun h0 => by rw [h0] at h; norm_num at h
      refine ⟨?_, h0⟩
      rintro rfl
      exact h0 (he.self _)
    · rintro ⟨-, h⟩
      exact pow_pos (lt_of_le_of_ne (he.nonneg _ _) (Ne.symm h)) 2
  obtain ⟨s1, s2, -, -⟩ := splitByCount_spec kmin (positiveCount (pdistMatrix (fun x y => Metric.sqeuclidean.apply (e x y)) X))
  refine ⟨_, _, ?_, fun i => ?_, s2⟩
  · unfold removeOutlier
    rw [if_neg (by omega)]
    simp only [setCutOff]
    rw [if_neg (by omega)]
  · rw [s1, hcount i]

/-- C52, rejected inputs: exactly a number of neighbours that is not positive, a cloud of at most one point or a negative cut-off. -/
theorem C52_rejects (e : P → P → ℝ) (X : Cloud P) (kmin : Int) (cut : Option ℝ) :
    (∃ err, removeOutlier e X kmin cut = .error err) ↔ kmin ≤ 0 ∨ X.n ≤ 1 ∨ ∃ c, cut = some c ∧ c < 0 := by
  unfold removeOutlier
  by_cases hk : kmin ≤ 0
  · rw [if_pos hk]
    exact ⟨fun _ => Or.inl hk, fun _ => ⟨_, rfl⟩⟩
  · rw [if_neg hk]
    cases cut with
    | none => by_cases hX : X.n ≤ 1 <;> simp [setCutOff, hk, hX]
    | some c =>
      by_cases h0 : c = 0
      · subst h0
        by_cases hX : X.n ≤ 1 <;> simp [setCutOff, hk, hX]
      · by_cases hc : c < 0
        · simp [setCutOff, hc, h0]
        · by_cases hX : X.n ≤ 1 <;> simp [setCutOff, hk, hX, h0, hc]

/-- C52 is violated with a cut-off: a point without any neighbour is kept for `kmin = 1`. -/
theorem C52_violated_range (e : P → P → ℝ) (he : IsDist e) (X : Cloud P) (hX : 1 < X.n) (c : ℝ) (hc : 0 < c) (i : Fin X.n) (_hout : neighbours e X (fun r => r ≤ c) i = 0) :
    ∃ kept removed, removeOutlier e X 1 (some c) = .ok (kept, removed) ∧ i ∈ kept := by
  obtain ⟨kept, removed, h1, h2, -⟩ := C52_range_partial e he X hX 1 one_pos c hc
  exact ⟨kept, removed, h1, (h2 i).mpr (by omega)⟩

/-- C52 is violated without cut-off: two equal points, each with a neighbour in the (infinite) range, are removed for `kmin = 1`. -/
theorem C52_violated_dense : ∃ kept removed, removeOutlier (fun x y : ℝ => |x - y|) ⟨2, ![3, 3]⟩ 1 none = .ok (kept, removed) ∧ kept = [] := by
  obtain ⟨kept, removed, h1, h2, -⟩ := C52_dense_partial _ isDist_real ⟨2, ![(3 : ℝ), 3]⟩ (by norm_num) 1 one_pos
  refine ⟨kept, removed, h1, ?_⟩
  rw [List.eq_nil_iff_forall_not_mem]
  intro i hi
  have := (h2 i).mp hi
  have h0 : neighbours (fun x y : ℝ => |x - y|) ⟨2, ![(3 : ℝ), 3]⟩ (fun r => r ≠ 0) i = 0 := by
    refine neighbours_zero (fun j _ hj => hj ?_)
    change |(![(3 : ℝ), 3] : Fin 2 → ℝ) i - (![(3 : ℝ), 3] : Fin 2 → ℝ) j| = 0
    change Fin 2 at i
    change Fin 2 at j
    fin_cases i <;> fin_cases j <;> norm_num
  omega

example : neighbours (fun x y : ℝ => |x - y|) ⟨2, ![(0 : ℝ), 9]⟩ (fun r => r ≤ 1) (0 : Fin 2) = 0 := by
  refine neighbours_zero (fun j h' h => ?_)
  change |(![(0 : ℝ), 9] : Fin 2 → ℝ) 0 - (![(0 : ℝ), 9] : Fin 2 → ℝ) j| ≤ 1 at h
  change Fin 2 at j
  fin_cases j
  · exact h' rfl
  · norm_num at h

end Verif.Dist
