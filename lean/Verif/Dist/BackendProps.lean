import Verif.Dist.Backend
import Mathlib.Tactic.NormNum
/-!
# C51, C106-C108: selection of distance algorithms, settings of point clouds
-/

namespace Verif.Dist

variable {V : Type}

/-- The value an object got for a parameter. -/
def Constructed.param (o : Constructed V) (q : Key) : Option V := (o.given.find? (fun x => decide (x.1 = q))).map Prod.snd

/-! ## C106 -/

/-- C106, the part that holds: for all algorithms except nearest neighbours, the object gets the metric and cut-off, and the minimal number of neighbours if it has this parameter. -/
theorem C106_select_partial (b : Backend) (hb : b ≠ .knn) (metric cutOff k : V) : ∃ o, initDistance b metric cutOff k [] = .ok o ∧ o.backend = b ∧ o.param .metric = some metric ∧
    o.param .cutOff = some cutOff ∧ (o.param .kmin = if b = .brute then none else some k) := by
  cases b with
  | knn => exact absurd rfl hb
  | brute => exact ⟨_, rfl, rfl, rfl, rfl, rfl⟩
  | kdtree => exact ⟨_, rfl, rfl, rfl, rfl, rfl⟩
  | balltree => exact ⟨_, rfl, rfl, rfl, rfl, rfl⟩
  | guessOptimal => exact ⟨_, rfl, rfl, rfl, rfl, rfl⟩

/-- C106 is violated for the nearest neighbour algorithm: it cannot be selected by name, whatever number of neighbours and options are given (`k` is a parameter of `compute_distance_matrix` and
cannot be an option). -/
theorem C106_violated (metric cutOff k : V) (options : List (Key × V)) (h : Key.k ∉ options.map Prod.fst) : initDistance .knn metric cutOff k options = .error .type := by
  have : initDistance .knn metric cutOff k options = construct .knn ((Key.metric, metric) :: options) := rfl
  rw [this]
  unfold construct
  split
  · rw [if_pos]
    refine Or.inr ⟨.k, by simp [Backend.required], ?_⟩
    simp only [List.map_cons, List.mem_cons, not_or]
    exact ⟨by decide, h⟩
  · rfl

/-- C106: an algorithm is never constructed without the arguments it needs: the cut-off of the trees, the metric of brute force, both metric and number of neighbours of nearest neighbours. -/
theorem C106_required (b : Backend) (kw : List (Key × V)) (o : Constructed V) (h : construct b kw = .ok o) :
    (b = .kdtree ∨ b = .balltree → ∃ v, (Key.cutOff, v) ∈ kw) ∧ (b = .brute → ∃ v, (Key.metric, v) ∈ kw) ∧ (b = .knn → (∃ v, (Key.metric, v) ∈ kw) ∧ ∃ v, (Key.k, v) ∈ kw) := by
  unfold construct at h
  split at h
  · split at h
    · cases h
    · rename_i hn
      have hreq : ∀ q ∈ b.required, ∃ v, (q, v) ∈ kw := by
        intro q hq
        by_contra hc
        refine hn (Or.inr ⟨q, hq, fun hm => hc ?_⟩)
        obtain ⟨x, hx, rfl⟩ := List.mem_map.mp hm
        exact ⟨x.2, hx⟩
      refine ⟨?_, ?_, ?_⟩
      · rintro (rfl | rfl) <;> exact hreq _ (by decide)
      · rintro rfl; exact hreq _ (by decide)
      · rintro rfl; exact ⟨hreq _ (by decide), hreq _ (by decide)⟩
  · cases h

/-- C106: options are silently dropped by the default algorithm. -/
theorem C106_options_dropped (metric cutOff k : V) (options : List (Key × V)) : initDistance .guessOptimal metric cutOff k options = initDistance .guessOptimal metric cutOff k [] := rfl

example : Key.k ∉ ([(Key.exactNumeric, true)] : List (Key × Bool)).map Prod.fst := by decide

/-! ## C107 -/

/-- C107, the part that holds: with the default algorithm the cut-off in the settings is used. -/
theorem C107_default_partial (s : Settings) (h : s.backend = .guessOptimal) (metric : Metric) : ∃ o, pcmInit s metric = .ok o ∧ o.param .cutOff = some s.cutOff ∧ o.param .metric = some (.metricName metric) := by
  unfold pcmInit
  rw [h, C106_options_dropped]
  obtain ⟨o, h1, -, h2, h3, -⟩ := C106_select_partial .guessOptimal (by decide) (SVal.metricName metric) s.cutOff SVal.none
  exact ⟨o, h1, h3, h2⟩

/-- C107 is violated: the setting `kmin` has no effect for the default algorithm. -/
theorem C107_violated_kmin (s : Settings) (h : s.backend = .guessOptimal) (metric : Metric) (k : SVal) : pcmInit { s with kmin := k } metric = pcmInit s metric := by
  unfold pcmInit
  simp only [h]
  rfl

/-- C107 is violated: the tree algorithms cannot be selected in the settings of a point cloud, the call always raises a `TypeError` (two values for `kmin`). -/
theorem C107_violated_tree (s : Settings) (h : s.backend = .kdtree ∨ s.backend = .balltree) (metric : Metric) : pcmInit s metric = .error .type := by
  unfold pcmInit
  have : ∀ b : Backend, b = .kdtree ∨ b = .balltree → ∀ a c k : SVal, initDistance b a c k ((Key.kmin, s.kmin) :: s.more) =
      construct b ((Key.metric, a) :: (Key.cutOff, c) :: (Key.kmin, k) :: (Key.kmin, s.kmin) :: s.more) := by
    intro b hb a c k
    rcases hb with rfl | rfl <;> rfl
  rw [this _ h]
  unfold construct
  rw [if_neg]
  simp

/-! ## C51 -/

/-- C51, the part that holds: the setter of the cut-off accepts exactly positive numbers, and the value is used afterwards. -/
theorem C51_setter_partial {P : Type} (heap : List Settings) (o : PCM P) (ho : o.ref < heap.length) (c : ℝ) :
    (0 < c → ∃ heap', pcmSetCutOff heap o c = .ok heap' ∧ pcmCutOff heap' o = some (.num (some c))) ∧ (c ≤ 0 → pcmSetCutOff heap o c = .error .value) := by
  unfold pcmSetCutOff
  refine ⟨fun h => ⟨_, if_neg (not_le.mpr h), ?_⟩, fun h => if_pos h⟩
  unfold pcmCutOff
  rw [List.getElem?_modify_eq, List.getElem?_eq_getElem ho]
  rfl

/-- C51 is violated for every argument `dist_kwargs`: the settings in use are the default ones, in particular there is no cut-off. -/
theorem C51_violated {P : Type} (heap heap' : List Settings) (points : List P) (kw : Option Settings) (o : PCM P) (h : pcmNew heap points kw = .ok (o, heap')) :
    heap'[o.ref]? = some ⟨.num none, .int 0, .guessOptimal, []⟩ ∧ pcmCutOff heap' o = some (.num none) := by
  unfold pcmNew at h
  split at h
  · cases h
  · obtain ⟨rfl, rfl⟩ := Prod.mk.inj (Except.ok.inj h)
    simp [pcmCutOff, defaultSettings]

example : ∃ o heap', pcmNew [] [(1 : ℝ), 2] (some ⟨.num (some 5), .int 3, .brute, []⟩) = .ok (o, heap') ∧ pcmCutOff heap' o = some (.num none) := by
  refine ⟨_, _, rfl, rfl⟩

/-! ## C108 -/

/-- C108, the part that holds: point clouds that are constructed separately do not share settings. -/
theorem C108_new_partial {P : Type} (heap heap' heap'' : List Settings) (points : List P) (kw : Option Settings) (o o' : PCM P) (ho : o.ref < heap.length) (h : pcmNew heap points kw = .ok (o', heap'))
    (c : ℝ) (h2 : pcmSetCutOff heap' o' c = .ok heap'') : pcmCutOff heap'' o = pcmCutOff heap o := by
  unfold pcmNew at h
  split at h
  · cases h
  · obtain ⟨rfl, rfl⟩ := Prod.mk.inj (Except.ok.inj h)
    unfold pcmSetCutOff at h2
    split at h2
    · cases h2
    · obtain rfl := Except.ok.inj h2
      unfold pcmCutOff
      have hne : heap.length ≠ o.ref := by omega
      have e : ∀ (f : Settings → Settings), ((heap ++ [defaultSettings]).modify heap.length f)[o.ref]? = heap[o.ref]? := by
        intro f
        rw [List.getElem?_modify, List.getElem?_append_left ho]
        simp [hne]
      exact congrArg _ (e _)

/-- C108 is violated: setting the cut-off of a slice sets the cut-off of the point cloud it was taken from. -/
theorem C108_violated {P : Type} (heap heap' : List Settings) (o : PCM P) (ho : o.ref < heap.length) (sel : List P) (c : ℝ) (h : pcmSetCutOff heap (pcmView o sel) c = .ok heap') :
    pcmCutOff heap' o = some (.num (some c)) := by
  have e : pcmSetCutOff heap (pcmView o sel) c = pcmSetCutOff heap o c := rfl
  rw [e] at h
  by_cases hc : 0 < c
  · obtain ⟨h1, h2, h3⟩ := (C51_setter_partial heap o ho c).1 hc
    rw [h2] at h
    obtain rfl := Except.ok.inj h
    exact h3
  · rw [(C51_setter_partial heap o ho c).2 (not_lt.mp hc)] at h
    cases h

example : ∃ heap', pcmSetCutOff [defaultSettings] (pcmView ⟨[(1 : ℝ), 2], 0, none⟩ [1]) 3 = .ok heap' ∧ pcmCutOff heap' (⟨[(1 : ℝ), 2], 0, none⟩ : PCM ℝ) = some (.num (some 3)) := by
  obtain ⟨heap', h1, -⟩ := (C51_setter_partial [defaultSettings] (pcmView ⟨[(1 : ℝ), 2], 0, none⟩ [1]) (by simp [pcmView]) 3).1 (by norm_num)
  exact ⟨heap', h1, C108_violated _ _ _ (by simp) _ _ h1⟩

end Verif.Dist
