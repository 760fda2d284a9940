import Verif.Tsc.WindowFold
import Verif.Tsc.WindowProps
import Verif.Tsc.TrainTestProps
import Verif.Tsc.MetricProps
import Verif.Tsc.CheckProps
import Verif.Tsc.InitCondProps
import Mathlib.Data.Finset.Sort
import Mathlib.Data.Finset.Max
import Mathlib.Order.Interval.Finset.Nat
/-!
# C130: test windows counted from the end

Specification.  Row numbers are positions in the index of the collection.  `testWindows` lists the windows: series by series from the last ID to the first,
inside a series from its end to its start.  `Trains X T minT r` says which rows are used for training together with the test window `T`: all rows outside `T`,
and if a minimum number of time steps is set only those in a stretch of that many consecutive rows of the same series outside `T`.
-/

namespace Verif.Tsc

open Verif.Np

variable {V : Type}

/-- ID of row `r`. -/
def idAt (X : List (Row Int V)) (r : Nat) : Nat := ((X[r]?).map (·.id)).getD 0

/-- Row numbers of series `i`, ascending. -/
def rowNumbers (X : List (Row Int V)) (i : Nat) : List Nat := (List.range X.length).filter (fun r => idAt X r == i)

/-- The test windows: `w` consecutive rows of one series, the first window at the end of the series, the next one `w + off` rows before, and so on. -/
def testWindows (X : List (Row Int V)) (w off : Nat) : List (List Nat) :=
  (ids X).reverse.flatMap (fun i => (windowsOf (rowNumbers X i).reverse w (w + off)).map List.reverse)

/-- Row `r` is used for training if `T` is the test window. -/
def Trains (X : List (Row Int V)) (T : List Nat) (minT : Option Nat) (r : Nat) : Prop :=
  r < X.length ∧ r ∉ T ∧ ∀ m, minT = some m →
    ∃ a, a ≤ r ∧ r < a + m ∧ ∀ j, a ≤ j → j < a + m → j < X.length ∧ j ∉ T ∧ idAt X j = idAt X r

/-! ### Lemmas -/

theorem npSort_eq {l s : List Nat} (hp : l.Perm s) (hs : s.Pairwise (· ≤ ·)) : npSort l = s := by
  unfold npSort
  exact List.Perm.eq_of_pairwise (fun a b _ _ h1 h2 => le_antisymm h1 h2) (List.pairwise_insertionSort _ _) hs
    ((List.perm_insertionSort _ _).trans hp)

theorem mem_npSort {l : List Nat} {a : Nat} : a ∈ npSort l ↔ a ∈ l := (List.perm_insertionSort _ _).mem_iff

theorem npSort_lt {l : List Nat} (h : l.Nodup) : (npSort l).Pairwise (· < ·) := by
  have h1 : (npSort l).Pairwise (· ≤ ·) := List.pairwise_insertionSort _ _
  have h2 : (npSort l).Nodup := (List.perm_insertionSort _ _).nodup_iff.2 h
  exact (h1.and h2).imp (fun h => lt_of_le_of_ne h.1 h.2)

theorem idAt_eq (X : List (Row Int V)) {r : Nat} (h : r < X.length) : idAt X r = X[r].id := by
  simp [idAt, h]

theorem foldl_max_le : ∀ (l : List Nat) (a : Nat), a ≤ l.foldl max a ∧ ∀ x ∈ l, x ≤ l.foldl max a
  | [], a => by simp
  | y :: l, a => by
    obtain ⟨h1, h2⟩ := foldl_max_le l (max a y)
    simp only [List.foldl_cons, List.mem_cons]
    refine ⟨le_trans (le_max_left _ _) h1, ?_⟩
    rintro x (rfl | hx)
    · exact le_trans (le_max_right _ _) h1
    · exact h2 x hx

/-- Row of the helper collection that stands for row `r` of `X`. -/
def mirror (X : List (Row Int V)) (r : Nat) : Row Int Nat :=
  ⟨(X.map (·.id)).foldl max 0 - idAt X r, ((X.length - 1 - r : Nat) : Int), r⟩

/-- The helper collection: the rows from the last to the first. -/
def mirrorAll (X : List (Row Int V)) : List (Row Int Nat) := (List.range X.length).reverse.map (mirror X)

theorem idAt_mono {X : List (Row Int V)} (ha : IdsAscending X) {a b : Nat} (hab : a ≤ b) (hb : b < X.length) : idAt X a ≤ idAt X b := by
  rcases Nat.lt_or_eq_of_le hab with h | rfl
  · rw [idAt_eq X hb, idAt_eq X (by omega)]
    have := (List.pairwise_iff_getElem.1 ha) a b (by simp; omega) (by simpa using hb) h
    simpa using this
  · exact le_refl _

theorem idAt_le (X : List (Row Int V)) {r : Nat} (h : r < X.length) : idAt X r ≤ (X.map (·.id)).foldl max 0 := by
  rw [idAt_eq X h]
  exact (foldl_max_le _ 0).2 _ (List.mem_map_of_mem (List.getElem_mem h))

theorem mirrorAll_getElem (X : List (Row Int V)) {j : Nat} (h : j < X.length) :
    (mirrorAll X)[j]? = some (mirror X (X.length - 1 - j)) := by
  simp [mirrorAll, h]

theorem map_idAt (X : List (Row Int V)) : X.map (·.id) = (List.range X.length).map (idAt X) := by
  apply List.ext_getElem
  · simp
  · intro j h1 h2
    simp at h1
    simp [idAt_eq X h1]

theorem mirrorAll_valid {X : List (Row Int V)} (ha : IdsAscending X) : Valid (mirrorAll X) := by
  have hg : ∀ j, (h : j < (mirrorAll X).length) → (mirrorAll X)[j] = mirror X (X.length - 1 - j) := by
    intro j h
    have h' : j < X.length := by simpa [mirrorAll] using h
    have := mirrorAll_getElem X h'
    rw [List.getElem?_eq_getElem h] at this
    simpa using this
  have hl : (mirrorAll X).length = X.length := by simp [mirrorAll]
  constructor
  · intro i j k hij hjk hk he
    simp only [List.getElem_map, hg] at he ⊢
    simp only [List.length_map, hl] at hk
    simp only [mirror] at he ⊢
    have h1 := idAt_mono ha (show X.length - 1 - k ≤ X.length - 1 - j by omega) (by omega)
    have h2 := idAt_mono ha (show X.length - 1 - j ≤ X.length - 1 - i by omega) (by omega)
    have h3 := idAt_le X (show X.length - 1 - i < X.length by omega)
    have h4 := idAt_le X (show X.length - 1 - k < X.length by omega)
    omega
  · intro i j hij hj _
    rw [hg, hg]
    rw [hl] at hj
    simp only [mirror]
    omega

theorem reversedIndices_eq {X : List (Row Int V)} (hX : X ≠ []) (ha : IdsAscending X) : reversedIndices X = .ok (mirrorAll X) := by
  unfold reversedIndices
  have hsort : npSort (X.map (fun r => (X.map (·.id)).foldl max 0 - r.id)) =
      (X.map (fun r => (X.map (·.id)).foldl max 0 - r.id)).reverse := by
    apply npSort_eq (List.reverse_perm _).symm
    rw [List.pairwise_reverse, List.pairwise_map]
    unfold IdsAscending at ha
    rw [List.pairwise_map] at ha
    exact ha.imp (fun h => by omega)
  have hrows : (List.zip (npSort (X.map (fun r => (X.map (·.id)).foldl max 0 - r.id))) (List.range X.length)).map
      (fun p => (⟨p.1, (p.2 : Int), X.length - 1 - p.2⟩ : Row Int Nat)) = mirrorAll X := by
    rw [hsort]
    apply List.ext_getElem
    · simp [mirrorAll]
    · intro j h1 h2
      have h' : j < X.length := by simpa [mirrorAll] using h2
      have := mirrorAll_getElem X h'
      rw [List.getElem?_eq_getElem h2, Option.some.injEq] at this
      rw [this]
      simp only [List.getElem_map, List.getElem_zip, List.getElem_reverse, List.length_map, List.getElem_range, mirror]
      rw [idAt_eq X (by omega)]
      congr 2
      omega
  simp only [hrows]
  have : build (mirrorAll X) = .ok (mirrorAll X) := build_ok_iff.2 ⟨rfl, by
    intro h
    have := congrArg List.length h
    simp [mirrorAll] at this
    exact hX this, mirrorAll_valid ha⟩
  rw [this]

theorem series_mirrorAll (X : List (Row Int V)) {i : Nat} (hi : HasId X i) :
    series (mirrorAll X) ((X.map (·.id)).foldl max 0 - i) = (rowNumbers X i).reverse.map (mirror X) := by
  obtain ⟨x, hx, rfl⟩ := hi
  have hxm : x.id ≤ (X.map (·.id)).foldl max 0 := (foldl_max_le _ 0).2 _ (List.mem_map_of_mem hx)
  unfold series mirrorAll rowNumbers
  rw [List.filter_map, ← List.filter_reverse]
  congr 1
  apply List.filter_congr
  intro r hr
  have hr : r < X.length := by simpa using hr
  have := idAt_le X hr
  simp only [Function.comp, mirror, beq_eq_beq]
  omega

theorem ids_mirrorAll (X : List (Row Int V)) :
    ids (mirrorAll X) = (ids X).reverse.map (fun i => (X.map (·.id)).foldl max 0 - i) := by
  apply eq_of_pairwise_lt (ids_sorted _)
  · rw [List.pairwise_map, List.pairwise_reverse]
    have hle : ∀ i ∈ ids X, i ≤ (X.map (·.id)).foldl max 0 := by
      intro i hi
      exact (foldl_max_le _ 0).2 _ (mem_ids'.1 hi)
    refine ((ids_sorted X).imp_of_mem (S := fun b a => (X.map (·.id)).foldl max 0 - a < (X.map (·.id)).foldl max 0 - b) ?_)
    intro a b h1 h2 h
    have := hle a h1
    have := hle b h2
    omega
  · intro i
    rw [mem_ids']
    simp only [mirrorAll, List.mem_map, List.mem_reverse, List.mem_range, List.map_map, Function.comp, mirror, mem_ids']
    constructor
    · rintro ⟨r, hr, rfl⟩
      exact ⟨X[r].id, ⟨X[r], List.getElem_mem hr, rfl⟩, by rw [idAt_eq X hr]⟩
    · rintro ⟨j, ⟨x, hx, rfl⟩, rfl⟩
      obtain ⟨r, hr, rfl⟩ := List.mem_iff_getElem.1 hx
      exact ⟨r, hr, by rw [idAt_eq X hr]⟩

/-- A set of naturals without gaps has at least `m` elements iff every (some) element lies in a stretch of `m` consecutive elements. -/
theorem convex_card (S : Finset Nat) (hc : ∀ a ∈ S, ∀ b ∈ S, ∀ j, a ≤ j → j ≤ b → j ∈ S) {r : Nat} (hr : r ∈ S) {m : Nat} (hm : 0 < m) :
    m ≤ S.card ↔ ∃ a, a ≤ r ∧ r < a + m ∧ ∀ j, a ≤ j → j < a + m → j ∈ S := by
  constructor
  · intro h
    have hne : S.Nonempty := ⟨r, hr⟩
    have hlo := S.min'_mem hne
    have hhi := S.max'_mem hne
    have hS : S = Finset.Icc (S.min' hne) (S.max' hne) := by
      ext j
      rw [Finset.mem_Icc]
      exact ⟨fun hj => ⟨S.min'_le j hj, S.le_max' j hj⟩, fun hj => hc _ hlo _ hhi j hj.1 hj.2⟩
    have hcard : S.card = S.max' hne + 1 - S.min' hne := by
      conv_lhs => rw [hS]
      exact Nat.card_Icc _ _
    have h1 := S.min'_le r hr
    have h2 := S.le_max' r hr
    refine ⟨min r (S.max' hne + 1 - m), by omega, by omega, ?_⟩
    intro j hj1 hj2
    exact hc _ hlo _ hhi j (by omega) (by omega)
  · rintro ⟨a, _, _, h⟩
    have : Finset.Ico a (a + m) ⊆ S := fun j hj => by
      rw [Finset.mem_Ico] at hj
      exact h j hj.1 hj.2
    have := Finset.card_le_card this
    simpa using this

theorem dropShort_ok {m : Nat} {A B : List (Row Int Nat)} (hA : A ≠ []) (h : dropShortTrain (some m) A = .ok B) :
    B = A.filter (fun r => decide (m ≤ (series A r.id).length)) := by
  unfold dropShortTrain at h
  simp only at h
  cases hn : nTimesteps A with
  | one n =>
    have hall := (nTimesteps_one hA n).1 hn
    have hlen : ∀ r ∈ A, (series A r.id).length = n := fun r hr => hall _ (mem_ids.2 ⟨r, hr, rfl⟩)
    rw [hn] at h
    simp only at h
    split at h
    · rename_i hlt
      cases h
      symm
      rw [List.filter_eq_nil_iff]
      intro r hr
      rw [hlen r hr]
      simpa using hlt
    · rename_i hlt
      cases h
      symm
      rw [List.filter_eq_self]
      intro r hr
      rw [hlen r hr]
      simpa using hlt
  | per l =>
    have hl := nTimesteps_per hn
    rw [hn] at h
    simp only at h
    have hmem : ∀ r ∈ A, (r.id ∈ (l.filter (fun p => decide (p.2 < m))).map (·.1) ↔ (series A r.id).length < m) := by
      intro r hr
      rw [hl]
      simp only [List.mem_map, List.mem_filter, decide_eq_true_eq]
      constructor
      · rintro ⟨p, ⟨⟨i, _, rfl⟩, hlt⟩, he⟩
        simp only at he hlt
        rwa [he] at hlt
      · intro hlt
        exact ⟨(r.id, (series A r.id).length), ⟨⟨r.id, mem_ids.2 ⟨r, hr, rfl⟩, rfl⟩, hlt⟩, rfl⟩
    split at h
    · rename_i he
      cases h
      symm
      rw [List.filter_eq_self]
      intro r hr
      have := (hmem r hr).not
      rw [List.isEmpty_iff.1 he] at this
      simpa using this
    · split at h
      · cases h
      · rename_i hb
        cases h
        obtain ⟨hb, _, _⟩ := build_ok_iff.1 hb
        rw [← hb]
        apply List.filter_congr
        intro r hr
        have := hmem r hr
        rw [Bool.eq_iff_iff]
        simp only [Bool.not_eq_true', List.contains_eq_mem, decide_eq_false_iff_not, decide_eq_true_eq, this, not_lt]

theorem mirror_key_inj {X : List (Row Int V)} {a b : Nat} (ha : a < X.length) (hb : b < X.length) (h : (mirror X a).key = (mirror X b).key) : a = b := by
  simp only [mirror, Row.key, Key.mk.injEq] at h
  omega

/-- One fold. -/
theorem step_ok {X : List (Row Int V)} (ha : IdsAscending X) {T : List Nat} (hT : T.Pairwise (· > ·)) (hTl : ∀ r ∈ T, r < X.length) {minT : Option Nat}
    (hm : minT ≠ some 0) {o : Option (List Nat × List Nat)} (h : windowFoldStep minT (mirrorAll X) (T.map (mirror X)) = .ok o) :
    (o = none ∧ ∀ r, ¬ Trains X T minT r) ∨
      ∃ tr, o = some (tr, T.reverse) ∧ tr ≠ [] ∧ tr.Pairwise (· < ·) ∧ ∀ r, r ∈ tr ↔ Trains X T minT r := by
  have hv := mirrorAll_valid ha
  -- the training rows
  have hD : (mirrorAll X).filter (fun r => !((T.map (mirror X)).map (·.key)).contains r.key) =
      (((List.range X.length).reverse).filter (fun r => decide (r ∉ T))).map (mirror X) := by
    unfold mirrorAll
    rw [List.filter_map]
    congr 1
    apply List.filter_congr
    intro r hr
    have hr : r < X.length := by simpa using hr
    rw [Bool.eq_iff_iff]
    simp only [Function.comp, Bool.not_eq_true', List.contains_eq_mem, decide_eq_false_iff_not, decide_eq_true_eq, List.map_map, List.mem_map, not_exists, not_and]
    constructor
    · intro h hrT
      exact h r hrT rfl
    · intro h r' hr' he
      have := mirror_key_inj (hTl r' hr') hr he
      exact h (this ▸ hr')
  generalize hDe : ((List.range X.length).reverse).filter (fun r => decide (r ∉ T)) = D at hD
  have hDs : D.Pairwise (· > ·) := by
    rw [← hDe]
    apply List.Pairwise.filter
    rw [List.pairwise_reverse]
    exact List.pairwise_lt_range
  have hDm : ∀ r, r ∈ D ↔ r < X.length ∧ r ∉ T := by
    intro r
    rw [← hDe]
    simp
  have htimes : ∀ L : List Nat, L.Pairwise (· > ·) → (∀ r ∈ L, r < X.length) →
      (timeValues (L.map (mirror X))).map Int.toNat = L.map (fun r => X.length - 1 - r) := by
    intro L hL hl
    have : timeValues (L.map (mirror X)) = L.map (fun r => ((X.length - 1 - r : Nat) : Int)) := by
      unfold timeValues
      rw [List.map_map]
      apply unique_of_pairwise
      rw [List.pairwise_map]
      refine hL.imp_of_mem ?_
      intro a b h1 h2 h
      have := hl a h1
      have := hl b h2
      simp only [Function.comp, mirror]
      omega
    rw [this, List.map_map]
    apply List.map_congr_left
    intro r _
    simp
  unfold windowFoldStep at h
  rw [hD] at h
  split at h
  · cases h
  rename_i train hb
  obtain ⟨hbt, hDne, _⟩ := build_ok_iff.1 hb
  rw [← hbt, htimes D hDs (fun r hr => ((hDm r).1 hr).1), htimes T hT hTl] at h
  split at h
  · cases h
  rename_i A B hAB
  obtain ⟨_, _, ν, hA, _, hB, _, hν, _⟩ := C16_train_test hv hAB
  have hfm : ∀ L : List Nat, (∀ r ∈ L, r < X.length) →
      (L.map (fun r => X.length - 1 - r)).filterMap (fun i => ((mirrorAll X)[i]?).map (fun r => { r with id := ν i })) =
      L.map (fun r => ({ mirror X r with id := ν (X.length - 1 - r) } : Row Int Nat)) := by
    intro L hl
    rw [List.filterMap_map]
    rw [← List.filterMap_eq_map]
    apply List.filterMap_congr
    intro r hr
    have := hl r hr
    simp only [Function.comp]
    rw [mirrorAll_getElem X (by omega)]
    simp only [Option.map_some, Option.some.injEq]
    rw [show X.length - 1 - (X.length - 1 - r) = r by omega]
  rw [hfm D (fun r hr => ((hDm r).1 hr).1)] at hA
  rw [hfm T hTl] at hB
  have hDnil : D ≠ [] := by simpa using hDne
  have hAne : A ≠ [] := by rw [hA]; simpa using hDnil
  have hBv : B.map (·.val) = T := by rw [hB, List.map_map]; simp [Function.comp_def, mirror]
  have hBs : npSort (B.map (·.val)) = T.reverse := by
    rw [hBv]
    apply npSort_eq (List.reverse_perm _).symm
    rw [List.pairwise_reverse]
    exact hT.imp (fun h => le_of_lt h)
  have hDnd : D.Nodup := hDs.imp (fun h => (ne_of_lt h).symm)
  -- same new series
  have hsame : ∀ r ∈ D, ∀ s ∈ D, (ν (X.length - 1 - r) = ν (X.length - 1 - s) ↔
      ∀ j, min r s ≤ j → j ≤ max r s → j ∈ D ∧ idAt X j = idAt X r) := by
    have hmemI : ∀ r, r < X.length → ((X.length - 1 - r) ∈ D.map (fun r => X.length - 1 - r) ↔ r ∈ D) := by
      intro r hr
      simp only [List.mem_map]
      constructor
      · rintro ⟨s, hs, he⟩
        have := ((hDm s).1 hs).1
        have : s = r := by omega
        rwa [← this]
      · intro h; exact ⟨r, h, rfl⟩
    have hlen : (mirrorAll X).length = X.length := by simp [mirrorAll]
    have half : ∀ r ∈ D, ∀ s ∈ D, s ≤ r → (ν (X.length - 1 - r) = ν (X.length - 1 - s) ↔
        ∀ j, s ≤ j → j ≤ r → j ∈ D ∧ idAt X j = idAt X r) := by
      intro r hr s hs hsr
      have hrl := ((hDm r).1 hr).1
      have hsl := ((hDm s).1 hs).1
      rw [hν _ (Or.inl rfl) (X.length - 1 - r) ((hmemI r hrl).2 hr) (X.length - 1 - s) ((hmemI s hsl).2 hs) (by omega) (by omega)]
      have hg : ∀ j (hj : j < (mirrorAll X).length), (mirrorAll X)[j] = mirror X (X.length - 1 - j) := by
        intro j hj
        have := mirrorAll_getElem X (j := j) (by omega)
        rw [List.getElem?_eq_getElem hj] at this
        simpa using this
      have hidx : ∀ j, j < X.length → ((mirror X j).id = (mirror X r).id ↔ idAt X j = idAt X r) := by
        intro j hj
        have := idAt_le X hj
        have := idAt_le X hrl
        simp only [mirror]
        omega
      constructor
      · intro hall j h1 h2
        have := hall (X.length - 1 - j) (by omega) (by omega)
        rw [hg, hg, hmemI j (by omega), show X.length - 1 - (X.length - 1 - j) = j by omega,
          show X.length - 1 - (X.length - 1 - r) = r by omega, hidx j (by omega)] at this
        exact this
      · intro hall j h1 h2
        have := hall (X.length - 1 - j) (by omega) (by omega)
        rw [hg, hg, show X.length - 1 - (X.length - 1 - r) = r by omega, hidx _ (by omega)]
        refine ⟨?_, this.2⟩
        have h3 := (hmemI (X.length - 1 - j) (by omega)).2 this.1
        rwa [show X.length - 1 - (X.length - 1 - j) = j by omega] at h3
    intro r hr s hs
    rcases le_total s r with h | h
    · rw [min_eq_right h, max_eq_left h]; exact half r hr s hs h
    · rw [min_eq_left h, max_eq_right h, eq_comm, half s hs r hr h]
      constructor
      · intro hall j h1 h2
        exact ⟨(hall j h1 h2).1, by rw [(hall j h1 h2).2, (hall r (le_refl _) h).2]⟩
      · intro hall j h1 h2
        exact ⟨(hall j h1 h2).1, by rw [(hall j h1 h2).2, (hall s h (le_refl _)).2]⟩
  -- which rows stay
  have hstay : ∀ A', dropShortTrain minT A = .ok A' → ∃ E : List Nat, E.Nodup ∧ A'.map (·.val) = E ∧ ∀ r, r ∈ E ↔ Trains X T minT r := by
    intro A' hA'
    cases hmin : minT with
    | none =>
      rw [hmin] at hA'
      simp only [dropShortTrain] at hA'
      cases hA'
      refine ⟨D, hDnd, by rw [hA, List.map_map]; simp [Function.comp_def, mirror], ?_⟩
      intro r
      rw [hDm]
      simp [Trains]
    | some m =>
      rw [hmin] at hA'
      have hm0 : 0 < m := by
        rcases Nat.eq_zero_or_pos m with h | h
        · exact absurd (by rw [hmin, h]) hm
        · exact h
      have hfil := dropShort_ok hAne hA'
      have hlen : ∀ r ∈ D, (series A (ν (X.length - 1 - r))).length = (D.filter (fun s => decide (ν (X.length - 1 - s) = ν (X.length - 1 - r)))).length := by
        intro r hr
        rw [hA]
        unfold series
        rw [List.filter_map, List.length_map]
        congr 1
      have hval : A'.map (·.val) = D.filter (fun r => decide (m ≤ (series A (ν (X.length - 1 - r))).length)) := by
        rw [hfil]
        conv_lhs => rw [hA]
        rw [List.filter_map, List.map_map]
        rw [← hA]
        simp only [Function.comp_def, mirror]
        simp
      refine ⟨_, hDnd.filter _, hval, ?_⟩
      intro r
      rw [List.mem_filter, decide_eq_true_eq]
      unfold Trains
      rw [← and_assoc, ← hDm]
      apply and_congr_right
      intro hr
      rw [hlen r hr]
      have hcard : (D.filter (fun s => decide (ν (X.length - 1 - s) = ν (X.length - 1 - r)))).length =
          (D.filter (fun s => decide (ν (X.length - 1 - s) = ν (X.length - 1 - r)))).toFinset.card := by
        rw [List.toFinset_card_of_nodup (hDnd.filter _)]
      rw [hcard, convex_card _ _ (r := r) (by simp [hr]) hm0]
      · simp only [Option.some.injEq, forall_eq']
        constructor
        · rintro ⟨a, h1, h2, h3⟩
          refine ⟨a, h1, h2, fun j hj1 hj2 => ?_⟩
          have := h3 j hj1 hj2
          simp only [List.mem_toFinset, List.mem_filter, decide_eq_true_eq] at this
          have h4 := (hDm j).1 this.1
          have h5 := ((hsame j this.1 r hr).1 this.2) r (min_le_right _ _) (le_max_right _ _)
          exact ⟨h4.1, h4.2, h5.2.symm⟩
        · rintro ⟨a, h1, h2, h3⟩
          refine ⟨a, h1, h2, fun j hj1 hj2 => ?_⟩
          simp only [List.mem_toFinset, List.mem_filter, decide_eq_true_eq]
          have hj := h3 j hj1 hj2
          have hjD : j ∈ D := (hDm j).2 ⟨hj.1, hj.2.1⟩
          refine ⟨hjD, (hsame j hjD r hr).2 ?_⟩
          intro k hk1 hk2
          have hk := h3 k (by omega) (by omega)
          exact ⟨(hDm k).2 ⟨hk.1, hk.2.1⟩, by rw [hk.2.2, hj.2.2]⟩
      · intro a ha b hb j hj1 hj2
        simp only [List.mem_toFinset, List.mem_filter, decide_eq_true_eq] at ha hb ⊢
        have hab : ν (X.length - 1 - a) = ν (X.length - 1 - b) := by rw [ha.2, hb.2]
        have hall := (hsame a ha.1 b hb.1).1 hab
        have hj := hall j (by omega) (by omega)
        refine ⟨hj.1, ?_⟩
        rw [← ha.2]
        refine (hsame j hj.1 a ha.1).2 ?_
        intro k hk1 hk2
        have hk := hall k (by omega) (by omega)
        exact ⟨hk.1, by rw [hk.2, hj.2]⟩
  split at h
  · cases h
  rename_i A' hA'
  obtain ⟨E, hE1, hE2, hE3⟩ := hstay A' hA'
  split at h
  · rename_i he
    cases h
    refine Or.inl ⟨rfl, fun r hr => ?_⟩
    have := (hE3 r).2 hr
    rw [← hE2, List.isEmpty_iff.1 he] at this
    simp at this
  · rename_i he
    cases h
    refine Or.inr ⟨npSort (A'.map (·.val)), by rw [hBs], ?_, ?_, ?_⟩
    · intro hc
      apply he
      rw [List.isEmpty_iff]
      have hl := congrArg List.length hc
      unfold npSort at hl
      rw [List.length_insertionSort] at hl
      simpa using hl
    · exact npSort_lt (by rw [hE2]; exact hE1)
    · intro r
      rw [mem_npSort, hE2, hE3]

theorem testsOf_mirror {X : List (Row Int V)} (w off : Nat) :
    (ids (mirrorAll X)).flatMap (fun i => windowsOf (series (mirrorAll X) i) w (w + off)) =
      ((ids X).reverse.flatMap (fun i => windowsOf (rowNumbers X i).reverse w (w + off))).map (List.map (mirror X)) := by
  rw [ids_mirrorAll, List.flatMap_map, List.map_flatMap]
  apply List.flatMap_congr
  intro i hi
  rw [series_mirrorAll X (mem_ids.1 (List.mem_reverse.1 hi)), windowsOf_map]

theorem rowNumbers_desc (X : List (Row Int V)) (i : Nat) : (rowNumbers X i).reverse.Pairwise (· > ·) := by
  rw [List.pairwise_reverse]
  exact List.pairwise_lt_range.filter _

theorem window_sublist {α : Type} {s T : List α} {w o : Nat} (h : T ∈ windowsOf s w o) : T.Sublist s := by
  obtain ⟨k, _, rfl⟩ := List.mem_map.1 h
  exact (List.take_sublist _ _).trans (List.drop_sublist _ _)

theorem trains_reverse (X : List (Row Int V)) (T : List Nat) (minT : Option Nat) (r : Nat) : Trains X T.reverse minT r ↔ Trains X T minT r := by
  simp [Trains]

/-- Collecting the results of the folds. -/
theorem collect_folds {α β : Type} {P : α → Prop} [DecidablePred P] {R : α → β → Prop} (f : α → Except WindowErr (Option β)) :
    ∀ (l : List α) (os : List (Option β)), l.mapM f = .ok os →
      (∀ a ∈ l, ∀ o, f a = .ok o → (o = none ∧ ¬ P a) ∨ ∃ b, o = some b ∧ P a ∧ R a b) →
      List.Forall₂ R (l.filter (fun a => decide (P a))) (os.filterMap id)
  | [], os, h, _ => by
    rw [List.mapM_nil] at h
    cases h
    exact List.Forall₂.nil
  | a :: l, os, h, hall => by
    rw [List.mapM_cons] at h
    cases hfa : f a with
    | error e => rw [hfa] at h; cases h
    | ok o =>
      rw [hfa] at h
      cases hl : l.mapM f with
      | error e => rw [hl] at h; cases h
      | ok os' =>
        rw [hl] at h
        cases h
        have ih := collect_folds f l os' hl (fun b hb => hall b (List.mem_cons_of_mem _ hb))
        rcases hall a (by simp) o hfa with ⟨rfl, hP⟩ | ⟨b, rfl, hP, hR⟩
        · simpa [hP] using ih
        · simpa [hP, hR] using ih

/-! ### The property -/

open Classical in
/-- **C130 (partial: IDs ascending along the index, splits that raise no exception).** The folds are exactly the test windows counted from the end of each series, from
the last series to the first, without those that leave no row for training; the test rows are ascending, and the training rows are ascending and exactly
those of `Trains`. -/
theorem C130_folds_partial {k : TimeKind} {X : List (Row Int V)} (ha : IdsAscending X) {w off : Int} {minT : Option Nat} {folds : List (List Nat × List Nat)}
    (h : windowFold k X w off minT = .ok folds) :
    folds.map Prod.snd = (testWindows X w.toNat off.toNat).filter (fun T => decide (∃ r, Trains X T minT r)) ∧
    ∀ f ∈ folds, f.2.Pairwise (· < ·) ∧ f.1.Pairwise (· < ·) ∧ ∀ r, r ∈ f.1 ↔ Trains X f.2 minT r := by
  unfold windowFold at h
  split at h
  · cases h
  rename_i hpar
  push Not at hpar
  split at h
  · cases h
  have hX : X ≠ [] := by
    rintro rfl
    simp [reversedIndices, npSort, build, construct, anyDuplicated, unique] at h
  rw [reversedIndices_eq hX ha] at h
  simp only at h
  split at h
  · cases h
  split at h
  · cases h
  split at h
  · cases h
  rename_i tests htests
  obtain ⟨_, _, _, rfl⟩ := (C13_per_series (mirrorAll_valid ha) .int w (w + off) tests).1 htests
  rw [show (w + off).toNat = w.toNat + off.toNat by omega, testsOf_mirror] at h
  split at h
  · cases h
  rename_i os hos
  cases h
  rw [List.mapM_map] at hos
  generalize hTs : (ids X).reverse.flatMap (fun i => windowsOf (rowNumbers X i).reverse w.toNat (w.toNat + off.toNat)) = Ts at hos
  have htw : testWindows X w.toNat off.toNat = Ts.map List.reverse := by
    rw [← hTs, testWindows, List.map_flatMap]
  have hT : ∀ T ∈ Ts, T.Pairwise (· > ·) ∧ ∀ r ∈ T, r < X.length := by
    intro T hT
    rw [← hTs, List.mem_flatMap] at hT
    obtain ⟨i, _, hT⟩ := hT
    have hs := window_sublist hT
    refine ⟨(rowNumbers_desc X i).sublist hs, fun r hr => ?_⟩
    have := hs.subset hr
    simp [rowNumbers] at this
    exact this.1
  have hf := collect_folds (P := fun T => ∃ r, Trains X T minT r)
    (R := fun T (f : List Nat × List Nat) => f.2 = T.reverse ∧ f.1.Pairwise (· < ·) ∧ f.2.Pairwise (· < ·) ∧ ∀ r, r ∈ f.1 ↔ Trains X T minT r)
    (fun T => windowFoldStep minT (mirrorAll X) (T.map (mirror X))) Ts os hos (by
      intro T hTm o ho
      obtain ⟨h1, h2⟩ := hT T hTm
      rcases step_ok ha h1 h2 hpar.2.2 ho with ⟨rfl, hn⟩ | ⟨tr, rfl, hne, hs, hmem⟩
      · exact Or.inl ⟨rfl, fun ⟨r, hr⟩ => hn r hr⟩
      · refine Or.inr ⟨_, rfl, ?_, rfl, hs, ?_, hmem⟩
        · obtain ⟨r, l, rfl⟩ := List.ne_nil_iff_exists_cons.1 hne
          exact ⟨r, (hmem r).1 (by simp)⟩
        · simp only [List.pairwise_reverse]; exact h1)
  constructor
  · rw [htw, List.filter_map]
    have : (fun T => decide (∃ r, Trains X T minT r)) ∘ List.reverse = fun T => decide (∃ r, Trains X T minT r) := by
      funext T
      simp only [Function.comp, trains_reverse]
    rw [this]
    generalize Ts.filter (fun T => decide (∃ r, Trains X T minT r)) = F at hf
    generalize os.filterMap id = G at hf
    induction hf with
    | nil => rfl
    | cons hab _ ih => simp [hab.1, ih]
  · intro f hfm
    generalize Ts.filter (fun T => decide (∃ r, Trains X T minT r)) = F at hf
    generalize os.filterMap id = G at hf hfm
    induction hf with
    | nil => simp at hfm
    | cons hab _ ih =>
      rcases List.mem_cons.1 hfm with rfl | hfm
      · refine ⟨hab.2.2.1, hab.2.1, fun r => ?_⟩
        rw [hab.1, trains_reverse]
        exact hab.2.2.2 r
      · exact ih hfm

/-- The rows of a series are consecutive. -/
theorem rowNumbers_range {X : List (Row Int V)} (hv : Valid X) {i : Nat} (hi : HasId X i) :
    ∃ s n, 0 < n ∧ rowNumbers X i = List.range' s n := by
  have hmem : ∀ r, r ∈ rowNumbers X i ↔ r < X.length ∧ idAt X r = i := by
    intro r; simp [rowNumbers]
  obtain ⟨x, hx, hxi⟩ := hi
  obtain ⟨r0, hr0, rfl⟩ := List.mem_iff_getElem.1 hx
  have hne : (rowNumbers X i).toFinset.Nonempty := ⟨r0, by rw [List.mem_toFinset, hmem]; exact ⟨hr0, by rw [idAt_eq X hr0, hxi]⟩⟩
  have hlo := Finset.min'_mem _ hne
  have hhi := Finset.max'_mem _ hne
  generalize hlod : Finset.min' _ hne = lo at hlo
  generalize hhid : Finset.max' _ hne = hi' at hhi
  rw [List.mem_toFinset, hmem] at hlo hhi
  have hle : lo ≤ hi' := by rw [← hlod, ← hhid]; exact Finset.min'_le_max' _ hne
  refine ⟨lo, hi' + 1 - lo, by omega, ?_⟩
  apply eq_of_pairwise_lt
  · exact List.pairwise_lt_range.filter _
  · exact List.pairwise_lt_range'
  · intro r
    rw [hmem, List.mem_range'_1]
    constructor
    · intro hr
      have hr' : r ∈ (rowNumbers X i).toFinset := by rw [List.mem_toFinset, hmem]; exact hr
      have h1 := Finset.min'_le _ r hr'
      have h2 := Finset.le_max' _ r hr'
      rw [hlod] at h1
      rw [hhid] at h2
      omega
    · rintro ⟨h1, h2⟩
      have hrl : r < X.length := by omega
      refine ⟨hrl, ?_⟩
      rcases Nat.lt_or_eq_of_le h1 with h1 | rfl
      · rcases Nat.lt_or_eq_of_le (show r ≤ hi' by omega) with h3 | rfl
        · have := hv.contiguous lo r hi' h1 h3 (by simpa using hhi.1)
          simp only [List.getElem_map] at this
          rw [idAt_eq X hlo.1] at hlo
          rw [idAt_eq X hhi.1] at hhi
          rw [idAt_eq X hrl, this (by rw [hlo.2, hhi.2]), hlo.2]
        · exact hhi.2
      · exact hlo.2

theorem window_range (s n w k o : Nat) (h : k * o + w ≤ n) :
    ((((List.range' s n).reverse).drop (k * o)).take w).reverse = List.range' (s + n - k * o - w) w := by
  apply List.ext_getElem
  · simp; omega
  · intro j h1 h2
    simp at h1 h2
    simp
    omega

/-- **C130 (the windows).** If the rows of a series are the rows `s, ..., s + n - 1`, its windows are the `w` consecutive rows that end `k * (w + off)` rows before
the end, for every `k` for which they fit into the series; and there are no other windows. -/
theorem C130_windows {X : List (Row Int V)} (hv : Valid X) {w off : Nat} (hw : 0 < w) (T : List Nat) :
    T ∈ testWindows X w off ↔ ∃ i s n, HasId X i ∧ (∀ r, (∃ h : r < X.length, X[r].id = i) ↔ s ≤ r ∧ r < s + n) ∧
      ∃ k, k * (w + off) + w ≤ n ∧ T = List.range' (s + n - k * (w + off) - w) w := by
  have hrange : ∀ i s n, rowNumbers X i = List.range' s n → ∀ r, (∃ h : r < X.length, X[r].id = i) ↔ s ≤ r ∧ r < s + n := by
    intro i s n he r
    rw [← List.mem_range'_1, ← he]
    simp only [rowNumbers, List.mem_filter, List.mem_range, beq_iff_eq]
    constructor
    · rintro ⟨h, h'⟩; exact ⟨h, by rw [idAt_eq X h, h']⟩
    · rintro ⟨h, h'⟩; exact ⟨h, by rw [← h', idAt_eq X h]⟩
  unfold testWindows
  rw [List.mem_flatMap]
  constructor
  · rintro ⟨i, hi, hT⟩
    have hid := mem_ids.1 (List.mem_reverse.1 hi)
    obtain ⟨s, n, _, he⟩ := rowNumbers_range hv hid
    rw [he] at hT
    obtain ⟨T', hT', rfl⟩ := List.mem_map.1 hT
    obtain ⟨k, hk, rfl⟩ := List.mem_map.1 hT'
    simp only [List.mem_filter, decide_eq_true_eq, List.length_reverse, List.length_range'] at hk
    exact ⟨i, s, n, hid, hrange i s n he, k, hk.2, window_range s n w k (w + off) hk.2⟩
  · rintro ⟨i, s, n, hid, hr, k, hk, rfl⟩
    obtain ⟨s', n', hn', he⟩ := rowNumbers_range hv hid
    have hr' := hrange i s' n' he
    have h1 := (hr' s').2 ⟨le_refl _, by omega⟩
    have h2 := (hr' (s' + n' - 1)).2 ⟨by omega, by omega⟩
    rw [hr] at h1 h2
    have h3 := (hr s).2 ⟨le_refl _, by omega⟩
    have h4 := (hr (s + n - 1)).2 ⟨by omega, by omega⟩
    rw [hr'] at h3 h4
    have hs : s = s' := by omega
    have hn : n = n' := by omega
    subst hs hn
    refine ⟨i, List.mem_reverse.2 (mem_ids.2 hid), ?_⟩
    rw [he]
    refine List.mem_map.2 ⟨_, List.mem_map.2 ⟨k, ?_, rfl⟩, window_range s n w k (w + off) hk⟩
    simp only [List.mem_filter, decide_eq_true_eq, List.length_reverse, List.length_range', List.mem_range]
    refine ⟨?_, hk⟩
    have : k ≤ k * (w + off) := Nat.le_mul_of_pos_right _ (by omega)
    omega

theorem mirrorAll_constDelta {X : List (Row Int V)} (hX : X ≠ []) (hv : Valid X) (ha : IdsAscending X) (h2 : ∀ i, HasId X i → 2 ≤ (series X i).length) :
    isConstDeltaTime .int (mirrorAll X) = true := by
  have hstep : ∀ i, HasId (mirrorAll X) i → ∃ t n : Nat, 2 ≤ n ∧ timesOf (mirrorAll X) i = (List.range' t n).map (fun j : Nat => (j : Int)) := by
    intro i hi
    have hi' := mem_ids.2 hi
    rw [ids_mirrorAll] at hi'
    obtain ⟨i0, hi0, rfl⟩ := List.mem_map.1 hi'
    have hid := mem_ids.1 (List.mem_reverse.1 hi0)
    obtain ⟨s, n, hn, he⟩ := rowNumbers_range hv hid
    have hlen : n = (series X i0).length := by
      rw [← count_eq_length_series, map_idAt, List.count_eq_countP, List.countP_map]
      have := congrArg List.length he
      rw [rowNumbers, ← List.countP_eq_length_filter] at this
      simp only [List.length_range'] at this
      rw [← this]
      apply List.countP_congr
      intro r _
      simp
    have hlast : s + n ≤ X.length := by
      have : s + n - 1 ∈ rowNumbers X i0 := by rw [he, List.mem_range'_1]; omega
      simp [rowNumbers] at this
      omega
    refine ⟨X.length - s - n, n, by rw [hlen]; exact h2 _ hid, ?_⟩
    unfold timesOf
    rw [series_mirrorAll X hid, he]
    apply List.ext_getElem
    · simp
    · intro j h1 h2
      simp at h1
      simp [mirror]
      omega
  have hcons : ∀ (t n : Nat), ∀ p ∈ consecutive ((List.range' t n).map (fun j : Nat => (j : Int))), p.2 - p.1 = 1 := by
    intro t n
    induction n generalizing t with
    | zero => simp [consecutive]
    | succ n ih =>
      cases n with
      | zero => simp [consecutive]
      | succ n =>
        intro p hp
        rw [List.range'_succ, List.range'_succ] at hp
        simp only [List.map_cons, consecutive, List.mem_cons] at hp
        rcases hp with rfl | hp
        · simp
        · apply ih (t + 1) p
          rw [List.range'_succ]
          simpa [consecutive] using hp
  have hne : mirrorAll X ≠ [] := by
    intro h
    have := congrArg List.length h
    simp [mirrorAll] at this
    exact hX this
  rw [isConstDelta_iff hne (mirrorAll_valid ha)]
  · refine ⟨1, fun i hi => ?_⟩
    obtain ⟨t, n, hn, he⟩ := hstep i hi
    rw [he]
    exact ⟨by simpa using hn, hcons t n⟩
  · intro i p hp
    by_cases hi : HasId (mirrorAll X) i
    · obtain ⟨t, n, _, he⟩ := hstep i hi
      rw [he] at hp
      rw [hcons t n p hp]
      norm_num
    · have : timesOf (mirrorAll X) i = [] := by
        unfold timesOf
        rw [hasId_iff_series, not_not] at hi
        rw [hi]; rfl
      rw [this] at hp
      simp [consecutive] at hp

/-- A fold without minimum succeeds iff the window is not the whole collection. -/
theorem step_accepts {X : List (Row Int V)} (ha : IdsAscending X) {T : List Nat} (hT : T.Pairwise (· > ·)) (hTl : ∀ r ∈ T, r < X.length) (hT0 : T ≠ []) :
    (∃ o, windowFoldStep none (mirrorAll X) (T.map (mirror X)) = .ok o) ↔ ∃ r, r < X.length ∧ r ∉ T := by
  have hv := mirrorAll_valid ha
  constructor
  · rintro ⟨o, h⟩
    rcases step_ok ha hT hTl (by simp) h with ⟨_, hn⟩ | ⟨tr, _, hne, _, hmem⟩
    · by_contra hc
      push Not at hc
      -- then the training part is empty, which the constructor rejects
      unfold windowFoldStep at h
      split at h
      · cases h
      · rename_i train hb
        obtain ⟨_, hne, _⟩ := build_ok_iff.1 hb
        apply hne
        rw [List.filter_eq_nil_iff]
        intro x hx
        obtain ⟨r, hr, rfl⟩ := List.mem_map.1 hx
        have hr : r < X.length := by simpa using hr
        simp only [Bool.not_eq_true', Bool.not_eq_false, List.contains_eq_mem, decide_eq_true_eq]
        exact List.mem_map_of_mem (List.mem_map_of_mem (hc r hr))
    · obtain ⟨r, l, rfl⟩ := List.ne_nil_iff_exists_cons.1 hne
      have := (hmem r).1 (by simp)
      exact ⟨r, this.1, this.2.1⟩
  · rintro ⟨r, hr, hrT⟩
    have hsub : ((mirrorAll X).filter (fun r => !((T.map (mirror X)).map (·.key)).contains r.key)).Sublist (mirrorAll X) := List.filter_sublist
    have hkeep : mirror X r ∈ (mirrorAll X).filter (fun r => !((T.map (mirror X)).map (·.key)).contains r.key) := by
      rw [List.mem_filter]
      refine ⟨List.mem_map.2 ⟨r, by simpa using hr, rfl⟩, ?_⟩
      simp only [Bool.not_eq_true', List.contains_eq_mem, decide_eq_false_iff_not]
      intro hm
      rw [List.map_map] at hm
      obtain ⟨r', hr', he⟩ := List.mem_map.1 hm
      have := mirror_key_inj (hTl r' hr') hr he
      exact hrT (this ▸ hr')
    generalize hF : (mirrorAll X).filter (fun r => !((T.map (mirror X)).map (·.key)).contains r.key) = F at hsub hkeep
    have hb : build F = .ok F := build_ok_iff.2 ⟨rfl, List.ne_nil_of_mem hkeep, hv.sublist hsub⟩
    have hidx : ∀ L : List (Row Int Nat), L.Sublist (mirrorAll X) → ((timeValues L).map Int.toNat).Pairwise (· < ·) ∧
        ∀ j, j ∈ (timeValues L).map Int.toNat ↔ ∃ r, mirror X r ∈ L ∧ r < X.length ∧ j = X.length - 1 - r := by
      intro L hL
      have hform : ∀ x ∈ L, ∃ r, r < X.length ∧ x = mirror X r := by
        intro x hx
        obtain ⟨r, hr, rfl⟩ := List.mem_map.1 (hL.subset hx)
        exact ⟨r, by simpa using hr, rfl⟩
      constructor
      · rw [List.pairwise_map]
        refine (unique_pairwise _).imp_of_mem ?_
        intro a b h1 h2 h
        unfold timeValues at h1 h2
        rw [mem_unique] at h1 h2
        obtain ⟨x, hx, rfl⟩ := List.mem_map.1 h1
        obtain ⟨y, hy, rfl⟩ := List.mem_map.1 h2
        obtain ⟨r, _, rfl⟩ := hform x hx
        obtain ⟨r', _, rfl⟩ := hform y hy
        simp only [mirror] at h ⊢
        omega
      · intro j
        simp only [timeValues, List.mem_map, mem_unique]
        constructor
        · rintro ⟨t, ⟨x, hx, rfl⟩, rfl⟩
          obtain ⟨r, hr, rfl⟩ := hform x hx
          exact ⟨r, hx, hr, by simp [mirror]⟩
        · rintro ⟨r, hx, hr, rfl⟩
          exact ⟨_, ⟨_, hx, rfl⟩, by simp [mirror]⟩
    have hTsub : (T.map (mirror X)).Sublist (mirrorAll X) := by
      unfold mirrorAll
      apply List.Sublist.map
      have hle : T.reverse.Sublist (List.range X.length) := by
        apply List.sublist_of_subperm_of_pairwise (r := (· < ·))
        · exact List.subperm_of_subset (List.nodup_reverse.2 (hT.imp (fun h => (ne_of_lt h).symm)))
            (fun x hx => by simpa using hTl x (by simpa using hx))
        · rw [List.pairwise_reverse]; exact hT
        · exact List.pairwise_lt_range
      have := hle.reverse
      rwa [List.reverse_reverse] at this
    obtain ⟨hs1, hm1⟩ := hidx F hsub
    obtain ⟨hs2, hm2⟩ := hidx _ hTsub
    have hlen : (mirrorAll X).length = X.length := by simp [mirrorAll]
    have hacc := (C16_accepts hv ((timeValues F).map Int.toNat) ((timeValues (T.map (mirror X))).map Int.toNat)).2 ⟨hs1, hs2, by
        intro x hx hy
        obtain ⟨r1, h11, h12, h13⟩ := (hm1 x).1 hx
        obtain ⟨r2, h21, h22, h23⟩ := (hm2 x).1 hy
        have : r1 = r2 := by omega
        subst this
        rw [← hF, List.mem_filter] at h11
        have := h11.2
        simp only [Bool.not_eq_true', List.contains_eq_mem, decide_eq_false_iff_not] at this
        exact this (List.mem_map_of_mem h21), by
        intro x hx
        rw [hlen]
        rcases List.mem_append.1 hx with hx | hx
        · obtain ⟨r1, h11, h12, h13⟩ := (hm1 x).1 hx; omega
        · obtain ⟨r1, h11, h12, h13⟩ := (hm2 x).1 hx; omega, by
        exact List.ne_nil_of_mem ((hm1 _).2 ⟨r, hkeep, hr, rfl⟩), by
        obtain ⟨t, l, rfl⟩ := List.ne_nil_iff_exists_cons.1 hT0
        exact List.ne_nil_of_mem ((hm2 _).2 ⟨t, by simp, hTl t (by simp), rfl⟩)⟩
    obtain ⟨⟨A, B⟩, hAB⟩ := hacc
    unfold windowFoldStep
    rw [hF, hb]
    simp only [hAB, dropShortTrain]
    split
    · exact ⟨_, rfl⟩
    · exact ⟨_, rfl⟩

/-- **C130 (accepted input).** Without a minimum number of training steps and for a collection with ascending IDs and at least two samples per series, all folds are
produced iff the parameters are in range, some series is at least as long as a window, no time value occurs twice, the sampling interval is constant and no window is the whole
collection. -/
theorem C130_accepts {k : TimeKind} {X : List (Row Int V)} (hX : X ≠ []) (hv : Valid X) (ha : IdsAscending X) (h2 : ∀ i, HasId X i → 2 ≤ (series X i).length) (w off : Int) :
    (∃ folds, windowFold k X w off none = .ok folds) ↔
      0 < w ∧ 0 ≤ off ∧ (∃ i, HasId X i ∧ w ≤ (series X i).length) ∧ (X.map (·.time)).Nodup ∧ isConstDeltaTime k X = true ∧ w < X.length := by
  have hshort : (nTimesteps X).values.all (fun n => decide ((n : Int) < w)) = false ↔ ∃ i, HasId X i ∧ w ≤ (series X i).length := by
    rw [← Bool.not_eq_true, List.all_eq_true]
    simp only [decide_eq_true_eq]
    push Not
    cases hn : nTimesteps X with
    | one n =>
      have hall := (nTimesteps_one hX n).1 hn
      simp only [PerId.values, List.mem_singleton, exists_eq_left]
      constructor
      · intro h
        obtain ⟨x, l, rfl⟩ := List.ne_nil_iff_exists_cons.1 hX
        have hid : HasId (x :: l) x.id := ⟨x, by simp, rfl⟩
        exact ⟨x.id, hid, by rw [hall _ (mem_ids.2 hid)]; exact h⟩
      · rintro ⟨i, hi, h⟩
        rwa [hall i (mem_ids.2 hi)] at h
    | per l =>
      rw [nTimesteps_per hn]
      simp only [PerId.values, List.map_map, List.mem_map, Function.comp]
      constructor
      · rintro ⟨n, ⟨i, hi, rfl⟩, h⟩; exact ⟨i, mem_ids.1 hi, h⟩
      · rintro ⟨i, hi, h⟩; exact ⟨_, ⟨i, mem_ids.2 hi, rfl⟩, h⟩
  have hover : (checkNonOverlapping X).isSome = true ↔ ¬ (X.map (·.time)).Nodup := by
    rw [← C115_non_overlapping]
    cases checkNonOverlapping X <;> simp
  by_cases hw : 0 < w
  swap
  · simp [windowFold, hw, not_lt.1 hw]
  by_cases ho : 0 ≤ off
  swap
  · simp [windowFold, ho, not_le.1 ho]
  by_cases hs : ∃ i, HasId X i ∧ w ≤ (series X i).length
  swap
  · have : (nTimesteps X).values.all (fun n => decide ((n : Int) < w)) = true := by
      by_contra hc
      exact hs (hshort.1 (by simpa using hc))
    simp only [windowFold, this, if_true]
    constructor
    · rintro ⟨f, hf⟩
      split at hf <;> cases hf
    · rintro ⟨_, _, h, _⟩; exact absurd h hs
  by_cases hn : (X.map (·.time)).Nodup
  swap
  · have := hover.2 hn
    simp only [windowFold, reversedIndices_eq hX ha, this, if_true, hshort.2 hs]
    constructor
    · rintro ⟨f, hf⟩
      split at hf <;> cases hf
    · rintro ⟨_, _, _, h, _⟩; exact absurd h hn
  by_cases hc : isConstDeltaTime k X = true
  swap
  · simp only [windowFold, reversedIndices_eq hX ha, hc, if_true, hshort.2 hs, hover.not_left.2 hn]
    constructor
    · rintro ⟨f, hf⟩
      split at hf <;> cases hf
    · rintro ⟨_, _, _, _, h, _⟩; exact absurd h (by simp)
  have hiter := (C13_per_series (mirrorAll_valid ha) .int w (w + off) _).2
    ⟨mirrorAll_constDelta hX hv ha h2, hw, by omega, rfl⟩
  rw [show (w + off).toNat = w.toNat + off.toNat by omega, testsOf_mirror] at hiter
  have hcond : ¬ (w ≤ 0 ∨ off < 0 ∨ (none : Option Nat) = some 0) := by simp; omega
  have hov : (checkNonOverlapping X).isSome = false := by
    rw [← Bool.not_eq_true, hover, not_not]; exact hn
  simp only [windowFold, reversedIndices_eq hX ha, hc, hshort.2 hs, hov, hiter, if_neg hcond, Bool.not_true, Bool.false_eq_true, if_false, List.mapM_map]
  generalize hTs : (ids X).reverse.flatMap (fun i => windowsOf (rowNumbers X i).reverse w.toNat (w.toNat + off.toNat)) = Ts
  have hTlen : ∀ T ∈ Ts, T.length = w.toNat := by
    intro T hT
    rw [← hTs, List.mem_flatMap] at hT
    obtain ⟨i, _, hT⟩ := hT
    exact (C13_windows _ w.toNat (w.toNat + off.toNat) (by omega)).1 T hT
  have hT : ∀ T ∈ Ts, T.Pairwise (· > ·) ∧ ∀ r ∈ T, r < X.length := by
    intro T hT
    rw [← hTs, List.mem_flatMap] at hT
    obtain ⟨i, _, hT⟩ := hT
    have hs := window_sublist hT
    refine ⟨(rowNumbers_desc X i).sublist hs, fun r hr => ?_⟩
    have := hs.subset hr
    simp [rowNumbers] at this
    exact this.1
  have hTs0 : ∃ T, T ∈ Ts := by
    obtain ⟨i, hi, hl⟩ := hs
    obtain ⟨s, n, _, he⟩ := rowNumbers_range hv hi
    have hlen : (rowNumbers X i).length = (series X i).length := by
      rw [← count_eq_length_series, map_idAt, List.count_eq_countP, List.countP_map, rowNumbers, ← List.countP_eq_length_filter]
      apply List.countP_congr
      intro r _
      simp
    have h0 := (C13_windows (rowNumbers X i).reverse w.toNat (w.toNat + off.toNat) (by omega)).2.1 0 (by simp [hlen]; omega)
    obtain ⟨h', _⟩ := h0
    rw [← hTs]
    refine ⟨(windowsOf (rowNumbers X i).reverse w.toNat (w.toNat + off.toNat))[0]'h', List.mem_flatMap.2 ?_⟩
    exact ⟨i, List.mem_reverse.2 (mem_ids.2 hi), List.getElem_mem h'⟩
  have hT0 : ∀ T ∈ Ts, T ≠ [] := by
    intro T hTm h
    have := hTlen T hTm
    rw [h] at this
    simp at this
    omega
  have hfree : ∀ T ∈ Ts, ((∃ r, r < X.length ∧ r ∉ T) ↔ w < X.length) := by
    intro T hTm
    obtain ⟨hp, hl⟩ := hT T hTm
    have hnd : T.Nodup := hp.imp (fun h => (ne_of_lt h).symm)
    have hlen := hTlen T hTm
    constructor
    · rintro ⟨r, hr, hrT⟩
      have : (r :: T).Subperm (List.range X.length) := List.subperm_of_subset (List.nodup_cons.2 ⟨hrT, hnd⟩) (by
        intro x hx
        rcases List.mem_cons.1 hx with rfl | hx
        · simpa using hr
        · simpa using hl x hx)
      have := this.length_le
      simp at this
      omega
    · intro hlt
      by_contra hc
      push Not at hc
      have : (List.range X.length).Subperm T := List.subperm_of_subset List.nodup_range (fun x hx => hc x (by simpa using hx))
      have := this.length_le
      simp at this
      omega
  constructor
  · rintro ⟨f, hf⟩
    split at hf
    · cases hf
    · rename_i os hos
      obtain ⟨T, hTm⟩ := hTs0
      obtain ⟨j, hj, rfl⟩ := List.mem_iff_getElem.1 hTm
      obtain ⟨v, _, hv'⟩ := (mapM_ok_get _ _ _ hos).2 j _ (List.getElem?_eq_getElem hj)
      have := (step_accepts ha (hT _ hTm).1 (hT _ hTm).2 (hT0 _ hTm)).1 ⟨v, hv'⟩
      exact ⟨hw, ho, hs, hn, trivial, (hfree _ hTm).1 this⟩
  · rintro ⟨_, _, _, _, _, hlt⟩
    have hex : ∀ T, ∃ o, T ∈ Ts → windowFoldStep none (mirrorAll X) (T.map (mirror X)) = .ok o := by
      intro T
      by_cases hTm : T ∈ Ts
      · obtain ⟨o, ho⟩ := (step_accepts ha (hT _ hTm).1 (hT _ hTm).2 (hT0 _ hTm)).2 ((hfree T hTm).2 hlt)
        exact ⟨o, fun _ => ho⟩
      · exact ⟨none, fun h => absurd h hTm⟩
    choose g hg using hex
    have := mapM_ok_map (fun T => windowFoldStep none (mirrorAll X) (T.map (mirror X))) g Ts (fun T hTm => hg T hTm)
    refine ⟨(Ts.map g).filterMap id, ?_⟩
    have this' : List.mapM (windowFoldStep none (mirrorAll X) ∘ List.map (mirror X)) Ts = .ok (Ts.map g) := this
    rw [this']

/-- non-vacuity: two series of five and two samples -/
example : IdsAscending ([⟨0, 0, ()⟩, ⟨0, 1, ()⟩, ⟨0, 2, ()⟩, ⟨0, 3, ()⟩, ⟨0, 4, ()⟩, ⟨1, 10, ()⟩, ⟨1, 11, ()⟩] : List (Row Int Unit)) ∧
    windowFold .int ([⟨0, 0, ()⟩, ⟨0, 1, ()⟩, ⟨0, 2, ()⟩, ⟨0, 3, ()⟩, ⟨0, 4, ()⟩, ⟨1, 10, ()⟩, ⟨1, 11, ()⟩] : List (Row Int Unit)) 2 0 (some 2) =
      .ok [([0, 1, 2, 3, 4], [5, 6]), ([0, 1, 2, 5, 6], [3, 4]), ([3, 4, 5, 6], [1, 2])] := by
  constructor
  · unfold IdsAscending; decide
  · decide +kernel

/-- non-vacuity of the hypotheses of `C130_accepts` -/
example : Valid ([⟨0, 0, ()⟩, ⟨0, 1, ()⟩, ⟨0, 2, ()⟩, ⟨1, 10, ()⟩, ⟨1, 11, ()⟩] : List (Row Int Unit)) ∧
    isConstDeltaTime .int ([⟨0, 0, ()⟩, ⟨0, 1, ()⟩, ⟨0, 2, ()⟩, ⟨1, 10, ()⟩, ⟨1, 11, ()⟩] : List (Row Int Unit)) = true :=
  ⟨(valid_iff _).2 (by unfold Before; decide), by decide⟩

/-- **C130 is violated for IDs in another order.** A valid collection with constant sampling interval and without common time values, but with the series of ID 1 before that of
ID 0: the second test window consists of rows of both series. -/
theorem C130_order_violated :
    ∃ (X : List (Row Int Unit)) (folds : List (List Nat × List Nat)), Valid X ∧ windowFold .int X 3 0 none = .ok folds ∧
      ∃ f ∈ folds, ∃ r ∈ f.2, ∃ s ∈ f.2, idAt X r ≠ idAt X s :=
  ⟨[⟨1, 0, ()⟩, ⟨1, 1, ()⟩, ⟨0, 2, ()⟩, ⟨0, 3, ()⟩, ⟨0, 4, ()⟩], [([3, 4], [0, 1, 2])],
    (valid_iff _).2 (by unfold Before; decide), by decide +kernel, _, List.mem_singleton.2 rfl, 0, by decide, 2, by decide, by decide⟩

/-- **C130 is violated if the pieces that are too short have different lengths.** Seven samples in one series, windows of two samples, at least four samples for training: the fold
that leaves pieces of two and three samples is not skipped, the split ends with an exception. -/
theorem C130_skip_violated :
    ∃ X : List (Row Int Unit), Valid X ∧ IdsAscending X ∧ (∃ folds, windowFold .int X 2 0 (some 1) = .ok folds) ∧
      windowFold .int X 2 0 (some 4) = .error (.fold (.index (.index .indexError))) :=
  ⟨(List.range 7).map (fun t : Nat => ⟨0, t, ()⟩), (valid_iff _).2 (by unfold Before; decide), by unfold IdsAscending; decide,
    ⟨[([0, 1, 2, 3, 4], [5, 6]), ([0, 1, 2, 5, 6], [3, 4]), ([0, 3, 4, 5, 6], [1, 2])], by decide +kernel⟩, by decide +kernel⟩

end Verif.Tsc
