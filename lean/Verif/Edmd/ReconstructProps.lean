import Verif.Edmd.ReconstructLemmas
import Verif.Tsc.MetricProps
/-! # Properties C35, C85, C86: shifting series to time zero and `EDMD.reconstruct` -/

namespace Verif.Edmd

open Verif.Tsc Verif.Np

variable {V W : Type}

theorem normalised_content (c : List (Row Int V)) (i : Nat) : content (normalised c) i = (content c i).map (fun p => (p.1 - firstTime c i, p.2)) := by
  unfold content; rw [normalised_series]; simp

/-! ## C85 -/

/-- **C85 (true part).** For a regularly sampled collection whose IDs are ascending or whose series all have the same length, `shift_time_per_time_series` returns the same IDs in
the same order, each series shifted to start at time zero, with its values and distances unchanged.  Missing: unsorted IDs with different lengths, see `C85_violated`. -/
theorem C85_shift_partial {c : List (Row Int V)} (hc : c ≠ []) (hv : Valid c) (hs : IdsAscending c ∨ EqualLengths c) {d : Int}
    (hreg : ∀ i, HasId c i → Regular (timesOf c i) d) :
    ∃ s, (shiftPerSeries .int c).1 = .ok s ∧ Valid s ∧ s.map (·.id) = c.map (·.id) ∧
      ∀ i, HasId c i → (timesOf s i).head? = some 0 ∧ content s i = (content c i).map (fun p => (p.1 - firstTime c i, p.2)) := by
  refine ⟨normalised c, ?_, normalised_valid hv, normalised_ids c, fun i hi => ⟨?_, normalised_content c i⟩⟩
  · rw [shiftPerSeries_eq hc hv hs (C11_regular hc hv .int hreg) hreg]
  · rw [normalised_times, List.head?_map, firstTime_head hi]; simp

/-- **C85 fails** for unsorted IDs and different lengths: series 1 (three samples from time 10) comes first, series 0 (two samples from time 20) second.  The shifts are repeated in the
order of the sorted IDs: the third sample of series 1 gets the shift of series 0, and the series is no longer sorted, so an exception is raised. -/
theorem C85_violated : ∃ c : List (Row Int Unit), c ≠ [] ∧ Valid c ∧ (∀ i, HasId c i → Regular (timesOf c i) 5) ∧
    (∃ e, (shiftPerSeries .int c).1 = .error e) := by
  refine ⟨[⟨1, 10, ()⟩, ⟨1, 15, ()⟩, ⟨1, 20, ()⟩, ⟨0, 20, ()⟩, ⟨0, 25, ()⟩], by simp, ?_, ?_, ?_⟩
  · rw [valid_iff]; exact ⟨by decide, by unfold Before; decide⟩
  · rintro i ⟨r, hr, rfl⟩
    simp only [List.mem_cons, List.not_mem_nil, or_false] at hr
    rcases hr with rfl | rfl | rfl | rfl | rfl <;> unfold Regular <;> decide
  · exact ⟨.index .duplicatedIndex, by decide +kernel⟩

/-- **C85** the result is validated: no collection with negative integer time values is returned. -/
theorem C85_nonneg {c s : List (Row Int V)} (hc : ∀ r ∈ c, 0 ≤ r.time) (h : (shiftPerSeries .int c).1 = .ok s) : Valid c → Valid s ∧ ∀ r ∈ s, 0 ≤ r.time := by
  intro hv
  unfold shiftPerSeries at h
  dsimp only at h
  split at h
  · cases h; exact ⟨hv, hc⟩
  · split at h
    · split at h
      · cases h
      · rename_i he
        cases h
        unfold buildInt at he
        split at he
        · cases he
        · rename_i hn
          obtain ⟨rfl, -, hvs⟩ := build_ok_iff.1 he
          refine ⟨hvs, fun r hr => ?_⟩
          by_contra hlt
          exact hn ⟨rfl, List.any_eq_true.2 ⟨r, hr, by simpa using hlt⟩⟩
    · cases h

/-- **C85 fails** silently as well: here the wrong shift yields a valid collection in which series 1 is no longer sampled regularly. -/
theorem C85_violated_silent : ∃ c s : List (Row Int Unit), c ≠ [] ∧ Valid c ∧ (∀ i, HasId c i → Regular (timesOf c i) 5) ∧
    (shiftPerSeries .int c).1 = .ok s ∧ HasId c 1 ∧ ¬ Regular (timesOf s 1) 5 := by
  refine ⟨[⟨1, 10, ()⟩, ⟨1, 15, ()⟩, ⟨1, 20, ()⟩, ⟨0, 5, ()⟩, ⟨0, 10, ()⟩],
    [⟨1, 0, ()⟩, ⟨1, 5, ()⟩, ⟨1, 15, ()⟩, ⟨0, 0, ()⟩, ⟨0, 5, ()⟩], by simp, ?_, ?_, by decide +kernel, by exact ⟨⟨1, 10, ()⟩, by simp, rfl⟩, by unfold Regular; decide⟩
  · rw [valid_iff]; exact ⟨by decide, by unfold Before; decide⟩
  · rintro i ⟨r, hr, rfl⟩
    simp only [List.mem_cons, List.not_mem_nil, or_false] at hr
    rcases hr with rfl | rfl | rfl | rfl | rfl <;> unfold Regular <;> decide

/-- Two series of different lengths that start at different times. -/
def exR : List (Row Int Int) := [⟨0, 10, 1⟩, ⟨0, 15, 2⟩, ⟨3, 20, 5⟩, ⟨3, 25, 6⟩, ⟨3, 30, 7⟩]

theorem exR_valid : Valid exR := by rw [valid_iff]; exact ⟨by decide, by unfold Before; decide⟩

theorem exR_regular : ∀ i, HasId exR i → Regular (timesOf exR i) 5 := by
  rintro i ⟨r, hr, rfl⟩
  simp only [exR, List.mem_cons, List.not_mem_nil, or_false] at hr
  rcases hr with rfl | rfl | rfl | rfl | rfl <;> unfold Regular <;> decide

example : IdsAscending exR ∧ ¬ EqualLengths exR ∧ (shiftPerSeries .int exR).1 = .ok [⟨0, 0, 1⟩, ⟨0, 5, 2⟩, ⟨3, 0, 5⟩, ⟨3, 5, 6⟩, ⟨3, 10, 7⟩] := by
  refine ⟨by unfold IdsAscending; decide, ?_, by decide +kernel⟩
  intro h
  have := h 0 3 ⟨⟨0, 10, 1⟩, by simp [exR], rfl⟩ ⟨⟨3, 20, 5⟩, by simp [exR], rfl⟩
  revert this; decide

/-! ## C35 -/

theorem key_normalised {c : List (Row Int V)} (hc : c ≠ []) (hv : Valid c) {d : Int} (hreg : ∀ i, HasId c i → Regular (timesOf c i) d)
    {i : Nat} (hi : HasId c i) : overviewKey .int (normalised c) i = some (toLex (0, toLex (((series c i).length - 1 : Nat) * d, d))) := by
  have hreg' : ∀ i, HasId (normalised c) i → Regular (timesOf (normalised c) i) d := fun i hi => normalised_regular (hreg i (normalised_hasId.1 hi))
  have hD := hasDeltas_int (normalised_ne_nil.2 hc) (normalised_valid hv) hreg' i (normalised_hasId.2 hi)
  unfold overviewKey
  rw [hD.1, timeInterval_eq (normalised_valid hv)]
  have hl : (timesOf (normalised c) i).length = (series c i).length := by rw [normalised_times]; simp [timesOf]
  have h0 : 0 < (timesOf (normalised c) i).length := by have := hD.2.1; omega
  have hhead : (timesOf (normalised c) i).headD 0 = 0 := by
    rw [List.headD_eq_head?_getD, List.head?_eq_getElem?, List.getElem?_eq_getElem h0, normalised_getElem hi (hreg i hi) 0 h0]; simp
  have hlast : (timesOf (normalised c) i).getLastD 0 = ((series c i).length - 1 : Nat) * d := by
    rw [List.getLastD_eq_getLast?, List.getLast?_eq_getElem?, List.getElem?_eq_getElem (by omega), Option.getD_some, normalised_getElem hi (hreg i hi), hl]
  rw [hhead, hlast]
  rfl

theorem zipWith_keys (l : List (Row Int W)) (ks : List (Key Int)) (h : l.length = ks.length) (i : Nat) (hk : ∀ k ∈ ks, k.id = i) :
    (List.zipWith (fun (r : Row Int W) (key : Key Int) => (⟨key.id, key.time, r.val⟩ : Row Int W)) l ks).map (fun r => (r.time, r.val)) =
      (ks.map (·.time)).zip (l.map (·.val)) ∧
    ∀ r ∈ List.zipWith (fun (r : Row Int W) (key : Key Int) => (⟨key.id, key.time, r.val⟩ : Row Int W)) l ks, r.id = i := by
  induction l generalizing ks with
  | nil => cases ks <;> simp_all
  | cons r l ih =>
    cases ks with
    | nil => simp at h
    | cons k ks =>
      obtain ⟨h1, h2⟩ := ih ks (by simpa using h) (fun k hk' => hk k (by simp [hk']))
      refine ⟨by simp [h1], ?_⟩
      intro x hx
      rw [List.zipWith_cons_cons, List.mem_cons] at hx
      rcases hx with rfl | hx
      · exact hk k (by simp)
      · exact h2 x hx

theorem iter_ascending {k : TimeKind} {c : List (Row Int V)} {n : Nat} {gs : List (List (Row Int V) × List Int)} (h : iterReconstruct k c n = .ok gs) :
    ∀ g ∈ gs, IdsAscending g.1 := by
  unfold iterReconstruct at h
  split at h
  · simp at h
  split at h
  · simp at h
  intro g hg
  obtain ⟨i, hi, rfl⟩ := List.mem_iff_getElem.1 hg
  obtain ⟨hl, hget⟩ := mapM_ok_get _ _ _ h
  obtain ⟨v, hv, this⟩ := hget i _ (List.getElem?_eq_getElem (by omega))
  rw [List.getElem?_eq_getElem hi, Option.some.injEq] at hv
  rw [hv]
  simp only at this
  split at this
  · simp at this
  · rename_i ic hic
    simp only [Except.ok.injEq] at this
    rw [← this]
    unfold initialStates at hic
    split at hic
    · simp at hic
    split at hic
    · simp at hic
    obtain ⟨rfl, -, -⟩ := build_ok_iff.1 hic
    unfold IdsAscending
    refine List.Pairwise.sublist ((groupHead_sublist _ _ _).map _) ?_
    rw [List.map_flatMap]
    generalize (unique ((ids c).filterMap (overviewKey k c)))[i] = key
    have hs : ((ids c).filter (fun i => overviewKey k c i == some key)).Pairwise (· < ·) := (ids_sorted c).filter _
    generalize (ids c).filter (fun i => overviewKey k c i == some key) = l at hs
    induction l with
    | nil => simp
    | cons a l ih =>
      rw [List.pairwise_cons] at hs
      rw [List.flatMap_cons, List.pairwise_append]
      have hm : ∀ a x, x ∈ List.map (fun r : Row Int V => r.id) (List.filter (fun r => r.id == a) c) → x = a := by
        intro a x hx
        obtain ⟨r, hr, rfl⟩ := List.mem_map.1 hx
        simpa using (List.mem_filter.1 hr).2
      refine ⟨List.Pairwise.imp_of_mem (R := fun _ _ => True) (fun {x y} hx hy _ => by rw [hm a x hx, hm a y hy]) (List.pairwise_of_forall (fun _ _ => trivial)), ih hs.2, ?_⟩
      intro x hx y hy
      obtain ⟨b, hb, hy⟩ := List.mem_flatMap.1 hy
      rw [hm a x hx, hm b y hy]
      exact (hs.1 b hb).le

/-- **C35 (true part).** If the IDs are ascending and the series do not get shorter along the index, the reconstruction has the IDs of the data and, for each ID `i`, at the original
time values (from the `n`-th on) the prediction `f i` that was computed for series `i` at that time after its start.  `predict` is any model that returns a series per initial condition, in
ascending ID order (`C26_flowmap`, `C84_prediction_partial`); it is called once for all series with the same number of samples.  Missing: a shorter series behind a longer one, or unsorted IDs, see `C35_violated`. -/
theorem C35_reconstruct_partial {E : Type} {liftE : TscErr → E} {predict : List (Row Int V) → List Int → Except E (List (Row Int W))} {n : Nat} (hn : 1 ≤ n)
    {c : List (Row Int V)} (hc : c ≠ []) (hv : Valid c) (hs : IdsAscending c) {d : Int} (hreg : ∀ i, HasId c i → Regular (timesOf c i) d)
    (hlen : ∀ i, HasId c i → n ≤ (series c i).length) (hmono : ∀ i j, HasId c i → HasId c j → i < j → (series c i).length ≤ (series c j).length)
    (f : Nat → Int → W)
    (hp : ∀ ic times, ic ≠ [] → Valid ic → IdsAscending ic → (∀ i j, HasId ic i → HasId c j → (series c i).length = (series c j).length → HasId ic j) →
      (∀ i, HasId ic i → HasId c i ∧ content ic i = ((content c i).take n).map (fun p => (p.1 - firstTime c i, p.2)) ∧
        times = ((timesOf c i).drop (n - 1)).map (· - firstTime c i)) →
      ∃ r, predict ic times = .ok r ∧ Valid r ∧ IdsAscending r ∧ (∀ i, HasId r i ↔ HasId ic i) ∧ ∀ i, HasId ic i → content r i = times.map (fun t => (t, f i t))) :
    ∃ r, reconstructEdmd liftE predict n c = (.ok r, c) ∧ Valid r ∧ IdsAscending r ∧ (∀ i, HasId r i ↔ HasId c i) ∧
      ∀ i, HasId c i → content r i = ((timesOf c i).drop (n - 1)).map (fun t => (t, f i (t - firstTime c i))) := by
  have hdelta := C11_regular hc hv .int hreg
  have hreg' : ∀ i, HasId (normalised c) i → Regular (timesOf (normalised c) i) d := fun i hi => normalised_regular (hreg i (normalised_hasId.1 hi))
  have hD := hasDeltas_int (normalised_ne_nil.2 hc) (normalised_valid hv) hreg'
  obtain ⟨gs, hgs, hg, hall, hord⟩ := iter_order (normalised_ne_nil.2 hc) (normalised_valid hv) hD hn (fun i hi => by
    rw [normalised_series, List.length_map]; exact hlen i (normalised_hasId.1 hi))
  have hdpos : ∀ i, HasId c i → 0 < d := fun i hi => regular_pos hv (hreg i hi)
  have hex : ∀ g ∈ gs, ∃ r, predict g.1 g.2 = .ok r ∧ Valid r ∧ IdsAscending r ∧ (∀ i, HasId r i ↔ HasId g.1 i) ∧
      ∀ i, HasId g.1 i → content r i = g.2.map (fun t => (t, f i t)) := by
    intro g hgm
    obtain ⟨h1, h2, h3⟩ := hg g hgm
    refine hp g.1 g.2 h1 h2 (iter_ascending hgs g hgm) ?_ ?_
    · intro i j hi hj hij
      obtain ⟨g', hg', hj'⟩ := hall j (normalised_hasId.2 hj)
      have hki := key_normalised hc hv hreg (normalised_hasId.1 (h3 i hi).1)
      have hkj := key_normalised hc hv hreg hj
      rw [hij] at hki
      obtain ⟨a, ha, rfl⟩ := List.mem_iff_getElem.1 hgm
      obtain ⟨b, hb, rfl⟩ := List.mem_iff_getElem.1 hg'
      rcases lt_trichotomy a b with hab | rfl | hab
      · obtain ⟨x, y, e1, e2, hlt⟩ := (List.pairwise_iff_getElem.1 hord) a b ha hb hab i j hi hj'
        rw [hki] at e1; rw [hkj] at e2; cases e1; cases e2; exact absurd hlt (lt_irrefl _)
      · exact hj'
      · obtain ⟨x, y, e1, e2, hlt⟩ := (List.pairwise_iff_getElem.1 hord) b a hb ha hab j i hj' hi
        rw [hkj] at e1; rw [hki] at e2; cases e1; cases e2; exact absurd hlt (lt_irrefl _)
    intro i hi
    obtain ⟨e1, e2, e3⟩ := h3 i hi
    refine ⟨normalised_hasId.1 e1, ?_, ?_⟩
    · rw [e2, normalised_content, List.map_take]
    · have : (content (normalised c) i).map (·.1) = timesOf (normalised c) i := by simp [content, timesOf]
      rw [e3, this, normalised_times, List.map_drop]
  choose! r hr1 hr2 hr3 hr4 hr5 using hex
  have hmM : gs.mapM (fun g => predict g.1 g.2) = .ok (gs.map r) := mapM_ok_map _ _ _ hr1
  obtain ⟨v1, v2, v3, v4⟩ := flatten_ascending (gs.map r)
    (by intro x hx; obtain ⟨g, hgm, rfl⟩ := List.mem_map.1 hx; exact ⟨hr2 g hgm, hr3 g hgm⟩)
    (by
      rw [List.pairwise_map]
      refine List.Pairwise.imp_of_mem ?_ hord
      intro g g' hgm hgm' hgg i j hi hj
      have hi' := (hr4 g hgm i).1 hi
      have hj' := (hr4 g' hgm' j).1 hj
      obtain ⟨ki, kj, e1, e2, hlt⟩ := hgg i j hi' hj'
      have hic := normalised_hasId.1 ((hg g hgm).2.2 i hi').1
      have hjc := normalised_hasId.1 ((hg g' hgm').2.2 j hj').1
      rw [key_normalised hc hv hreg hic] at e1
      rw [key_normalised hc hv hreg hjc] at e2
      cases e1; cases e2
      by_contra hle
      rw [Prod.Lex.toLex_lt_toLex] at hlt
      simp only [lt_self_iff_false, true_and, false_or] at hlt
      rw [Prod.Lex.toLex_lt_toLex] at hlt
      simp only [lt_self_iff_false, and_false, or_false] at hlt
      have hij : (series c j).length ≤ (series c i).length := by
        rcases Nat.lt_or_eq_of_le (not_lt.1 hle) with h | h
        · exact hmono j i hjc hic h
        · rw [h]
      have hpos := hdpos i hic
      have : (((series c i).length - 1 : Nat) : Int) < (((series c j).length - 1 : Nat) : Int) := lt_of_mul_lt_mul_right hlt hpos.le
      omega)
  set fl := (gs.map r).flatten with hfl
  have hids : ∀ i, HasId fl i ↔ HasId c i := by
    intro i
    rw [v3]
    constructor
    · rintro ⟨x, hx, hi⟩
      obtain ⟨g, hgm, rfl⟩ := List.mem_map.1 hx
      exact normalised_hasId.1 ((hg g hgm).2.2 i ((hr4 g hgm i).1 hi)).1
    · intro hi
      obtain ⟨g, hgm, hi'⟩ := hall i (normalised_hasId.2 hi)
      exact ⟨r g, List.mem_map.2 ⟨g, hgm, rfl⟩, (hr4 g hgm i).2 hi'⟩
  have hcont : ∀ i, HasId c i → content fl i = (((timesOf c i).drop (n - 1)).map (· - firstTime c i)).map (fun t => (t, f i t)) := by
    intro i hi
    obtain ⟨g, hgm, hi'⟩ := hall i (normalised_hasId.2 hi)
    unfold content
    rw [v4 (r g) (List.mem_map.2 ⟨g, hgm, rfl⟩) i ((hr4 g hgm i).2 hi')]
    change content (r g) i = _
    rw [hr5 g hgm i hi']
    have : (content (normalised c) i).map (·.1) = timesOf (normalised c) i := by simp [content, timesOf]
    rw [((hg g hgm).2.2 i hi').2.2, this, normalised_times]
    simp only [List.map_drop]
  have hidsEq : ids fl = ids c := by
    unfold ids
    apply unique_congr
    intro i
    have h := hids i
    simp only [HasId] at h
    simp only [List.mem_map]
    exact h
  have hflm : fl = (ids c).flatMap (series fl) := by
    rw [← hidsEq, ← newIds_eq_ids v2, v1.eq_flatMap]
  have hrec : recoveredIndex c n = (ids c).flatMap (fun i => ((series c i).map (·.key)).drop (n - 1)) := by
    unfold recoveredIndex
    split
    · rfl
    · have : n - 1 = 0 := by omega
      rw [this]
      simp only [List.drop_zero]
      rw [← newIds_eq_ids hs, flatMap_ids_map hv]
  have hblock : ∀ i ∈ ids c, (series fl i).length = (((series c i).map (·.key)).drop (n - 1)).length := by
    intro i hi
    have := congrArg List.length (hcont i (mem_ids.1 hi))
    simpa [content, timesOf] using this
  have hzip : List.zipWith (fun (r : Row Int W) (key : Key Int) => (⟨key.id, key.time, r.val⟩ : Row Int W)) fl (recoveredIndex c n) =
      (ids c).flatMap (fun i => List.zipWith (fun (r : Row Int W) (key : Key Int) => (⟨key.id, key.time, r.val⟩ : Row Int W)) (series fl i)
        (((series c i).map (·.key)).drop (n - 1))) := by
    rw [hrec]
    conv => lhs; arg 2; rw [hflm]
    exact zipWith_flatMap _ _ _ _ hblock
  have hlenEq : fl.length = (recoveredIndex c n).length := by
    rw [hrec]
    conv => lhs; rw [hflm]
    rw [List.length_flatMap, List.length_flatMap]
    congr 1
    exact List.map_congr_left hblock
  have hkid : ∀ i, ∀ k ∈ ((series c i).map (·.key)).drop (n - 1), k.id = i := by
    intro i k hk
    obtain ⟨x, hx, rfl⟩ := List.mem_map.1 (List.mem_of_mem_drop hk)
    exact (mem_series.1 hx).2
  set out := (ids c).flatMap (fun i => List.zipWith (fun (r : Row Int W) (key : Key Int) => (⟨key.id, key.time, r.val⟩ : Row Int W)) (series fl i)
        (((series c i).map (·.key)).drop (n - 1))) with hout
  have hserO : ∀ i, HasId c i → series out i = List.zipWith (fun (r : Row Int W) (key : Key Int) => (⟨key.id, key.time, r.val⟩ : Row Int W)) (series fl i)
        (((series c i).map (·.key)).drop (n - 1)) := by
    intro i hi
    rw [hout, series_flatMap (ids_nodup c) _ (fun j hj => (zipWith_keys _ _ (hblock j hj) j (hkid j)).2), if_pos (mem_ids.2 hi)]
  have hcontO : ∀ i, HasId c i → content out i = ((timesOf c i).drop (n - 1)).map (fun t => (t, f i (t - firstTime c i))) := by
    intro i hi
    unfold content
    rw [hserO i hi, (zipWith_keys _ _ (hblock i (mem_ids.2 hi)) i (hkid i)).1]
    have hvals : (series fl i).map (·.val) = ((timesOf c i).drop (n - 1)).map (fun t => f i (t - firstTime c i)) := by
      have := congrArg (List.map (·.2)) (hcont i hi)
      simpa [content, List.map_map, Function.comp_def] using this
    have htim : (((series c i).map (·.key)).drop (n - 1)).map (·.time) = (timesOf c i).drop (n - 1) := by
      simp [timesOf, List.map_drop, Row.key, Function.comp_def]
    rw [hvals, htim]
    generalize (timesOf c i).drop (n - 1) = l
    induction l with
    | nil => rfl
    | cons a l ih => simp only [List.map_cons, List.zip_cons_cons, ih]
  have hvO : Valid out := by
    apply valid_flatMap (ids_nodup c) _ (fun j hj => (zipWith_keys _ _ (hblock j hj) j (hkid j)).2)
    intro i hi
    have h1 : (((series c i).map (·.time)).drop (n - 1)).Pairwise (· < ·) := by
      refine List.Pairwise.drop ?_
      rw [List.pairwise_map]; exact hv.series_sorted i
    have h2 := hcontO i (mem_ids.1 hi)
    unfold content at h2
    rw [hserO i (mem_ids.1 hi)] at h2
    have h3 := congrArg (List.map (·.1)) h2
    simp only [List.map_map, Function.comp_def, List.map_id'] at h3
    rw [← List.pairwise_map (f := fun r : Row Int W => r.time) (R := (· < ·))]
    rw [h3]; exact h1
  have hidO : ∀ i, HasId out i ↔ HasId c i := by
    intro i
    constructor
    · rintro ⟨x, hx, rfl⟩
      obtain ⟨j, hj, hx⟩ := List.mem_flatMap.1 hx
      rw [(zipWith_keys _ _ (hblock j hj) j (hkid j)).2 x hx]
      exact mem_ids.1 hj
    · intro hi
      rw [hasId_iff_series]
      intro he
      have h2 := hcontO i hi
      unfold content at h2
      rw [he] at h2
      have h3 := congrArg List.length h2
      have h4 := hlen i hi
      simp [timesOf] at h3
      omega
  have hneO : out ≠ [] := by
    intro he
    obtain ⟨r0, l, hl⟩ := List.ne_nil_iff_exists_cons.1 hc
    obtain ⟨x, hx, -⟩ := (hidO r0.id).2 ⟨r0, by rw [hl]; simp, rfl⟩
    rw [he] at hx; simp at hx
  have hascO : IdsAscending out := by
    unfold IdsAscending
    have hs' := ids_sorted c
    have hm : ∀ i ∈ ids c, ∀ r ∈ List.zipWith (fun (r : Row Int W) (key : Key Int) => (⟨key.id, key.time, r.val⟩ : Row Int W)) (series fl i)
        (((series c i).map (·.key)).drop (n - 1)), r.id = i := fun j hj => (zipWith_keys _ _ (hblock j hj) j (hkid j)).2
    rw [hout]
    generalize ids c = l at hs' hm
    induction l with
    | nil => simp
    | cons a l ih =>
      rw [List.pairwise_cons] at hs'
      rw [List.flatMap_cons, List.map_append, List.pairwise_append]
      refine ⟨?_, ih hs'.2 (fun i hi => hm i (by simp [hi])), ?_⟩
      · rw [List.pairwise_map]
        exact List.Pairwise.imp_of_mem (R := fun _ _ => True) (fun {x y} hx hy _ => by rw [hm a (by simp) x hx, hm a (by simp) y hy]) (List.pairwise_of_forall (fun _ _ => trivial))
      · intro x hx y hy
        obtain ⟨r, hr, rfl⟩ := List.mem_map.1 hx
        obtain ⟨r', hr', rfl⟩ := List.mem_map.1 hy
        obtain ⟨b, hb, hr'⟩ := List.mem_flatMap.1 hr'
        rw [hm a (by simp) r hr, hm b (by simp [hb]) r' hr']
        exact (hs'.1 b hb).le
  refine ⟨out, ?_, hvO, hascO, hidO, hcontO⟩
  unfold reconstructEdmd
  rw [shiftPerSeries_eq hc hv (Or.inl hs) hdelta hreg]
  simp only
  rw [hgs]
  simp only
  rw [hmM]
  simp only
  rw [← hfl, if_neg (by rw [hlenEq]; simp), hzip, build_ok_of_valid hvO hneO]

/-- A model of a system at rest: the prediction is the initial state at all times. -/
def restModel (ic : List (Row Int Int)) (times : List Int) : Except TscErr (List (Row Int Int)) :=
  .ok ((ids ic).flatMap (fun i => times.map (fun t => ⟨i, t, ((series ic i).getLast?.map (·.val)).getD 0⟩)))

/-- `C35_reconstruct_partial` at work (series 0 has two, series 3 has three samples). -/
example : (reconstructEdmd id restModel 1 exR).1 = .ok [⟨0, 10, 1⟩, ⟨0, 15, 1⟩, ⟨3, 20, 5⟩, ⟨3, 25, 5⟩, ⟨3, 30, 5⟩] := by decide +kernel

example : (∀ i j, HasId exR i → HasId exR j → i < j → (series exR i).length ≤ (series exR j).length) := by
  rintro i j ⟨r, hr, rfl⟩ ⟨r', hr', rfl⟩
  simp only [exR, List.mem_cons, List.not_mem_nil, or_false] at hr hr'
  rcases hr with rfl | rfl | rfl | rfl | rfl <;> rcases hr' with rfl | rfl | rfl | rfl | rfl <;> decide

/-- **C35 fails** if a shorter series follows a longer one: the prediction of series 3 (two samples) is returned as the first two samples of series 0, and its own rows hold
values of series 0. -/
theorem C35_violated : ∃ c : List (Row Int Int), Valid c ∧ IdsAscending c ∧ (∀ i, HasId c i → Regular (timesOf c i) 5) ∧ content c 0 = [(10, 1), (15, 1), (20, 1)] ∧
    content c 3 = [(20, 7), (25, 7)] ∧
    (reconstructEdmd id restModel 1 c).1 = .ok [⟨0, 10, 7⟩, ⟨0, 15, 7⟩, ⟨0, 20, 1⟩, ⟨3, 20, 1⟩, ⟨3, 25, 1⟩] := by
  refine ⟨[⟨0, 10, 1⟩, ⟨0, 15, 1⟩, ⟨0, 20, 1⟩, ⟨3, 20, 7⟩, ⟨3, 25, 7⟩], ?_, by unfold IdsAscending; decide, ?_, rfl, rfl, by decide +kernel⟩
  · rw [valid_iff]; exact ⟨by decide, by unfold Before; decide⟩
  · rintro i ⟨r, hr, rfl⟩
    simp only [List.mem_cons, List.not_mem_nil, or_false] at hr
    rcases hr with rfl | rfl | rfl | rfl | rfl <;> unfold Regular <;> decide

/-- **C35 fails** for unsorted IDs too, even with equal lengths: the two predictions are exchanged. -/
theorem C35_violated_unsorted : ∃ c : List (Row Int Int), Valid c ∧ (∀ i, HasId c i → Regular (timesOf c i) 5) ∧ content c 3 = [(10, 1), (15, 1)] ∧ content c 0 = [(20, 7), (25, 7)] ∧
    (reconstructEdmd id restModel 1 c).1 = .ok [⟨3, 10, 7⟩, ⟨3, 15, 7⟩, ⟨0, 20, 1⟩, ⟨0, 25, 1⟩] := by
  refine ⟨[⟨3, 10, 1⟩, ⟨3, 15, 1⟩, ⟨0, 20, 7⟩, ⟨0, 25, 7⟩], ?_, ?_, rfl, rfl, by decide +kernel⟩
  · rw [valid_iff]; exact ⟨by decide, by unfold Before; decide⟩
  · rintro i ⟨r, hr, rfl⟩
    simp only [List.mem_cons, List.not_mem_nil, or_false] at hr
    rcases hr with rfl | rfl | rfl | rfl <;> unfold Regular <;> decide

/-! ## C86 -/

/-- **C86 (true part).** Whenever `reconstruct` returns, its argument is unchanged afterwards. -/
theorem C86_unchanged_partial {E : Type} (liftE : TscErr → E) (predict : List (Row Int V) → List Int → Except E (List (Row Int W))) (n : Nat) (c : List (Row Int V))
    (r : List (Row Int W)) (h : (reconstructEdmd liftE predict n c).1 = .ok r) : (reconstructEdmd liftE predict n c).2 = c := by
  unfold reconstructEdmd at h ⊢
  split at h
  · simp at h
  · split at h
    · simp at h
    · split at h
      · simp at h
      · split at h
        · simp at h
        · split at h
          · simp at h
          · rename_i h1 _ _ h2 _ _ h3 h4 _ _ h5
            simp only [if_neg h4]

/-- **C86 fails** when a prediction raises: the argument is left with shifted time values. -/
theorem C86_violated : ∃ (predict : List (Row Int Int) → List Int → Except TscErr (List (Row Int Int))) (c : List (Row Int Int)), Valid c ∧
    (∃ e, (reconstructEdmd id predict 1 c).1 = .error e) ∧ (reconstructEdmd id predict 1 c).2 ≠ c := by
  refine ⟨fun _ _ => .error .incompatible, exR, exR_valid, ⟨.incompatible, by decide +kernel⟩, by decide +kernel⟩

example : ∃ r, (reconstructEdmd id restModel 1 exR).1 = .ok r :=
  ⟨[⟨0, 10, 1⟩, ⟨0, 15, 1⟩, ⟨3, 20, 5⟩, ⟨3, 25, 5⟩, ⟨3, 30, 5⟩], by decide +kernel⟩

/-- **C86 fails** for `shift_time_per_time_series` itself: whenever it returns, the argument holds the shifted index afterwards. -/
theorem C86_shift_mutates (k : TimeKind) (c s : List (Row Int V)) (h : (shiftPerSeries k c).1 = .ok s) : (shiftPerSeries k c).2 = s := by
  unfold shiftPerSeries at h ⊢
  simp only at h ⊢
  split at h
  · rename_i h0; rw [if_pos h0]; simpa using h
  · rename_i h0; rw [if_neg h0]
    split at h
    · split at h
      · simp at h
      · rename_i h1 _ _ h2
        simpa using h
    · simp at h

end Verif.Edmd
