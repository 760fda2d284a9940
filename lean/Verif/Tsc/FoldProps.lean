import Verif.Tsc.FoldLemmas
/-!
# C14, C15: cross validation folds over series and over time

`IsKFold n k fs` (in `FoldLemmas`): `k` folds, test sets partition the `n` rows, train and test are complementary, both sorted and non-empty.
-/

namespace Verif.Tsc

open Verif.Np

variable {τ V : Type} [LinearOrder τ]

theorem mem_pickRows {m : List (List Nat)} {rows : List Nat} {a : Nat} : a ∈ pickRows m rows ↔ ∃ r ∈ rows, a ∈ m.getD r [] := by
  unfold pickRows
  rw [(List.mergeSort_perm _ _).mem_iff, List.mem_flatMap]

/-- **C14.** If `TSCKfoldSeries(n_splits, shuffle)` accepts a collection, its folds partition the rows, and in every fold all rows of a
series are on the same side.  `order` is any order of the series: ascending without shuffling, arbitrary with it. -/
theorem C14_kfold_series {c : List (Row τ V)} (hc : c ≠ []) (hv : Valid c) {k : Nat} {order : List Nat}
    (ho : order.Perm (List.range (nTimeseries c))) {fs : List (List Nat × List Nat)} (h : kfoldSeries c k order = .ok fs) :
    IsKFold c.length k fs ∧
      ∀ f ∈ fs, ∀ a b (ha : a < c.length) (hb : b < c.length), c[a].id = c[b].id → ((a ∈ f.2 ↔ b ∈ f.2) ∧ (a ∈ f.1 ↔ b ∈ f.1)) := by
  unfold kfoldSeries at h
  match hn : nTimesteps c with
  | .per l => rw [hn] at h; simp at h
  | .one len =>
    rw [hn] at h
    simp only at h
    obtain ⟨hpos, hlen, hrow⟩ := row_block hc hv hn
    have hml : (rowMajor (nTimeseries c) len).length = nTimeseries c := by simp [rowMajor]
    rw [hml] at h
    match hk : kfold (nTimeseries c) k order with
    | .error e => rw [hk] at h; simp at h
    | .ok gs =>
      rw [hk] at h
      simp only [Except.ok.injEq] at h
      subst h
      have hg := (kfold_isKFold ho hk).2.2
      constructor
      · apply isKFold_pick hg
        · rw [hlen]
          have : (List.range (nTimeseries c)).flatMap (fun r => (rowMajor (nTimeseries c) len).getD r []) = List.range (nTimeseries c * len) := by
            rw [← rowMajor_flat]
            rw [List.flatMap_def, List.flatMap_def]
            congr 1
            apply List.map_congr_left
            intro r hr
            exact rowMajor_getD _ _ _ (List.mem_range.1 hr)
          rw [this]
        · intro r hr
          rw [rowMajor_getD _ _ _ hr]
          simp; omega
      · intro f hf a b ha hb hab
        obtain ⟨g, hg', rfl⟩ := List.mem_map.1 hf
        have hlt : ∀ x ∈ g.1 ++ g.2, x < nTimeseries c := fun x hx => List.mem_range.1 ((hg.complement g hg').mem_iff.1 hx)
        have key : a / len = b / len := by
          obtain ⟨i, hi, hi'⟩ := hrow a ha
          obtain ⟨j, hj, hj'⟩ := hrow b hb
          have e1 := series_id (List.mem_of_getElem? hi')
          have e2 := series_id (List.mem_of_getElem? hj')
          have : i = j := by rw [← e1, ← e2]; exact hab
          subst this
          obtain ⟨h1, h1'⟩ := List.getElem?_eq_some_iff.1 hi
          obtain ⟨h2, h2'⟩ := List.getElem?_eq_some_iff.1 hj
          exact (List.Nodup.getElem_inj_iff hv.nodup).1 (h1'.trans h2'.symm)
        have hmem : ∀ rows : List Nat, (∀ x ∈ rows, x < nTimeseries c) → ∀ x, x ∈ pickRows (rowMajor (nTimeseries c) len) rows ↔ x / len ∈ rows := by
          intro rows hr x
          rw [mem_pickRows]
          constructor
          · rintro ⟨r, hr1, hr2⟩
            rw [rowMajor_getD _ _ _ (hr r hr1)] at hr2
            obtain ⟨j, hj, rfl⟩ := List.mem_map.1 hr2
            have hj := List.mem_range.1 hj
            have : (r * len + j) / len = r := by
              rw [Nat.mul_comm, Nat.mul_add_div hpos, Nat.div_eq_of_lt hj]; rfl
            rwa [this]
          · intro hx
            refine ⟨x / len, hx, ?_⟩
            rw [rowMajor_getD _ _ _ (hr _ hx)]
            exact List.mem_map.2 ⟨x % len, List.mem_range.2 (Nat.mod_lt _ hpos), Nat.div_add_mod' x len⟩
        constructor
        · rw [hmem _ (fun x hx => hlt x (by simp [hx])), hmem _ (fun x hx => hlt x (by simp [hx])), key]
        · rw [hmem _ (fun x hx => hlt x (by simp [hx])), hmem _ (fun x hx => hlt x (by simp [hx])), key]

/-- **C14 (acceptance).** Accepted iff all series have the same length and there are at least `n_splits ≥ 2` series. -/
theorem C14_accepts {c : List (Row τ V)} (hc : c ≠ []) (k : Nat) (order : List Nat) :
    (∃ fs, kfoldSeries c k order = .ok fs) ↔ EqualLengths c ∧ 2 ≤ k ∧ k ≤ nTimeseries c := by
  unfold kfoldSeries
  match hn : nTimesteps c with
  | .per l =>
    simp only [reduceCtorEq, exists_false, false_iff, not_and]
    intro he
    exfalso
    obtain ⟨i, t, hi⟩ := List.ne_nil_iff_exists_cons.1 (ids_ne_nil hc)
    have hm : i ∈ ids c := by rw [hi]; simp
    have := (nTimesteps_one hc ((series c i).length)).2 (fun j hj => he j i (mem_ids.1 hj) (mem_ids.1 hm))
    rw [hn] at this; simp at this
  | .one len =>
    have he : EqualLengths c := by
      intro i j hi hj
      rw [(nTimesteps_one hc len).1 hn i (mem_ids.2 hi), (nTimesteps_one hc len).1 hn j (mem_ids.2 hj)]
    have hml : (rowMajor (nTimeseries c) len).length = nTimeseries c := by simp [rowMajor]
    simp only [hml, he, true_and]
    unfold kfold
    by_cases hk : k < 2 ∨ nTimeseries c < k
    · simp only [hk, if_true, reduceCtorEq, exists_false, false_iff]; omega
    · simp only [hk, if_false, Except.ok.injEq, exists_eq', true_iff]; omega

/-- **C15.** If `TSCKFoldTime(n_splits)` accepts a collection, its folds partition the rows, and in every fold rows with the same time value are on the
same side, whatever series they belong to. -/
theorem C15_kfold_time {c : List (Row τ V)} (hc : c ≠ []) (hv : Valid c) {k : Nat} {fs : List (List Nat × List Nat)}
    (h : kfoldTime c k = .ok fs) :
    IsKFold c.length k fs ∧
      ∀ f ∈ fs, ∀ a b (ha : a < c.length) (hb : b < c.length), c[a].time = c[b].time → ((a ∈ f.2 ↔ b ∈ f.2) ∧ (a ∈ f.1 ↔ b ∈ f.1)) := by
  unfold kfoldTime at h
  by_cases hst : isSameTimeValues c = true
  swap
  · simp [hst] at h
  have hsame := (C10_same_time_values hc hv).1 hst
  simp only [hst, Bool.not_true, Bool.false_eq_true, if_false] at h
  match hn : nTimesteps c with
  | .per l => rw [hn] at h; simp at h
  | .one len =>
    rw [hn] at h
    simp only at h
    obtain ⟨hpos, hlen, hrow⟩ := row_block hc hv hn
    have hml : (colMajor len (nTimeseries c)).length = len := by simp [colMajor]
    rw [hml] at h
    match hk : kfold len k (List.range len) with
    | .error e => rw [hk] at h; simp at h
    | .ok gs =>
      rw [hk] at h
      simp only [Except.ok.injEq] at h
      subst h
      have hg := (kfold_isKFold (List.Perm.refl _) hk).2.2
      constructor
      · apply isKFold_pick hg
        · rw [hlen]
          have : (List.range len).flatMap (fun r => (colMajor len (nTimeseries c)).getD r []) =
              (List.range len).flatMap (fun j => (List.range (nTimeseries c)).map (fun i => i * len + j)) := by
            rw [List.flatMap_def, List.flatMap_def]
            congr 1
            apply List.map_congr_left
            intro r hr
            exact colMajor_getD _ _ _ (List.mem_range.1 hr)
          rw [this]
          exact colMajor_flat len _ hpos
        · intro r hr
          rw [colMajor_getD _ _ _ hr]
          have : nTimeseries c ≠ 0 := by
            intro e; rw [nTimeseries, List.length_eq_zero_iff] at e; exact ids_ne_nil hc e
          simpa using this
      · intro f hf a b ha hb hab
        obtain ⟨g, hg', rfl⟩ := List.mem_map.1 hf
        have hlt : ∀ x ∈ g.1 ++ g.2, x < len := fun x hx => List.mem_range.1 ((hg.complement g hg').mem_iff.1 hx)
        have key : a % len = b % len := by
          obtain ⟨i, hi, hi'⟩ := hrow a ha
          obtain ⟨j, hj, hj'⟩ := hrow b hb
          have m1 := List.mem_of_getElem? hi'
          have m2 := List.mem_of_getElem? hj'
          have hid : HasId c i := ⟨c[a], (mem_series.1 m1).1, (mem_series.1 m1).2⟩
          have hjd : HasId c j := ⟨c[b], (mem_series.1 m2).1, (mem_series.1 m2).2⟩
          have hs := hsame i j hid hjd
          have e1 : ((content c i).map (·.1))[a % len]? = some c[a].time := by simp [content, hi']
          have e2 : ((content c i).map (·.1))[b % len]? = some c[b].time := by rw [hs]; simp [content, hj']
          have hnd : ((content c i).map (·.1)).Nodup := by
            have := hv.series_sorted i
            simp only [content, List.map_map]
            rw [List.nodup_iff_pairwise_ne, List.pairwise_map]
            exact this.imp (fun h => ne_of_lt h)
          obtain ⟨h1, h1'⟩ := List.getElem?_eq_some_iff.1 e1
          obtain ⟨h2, h2'⟩ := List.getElem?_eq_some_iff.1 e2
          exact (List.Nodup.getElem_inj_iff hnd).1 (by rw [h1', h2', hab])
        have hmem : ∀ rows : List Nat, (∀ x ∈ rows, x < len) → ∀ x < c.length, x ∈ pickRows (colMajor len (nTimeseries c)) rows ↔ x % len ∈ rows := by
          intro rows hr x hx0
          rw [mem_pickRows]
          constructor
          · rintro ⟨r, hr1, hr2⟩
            rw [colMajor_getD _ _ _ (hr r hr1)] at hr2
            obtain ⟨j, hj, rfl⟩ := List.mem_map.1 hr2
            have : (j * len + r) % len = r := Nat.mul_add_mod_of_lt (hr r hr1)
            rwa [this]
          · intro hx
            refine ⟨x % len, hx, ?_⟩
            rw [colMajor_getD _ _ _ (hr _ hx)]
            refine List.mem_map.2 ⟨x / len, List.mem_range.2 ?_, Nat.div_add_mod' x len⟩
            rw [Nat.div_lt_iff_lt_mul hpos, ← hlen]; exact hx0
        constructor
        · rw [hmem _ (fun x hx => hlt x (by simp [hx])) a ha, hmem _ (fun x hx => hlt x (by simp [hx])) b hb, key]
        · rw [hmem _ (fun x hx => hlt x (by simp [hx])) a ha, hmem _ (fun x hx => hlt x (by simp [hx])) b hb, key]

/-- **C15 (acceptance).** Accepted iff all series have the same time values and there are at least `n_splits ≥ 2` of them. -/
theorem C15_accepts {c : List (Row τ V)} (hc : c ≠ []) (hv : Valid c) (k : Nat) :
    (∃ fs, kfoldTime c k = .ok fs) ↔
      (∀ i j, HasId c i → HasId c j → (content c i).map (·.1) = (content c j).map (·.1)) ∧ 2 ≤ k ∧
        ∀ i, HasId c i → k ≤ (series c i).length := by
  rw [← C10_same_time_values hc hv]
  unfold kfoldTime
  by_cases hst : isSameTimeValues c = true
  swap
  · simp [hst]
  have hsame := (C10_same_time_values hc hv).1 hst
  obtain ⟨i0, t, hi⟩ := List.ne_nil_iff_exists_cons.1 (ids_ne_nil hc)
  have hm : i0 ∈ ids c := by rw [hi]; simp
  have hn : nTimesteps c = .one (series c i0).length := by
    rw [nTimesteps_one hc]
    intro j hj
    have := congrArg List.length (hsame j i0 (mem_ids.1 hj) (mem_ids.1 hm))
    simpa [content] using this
  have hall := (nTimesteps_one hc _).1 hn
  rw [hn]
  have hml : (colMajor (series c i0).length (nTimeseries c)).length = (series c i0).length := by simp [colMajor]
  simp only [hst, Bool.not_true, Bool.false_eq_true, if_false, hml, true_and]
  unfold kfold
  by_cases hk : k < 2 ∨ (series c i0).length < k
  · simp only [hk, if_true, reduceCtorEq, exists_false, false_iff, not_and]
    intro h2 h
    have := h i0 (mem_ids.1 hm); omega
  · simp only [hk, if_false, Except.ok.injEq, exists_eq', true_iff]
    refine ⟨by omega, ?_⟩
    intro i hi
    rw [hall i (mem_ids.2 hi)]; omega

/-- non-vacuity: three series (unsorted IDs) of two samples -/
def foldExample : List (Row Int Unit) := [⟨5, 0, ()⟩, ⟨5, 1, ()⟩, ⟨1, 0, ()⟩, ⟨1, 1, ()⟩, ⟨3, 0, ()⟩, ⟨3, 1, ()⟩]

theorem foldExample_valid : Valid foldExample := by
  rw [valid_iff]; constructor
  · decide
  · unfold Before; decide

example : ∃ fs, kfoldSeries foldExample 2 [2, 0, 1] = .ok fs :=
  (C14_accepts (by decide) _ _).2 ⟨by
    have : nTimesteps foldExample = .one 2 := by decide
    have h := (nTimesteps_one (c := foldExample) (by decide) 2).1 this
    intro i j hi hj; rw [h i (mem_ids.2 hi), h j (mem_ids.2 hj)], by decide, by decide⟩

example : isSameTimeValues foldExample = true ∧ nTimesteps foldExample = .one 2 := by decide

end Verif.Tsc
