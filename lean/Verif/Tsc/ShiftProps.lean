import Verif.Tsc.ShiftLemmas
/-!
# C03, C04: shift matrices
-/

namespace Verif.Tsc

open Verif.Np

variable {τ V : Type} [LinearOrder τ]

/-! ### Lemmas -/

theorem shiftRows_blocks {c : List (Row τ V)} (hc : c ≠ []) (hv : Valid c) (hs : IdsAscending c ∨ EqualLengths c) :
    shiftRows c = (((newIds (c.map (·.id))).map (fun i => (series c i).map (·.val))).flatMap List.dropLast,
      ((newIds (c.map (·.id))).map (fun i => (series c i).map (·.val))).flatMap List.tail) := by
  set bs := (newIds (c.map (·.id))).map (fun i => (series c i).map (·.val)) with hbs
  have hvals : c.map (·.val) = bs.flatten := by
    conv => lhs; rw [← hv.eq_flatMap]
    rw [List.map_flatMap, hbs]; rfl
  have hne : ∀ b ∈ bs, b ≠ [] := by
    intro b hb
    obtain ⟨i, hi, rfl⟩ := List.mem_map.1 hb
    rw [mem_newIds] at hi
    simpa using series_ne_nil.2 hi
  unfold shiftRows
  simp only [hvals]
  split
  · rename_i h1
    have hl : (newIds (c.map (·.id))).length = 1 := by rw [(newIds_perm_ids hv.nodup).length_eq]; exact h1
    obtain ⟨i, hn⟩ := List.length_eq_one_iff.1 hl
    rw [hbs, hn]; simp
  · match h : nTimesteps c with
    | .one k =>
      have hk := (nTimesteps_one hc k).1 h
      have hb : ∀ b ∈ bs, b.length = k := by
        intro b hb
        obtain ⟨i, hi, rfl⟩ := List.mem_map.1 hb
        rw [mem_newIds] at hi
        rw [List.length_map]; exact hk i (mem_ids'.2 hi)
      have hkpos : 0 < k := by
        obtain ⟨i0, t, hi⟩ := List.ne_nil_iff_exists_cons.1 (ids_ne_nil hc)
        have hm : i0 ∈ ids c := by rw [hi]; simp
        rw [← hk i0 hm, List.length_pos_iff]
        exact series_ne_nil.2 (mem_ids'.1 hm)
      dsimp only
      split
      · subst k
        rw [(npStep_two bs hb).1, (npStep_two bs hb).2]
      · rw [(npDelete_equal bs k hkpos hb).1, (npDelete_equal bs k hkpos hb).2]
    | .per l =>
      have hl := nTimesteps_per h
      have hlen : l.map (·.2) = bs.map List.length := by
        rcases hs with hs | hs
        · rw [hl, hbs, newIds_eq_ids hs]; simp
        · exfalso
          obtain ⟨i0, t, hi⟩ := List.ne_nil_iff_exists_cons.1 (ids_ne_nil hc)
          have hm : i0 ∈ ids c := by rw [hi]; simp
          have := (nTimesteps_one hc (series c i0).length).2
            (fun i hi => hs i i0 (mem_ids.1 hi) (mem_ids.1 hm))
          rw [h] at this; simp at this
      dsimp only
      rw [hlen, (npDelete_unequal bs hne).1, (npDelete_unequal bs hne).2]

/-- `snapshotPairs` collects exactly the consecutive samples of each series: for each ID, the pairs of that series in time order. -/
theorem snapshotPairs_eq {c : List (Row τ V)} (hv : Valid c) :
    snapshotPairs c = (newIds (c.map (·.id))).flatMap (fun i => consecutive ((content c i).map (·.2))) := by
  conv => lhs; rw [← hv.eq_flatMap]
  rw [snapshotPairs_flatMap hv.nodup _ (fun i _ r hr => (mem_series.1 hr).2)]
  simp [content, List.flatMap_map, Function.comp_def]

/-! ### Property theorems -/

/-- **C03 (partial).** For a collection whose series have at least two samples, if the IDs ascend along the index *or* all
series are equally long, `shift_matrices` returns two equally long lists whose pairs are exactly the consecutive samples
inside a time series, in index order.  Missing for the full property: unsorted IDs with unequal lengths, where the
code mixes series (`C03_violated`). -/
theorem C03_shift_matrices_partial {c : List (Row τ V)} (hc : c ≠ []) (hv : Valid c)
    (h2 : ∀ i, HasId c i → 2 ≤ (series c i).length) (hs : IdsAscending c ∨ EqualLengths c) :
    ∃ L R, shiftMatrices c = .ok (L, R) ∧ L.length = R.length ∧ L.zip R = snapshotPairs c := by
  have hmin : checkMinTimesteps c 2 = true := (checkMinTimesteps_iff hc 2).2 (fun i hi => by exact_mod_cast h2 i hi)
  refine ⟨(shiftRows c).1, (shiftRows c).2, by simp [shiftMatrices, hmin], ?_, ?_⟩
  · rw [shiftRows_blocks hc hv hs]; exact flatMap_length_eq _
  · rw [shiftRows_blocks hc hv hs]
    rw [zip_flatMap, snapshotPairs_eq hv]
    simp [content, List.flatMap_map, Function.comp_def]

/-- **C03 (rejection).** A collection with a series of fewer than two samples is rejected. -/
theorem C03_rejects {c : List (Row τ V)} (hc : c ≠ []) {i : Nat} (hi : HasId c i) (h : (series c i).length < 2) :
    shiftMatrices c = .error .minTimesteps := by
  have : checkMinTimesteps c 2 ≠ true := by
    rw [Ne, checkMinTimesteps_iff hc]
    intro h'; have := h' i hi; omega
  simp [shiftMatrices, this]

/-- Two series, ID 1 (three samples) stored before ID 0 (two samples). -/
def shiftWitness : List (Row Nat Nat) := [⟨1, 0, 10⟩, ⟨1, 1, 11⟩, ⟨1, 2, 12⟩, ⟨0, 0, 20⟩, ⟨0, 1, 21⟩]

/-- **C03 is violated** by a valid collection with descending IDs and different lengths: the returned snapshot pairs are not the
pairs of consecutive samples (the pair (11, 12) of series 1 is missing and 12 is paired with the start of series 0). -/
theorem C03_violated : ∃ (c : List (Row Nat Nat)) (L R : List Nat), Valid c ∧ (∀ i, HasId c i → 2 ≤ (series c i).length) ∧
    shiftMatrices c = .ok (L, R) ∧ ¬ (L.zip R).Perm (snapshotPairs c) := by
  refine ⟨shiftWitness, [10, 12, 20], [11, 20, 21], ?_, ?_, by decide, by decide⟩
  · rw [valid_iff]; constructor
    · decide
    · unfold Before; decide
  · rintro i ⟨r, hr, rfl⟩
    revert r; decide

/-- non-vacuity: three series with IDs 4, 7, 9 of lengths 3, 2, 4 -/
example : ∃ c : List (Row Nat Nat), Valid c ∧ IdsAscending c ∧ ¬ EqualLengths c ∧ (∀ i, HasId c i → 2 ≤ (series c i).length) ∧
    shiftMatrices c = .ok ([1, 2, 4, 6, 7, 8], [2, 3, 5, 7, 8, 9]) := by
  refine ⟨[⟨4, 0, 1⟩, ⟨4, 1, 2⟩, ⟨4, 2, 3⟩, ⟨7, 0, 4⟩, ⟨7, 1, 5⟩, ⟨9, 1, 6⟩, ⟨9, 2, 7⟩, ⟨9, 3, 8⟩, ⟨9, 4, 9⟩], ?_, ?_, ?_, ?_, by decide⟩
  · rw [valid_iff]; constructor
    · decide
    · unfold Before; decide
  · unfold IdsAscending; decide
  · intro h
    have := h 4 7 ⟨⟨4, 0, 1⟩, by simp, rfl⟩ ⟨⟨7, 0, 4⟩, by simp, rfl⟩
    revert this; decide
  · rintro i ⟨r, hr, rfl⟩
    revert r; decide

/-! ### C04 round trip -/

/-- the rows written by `from_shift_matrices` -/
theorem shift_rows_eq (L R : List V) (t0 t1 : τ) :
    ((L.zip R).zipIdx.flatMap (fun p => [(⟨p.2, t0, p.1.1⟩ : Row τ V), ⟨p.2, t1, p.1.2⟩])) =
      (List.range (L.zip R).length).flatMap (fun i => ((L.zip R)[i]?.toList).flatMap (fun p => [⟨i, t0, p.1⟩, ⟨i, t1, p.2⟩])) := by
  generalize L.zip R = l
  have key : ∀ (l : List (V × V)) (o : Nat), (l.zipIdx o).flatMap (fun p => [(⟨p.2, t0, p.1.1⟩ : Row τ V), ⟨p.2, t1, p.1.2⟩]) =
      (List.range l.length).flatMap (fun i => (l[i]?.toList).flatMap (fun p => [⟨o + i, t0, p.1⟩, ⟨o + i, t1, p.2⟩])) := by
    intro l
    induction l with
    | nil => intro o; rfl
    | cons a l ih =>
      intro o
      rw [List.zipIdx_cons, List.flatMap_cons, ih, List.length_cons, List.range_succ_eq_map, List.flatMap_cons, List.flatMap_map]
      simp only [List.getElem?_cons_zero, List.getElem?_cons_succ, Option.toList_some, List.flatMap_cons, List.flatMap_nil,
        List.append_nil, Nat.add_zero]
      congr 1
      apply List.flatMap_congr
      intro i _
      apply List.flatMap_congr
      intro p _
      simp only [Nat.succ_eq_add_one, List.cons.injEq, Row.mk.injEq, and_true, true_and]
      omega
  have := key l 0
  simpa using this

/-- **C04.** For two snapshot lists of the same non-zero length and two increasing time values, `from_shift_matrices` succeeds, stores a
valid collection in which series `i` goes from the `i`-th left to the `i`-th right snapshot, and `shift_matrices` recovers the two lists. -/
theorem C04_round_trip (L R : List V) (t0 t1 : τ) (h : L.length = R.length) (hpos : L ≠ []) (ht : t0 < t1) :
    ∃ c, fromShiftMatrices L R t0 t1 = .ok c ∧ Valid c ∧ shiftMatrices c = .ok (L, R) ∧ (∀ i, HasId c i ↔ i < L.length) ∧
      ∀ i (hi : i < L.length), content c i = [(t0, L[i]), (t1, R[i])] := by
  set z := L.zip R with hz
  have hzl : z.length = L.length := by simp [hz, h]
  set f : Nat → List (Row τ V) := fun i => (z[i]?.toList).flatMap (fun p => [⟨i, t0, p.1⟩, ⟨i, t1, p.2⟩]) with hf
  set c := (List.range z.length).flatMap f with hcdef
  have hfi : ∀ i (hi : i < z.length), f i = [⟨i, t0, z[i].1⟩, ⟨i, t1, z[i].2⟩] := by
    intro i hi; simp [hf, hi]
  have hid : ∀ i ∈ List.range z.length, ∀ r ∈ f i, r.id = i := by
    intro i hi r hr
    rw [hfi i (List.mem_range.1 hi)] at hr
    simp at hr; rcases hr with rfl | rfl <;> rfl
  have hne : ∀ i ∈ List.range z.length, f i ≠ [] := by
    intro i hi; rw [hfi i (List.mem_range.1 hi)]; simp
  have hv : Valid c := valid_flatMap List.nodup_range f hid (by
    intro i hi; rw [hfi i (List.mem_range.1 hi)]; simpa using ht)
  have hser : ∀ i < z.length, series c i = f i := by
    intro i hi
    rw [hcdef, series_flatMap List.nodup_range f hid]; simp [hi]
  have hnew : newIds (c.map (·.id)) = List.range z.length := newIds_flatMap List.nodup_range f hid hne
  have hlen : 0 < z.length := by rw [hzl]; exact List.length_pos_iff.2 hpos
  have hc : c ≠ [] := by
    intro e
    have := congrArg List.length hnew
    rw [e] at this; simp [newIds] at this; omega
  have hhas : ∀ i, HasId c i → i < z.length := by
    rintro i ⟨r, hr, rfl⟩
    have : r.id ∈ newIds (c.map (·.id)) := (mem_newIds _ _).2 (List.mem_map_of_mem hr)
    rw [hnew] at this; simpa using this
  refine ⟨c, ?_, hv, ?_, ?_, ?_⟩
  rotate_left 2
  · intro i
    refine ⟨fun hi => hzl ▸ hhas i hi, fun hi => ?_⟩
    have hi' : i < z.length := by omega
    exact ⟨⟨i, t0, z[i].1⟩, (mem_series.1 (show (⟨i, t0, z[i].1⟩ : Row τ V) ∈ series c i by rw [hser i hi', hfi i hi']; simp)).1, rfl⟩
  · intro i hi
    have hi' : i < z.length := by omega
    have e : z[i] = (L[i], R[i]) := by simp [hz]
    rw [content, hser i hi', hfi i hi', e]
    rfl
  · simp only [fromShiftMatrices, h, ne_eq, not_true_eq_false, if_false]
    rw [shift_rows_eq, build, construct_ok_of_valid hv hc]
  · have hmin : checkMinTimesteps c 2 = true := (checkMinTimesteps_iff hc 2).2 (by
      intro i hi; rw [hser i (hhas i hi), hfi i (hhas i hi)]; simp)
    have hasc : IdsAscending c := by
      unfold IdsAscending
      rw [hcdef, List.map_flatMap, List.pairwise_flatMap]
      constructor
      · intro i hi; rw [hfi i (List.mem_range.1 hi)]; simp
      · refine List.pairwise_lt_range.imp_of_mem ?_
        intro i j hi hj hij x hx y hy
        rw [hfi i (List.mem_range.1 hi)] at hx; rw [hfi j (List.mem_range.1 hj)] at hy
        simp at hx hy; omega
    have hblocks := shiftRows_blocks hc hv (Or.inl hasc)
    simp only [shiftMatrices, hmin]
    simp only [Bool.not_true, Bool.false_eq_true, if_false, Except.ok.injEq]
    rw [hblocks, hnew]
    have e1 : (List.range z.length).map (fun i => (series c i).map (·.val)) = z.map (fun p => [p.1, p.2]) := by
      apply List.ext_getElem
      · simp
      · intro i h1 h2
        simp at h1
        simp [hser i h1, hfi i h1]
    rw [e1]
    have e2 : ∀ l : List (V × V), ((l.map (fun p => [p.1, p.2])).flatMap List.dropLast, (l.map (fun p => [p.1, p.2])).flatMap List.tail) =
        (l.map (·.1), l.map (·.2)) := by
      intro l; induction l with
      | nil => rfl
      | cons a l ih => simp only [Prod.mk.injEq] at ih; simp [ih.1, ih.2]
    rw [e2, hz, List.map_fst_zip (by omega), List.map_snd_zip (by omega)]

/-- **C04 (rejection).** Different numbers of snapshots or non-increasing time values (with at least one snapshot) are rejected. -/
theorem C04_rejects (L R : List V) (t0 t1 : τ) (h : L.length ≠ R.length ∨ (L ≠ [] ∧ t1 ≤ t0)) :
    ∃ e, fromShiftMatrices L R t0 t1 = .error e := by
  unfold fromShiftMatrices
  by_cases hl : L.length = R.length
  · simp only [hl, ne_eq, not_true_eq_false, if_false]
    unfold build
    split
    · rename_i c' hc
      exfalso
      obtain ⟨he, hne, hv⟩ := (construct_ok_iff _ _).1 hc
      obtain ⟨hL, ht⟩ := h.resolve_left (by omega)
      match L, R, hL, hl with
      | a :: L, b :: R, _, _ =>
        have hp := ((valid_iff _).1 hv).2
        simp [Before] at hp
        exact absurd hp.1.1 (not_lt.2 ht)
    · exact ⟨_, rfl⟩
  · simp [hl]

example : fromShiftMatrices [1, 2, 3] [4, 5, 6] 0 5 =
    .ok [(⟨0, 0, 1⟩ : Row Nat Nat), ⟨0, 5, 4⟩, ⟨1, 0, 2⟩, ⟨1, 5, 5⟩, ⟨2, 0, 3⟩, ⟨2, 5, 6⟩] := by decide

end Verif.Tsc
