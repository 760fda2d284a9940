import Verif.Tsc.CollLemmas
/-!
# C02, C05, C08, C09, C10: construction, insertion, renumbering and description of collections
-/

namespace Verif.Tsc

open Verif.Np

variable {τ V : Type} [LinearOrder τ]

/-! ## C09 -/

/-- **C09.** `ids`, `n_timeseries`, `n_timesteps`, `time_values` describe the stored rows. -/
theorem C09_description {c : List (Row τ V)} (hc : c ≠ []) (hv : Valid c) :
    -- ids: strictly increasing, exactly the occurring IDs; n_timeseries counts them
    (ids c).Pairwise (· < ·) ∧ (∀ i, i ∈ ids c ↔ HasId c i) ∧ nTimeseries c = (ids c).length ∧
    -- n_timesteps: one number iff all series have this length, else one entry per ID with the length of the series
    (∀ k, nTimesteps c = .one k ↔ ∀ i, HasId c i → (series c i).length = k) ∧
    (∀ l, nTimesteps c = .per l → l = (ids c).map (fun i => (i, (series c i).length))) ∧
    -- the lengths add up to the number of rows
    ((ids c).map (fun i => (series c i).length)).sum = c.length ∧
    -- time_values: strictly increasing, exactly the occurring time values
    (timeValues c).Pairwise (· < ·) ∧ (∀ t, t ∈ timeValues c ↔ ∃ r ∈ c, r.time = t) := by
  refine ⟨ids_sorted c, fun i => mem_ids, rfl, ?_, fun l h => nTimesteps_per h, ?_, unique_pairwise _, ?_⟩
  · intro k
    rw [nTimesteps_one hc]
    exact ⟨fun h i hi => h i (mem_ids.2 hi), fun h i hi => h i (mem_ids.1 hi)⟩
  · have hp := (newIds_perm_ids hv.nodup).map (fun i => (series c i).length)
    rw [← hp.sum_nat]
    conv => rhs; rw [← hv.eq_flatMap]
    rw [List.length_flatMap]
  · intro t; simp [timeValues, mem_unique]

example : nTimesteps ([⟨3, 0, 1⟩, ⟨3, 1, 2⟩, ⟨1, 5, 4⟩] : List (Row Nat Nat)) = .per [(1, 1), (3, 2)] := by decide

/-- **C09 (degenerate series).** `degenerate_ids` lists exactly the IDs of series with a single sample, `None` if there is none. -/
theorem C09_degenerate {c : List (Row τ V)} (hc : c ≠ []) :
    (∀ l, degenerateIds c = some l → ∀ i, i ∈ l ↔ HasId c i ∧ (series c i).length = 1) ∧
    (degenerateIds c = none ↔ ∀ i, HasId c i → (series c i).length ≠ 1) := by
  unfold degenerateIds
  match h : nTimesteps c with
  | .one k =>
    have hk := (nTimesteps_one hc k).1 h
    obtain ⟨i0, t, hi⟩ := List.ne_nil_iff_exists_cons.1 (ids_ne_nil hc)
    have hm : i0 ∈ ids c := by rw [hi]; simp
    by_cases h1 : k = 1
    · subst h1
      simp only [if_true, Option.some.injEq, reduceCtorEq, false_iff]
      refine ⟨?_, ?_⟩
      · rintro l rfl i
        rw [mem_ids]
        exact ⟨fun hh => ⟨hh, hk i (mem_ids.2 hh)⟩, fun hh => hh.1⟩
      · intro hh; exact hh i0 (mem_ids.1 hm) (hk i0 hm)
    · simp only [h1, if_false, reduceCtorEq, false_implies, implies_true, true_and, true_iff]
      intro i hh; rw [hk i (mem_ids.2 hh)]; exact h1
  | .per l =>
    have hl := nTimesteps_per h
    have hmem : ∀ i, i ∈ (l.filter (fun p => p.2 == 1)).map (·.1) ↔ HasId c i ∧ (series c i).length = 1 := by
      intro i
      rw [hl]
      simp [mem_ids]
    dsimp only
    by_cases he : ((l.filter (fun p => p.2 == 1)).map (·.1)).isEmpty
    · rw [if_pos he]
      simp only [reduceCtorEq, false_implies, implies_true, true_and, true_iff]
      intro i hi h1
      have := (hmem i).2 ⟨hi, h1⟩
      rw [List.isEmpty_iff] at he
      rw [he] at this; simp at this
    · rw [if_neg he]
      simp only [Option.some.injEq, reduceCtorEq, false_iff]
      refine ⟨?_, ?_⟩
      · rintro l' rfl i; exact hmem i
      · intro hh
        rw [List.isEmpty_iff] at he
        obtain ⟨i, t, ht⟩ := List.ne_nil_iff_exists_cons.1 he
        have := (hmem i).1 (by rw [ht]; simp)
        exact hh i this.1 this.2

/-! ## C10 -/

theorem times_sorted {c : List (Row τ V)} (hv : Valid c) (i : Nat) : ((content c i).map (·.1)).Pairwise (· < ·) := by
  have := hv.series_sorted i
  simp only [content, List.map_map, List.pairwise_map]
  exact this

/-- **C10.** `is_same_time_values` is true iff all series have the same list of time values. -/
theorem C10_same_time_values {c : List (Row τ V)} (hc : c ≠ []) (hv : Valid c) :
    isSameTimeValues c = true ↔
      ∀ i j, HasId c i → HasId c j → (content c i).map (·.1) = (content c j).map (·.1) := by
  have hsub : ∀ i, ∀ t ∈ (content c i).map (·.1), t ∈ timeValues c := by
    intro i t ht
    simp only [content, List.map_map, List.mem_map] at ht
    obtain ⟨r, hr, rfl⟩ := ht
    rw [timeValues, mem_unique]
    exact List.mem_map.2 ⟨r, (mem_series.1 hr).1, rfl⟩
  have hlen : ∀ i, ((content c i).map (·.1)).length = (series c i).length := by intro i; simp [content]
  unfold isSameTimeValues
  split
  · rename_i h1
    simp only [true_iff]
    intro i j hi hj
    obtain ⟨a, ha⟩ := List.length_eq_one_iff.1 h1
    have hi := mem_ids.2 hi; have hj := mem_ids.2 hj
    rw [ha] at hi hj; simp at hi hj; rw [hi, hj]
  · match h : nTimesteps c with
    | .per l =>
      simp only [Bool.false_eq_true, false_iff]
      intro hh
      obtain ⟨i0, t, hi⟩ := List.ne_nil_iff_exists_cons.1 (ids_ne_nil hc)
      have hm : i0 ∈ ids c := by rw [hi]; simp
      have := (nTimesteps_one hc (series c i0).length).2 (by
        intro i hi
        rw [← hlen, ← hlen, hh i i0 (mem_ids.1 hi) (mem_ids.1 hm)])
      rw [h] at this; simp at this
    | .one n =>
      have hn := (nTimesteps_one hc n).1 h
      simp only [beq_iff_eq]
      constructor
      · intro heq
        have key : ∀ i, HasId c i → (content c i).map (·.1) = timeValues c := by
          intro i hi
          have hl : ((content c i).map (·.1)).length = (timeValues c).length := by
            rw [hlen, hn i (mem_ids.2 hi), heq]
          have hsp := List.subperm_of_subset ((times_sorted hv i).imp (fun h => ne_of_lt h)) (hsub i)
          have hp := hsp.perm_of_length_le (by omega)
          exact eq_of_pairwise_lt (times_sorted hv i) (unique_pairwise _) (fun a => hp.mem_iff)
        intro i j hi hj
        rw [key i hi, key j hj]
      · intro hh
        obtain ⟨i0, t, hi⟩ := List.ne_nil_iff_exists_cons.1 (ids_ne_nil hc)
        have hm : i0 ∈ ids c := by rw [hi]; simp
        have : timeValues c = (content c i0).map (·.1) := by
          apply eq_of_pairwise_lt (unique_pairwise _) (times_sorted hv i0)
          intro a
          refine ⟨?_, hsub i0 a⟩
          intro ha
          rw [mem_unique] at ha
          obtain ⟨r, hr, rfl⟩ := List.mem_map.1 ha
          rw [hh i0 r.id (mem_ids.1 hm) ⟨r, hr, rfl⟩]
          simp only [content, List.map_map, List.mem_map]
          exact ⟨r, mem_series.2 ⟨hr, rfl⟩, rfl⟩
        rw [this, hlen, hn i0 hm]

example : isSameTimeValues ([⟨3, 0, 1⟩, ⟨3, 1, 2⟩, ⟨1, 0, 4⟩, ⟨1, 1, 4⟩] : List (Row Nat Nat)) = true := by decide
example : isSameTimeValues ([⟨3, 0, 1⟩, ⟨3, 1, 2⟩, ⟨1, 0, 4⟩, ⟨1, 2, 4⟩] : List (Row Nat Nat)) = false := by decide

/-! ## C08 -/

theorem idxOf_lt_idxOf {l : List Nat} (h : l.Pairwise (· < ·)) {a b : Nat} (ha : a ∈ l) (hb : b ∈ l) :
    l.idxOf a < l.idxOf b ↔ a < b := by
  have hia := List.idxOf_lt_length_of_mem ha
  have hib := List.idxOf_lt_length_of_mem hb
  have ga : l[l.idxOf a] = a := List.getElem_idxOf hia
  have gb : l[l.idxOf b] = b := List.getElem_idxOf hib
  have hp := List.pairwise_iff_getElem.1 h
  constructor
  · intro hlt; have := hp _ _ hia hib hlt; rwa [ga, gb] at this
  · intro hlt
    by_contra hge
    rcases Nat.lt_or_ge (l.idxOf b) (l.idxOf a) with h1 | h1
    · have := hp _ _ hib hia h1; rw [ga, gb] at this; omega
    · have he : l.idxOf a = l.idxOf b := by omega
      have : a = b := by rw [← ga, ← gb]; simp [he]
      omega

theorem newIds_map_on {α β : Type} [DecidableEq α] [DecidableEq β] (f : α → β) (l : List α)
    (hf : ∀ a ∈ l, ∀ b ∈ l, f a = f b → a = b) : newIds (l.map f) = (newIds l).map f := by
  fun_induction newIds l with
  | case1 => rfl
  | case2 => rfl
  | case3 b l ih => simpa [newIds] using ih (fun x hx y hy => hf x (by simp_all) y (by simp_all))
  | case4 a b l h ih =>
    have : f a ≠ f b := fun e => h (hf a (by simp) b (by simp) e)
    have ih := ih (fun x hx y hy => hf x (List.mem_cons_of_mem _ hx) y (List.mem_cons_of_mem _ hy))
    simp only [List.map_cons] at ih
    simp [newIds, this, ih]

/-- Renaming the IDs by a function that is injective on them keeps validity and moves every series. -/
theorem rename_valid {c : List (Row τ V)} (hv : Valid c) (f : Nat → Nat) (hf : ∀ i j, HasId c i → HasId c j → f i = f j → i = j) :
    Valid (c.map (fun r => { r with id := f r.id })) ∧
    ∀ i, HasId c i → content (c.map (fun r => { r with id := f r.id })) (f i) = content c i := by
  have hf' : ∀ a ∈ c.map (·.id), ∀ b ∈ c.map (·.id), f a = f b → a = b := by
    intro a ha b hb
    exact hf a b (List.mem_map.1 ha) (List.mem_map.1 hb)
  constructor
  · rw [valid_iff]
    have hv' := (valid_iff c).1 hv
    constructor
    · have : (c.map (fun r => ({ r with id := f r.id } : Row τ V))).map (·.id) = (c.map (·.id)).map f := by simp [Function.comp_def]
      rw [this, newIds_map_on f _ hf']
      apply List.Nodup.map_on _ hv'.1
      intro a ha b hb
      exact hf' a ((mem_newIds _ _).1 ha) b ((mem_newIds _ _).1 hb)
    · rw [List.pairwise_map]
      refine hv'.2.imp_of_mem ?_
      intro a b ha hb hab hid
      exact hab (hf' _ (List.mem_map_of_mem ha) _ (List.mem_map_of_mem hb) hid)
  · intro i hi
    have hgen : ∀ d : List (Row τ V), (∀ r ∈ d, HasId c r.id) →
        content (d.map (fun r => ({ r with id := f r.id } : Row τ V))) (f i) = content d i := by
      intro d
      induction d with
      | nil => intro _; rfl
      | cons r d ih =>
        intro hd
        have ih := ih (fun x hx => hd x (List.mem_cons_of_mem _ hx))
        simp only [content] at ih ⊢
        by_cases hr : r.id = i
        · subst hr
          have := series_cons_same ({ r with id := f r.id } : Row τ V) (d.map (fun r => ({ r with id := f r.id } : Row τ V)))
          simp only at this
          rw [List.map_cons, this, List.map_cons, ih, series_cons_same, List.map_cons]
        · have hne : f r.id ≠ f i := fun e => hr (hf _ _ (hd r (by simp)) hi e)
          rw [List.map_cons, series_cons_ne _ _ hr, series_cons_ne ({ r with id := f r.id } : Row τ V) _ hne, ih]
    exact hgen c (fun r hr => ⟨r, hr, rfl⟩)

/-- **C08.** `assign_ids_sequential` yields a valid collection with IDs `0, ..., n-1`; the series with the `k`-th smallest ID gets ID `k`
and keeps its data; row order, times and values are unchanged; applying it again changes nothing. -/
theorem C08_assign_ids_sequential {c : List (Row τ V)} (hc : c ≠ []) (hv : Valid c) :
    ∃ d, assignIdsSequential c = .ok d ∧ Valid d ∧ ids d = List.range (nTimeseries c) ∧
      (∀ k (hk : k < (ids c).length), content d k = content c (ids c)[k]) ∧
      d.map (fun r => (r.time, r.val)) = c.map (fun r => (r.time, r.val)) ∧
      assignIdsSequential d = .ok d := by
  have hinj : ∀ i j, HasId c i → HasId c j → (ids c).idxOf i = (ids c).idxOf j → i = j := by
    intro i j hi hj h
    have hi' := List.idxOf_lt_length_of_mem (mem_ids.2 hi)
    have hj' := List.idxOf_lt_length_of_mem (mem_ids.2 hj)
    rw [← List.getElem_idxOf hi', ← List.getElem_idxOf hj']
    simp [h]
  obtain ⟨hval, hcont⟩ := rename_valid hv _ hinj
  set d := c.map (fun r => ({ r with id := (ids c).idxOf r.id } : Row τ V)) with hd
  have hne : d ≠ [] := by simpa [hd] using hc
  have hids : ids d = List.range (nTimeseries c) := by
    apply eq_of_pairwise_lt (ids_sorted d) List.pairwise_lt_range
    intro k
    rw [mem_ids, List.mem_range]
    constructor
    · rintro ⟨r, hr, rfl⟩
      obtain ⟨x, hx, rfl⟩ := List.mem_map.1 hr
      exact List.idxOf_lt_length_of_mem (mem_ids.2 ⟨x, hx, rfl⟩)
    · intro hk
      have hk : k < (ids c).length := hk
      obtain ⟨x, hx, hxi⟩ := mem_ids.1 (List.getElem_mem hk)
      refine ⟨_, List.mem_map.2 ⟨x, hx, rfl⟩, ?_⟩
      simp only [hxi]
      exact (unique_nodup _).idxOf_getElem k hk
  have hok : ∀ x : List (Row τ V), Valid x → x ≠ [] → build x = .ok x := fun x h1 h2 => build_ok_of_valid h1 h2
  refine ⟨d, hok d hval hne, hval, hids, ?_, by simp [hd, Function.comp_def], ?_⟩
  · intro k hk
    have := hcont (ids c)[k] (mem_ids.1 (List.getElem_mem hk))
    rw [(ids_nodup c).idxOf_getElem k hk] at this
    exact this
  · have : d.map (fun r => ({ r with id := (ids d).idxOf r.id } : Row τ V)) = d := by
      conv => rhs; rw [← List.map_id d]
      apply List.map_congr_left
      intro r hr
      have hk : r.id < nTimeseries c := by
        have := mem_ids.2 ⟨r, hr, rfl⟩
        rw [hids] at this; simpa using this
      have : (ids d).idxOf r.id = r.id := by
        rw [hids]
        have := List.nodup_range.idxOf_getElem r.id (by simpa using hk : r.id < (List.range (nTimeseries c)).length)
        simpa using this
      simp [this]
    unfold assignIdsSequential
    rw [this]; exact hok d hval hne

example : assignIdsSequential ([⟨30, 0, 1⟩, ⟨30, 1, 2⟩, ⟨10, 5, 4⟩] : List (Row Nat Nat)) =
    .ok [⟨1, 0, 1⟩, ⟨1, 1, 2⟩, ⟨0, 5, 4⟩] := by decide

/-! ## C05 -/

theorem foldl_max_ge (l : List Nat) (a : Nat) : a ≤ l.foldl max a ∧ ∀ x ∈ l, x ≤ l.foldl max a := by
  induction l generalizing a with
  | nil => simp
  | cons y l ih =>
    obtain ⟨h1, h2⟩ := ih (max a y)
    refine ⟨by simp only [List.foldl_cons]; omega, ?_⟩
    intro x hx
    simp only [List.foldl_cons]
    rcases List.mem_cons.1 hx with rfl | hx
    · omega
    · exact h2 x hx

theorem append_block_valid {c : List (Row τ V)} (hv : Valid c) {i : Nat} (hi : ¬ HasId c i) (df : List (τ × V)) :
    Valid (c ++ df.map (fun p => ⟨i, p.1, p.2⟩)) ↔ (df.map (·.1)).Pairwise (· < ·) := by
  have hv' := (valid_iff c).1 hv
  constructor
  · intro h
    have := ((valid_iff _).1 h).2
    rw [List.pairwise_append] at this
    have h2 := this.2.1
    rw [List.pairwise_map] at h2 ⊢
    exact h2.imp (fun h => h rfl)
  · intro h
    by_cases hdf : df = []
    · subst hdf; simpa using hv
    · have hnot : i ∉ newIds (c.map (·.id)) := by
        rw [mem_newIds]; intro hm; exact hi (List.mem_map.1 hm)
      have := valid_flatMap (is := newIds (c.map (·.id)) ++ [i]) (by
          rw [List.nodup_append]; refine ⟨hv'.1, by simp, ?_⟩
          intro a ha b hb; simp at hb; subst hb; rintro rfl; exact hnot ha)
        (fun j => if j = i then df.map (fun p => ⟨i, p.1, p.2⟩) else series c j) (by
          intro j _ r hr
          split at hr
          · rename_i h; subst h; simp at hr; obtain ⟨a, b, _, rfl⟩ := hr; rfl
          · exact series_id hr) (by
          intro j _
          split
          · rw [List.pairwise_map] at h ⊢; exact h
          · exact hv.series_sorted j)
      rw [List.flatMap_append] at this
      have h1 : (newIds (c.map (·.id))).flatMap (fun j => if j = i then df.map (fun p => (⟨i, p.1, p.2⟩ : Row τ V)) else series c j) = c := by
        conv => rhs; rw [← hv.eq_flatMap]
        apply List.flatMap_congr
        intro j hj
        rw [if_neg]; rintro rfl; exact hnot hj
      rw [h1] at this
      simpa using this

/-- **C05 (acceptance).** `insert_ts` succeeds iff the ID is fresh and non-negative (always the case for the default) and the time values
of the frame strictly increase. -/
theorem C05_accepts {c : List (Row τ V)} (hc : c ≠ []) (hv : Valid c) (df : List (τ × V)) (tsId : Option Int) :
    (∃ d, insertTs c df tsId = .ok d) ↔
      (∀ k, tsId = some k → 0 ≤ k ∧ ¬ HasId c k.toNat) ∧ (df.map (·.1)).Pairwise (· < ·) := by
  have hany : ∀ k : Int, ((ids c).any (fun j => (j : Int) == k)) = true ↔ 0 ≤ k ∧ HasId c k.toNat := by
    intro k
    rw [List.any_eq_true]
    constructor
    · rintro ⟨j, hj, he⟩
      have he : (j : Int) = k := by simpa using he
      refine ⟨by omega, ?_⟩
      rw [← he]; simpa using mem_ids.1 hj
    · rintro ⟨h0, h⟩
      exact ⟨k.toNat, mem_ids.2 h, by simp; omega⟩
  have hbuild : ∀ i : Nat, ¬ HasId c i → ((∃ d, build (c ++ df.map (fun p => (⟨i, p.1, p.2⟩ : Row τ V))) = .ok d) ↔
      (df.map (·.1)).Pairwise (· < ·)) := by
    intro i hi
    rw [← append_block_valid hv hi df]
    constructor
    · rintro ⟨d, hd⟩; exact (build_ok_iff.1 hd).2.2
    · intro h; exact ⟨_, build_ok_of_valid h (by simp [hc])⟩
  cases tsId with
  | none =>
    have hfresh : ∀ i, HasId c i → i ≤ (ids c).foldl max 0 := fun i hi => (foldl_max_ge (ids c) 0).2 i (mem_ids.2 hi)
    have hno : ¬ HasId c ((ids c).foldl max 0 + 1) := fun h => by have := hfresh _ h; omega
    have h1 : ¬ (((ids c).any (fun j => (j : Int) == (((ids c).foldl max 0 : Nat) : Int) + 1)) = true) := by
      rw [hany]; rintro ⟨_, h⟩; exact hno h
    have h2 : ¬ ((((ids c).foldl max 0 : Nat) : Int) + 1 < 0) := by omega
    simp only [insertTs]
    rw [if_neg h1, if_neg h2]
    have : ((((ids c).foldl max 0 : Nat) : Int) + 1).toNat = (ids c).foldl max 0 + 1 := by omega
    rw [this, hbuild _ hno]
    simp
  | some k =>
    simp only [insertTs, Option.some.injEq]
    by_cases h1 : ((ids c).any (fun j => (j : Int) == k)) = true
    · rw [if_pos h1]
      have := (hany k).1 h1
      simp only [reduceCtorEq, exists_false, false_iff]
      rintro ⟨h, -⟩
      exact (h k rfl).2 this.2
    · rw [if_neg h1]
      by_cases h2 : k < 0
      · rw [if_pos h2]
        simp only [reduceCtorEq, exists_false, false_iff]
        rintro ⟨h, -⟩
        have := (h k rfl).1; omega
      · rw [if_neg h2]
        have hno : ¬ HasId c k.toNat := fun h => h1 ((hany k).2 ⟨by omega, h⟩)
        rw [hbuild _ hno]
        refine ⟨fun h => ⟨?_, h⟩, fun h => h.2⟩
        rintro k' rfl; exact ⟨by omega, hno⟩

/-- **C05 (one insertion).** After a successful insertion the collection is valid, the new series is readable under a fresh ID (the given
one, or one larger than all present ones), and every other series is unchanged. -/
theorem C05_step {c d : List (Row τ V)} (hv : Valid c) {df : List (τ × V)} {tsId : Option Int}
    (h : insertTs c df tsId = .ok d) :
    Valid d ∧ ∃ i : Nat, ¬ HasId c i ∧ (∀ k, tsId = some k → (i : Int) = k) ∧ (tsId = none → ∀ j, HasId c j → j < i) ∧
      content d i = df ∧ ∀ j, j ≠ i → content d j = content c j := by
  have main : ∀ i : Nat, ¬ HasId c i → build (c ++ df.map (fun p => (⟨i, p.1, p.2⟩ : Row τ V))) = .ok d →
      Valid d ∧ content d i = df ∧ ∀ j, j ≠ i → content d j = content c j := by
    intro i hi hb
    obtain ⟨rfl, -, hvd⟩ := build_ok_iff.1 hb
    refine ⟨hvd, ?_, ?_⟩
    · have h1 : series c i = [] := by rw [← not_ne_iff, ← hasId_iff_series]; exact hi
      rw [content, series_append, h1, series_mk_same]; simp [Function.comp_def]
    · intro j hj
      rw [content, series_append, series_mk_ne (Ne.symm hj), List.append_nil]; rfl
  cases tsId with
  | none =>
    have hfresh : ∀ i, HasId c i → i ≤ (ids c).foldl max 0 := fun i hi => (foldl_max_ge (ids c) 0).2 i (mem_ids.2 hi)
    have hno : ¬ HasId c ((ids c).foldl max 0 + 1) := fun h => by have := hfresh _ h; omega
    simp only [insertTs] at h
    split at h
    · simp at h
    · split at h
      · simp at h
      · have e : ((((ids c).foldl max 0 : Nat) : Int) + 1).toNat = (ids c).foldl max 0 + 1 := by omega
        rw [e] at h
        obtain ⟨h1, h2, h3⟩ := main _ hno h
        exact ⟨h1, _, hno, by simp, fun _ j hj => by have := hfresh j hj; omega, h2, h3⟩
  | some k =>
    simp only [insertTs] at h
    split at h
    · simp at h
    · rename_i hany
      split at h
      · simp at h
      · rename_i hk
        have hno : ¬ HasId c k.toNat := by
          intro hh; apply hany
          rw [List.any_eq_true]; exact ⟨k.toNat, mem_ids.2 hh, by simp; omega⟩
        obtain ⟨h1, h2, h3⟩ := main _ hno h
        exact ⟨h1, k.toNat, hno, by simp; omega, by simp, h2, h3⟩

/-- A history of insertions. -/
def insertAll (c : List (Row τ V)) : List (List (τ × V) × Option Int) → Except TscErr (List (Row τ V))
  | [] => .ok c
  | (df, i) :: ops => match insertTs c df i with
    | .error e => .error e
    | .ok d => insertAll d ops

/-- **C05 (all histories).** After any sequence of successful insertions of non-empty frames the collection is valid, all initially stored series are
unchanged, and there are pairwise distinct fresh IDs under which the inserted frames are readable. -/
theorem C05_history (ops : List (List (τ × V) × Option Int)) {c d : List (Row τ V)} (hv : Valid c)
    (hne : ∀ op ∈ ops, op.1 ≠ []) (h : insertAll c ops = .ok d) :
    Valid d ∧ (∀ j, HasId c j → content d j = content c j) ∧
      ∃ is : List Nat, is.length = ops.length ∧ is.Nodup ∧ (∀ i ∈ is, ¬ HasId c i) ∧ is.map (content d) = ops.map (·.1) := by
  induction ops generalizing c with
  | nil =>
    simp only [insertAll, Except.ok.injEq] at h; subst h
    exact ⟨hv, fun _ _ => rfl, [], rfl, by simp, by simp, rfl⟩
  | cons op ops ih =>
    obtain ⟨df, tid⟩ := op
    simp only [insertAll] at h
    match hs : insertTs c df tid with
    | .error e => rw [hs] at h; simp at h
    | .ok c1 =>
      rw [hs] at h
      simp only at h
      obtain ⟨hv1, i, hi, -, -, hci, hcj⟩ := C05_step hv hs
      obtain ⟨hvd, hkeep, is, hlen, hnd, hfr, hmap⟩ := ih hv1 (fun op hop => hne op (by simp [hop])) h
      have hasi : HasId c1 i := by
        rw [hasId_iff_series, ← List.length_pos_iff]
        have := congrArg List.length hci
        simp only [content, List.length_map] at this
        rw [this, List.length_pos_iff]; exact hne (df, tid) (by simp)
      have hasj : ∀ j, HasId c j → HasId c1 j ∧ j ≠ i := by
        intro j hj
        have hji : j ≠ i := by rintro rfl; exact hi hj
        refine ⟨?_, hji⟩
        rw [hasId_iff_series, ← List.length_pos_iff] at hj ⊢
        have := congrArg List.length (hcj j hji)
        simp only [content, List.length_map] at this
        omega
      refine ⟨hvd, ?_, i :: is, by simp [hlen], ?_, ?_, ?_⟩
      · intro j hj
        rw [hkeep j (hasj j hj).1, hcj j (hasj j hj).2]
      · rw [List.nodup_cons]; exact ⟨fun hm => hfr i hm hasi, hnd⟩
      · intro j hj
        rcases List.mem_cons.1 hj with rfl | hj
        · exact hi
        · intro hh; exact hfr j hj (hasj j hh).1
      · simp only [List.map_cons, hmap, hkeep i hasi, hci]

example : insertAll ([⟨3, 0, 1⟩] : List (Row Nat Nat)) [([(0, 7), (1, 8)], none), ([(5, 9)], some 1)] =
    .ok [⟨3, 0, 1⟩, ⟨4, 0, 7⟩, ⟨4, 1, 8⟩, ⟨1, 5, 9⟩] := by decide

/-! ## C02 -/

theorem tensor_rows (n : Nat) (tensor : List (List V)) (l : List Nat) (times : List τ) (hl : l.length = tensor.length)
    (ht : times.length = n) (hs : ∀ s ∈ tensor, s.length = n) :
    List.zipWith (fun (p : Nat × τ) v => (⟨p.1, p.2, v⟩ : Row τ V))
      ((l.flatMap (fun i => List.replicate n i)).zip (List.replicate tensor.length times).flatten) tensor.flatten =
    (l.zip tensor).flatMap (fun p => (times.zip p.2).map (fun q => ⟨p.1, q.1, q.2⟩)) := by
  induction tensor generalizing l with
  | nil => cases l <;> simp_all
  | cons s tensor ih =>
    match l, hl with
    | i :: l, hl =>
      have hl : l.length = tensor.length := by simpa using hl
      rw [List.flatMap_cons, List.length_cons, List.replicate_succ, List.flatten_cons, List.flatten_cons,
        List.zip_append (by simp [ht]), List.zipWith_append (by simp [ht, hs s (by simp)]), ih l hl (fun s hs' => hs s (by simp [hs'])),
        List.zip_cons_cons, List.flatMap_cons]
      congr 1
      have h1 : ∀ (times : List τ) (s : List V) (n : Nat), times.length = n → s.length = n →
          List.zipWith (fun (p : Nat × τ) v => (⟨p.1, p.2, v⟩ : Row τ V)) ((List.replicate n i).zip times) s =
          (times.zip s).map (fun q => ⟨i, q.1, q.2⟩) := by
        intro times
        induction times with
        | nil => intro s n _ _; simp
        | cons t times ih =>
          intro s n h1 h2
          subst h1
          cases s with
          | nil => simp
          | cons v s => simpa [List.replicate_succ] using ih s _ rfl (by simpa using h2)
      exact h1 times s n ht (hs s (by simp))

theorem keyLe_iff (a b : Row τ V) : keyLe a b = true ↔ a.id < b.id ∨ (a.id = b.id ∧ a.time ≤ b.time) := by
  simp [keyLe]

theorem sorted_valid {rows : List (Row τ V)} (hnd : (rows.map (·.key)).Nodup) : Valid (rows.mergeSort keyLe) ∧ IdsAscending (rows.mergeSort keyLe) := by
  have hp : (rows.mergeSort keyLe).Pairwise (fun a b => keyLe a b = true) := by
    apply List.pairwise_mergeSort
    · intro a b c; simp only [keyLe_iff]
      rintro (h | ⟨h, h'⟩) (k | ⟨k, k'⟩)
      · left; omega
      · left; omega
      · left; omega
      · right; exact ⟨by omega, le_trans h' k'⟩
    · intro a b; rw [Bool.or_eq_true, keyLe_iff, keyLe_iff]
      rcases lt_trichotomy a.id b.id with h | h | h
      · exact Or.inl (Or.inl h)
      · rcases le_total a.time b.time with h' | h'
        · exact Or.inl (Or.inr ⟨h, h'⟩)
        · exact Or.inr (Or.inr ⟨h.symm, h'⟩)
      · exact Or.inr (Or.inl h)
  have hnd' : ((rows.mergeSort keyLe).map (·.key)).Nodup := ((List.mergeSort_perm rows keyLe).map _).nodup_iff.2 hnd
  have hasc : IdsAscending (rows.mergeSort keyLe) := by
    unfold IdsAscending
    rw [List.pairwise_map]
    refine hp.imp ?_
    intro a b h; rw [keyLe_iff] at h; omega
  refine ⟨?_, hasc⟩
  rw [valid_iff]
  refine ⟨by rw [newIds_eq_ids hasc]; exact unique_nodup _, ?_⟩
  rw [List.Nodup, List.pairwise_map] at hnd'
  refine (hp.and hnd').imp ?_
  rintro a b ⟨h1, h2⟩ hid
  rw [keyLe_iff] at h1
  rcases h1 with h1 | ⟨_, h1⟩
  · omega
  · refine lt_of_le_of_ne h1 ?_
    intro he; apply h2; simp [Row.key, hid, he]

/-- **C02.** Given a tensor with at least one series and one time step, distinct IDs (default `0..n-1`) and distinct time values in any
order, `from_tensor` succeeds with a valid collection; its IDs are exactly the given ones in ascending order, and under the `k`-th given ID it stores exactly
the `k`-th tensor slice with its time values, ordered by time.  If the time values increase, this is the slice in the given order. -/
theorem C02_from_tensor (n : Nat) (tensor : List (List V)) (tsIds : Option (List Nat)) (times : List τ)
    (hn : 0 < n) (htn : tensor ≠ []) (hs : ∀ s ∈ tensor, s.length = n) (ht : times.length = n) (htd : times.Nodup)
    (hids : ∀ l, tsIds = some l → l.length = tensor.length ∧ l.Nodup) :
    ∃ c, fromTensor n tensor tsIds times = .ok c ∧ Valid c ∧ IdsAscending c ∧
      (∀ i, HasId c i ↔ i ∈ tsIds.getD (List.range tensor.length)) ∧
      (∀ k (hk : k < tensor.length) (hk' : k < (tsIds.getD (List.range tensor.length)).length),
        (content c (tsIds.getD (List.range tensor.length))[k]).Perm (times.zip tensor[k]) ∧
        ((content c (tsIds.getD (List.range tensor.length))[k]).map (·.1)).Pairwise (· < ·) ∧
        (times.Pairwise (· < ·) → content c (tsIds.getD (List.range tensor.length))[k] = times.zip tensor[k])) := by
  set l := tsIds.getD (List.range tensor.length) with hl
  have hllen : l.length = tensor.length := by
    cases tsIds with
    | none => simp [hl]
    | some l' => exact (hids l' rfl).1
  have hlnd : l.Nodup := by
    cases tsIds with
    | none => simp [hl, List.nodup_range]
    | some l' => exact (hids l' rfl).2
  set rows := (l.zip tensor).flatMap (fun p => (times.zip p.2).map (fun q => (⟨p.1, q.1, q.2⟩ : Row τ V))) with hrows
  have hcode : fromTensor n tensor tsIds times = build (rows.mergeSort keyLe) := by
    unfold fromTensor
    have hE : tensorIds tensor.length tsIds = .ok l := by
      unfold tensorIds
      cases tsIds with
      | none => simp [hl]
      | some l' =>
        have h1 := (hids l' rfl).1
        have h2 := (length_unique_eq_iff l').2 (hids l' rfl).2
        simp [h1, h2, hl]
    simp only [hE]
    simp only [ht, ne_eq, not_true_eq_false, if_false]
    rw [tensor_rows n tensor l times hllen ht hs]
  -- membership in rows
  have hmem : ∀ r, r ∈ rows ↔ ∃ k, ∃ h1 : k < l.length, ∃ h2 : k < tensor.length, r.id = l[k] ∧ (r.time, r.val) ∈ times.zip tensor[k] := by
    intro r
    simp only [hrows, List.mem_flatMap, List.mem_map]
    constructor
    · rintro ⟨⟨i, s⟩, hp, q, hq, rfl⟩
      obtain ⟨k, hk, he⟩ := List.getElem_of_mem hp
      simp only [List.length_zip] at hk
      rw [List.getElem_zip] at he
      simp only [Prod.mk.injEq] at he
      refine ⟨k, by omega, by omega, he.1.symm, ?_⟩
      rw [he.2]; exact hq
    · rintro ⟨k, h1, h2, hid, hm⟩
      refine ⟨(l[k], tensor[k]), ?_, (r.time, r.val), hm, ?_⟩
      · rw [← List.getElem_zip (h := by simp; omega)]; exact List.getElem_mem _
      · cases r; simp_all
  -- series of rows
  have hser : ∀ k (h1 : k < l.length) (h2 : k < tensor.length),
      series rows l[k] = (times.zip tensor[k]).map (fun q => (⟨l[k], q.1, q.2⟩ : Row τ V)) := by
    have hgen : ∀ (l : List Nat) (T : List (List V)), l.length = T.length → l.Nodup → ∀ k (h1 : k < l.length) (h2 : k < T.length),
        series ((l.zip T).flatMap (fun p => (times.zip p.2).map (fun q => (⟨p.1, q.1, q.2⟩ : Row τ V)))) l[k] =
          (times.zip T[k]).map (fun q => (⟨l[k], q.1, q.2⟩ : Row τ V)) := by
      intro l
      induction l with
      | nil => intro T _ _ k h1; simp at h1
      | cons i l ih =>
        intro T hlen hnd k h1 h2
        match T, hlen with
        | s :: T, hlen =>
          rw [List.nodup_cons] at hnd
          rw [List.zip_cons_cons, List.flatMap_cons, series_append]
          cases k with
          | zero =>
            simp only [List.getElem_cons_zero]
            have e1 := series_mk_same i (times.zip s)
            have e2 : series ((l.zip T).flatMap (fun p => (times.zip p.2).map (fun q => (⟨p.1, q.1, q.2⟩ : Row τ V)))) i = [] := by
              rw [series_eq_nil]
              simp only [List.map_flatMap, List.map_map, List.mem_flatMap, List.mem_map, Function.comp_apply, not_exists, not_and]
              rintro ⟨j, x⟩ hj q _ he
              exact hnd.1 (by rw [← he]; exact (List.of_mem_zip hj).1)
            rw [e1, e2, List.append_nil]
          | succ k =>
            simp only [List.getElem_cons_succ]
            have hk1 : k < l.length := by simpa using h1
            have hne : i ≠ l[k] := fun e => hnd.1 (by rw [e]; exact List.getElem_mem _)
            have e1 := series_mk_ne hne (times.zip s)
            rw [e1, List.nil_append]
            exact ih T (by simpa using hlen) hnd.2 k hk1 (by simpa using h2)
    exact fun k h1 h2 => hgen l tensor hllen hlnd k h1 h2
  -- keys are distinct
  have hkeys : (rows.map (·.key)).Nodup := by
    have : ∀ (l : List Nat) (T : List (List V)), l.Nodup →
        (((l.zip T).flatMap (fun p => (times.zip p.2).map (fun q => (⟨p.1, q.1, q.2⟩ : Row τ V)))).map (·.key)).Nodup := by
      intro l T hnd
      rw [List.map_flatMap, List.nodup_flatMap]
      constructor
      · intro p _
        rw [List.map_map]
        have : ((times.zip p.2).map (·.1)).Nodup := by
          have hsub : ((times.zip p.2).map (·.1)).Sublist times := map_fst_zip_sublist _ _
          exact hsub.nodup htd
        rw [List.Nodup, List.pairwise_map] at this ⊢
        refine this.imp ?_
        intro a b hab he
        simp only [Function.comp_apply, Row.key, Key.mk.injEq, true_and] at he
        exact hab he
      · have hz : ((l.zip T).map (·.1)).Nodup := by
          have hsub : ((l.zip T).map (·.1)).Sublist l := map_fst_zip_sublist _ _
          exact hsub.nodup hnd
        rw [List.Nodup, List.pairwise_map] at hz
        refine hz.imp ?_
        intro a b hab
        simp only [Function.onFun, List.disjoint_left, List.mem_map, Function.comp_apply]
        rintro k ⟨x, ⟨q, _, rfl⟩, rfl⟩ ⟨y, ⟨q', _, rfl⟩, he⟩
        simp only [Row.key, Key.mk.injEq] at he
        exact hab he.1.symm
    exact this l tensor hlnd
  obtain ⟨hval, hasc⟩ := sorted_valid hkeys
  have hperm := List.mergeSort_perm rows keyLe
  have hid : ∀ i, HasId (rows.mergeSort keyLe) i ↔ i ∈ l := by
    intro i
    have : HasId (rows.mergeSort keyLe) i ↔ HasId rows i := by
      simp only [HasId, hperm.mem_iff]
    rw [this]
    constructor
    · rintro ⟨r, hr, rfl⟩
      obtain ⟨k, h1, h2, he, _⟩ := (hmem r).1 hr
      rw [he]; exact List.getElem_mem _
    · intro hi
      obtain ⟨k, hk, rfl⟩ := List.getElem_of_mem hi
      have h2 : k < tensor.length := by omega
      rw [hasId_iff_series, hser k hk h2, Ne, List.map_eq_nil_iff, ← List.length_eq_zero_iff]
      simp [ht, hs tensor[k] (List.getElem_mem _)]; omega
  have hne : rows.mergeSort keyLe ≠ [] := by
    obtain ⟨i, t, hi⟩ := List.ne_nil_iff_exists_cons.1 (by
      rw [← List.length_pos_iff, hllen, List.length_pos_iff]; exact htn : l ≠ [])
    obtain ⟨r, hr, _⟩ := (hid i).2 (by rw [hi]; simp)
    intro e; rw [e] at hr; simp at hr
  refine ⟨rows.mergeSort keyLe, by rw [hcode, build_ok_of_valid hval hne], hval, hasc, hid, ?_⟩
  intro k hk hk'
  have hp : (content (rows.mergeSort keyLe) l[k]).Perm (times.zip tensor[k]) := by
    have h1 : (content (rows.mergeSort keyLe) l[k]).Perm (content rows l[k]) := (hperm.filter _).map _
    have h2 : content rows l[k] = times.zip tensor[k] := by
      rw [content, hser k hk' hk]; simp [Function.comp_def]
    rwa [h2] at h1
  have hsorted : ((content (rows.mergeSort keyLe) l[k]).map (·.1)).Pairwise (· < ·) := times_sorted hval _
  refine ⟨hp, hsorted, ?_⟩
  intro htimes
  have hz : ((times.zip tensor[k]).map (·.1)).Pairwise (· < ·) := by
    rw [List.map_fst_zip (by rw [ht, hs tensor[k] (List.getElem_mem _)])]; exact htimes
  rw [List.pairwise_map] at hsorted hz
  exact hp.eq_of_pairwise (fun a b _ _ h1 h2 => absurd (lt_trans h1 h2) (lt_irrefl _)) hsorted hz

/-- **C02 (rejection).** Wrong number of IDs, repeated IDs, or a wrong number of time values raise. -/
theorem C02_rejects (n : Nat) (tensor : List (List V)) (tsIds : Option (List Nat)) (times : List τ)
    (h : (∃ l, tsIds = some l ∧ (l.length ≠ tensor.length ∨ ¬ l.Nodup)) ∨ times.length ≠ n) :
    ∃ e, fromTensor n tensor tsIds times = .error e := by
  unfold fromTensor
  match hE : tensorIds tensor.length tsIds with
  | .error e => exact ⟨e, rfl⟩
  | .ok l =>
    have ht : times.length ≠ n := by
      rcases h with ⟨l', rfl, h⟩ | h
      · exfalso
        unfold tensorIds at hE
        by_cases h1 : l'.length = tensor.length
        · have hnd := h.resolve_left (fun h => h h1)
          have h2 : (unique l').length ≠ l'.length := fun h => hnd ((length_unique_eq_iff l').1 h)
          simp only [h1, ne_eq, not_true_eq_false, if_false] at hE
          rw [if_pos (by rw [← h1]; exact h2)] at hE
          simp at hE
        · simp [h1] at hE
      · exact h
    simp [ht]

example : ∃ c, fromTensor 2 [[1, 2], [3, 4]] (some [5, 2]) [1, 0] = .ok c ∧ Valid c ∧
    (content (c : List (Row Nat Nat)) 5).Perm [(1, 1), (0, 2)] := by
  obtain ⟨c, h1, h2, -, -, h3⟩ := C02_from_tensor 2 [[1, 2], [3, 4]] (some [5, 2]) [1, 0] (by decide) (by decide) (by decide)
    (by decide) (by decide) (by simp)
  exact ⟨c, h1, h2, (h3 0 (by decide) (by decide)).1⟩

end Verif.Tsc
