import Verif.Edmd.Reconstruct
import Verif.Tsc.InitCondProps
/-! # Lemmas about shifting the series and about the reconstruction loop -/

namespace Verif.Edmd

open Verif.Tsc Verif.Np

variable {V W : Type}

/-- First time value of series `i`. -/
def firstTime (c : List (Row Int V)) (i : Nat) : Int := ((series c i).head?.map (·.time)).getD 0

/-- Every series shifted so that it starts at time zero. -/
def normalised (c : List (Row Int V)) : List (Row Int V) := c.map (fun r => { r with time := r.time - firstTime c r.id })

theorem roundTo_dvd {d t : Int} (hd : 0 < d) (h : d ∣ t) : roundTo d t = t := by
  obtain ⟨q, rfl⟩ := h
  unfold roundTo
  simp only [Int.mul_emod_right, Int.mul_ediv_cancel_left _ (ne_of_gt hd), mul_zero, hd, if_true]
  exact mul_comm _ _

theorem groupHead_block (seen : List Nat) (i : Nat) (hi : 1 ≤ seen.count i) (l : List (Row Int V)) (hl : ∀ r ∈ l, r.id = i) (rest : List (Row Int V)) :
    groupHead 1 seen (l ++ rest) = groupHead 1 ((l.map (·.id)).reverse ++ seen) rest := by
  induction l generalizing seen with
  | nil => rfl
  | cons r l ih =>
    have hr := hl r (by simp)
    rw [List.cons_append, groupHead, if_neg (by rw [hr]; omega)]
    rw [ih (r.id :: seen) (by rw [List.count_cons]; omega) (fun r hr => hl r (by simp [hr]))]
    simp

theorem groupHead_flatMap {is : List Nat} (hn : is.Nodup) (f : Nat → List (Row Int V)) (hf : ∀ i ∈ is, ∀ r ∈ f i, r.id = i) (seen : List Nat)
    (hs : ∀ i ∈ is, i ∉ seen) : groupHead 1 seen (is.flatMap f) = is.flatMap (fun i => (f i).take 1) := by
  induction is generalizing seen with
  | nil => rfl
  | cons i is ih =>
    rw [List.nodup_cons] at hn
    rw [List.flatMap_cons, List.flatMap_cons]
    cases hfi : f i with
    | nil =>
      simp only [List.nil_append, List.take_nil]
      exact ih hn.2 (fun j hj => hf j (by simp [hj])) seen (fun j hj => hs j (by simp [hj]))
    | cons r l =>
      have hall : ∀ x ∈ r :: l, x.id = i := by rw [← hfi]; exact hf i (by simp)
      have hr := hall r (by simp)
      have h0 : seen.count r.id = 0 := List.count_eq_zero.2 (by rw [hr]; exact hs i (by simp))
      rw [List.cons_append, groupHead, if_pos (by omega), groupHead_block (r.id :: seen) i (by rw [hr]; simp) l (fun x hx => hall x (by simp [hx]))]
      rw [ih hn.2 (fun j hj => hf j (by simp [hj]))]
      · simp
      · intro j hj hmem
        simp only [List.mem_append, List.mem_reverse, List.mem_map, List.mem_cons] at hmem
        have hji : j ≠ i := fun e => hn.1 (e ▸ hj)
        rcases hmem with ⟨x, hx, rfl⟩ | rfl | hmem
        · exact hji (hall x (by simp [hx]))
        · exact hji hr
        · exact hs j (by simp [hj]) hmem

theorem zipWith_flatMap {α β γ : Type} (is : List Nat) (f : Nat → List α) (g : Nat → List β) (h : α → β → γ) (hl : ∀ i ∈ is, (f i).length = (g i).length) :
    List.zipWith h (is.flatMap f) (is.flatMap g) = is.flatMap (fun i => List.zipWith h (f i) (g i)) := by
  induction is with
  | nil => rfl
  | cons i is ih =>
    simp only [List.flatMap_cons]
    rw [List.zipWith_append (hl i (by simp)), ih (fun j hj => hl j (by simp [hj]))]

theorem normalised_series (c : List (Row Int V)) (i : Nat) : series (normalised c) i = (series c i).map (fun r => { r with time := r.time - firstTime c i }) := by
  unfold series normalised
  rw [List.filter_map]
  change List.map _ (List.filter (fun r => r.id == i) c) = _
  apply List.map_congr_left
  intro r hr
  rw [show r.id = i by simpa using (List.mem_filter.1 hr).2]

theorem normalised_length (c : List (Row Int V)) : (normalised c).length = c.length := by simp [normalised]

theorem normalised_ids (c : List (Row Int V)) : (normalised c).map (·.id) = c.map (·.id) := by simp [normalised]

theorem normalised_hasId {c : List (Row Int V)} {i : Nat} : HasId (normalised c) i ↔ HasId c i := by
  rw [hasId_iff_series, hasId_iff_series, normalised_series]; simp

theorem normalised_ne_nil {c : List (Row Int V)} : normalised c ≠ [] ↔ c ≠ [] := by simp [normalised]

theorem normalised_valid {c : List (Row Int V)} (hv : Valid c) : Valid (normalised c) := by
  refine ⟨by rw [normalised_ids]; exact hv.contiguous, fun i j hij hj h => ?_⟩
  simp only [normalised, List.getElem_map] at h ⊢
  have := hv.increasing i j hij (by simpa [normalised] using hj) h
  rw [h]; omega

theorem normalised_times (c : List (Row Int V)) (i : Nat) : timesOf (normalised c) i = (timesOf c i).map (· - firstTime c i) := by
  unfold timesOf
  rw [normalised_series]; simp

theorem normalised_consecutive {c : List (Row Int V)} {i : Nat} {p : Int × Int} (hp : p ∈ consecutive (timesOf (normalised c) i)) :
    ∃ q ∈ consecutive (timesOf c i), q.2 - q.1 = p.2 - p.1 := by
  rw [normalised_times, consecutive_map] at hp
  obtain ⟨q, hq, rfl⟩ := List.mem_map.1 hp
  exact ⟨q, hq, by simp only [Prod.map]; omega⟩

theorem normalised_regular {c : List (Row Int V)} {i : Nat} {d : Int} (h : Regular (timesOf c i) d) : Regular (timesOf (normalised c) i) d := by
  refine ⟨by rw [normalised_times, List.length_map]; exact h.1, fun p hp => ?_⟩
  obtain ⟨q, hq, he⟩ := normalised_consecutive hp
  rw [← he]; exact h.2 q hq

/-- The entries of a regular list: `l[j] = l[0] + j d`. -/
theorem regular_getElem : ∀ {l : List Int} {d : Int}, (∀ p ∈ consecutive l, p.2 - p.1 = d) → ∀ {t0 : Int}, l.head? = some t0 → ∀ j (hj : j < l.length), l[j] = t0 + j * d
  | [], _, _, _, _, j, hj => by simp at hj
  | [a], _, _, t0, h0, j, hj => by
    simp only [List.head?_cons, Option.some.injEq] at h0
    simp only [List.length_cons, List.length_nil, zero_add, Nat.lt_one_iff] at hj
    subst hj; simp [h0]
  | a :: b :: l, d, h, t0, h0, j, hj => by
    simp only [List.head?_cons, Option.some.injEq] at h0
    subst h0
    have hab := h (a, b) (by simp [consecutive])
    simp only at hab
    cases j with
    | zero => simp
    | succ j =>
      rw [List.getElem_cons_succ, regular_getElem (l := b :: l) (fun p hp => h p (by simp [consecutive, hp])) rfl j (by simpa using hj)]
      push_cast
      have : b = a + d := by omega
      rw [this]; ring

theorem firstTime_head {c : List (Row Int V)} {i : Nat} (hi : HasId c i) : (timesOf c i).head? = some (firstTime c i) := by
  unfold firstTime timesOf
  obtain ⟨r, l, hl⟩ := List.ne_nil_iff_exists_cons.1 (hasId_iff_series.1 hi)
  rw [hl]; simp

theorem normalised_getElem {c : List (Row Int V)} {i : Nat} (hi : HasId c i) {d : Int} (h : Regular (timesOf c i) d) (j : Nat) (hj : j < (timesOf (normalised c) i).length) :
    (timesOf (normalised c) i)[j] = j * d := by
  have h0 : (timesOf (normalised c) i).head? = some 0 := by
    rw [normalised_times, List.head?_map, firstTime_head hi]; simp
  rw [regular_getElem (normalised_regular h).2 h0 j hj]; ring

/-- Repeated shifts in the order of the index. -/
theorem repeatSteps_eq {c : List (Row Int V)} (hc : c ≠ []) (hs : IdsAscending c ∨ EqualLengths c) (f : Nat → Int) :
    repeatSteps ((newIds (c.map (·.id))).map f) (nTimesteps c) = (newIds (c.map (·.id))).flatMap (fun i => List.replicate (series c i).length (f i)) := by
  cases hn : nTimesteps c with
  | one k =>
    have := (nTimesteps_one hc k).1 hn
    simp only [repeatSteps, List.flatMap_map]
    apply List.flatMap_congr
    intro i hi
    rw [this i (mem_ids.2 (by simpa [mem_newIds, HasId] using hi))]
  | per l =>
    have hl := nTimesteps_per hn
    rcases hs with hs | hs
    · rw [newIds_eq_ids hs, hl]
      simp only [repeatSteps, List.map_map, Function.comp_def]
      generalize ids c = is
      induction is with
      | nil => rfl
      | cons i is ih => simp only [List.map_cons, List.zip_cons_cons, List.flatMap_cons, ih]
    · exfalso
      obtain ⟨i0, t, hi⟩ := List.ne_nil_iff_exists_cons.1 (ids_ne_nil hc)
      have := (nTimesteps_one hc (series c i0).length).2 (fun j hj => hs j i0 (mem_ids.1 hj) (mem_ids.1 (by rw [hi]; simp)))
      rw [this] at hn; cases hn

theorem flatMap_ids_map {c : List (Row Int V)} (hv : Valid c) {β : Type} (f : Row Int V → β) :
    (newIds (c.map (·.id))).flatMap (fun i => (series c i).map f) = c.map f := by
  conv => rhs; rw [← hv.eq_flatMap]
  rw [List.map_flatMap]

/-- `shift_time_per_time_series` shifts every series to start at zero, if the IDs are ascending or all series have the same length. -/
theorem shiftPerSeries_eq {c : List (Row Int V)} (hc : c ≠ []) (hv : Valid c) (hs : IdsAscending c ∨ EqualLengths c) {d : Int} (hd : deltaTime .int c = .one (some d))
    (hreg : ∀ i, HasId c i → Regular (timesOf c i) d) : shiftPerSeries .int c = (.ok (normalised c), normalised c) := by
  have hne : ∀ i ∈ newIds (c.map (·.id)), HasId c i := by
    intro i hi; simpa [mem_newIds, HasId] using hi
  have hshift : (groupHead 1 [] c).map (fun r => -r.time) = (newIds (c.map (·.id))).map (fun i => -firstTime c i) := by
    conv => lhs; rw [← hv.eq_flatMap]
    rw [groupHead_flatMap hv.nodup (series c) (fun i _ r hr => (mem_series.1 hr).2) [] (by simp)]
    rw [List.map_flatMap]
    generalize newIds (c.map (·.id)) = is at hne
    induction is with
    | nil => rfl
    | cons i is ih =>
      rw [List.flatMap_cons, List.map_cons, ih (fun j hj => hne j (by simp [hj]))]
      obtain ⟨r, l, hl⟩ := List.ne_nil_iff_exists_cons.1 (hasId_iff_series.1 (hne i (by simp)))
      simp [hl, firstTime]
  unfold shiftPerSeries
  simp only [hshift]
  split
  · rename_i h0
    have h0 : ∀ i, HasId c i → firstTime c i = 0 := by
      intro i hi
      rw [List.all_eq_true] at h0
      have := h0 (-firstTime c i) (List.mem_map.2 ⟨i, by rw [mem_newIds]; simpa [HasId] using hi, rfl⟩)
      simp at this; exact this
    have : normalised c = c := by
      unfold normalised
      conv => rhs; rw [← List.map_id c]
      apply List.map_congr_left
      intro r hr
      rw [h0 r.id ⟨r, hr, rfl⟩]; simp
    rw [this]
  · rw [hd]
    simp only
    have htimes : List.zipWith (fun (r : Row Int V) s => roundTo d (r.time + s)) c (repeatSteps ((newIds (c.map (·.id))).map (fun i => -firstTime c i)) (nTimesteps c)) =
        (normalised c).map (·.time) := by
      rw [repeatSteps_eq hc hs]
      conv => lhs; arg 2; rw [← hv.eq_flatMap]
      rw [zipWith_flatMap _ _ _ _ (by intro i _; simp)]
      have hnt : (normalised c).map (·.time) = c.map (fun r => r.time - firstTime c r.id) := by simp [normalised]
      rw [hnt, ← flatMap_ids_map hv (fun r => r.time - firstTime c r.id)]
      apply List.flatMap_congr
      intro i hi
      have hi := hne i hi
      apply List.ext_getElem
      · simp
      · intro j h1 h2
        simp only [List.getElem_zipWith, List.getElem_replicate, List.getElem_map]
        have hj : j < (series c i).length := by simpa using h2
        have hid : (series c i)[j].id = i := (mem_series.1 (List.getElem_mem hj)).2
        have hjn : j < (timesOf (normalised c) i).length := by rw [normalised_times]; simpa [timesOf] using hj
        have h4 := normalised_getElem hi (hreg i hi) j hjn
        have h5 : (timesOf (normalised c) i)[j] = (series c i)[j].time - firstTime c i := by
          simp only [timesOf, normalised_series, List.getElem_map]
        rw [h5] at h4
        rw [hid, ← sub_eq_add_neg]
        exact roundTo_dvd (regular_pos hv (hreg i hi)) ⟨j, by rw [h4]; ring⟩
    rw [htimes]
    have hset : setTimes c ((normalised c).map (·.time)) = normalised c := by
      unfold setTimes normalised
      rw [List.map_map, List.zipWith_map_right, List.zipWith_self]
      rfl
    have hpos : ¬ (TimeKind.int = .int ∧ (normalised c).any (fun r => decide (r.time < 0)) = true) := by
      rintro ⟨-, h⟩
      obtain ⟨r, hr, hneg⟩ := List.any_eq_true.1 h
      have hneg : r.time < 0 := by simpa using hneg
      have hi : HasId c r.id := normalised_hasId.1 ⟨r, hr, rfl⟩
      have hm : r.time ∈ timesOf (normalised c) r.id := List.mem_map.2 ⟨r, mem_series.2 ⟨hr, rfl⟩, rfl⟩
      obtain ⟨j, hj, he⟩ := List.getElem_of_mem hm
      rw [normalised_getElem hi (hreg r.id hi) j hj] at he
      have := regular_pos hv (hreg r.id hi)
      have : 0 ≤ (j : Int) * d := by positivity
      omega
    rw [hset]
    unfold buildInt
    rw [if_neg hpos, build_ok_of_valid (normalised_valid hv) (normalised_ne_nil.2 hc)]

/-- Concatenation of collections with ascending, separated IDs. -/
theorem flatten_ascending (ds : List (List (Row Int W))) (h1 : ∀ d ∈ ds, Valid d ∧ IdsAscending d)
    (h2 : ds.Pairwise (fun d d' => ∀ i j, HasId d i → HasId d' j → i < j)) :
    Valid ds.flatten ∧ IdsAscending ds.flatten ∧ (∀ i, HasId ds.flatten i ↔ ∃ d ∈ ds, HasId d i) ∧ ∀ d ∈ ds, ∀ i, HasId d i → series ds.flatten i = series d i := by
  induction ds with
  | nil => exact ⟨by rw [valid_iff]; simp [newIds], by simp [IdsAscending], by simp [HasId], by simp⟩
  | cons d ds ih =>
    rw [List.pairwise_cons] at h2
    obtain ⟨e1, e2, e3, e4⟩ := ih (fun x hx => h1 x (by simp [hx])) h2.2
    have hsep : ∀ i j, HasId d i → HasId ds.flatten j → i < j := by
      intro i j hi hj
      obtain ⟨d', hd', hj⟩ := (e3 j).1 hj
      exact h2.1 d' hd' i j hi hj
    have hnot : ∀ i, HasId d i → ¬ HasId ds.flatten i := fun i hi hi' => absurd (hsep i i hi hi') (lt_irrefl i)
    rw [List.flatten_cons]
    refine ⟨valid_append (h1 d (by simp)).1 e1 hnot, ?_, ?_, ?_⟩
    · unfold IdsAscending
      rw [List.map_append, List.pairwise_append]
      refine ⟨(h1 d (by simp)).2, e2, ?_⟩
      intro a ha b hb
      obtain ⟨r, hr, rfl⟩ := List.mem_map.1 ha
      obtain ⟨r', hr', rfl⟩ := List.mem_map.1 hb
      exact (hsep _ _ ⟨r, hr, rfl⟩ ⟨r', hr', rfl⟩).le
    · intro i
      have : HasId (d ++ ds.flatten) i ↔ HasId d i ∨ HasId ds.flatten i := by
        simp only [hasId_iff_series, series_append]
        by_cases h : series d i = [] <;> simp [h]
      rw [this, e3]; simp
    · intro x hx i hi
      rw [series_append]
      rcases List.mem_cons.1 hx with rfl | hx
      · have : series ds.flatten i = [] := by by_contra hne; exact hnot i hi (hasId_iff_series.2 hne)
        rw [this, List.append_nil]
      · have : series d i = [] := by
          by_contra hne
          exact hnot i (hasId_iff_series.2 hne) ((e3 i).2 ⟨x, hx, hi⟩)
        rw [this, List.nil_append, e4 x hx i hi]

end Verif.Edmd
