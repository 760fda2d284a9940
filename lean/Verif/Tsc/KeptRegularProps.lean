import Verif.Tsc.IsolatedProps
/-!
# C256: constantly sampled series are kept by `assign_ids_const_delta`
-/

namespace Verif.Tsc

open Verif.Np

variable {V : Type}

/-- **C256 (constantly sampled series).** A series with one interval, also one of two samples, loses no sample, whatever the other series are. -/
theorem C256_regular (k : TimeKind) {c : List (Row Int V)} (hv : Valid c) {i : Nat} {d : Int} (hreg : Regular (timesOf c i) d) :
    ∃ r, assignIdsConstDelta k true c = .ok (some r) ∧ ∀ x ∈ content c i, ∃ n, x ∈ content r n := by
  have hlen2 : 2 ≤ (series c i).length := by simpa [timesOf] using hreg.1
  have hsne : series c i ≠ [] := by intro h0; rw [h0] at hlen2; simp at hlen2
  have hhas : HasId c i := hasId_iff_series.2 hsne
  have hsplit : ∀ x ∈ content c i, ∀ m, ∃ e, splitOne k true m (series c i) = .ok (some e) ∧ x ∈ e.map (fun r => (r.time, r.val)) := by
    intro x hx m
    refine ⟨(series c i).map (fun r => { r with id := m }), ?_, ?_⟩
    · unfold splitOne
      rw [deltaTime_single k hsne (hv.series_sorted i) (fun r hr => series_id hr), show rowDelta (npDiff ((series c i).map (·.time))) = some d from (rowDelta_iff _ d).2 hreg]
    · obtain ⟨r, hr, rfl⟩ := List.mem_map.1 hx
      rw [List.map_map, List.mem_map]
      exact ⟨r, hr, rfl⟩
  have hgr : ∀ g ∈ (ids c).map (fun i => c.filter (fun r => r.id == i)), g ≠ [] ∧ g.Pairwise (fun a b => a.time < b.time) ∧ ∃ i, ∀ r ∈ g, r.id = i := by
    intro g hg
    obtain ⟨i, hi, rfl⟩ := List.mem_map.1 hg
    exact ⟨series_ne_nil.2 (mem_ids'.1 hi), hv.series_sorted i, i, fun r hr => series_id hr⟩
  obtain ⟨hgood, htot⟩ := loop_good k true _ 0 hgr
  obtain ⟨l, hl⟩ := htot rfl
  have hmem : ∀ x ∈ content c i, x ∈ l.flatten.map (fun r => (r.time, r.val)) := fun x hx =>
    loop_keeps k (hsplit x hx) _ 0 l (List.mem_map.2 ⟨i, mem_ids.2 hhas, rfl⟩) hl
  unfold assignIdsConstDelta
  rw [hl]
  match l, hl, hmem with
  | [], _, hmem =>
    obtain ⟨q, t, hq⟩ := List.ne_nil_iff_exists_cons.1 hsne
    exact absurd (hmem (q.time, q.val) (by rw [content, hq]; simp)) (by simp)
  | d0 :: ds, hl, hmem =>
    obtain ⟨hG, hne⟩ := hgood _ hl
    simp only
    have hRv : Valid (d0 :: ds).flatten := valid_of_asc hG.asc hG.before
    rw [build_ok_of_valid hRv (hne (by simp))]
    obtain ⟨e, he, -, -, -, hdt, -⟩ := C08_assign_ids_sequential (hne (by simp)) hRv
    simp only
    rw [he]
    refine ⟨e, rfl, fun x hx => ?_⟩
    have := hmem x hx
    rw [← hdt, List.mem_map] at this
    obtain ⟨r, hr, rfl⟩ := this
    exact ⟨r.id, List.mem_map.2 ⟨r, List.mem_filter.2 ⟨hr, by simp⟩, rfl⟩⟩

/-- **C257 (constantly sampled series).** If all series have one interval each, nothing is raised and all samples are kept in their order. -/
theorem C257_regular (k : TimeKind) {c : List (Row Int V)} (hv : Valid c) (hne : c ≠ []) (h : ∀ i, HasId c i → ∃ d, Regular (timesOf c i) d) :
    ∃ r, assignIdsConstDelta k false c = .ok (some r) ∧ r.map (fun q => (q.time, q.val)) = (ids c).flatMap (content c) := by
  have hno : ¬ ∃ e, assignIdsConstDelta k false c = .error e := by
    rw [C257_raises k hv]
    rintro ⟨i, hi, h1 | ⟨j, hj⟩⟩
    · obtain ⟨d, hd⟩ := h i hi
      have := hd.1
      omega
    · obtain ⟨d, hd⟩ := h i hi
      exact not_isolated_of_regular hd j hj
  match ho : assignIdsConstDelta k false c with
  | .error e => exact absurd ⟨e, ho⟩ hno
  | .ok (some r) => exact ⟨r, rfl, (C17_const_delta k false hv ho).2.2.2.2 rfl⟩
  | .ok none =>
    exfalso
    obtain ⟨q, t, rfl⟩ := List.ne_nil_iff_exists_cons.1 hne
    have hids : ids (q :: t) ≠ [] := by
      intro h0
      have := mem_ids.2 (⟨q, by simp, rfl⟩ : HasId (q :: t) q.id)
      rw [h0] at this
      simp at this
    obtain ⟨i0, is, hi0⟩ := List.ne_nil_iff_exists_cons.1 hids
    have h0 : HasId (q :: t) i0 := mem_ids.1 (by rw [hi0]; simp)
    obtain ⟨d, hd⟩ := h i0 h0
    unfold assignIdsConstDelta at ho
    rw [hi0, List.map_cons, constDeltaLoop] at ho
    have hs : splitOne k false 0 ((q :: t).filter (fun r => r.id == i0)) = .ok (some (((q :: t).filter (fun r => r.id == i0)).map (fun r => { r with id := 0 }))) := by
      unfold splitOne
      have e := deltaTime_single k (hasId_iff_series.1 h0) (hv.series_sorted i0) (fun r hr => series_id hr)
      unfold series at e
      rw [e, show rowDelta (npDiff (((q :: t).filter (fun r => r.id == i0)).map (·.time))) = some d from (rowDelta_iff _ d).2 hd]
    rw [hs] at ho
    simp only at ho
    split at ho
    · simp at ho
    · rename_i heq
      split at heq <;> simp at heq
    · split at ho
      · simp at ho
      · split at ho <;> simp at ho

/-- **C257 (second call).** After one call, with or without `drop_samples`, a second call without `drop_samples` raises nothing and keeps all samples. -/
theorem C257_again (k : TimeKind) (drop : Bool) {c r : List (Row Int V)} (hv : Valid c) (h : assignIdsConstDelta k drop c = .ok (some r)) :
    ∃ r', assignIdsConstDelta k false r = .ok (some r') ∧ r'.map (fun q => (q.time, q.val)) = (ids r).flatMap (content r) := by
  obtain ⟨hrv, hreg, -⟩ := C17_const_delta k drop hv h
  refine C257_regular k hrv ?_ hreg
  have hgr : ∀ g ∈ (ids c).map (fun i => c.filter (fun r => r.id == i)), g ≠ [] ∧ g.Pairwise (fun a b => a.time < b.time) ∧ ∃ i, ∀ r ∈ g, r.id = i := by
    intro g hg
    obtain ⟨i, hi, rfl⟩ := List.mem_map.1 hg
    exact ⟨series_ne_nil.2 (mem_ids'.1 hi), hv.series_sorted i, i, fun r hr => series_id hr⟩
  obtain ⟨hgood, -⟩ := loop_good k drop _ 0 hgr
  unfold assignIdsConstDelta at h
  match hl : constDeltaLoop k drop 0 ((ids c).map (fun i => c.filter (fun r => r.id == i))) with
  | .error e => rw [hl] at h; simp at h
  | .ok [] => rw [hl] at h; simp at h
  | .ok (d0 :: ds) =>
    rw [hl] at h
    simp only at h
    obtain ⟨hG, hne⟩ := hgood _ hl
    have hRne : (d0 :: ds).flatten ≠ [] := hne (by simp)
    have hRv : Valid (d0 :: ds).flatten := valid_of_asc hG.asc hG.before
    rw [build_ok_of_valid hRv hRne] at h
    simp only at h
    obtain ⟨d, hd, -, -, -, hdt, -⟩ := C08_assign_ids_sequential hRne hRv
    rw [hd] at h
    simp only [Except.ok.injEq, Option.some.injEq] at h
    subst h
    intro h0
    rw [h0, List.map_nil] at hdt
    exact hRne (List.map_eq_nil_iff.1 hdt.symm)

theorem splitOne_drop (k : TimeKind) (minId : Nat) {s : List (Row Int V)} (hne : s ≠ []) {o : Option (List (Row Int V))} (h : splitOne k false minId s = .ok o) :
    splitOne k true minId s = .ok o := by
  unfold splitOne at h ⊢
  split at h
  · exact h
  · unfold splitIrregular at h ⊢
    by_cases h1 : s.length = 1
    · simp [h1] at h
    by_cases h2 : s.length = 2
    · simpa [h2] using h
    simp only [h1, h2, if_false, if_true, Bool.false_eq_true] at h ⊢
    rw [(split_cond (i := 0) hne).1, (split_cond (i := 0) hne).2] at h ⊢
    split_ifs at h with hany
    have hk : (splitRows minId s).filter (fun r => !(((splitRows minId s).map (·.id)).count r.id == 1)) = splitRows minId s := by
      rw [List.filter_eq_self]
      intro r hr
      rw [Bool.not_eq_true'] 
      by_contra hc
      exact hany (List.any_eq_true.2 ⟨r.id, List.mem_map_of_mem hr, by simpa using hc⟩)
    rw [hk, splitRows_length, if_neg h2]
    exact h

theorem loop_drop (k : TimeKind) : ∀ (l : List (List (Row Int V))) (m : Nat) r, (∀ g ∈ l, g ≠ []) → constDeltaLoop k false m l = .ok r → constDeltaLoop k true m l = .ok r
  | [], m, r, _, h => by simpa [constDeltaLoop] using h
  | g :: l, m, r, hg, h => by
    unfold constDeltaLoop at h ⊢
    match ho : splitOne k false m g with
    | .error e => rw [ho] at h; simp at h
    | .ok none =>
      rw [ho] at h
      rw [splitOne_drop k m (hg g (by simp)) ho]
      exact loop_drop k l m r (fun g' hg' => hg g' (by simp [hg'])) h
    | .ok (some d) =>
      rw [ho] at h
      rw [splitOne_drop k m (hg g (by simp)) ho]
      simp only at h ⊢
      match hl : constDeltaLoop k false ((ids d).foldl max 0 + 1) l with
      | .error e => rw [hl] at h; simp at h
      | .ok r' =>
        rw [hl] at h
        rw [loop_drop k l _ r' (fun g' hg' => hg g' (by simp [hg'])) hl]
        exact h

/-- **C257 (no effect of `drop_samples`).** If the call without `drop_samples` does not raise, `drop_samples=True` gives the same result. -/
theorem C257_same (k : TimeKind) {c : List (Row Int V)} {o : Option (List (Row Int V))} (h : assignIdsConstDelta k false c = .ok o) : assignIdsConstDelta k true c = .ok o := by
  have hgr : ∀ g ∈ (ids c).map (fun i => c.filter (fun r => r.id == i)), g ≠ [] := by
    intro g hg
    obtain ⟨i, hi, rfl⟩ := List.mem_map.1 hg
    exact series_ne_nil.2 (mem_ids'.1 hi)
  unfold assignIdsConstDelta at h ⊢
  match hl : constDeltaLoop k false 0 ((ids c).map (fun i => c.filter (fun r => r.id == i))) with
  | .error e => rw [hl] at h; simp at h
  | .ok r =>
    rw [hl] at h
    rw [loop_drop k _ 0 r hgr hl]
    exact h

/-- non-vacuity: a series of two samples beside an irregular series of three. -/
example : (assignIdsConstDelta (V := Nat) .int true [⟨3, 0, 5⟩, ⟨3, 7, 6⟩, ⟨8, 0, 7⟩, ⟨8, 1, 8⟩, ⟨8, 3, 9⟩]).toOption = some (some [⟨0, 0, 5⟩, ⟨0, 7, 6⟩]) ∧
    (assignIdsConstDelta (V := Nat) .int false [⟨3, 0, 5⟩, ⟨3, 7, 6⟩, ⟨8, 0, 7⟩, ⟨8, 1, 8⟩]).toOption = some (some [⟨0, 0, 5⟩, ⟨0, 7, 6⟩, ⟨1, 0, 7⟩, ⟨1, 1, 8⟩]) := by
  decide +kernel

end Verif.Tsc
