import Verif.Tsc.Folds
import Verif.Tsc.CollProps
/-!
# C13: windows over time values

Specification: `windowsOf s size offset` lists, for `k = 0, 1, 2, ...`, the `size` consecutive samples which start at position `k * offset`,
as long as they fit.
-/

namespace Verif.Tsc

open Verif.Np

variable {τ V : Type}

/-- All windows of `size` consecutive elements starting at `0, offset, 2 * offset, ...` that fit into `s`. -/
def windowsOf {α : Type} (s : List α) (size offset : Nat) : List (List α) :=
  ((List.range (s.length + 1)).filter (fun k => decide (k * offset + size ≤ s.length))).map
    (fun k => (s.drop (k * offset)).take size)

theorem range_filter_lt (n K : Nat) (h : K ≤ n) : (List.range n).filter (fun k => decide (k < K)) = List.range K := by
  have : List.range n = List.range K ++ (List.range (n - K)).map (K + ·) := by
    rw [← List.range_add]; congr; omega
  rw [this, List.filter_append, List.filter_eq_self.2, List.filter_eq_nil_iff.2]
  · simp
  · intro a ha
    obtain ⟨x, _, rfl⟩ := List.mem_map.1 ha
    simp
  · intro a ha; simpa using ha

theorem windowLoop_spec {α : Type} (times : List α) (size offset : Nat) (hoff : 0 < offset) (start : Nat) :
    ∃ K, windowLoop times size offset hoff start = (List.range K).map (fun k => (times.drop (start + k * offset)).take size) ∧
      ∀ k, k < K ↔ start + k * offset + size ≤ times.length := by
  fun_induction windowLoop times size offset hoff start with
  | case1 start h ih =>
    obtain ⟨K, he, hK⟩ := ih
    refine ⟨K + 1, ?_, ?_⟩
    · rw [he, List.range_succ_eq_map]
      simp only [List.map_cons, List.map_map, Nat.zero_mul, Nat.add_zero, List.cons.injEq, true_and]
      apply List.map_congr_left
      intro k _
      simp only [Function.comp, Nat.succ_eq_add_one]
      congr 2; rw [Nat.succ_mul]; omega
    · intro k
      match k with
      | 0 => simpa using h
      | k + 1 =>
        rw [Nat.add_lt_add_iff_right, hK k]
        rw [Nat.succ_mul]; omega
  | case2 start h =>
    refine ⟨0, by simp, ?_⟩
    intro k
    simp only [Nat.not_lt_zero, false_iff]
    have : 0 ≤ k * offset := Nat.zero_le _
    omega

theorem windowLoop_eq {α : Type} (times : List α) (size offset : Nat) (hoff : 0 < offset) :
    windowLoop times size offset hoff 0 = windowsOf times size offset := by
  obtain ⟨K, he, hK⟩ := windowLoop_spec times size offset hoff 0
  rw [he, windowsOf]
  have hle : K ≤ times.length + 1 := by
    by_contra h
    have := (hK (times.length + 1)).1 (by omega)
    have : times.length + 1 ≤ (times.length + 1) * offset := Nat.le_mul_of_pos_right _ hoff
    omega
  have hf : (List.range (times.length + 1)).filter (fun k => decide (k * offset + size ≤ times.length)) = List.range K := by
    rw [← range_filter_lt _ K hle]
    apply List.filter_congr
    intro k _
    simp [hK k]
  rw [hf]
  simp

/-- Selecting the time values of a window of a time-sorted list of rows selects exactly this window of rows. -/
theorem filter_window {α β : Type} [DecidableEq β] (f : α → β) : ∀ (l : List α), (l.map f).Nodup → ∀ a n,
    l.filter (fun x => decide (f x ∈ ((l.map f).drop a).take n)) = (l.drop a).take n := by
  intro l hl a n
  have e : l = l.take a ++ ((l.drop a).take n ++ (l.drop a).drop n) := by rw [List.take_append_drop, List.take_append_drop]
  have hw : ((l.map f).drop a).take n = ((l.drop a).take n).map f := by simp [List.map_take, List.map_drop]
  rw [hw]
  generalize hA : l.take a = A at e
  generalize hB : (l.drop a).take n = B at e hw ⊢
  generalize hC : (l.drop a).drop n = C at e
  subst e
  rw [List.map_append, List.map_append, List.nodup_append', List.nodup_append'] at hl
  obtain ⟨_, ⟨_, _, h2⟩, h1⟩ := hl
  rw [List.filter_append, List.filter_append, List.filter_eq_nil_iff.2, List.filter_eq_self.2, List.filter_eq_nil_iff.2]
  · simp
  · intro x hx
    simp only [decide_eq_true_eq]
    intro hm
    exact h2 hm (List.mem_map_of_mem hx)
  · intro x hx
    simpa using List.mem_map_of_mem hx
  · intro x hx
    simp only [decide_eq_true_eq]
    intro hm
    exact h1 (List.mem_map_of_mem hx) (List.mem_append_left _ hm)

theorem windowsOf_map {α β : Type} (f : α → β) (l : List α) (size offset : Nat) :
    windowsOf (l.map f) size offset = (windowsOf l size offset).map (List.map f) := by
  simp [windowsOf, List.map_take, List.map_drop, Function.comp_def]

theorem timeValues_of_sorted [LinearOrder τ] {s : List (Row τ V)} (h : s.Pairwise (fun a b => a.time < b.time)) :
    timeValues s = s.map (·.time) := unique_of_pairwise (by rw [List.pairwise_map]; exact h)

/-- **C13 (per series).** With `per_time_series=True` the call succeeds iff the sampling interval is constant and both numbers are positive; the yielded
windows are, series by series in ascending ID order, exactly all runs of `window_size` consecutive samples of that series starting at
`0, offset, 2*offset, ...` that fit. -/
theorem C13_per_series {c : List (Row Int V)} (hv : Valid c) (k : TimeKind) (size offset : Int) (ws : List (List (Row Int V))) :
    iterWindows k c size offset true = .ok ws ↔
      isConstDeltaTime k c = true ∧ 0 < size ∧ 0 < offset ∧
      ws = (ids c).flatMap (fun i => windowsOf (series c i) size.toNat offset.toNat) := by
  unfold iterWindows
  by_cases h1 : isConstDeltaTime k c = true
  · by_cases h2 : size ≤ 0
    · simp [h1, h2]
    · by_cases h3 : offset ≤ 0
      · simp [h1, h2, h3]
      · simp only [h1, h2, h3, Bool.not_true, Bool.false_eq_true, if_false, dite_false, if_true, Except.ok.injEq, true_and,
          List.flatMap_map]
        have e : (ids c).flatMap (fun i => (windowLoop (timeValues (c.filter (fun r => r.id == i))) size.toNat offset.toNat
            (by omega) 0).map (selectTimeValues (c.filter (fun r => r.id == i)))) =
            (ids c).flatMap (fun i => windowsOf (series c i) size.toNat offset.toNat) := by
          congr 1
          funext i
          change (windowLoop (timeValues (series c i)) _ _ _ 0).map (selectTimeValues (series c i)) = _
          have hs := hv.series_sorted i
          have hnd : ((series c i).map (·.time)).Nodup := by
            rw [List.nodup_iff_pairwise_ne, List.pairwise_map]; exact hs.imp (fun h => ne_of_lt h)
          rw [windowLoop_eq, timeValues_of_sorted hs, windowsOf_map, List.map_map]
          conv => rhs; rw [← List.map_id (windowsOf (series c i) size.toNat offset.toNat)]
          apply List.map_congr_left
          intro w hw
          obtain ⟨j, _, rfl⟩ := List.mem_map.1 hw
          have := filter_window (·.time) (series c i) hnd (j * offset.toNat) size.toNat
          simp only [Function.comp, id, selectTimeValues]
          rw [List.map_take, List.map_drop]
          exact this
        rw [e]
        constructor
        · rintro rfl; exact ⟨by omega, by omega, rfl⟩
        · rintro ⟨_, _, rfl⟩; rfl
  · simp [h1]

/-- **C13 (all series together).** With `per_time_series=False` window `k` holds, for every series, the samples whose time value is among the
`window_size` consecutive distinct time values of the collection from position `k * offset` on.  (Collections with ascending IDs.) -/
theorem C13_global {c : List (Row Int V)} (_hs : IdsAscending c) (k : TimeKind) (size offset : Int) (ws : List (List (Row Int V)))
    (h : iterWindows k c size offset false = .ok ws) :
    ws = (windowsOf (timeValues c) size.toNat offset.toNat).map (fun ts => c.filter (fun r => decide (r.time ∈ ts))) := by
  unfold iterWindows at h
  split at h
  · simp at h
  split at h
  · simp at h
  split at h
  · simp at h
  simp only [Bool.false_eq_true, if_false, List.flatMap_cons, List.flatMap_nil, List.append_nil, Except.ok.injEq] at h
  subst h
  rw [windowLoop_eq]
  rfl

/-- **C13 (consequences).** Every window has exactly `size` samples; no window is missing or listed twice; with `offset = 1` a series with at least `size ≥ 1`
samples is covered completely. -/
theorem C13_windows {α : Type} (s : List α) (size offset : Nat) (hoff : 0 < offset) :
    (∀ w ∈ windowsOf s size offset, w.length = size) ∧
    (∀ k, (h : k * offset + size ≤ s.length) → ∃ h' : k < (windowsOf s size offset).length,
      (windowsOf s size offset)[k] = (s.drop (k * offset)).take size) ∧
    (∀ k, k < (windowsOf s size offset).length → k * offset + size ≤ s.length) ∧
    (0 < size → size ≤ s.length → offset = 1 → ∀ x ∈ s, ∃ w ∈ windowsOf s size offset, x ∈ w) := by
  obtain ⟨K, he, hK⟩ := windowLoop_spec s size offset hoff 0
  rw [windowLoop_eq] at he
  simp only [Nat.zero_add] at he hK
  rw [he]
  refine ⟨?_, ?_, ?_, ?_⟩
  · intro w hw
    obtain ⟨k, hk, rfl⟩ := List.mem_map.1 hw
    have := (hK k).1 (List.mem_range.1 hk)
    simp; omega
  · intro k h
    exact ⟨by simpa using (hK k).2 h, by simp⟩
  · intro k h; exact (hK k).1 (by simpa using h)
  · rintro hs hl rfl x hx
    obtain ⟨p, hp, rfl⟩ := List.mem_iff_getElem.1 hx
    -- window starting at min p (length - size)
    let q := min p (s.length - size)
    have hq : q * 1 + size ≤ s.length := by simp only [q]; omega
    refine ⟨(s.drop (q * 1)).take size, List.mem_map.2 ⟨q, List.mem_range.2 ((hK q).2 hq), rfl⟩, ?_⟩
    rw [List.mem_iff_getElem]
    refine ⟨p - q, by simp; omega, ?_⟩
    simp only [List.getElem_take, List.getElem_drop]
    congr 1; simp only [q]; omega

/-- non-vacuity: a series of five samples, windows of three every two samples -/
example : windowsOf [10, 11, 12, 13, 14] 3 2 = [[10, 11, 12], [12, 13, 14]] := by decide

example : isConstDeltaTime .int ([⟨1, 0, ()⟩, ⟨1, 5, ()⟩, ⟨0, 5, ()⟩, ⟨0, 10, ()⟩, ⟨0, 15, ()⟩] : List (Row Int Unit)) = true := by decide

/-- **C13 (rejections).** -/
theorem C13_rejects {c : List (Row Int V)} (k : TimeKind) (size offset : Int) (b : Bool) :
    (isConstDeltaTime k c = false → iterWindows k c size offset b = .error .notConstDelta) ∧
    (isConstDeltaTime k c = true → size ≤ 0 → iterWindows k c size offset b = .error .windowSize) ∧
    (isConstDeltaTime k c = true → 0 < size → offset ≤ 0 → iterWindows k c size offset b = .error .offset) := by
  refine ⟨?_, ?_, ?_⟩
  · intro h; simp [iterWindows, h]
  · intro h h2; simp [iterWindows, h, h2]
  · intro h h2 h3
    have : ¬ size ≤ 0 := by omega
    simp [iterWindows, h, this, h3]

end Verif.Tsc
