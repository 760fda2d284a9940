import Verif.Transform.ColumnsProps
import Mathlib.Algebra.BigOperators.Group.List.Basic
import Mathlib.Algebra.Field.Rat
/-! # Property C69: moving average -/

namespace Verif.Transform

open Verif.Tsc Verif.Np Verif.Takens

variable {α : Type}

theorem sumRows_length [Add α] {n : Nat} (l : List (List α)) (hne : l ≠ []) (h : ∀ a ∈ l, a.length = n) : (sumRows l).length = n := by
  fun_induction sumRows l with
  | case1 => simp at hne
  | case2 a => exact h a (by simp)
  | case3 a l hl ih =>
    rw [List.length_zipWith, ih (by simpa using hl) (fun b hb => h b (by simp [hb])), h a (by simp)]; simp

theorem sumRows_getD [AddMonoid α] {n : Nat} (l : List (List α)) (hne : l ≠ []) (h : ∀ a ∈ l, a.length = n) (f : Nat) (hf : f < n) :
    (sumRows l).getD f 0 = (l.map (fun a => a.getD f 0)).sum := by
  fun_induction sumRows l with
  | case1 => simp at hne
  | case2 a => simp
  | case3 a l hl ih =>
    have hl' : l ≠ [] := by simpa using hl
    have ih := ih hl' (fun b hb => h b (by simp [hb]))
    have hlen := sumRows_length l hl' (fun b hb => h b (by simp [hb]))
    have ha := h a (by simp)
    rw [List.map_cons, List.sum_cons, ← ih]
    simp only [List.getD_eq_getElem?_getD, List.getElem?_zipWith]
    rw [List.getElem?_eq_getElem (show f < a.length by omega), List.getElem?_eq_getElem (show f < (sumRows l).length by omega)]
    simp

/-- `s'` is the moving average of `s` over `w` samples: the first `w - 1` samples are lost; the row of sample `j` has the time of sample `j`, and feature `f` is the mean of
feature `f` over the samples `j - w + 1, ..., j`. -/
def IsMovingAverage [DivisionRing α] (w nf : Nat) (s s' : List (Int × List α)) : Prop :=
  s'.length = s.length + 1 - w ∧
  ∀ q, q + w ≤ s.length → (s'.map (·.1))[q]? = (s.map (·.1))[q + w - 1]? ∧
    ∃ v, (s'.map (·.2))[q]? = some v ∧ v.length = nf ∧
      ∀ f < nf, v.getD f 0 = ((((s.map (·.2)).drop q).take w).map (fun a => a.getD f 0)).sum / w

theorem rollingMean_spec [DivisionRing α] (w nf : Nat) (hw : 1 ≤ w) (s : List (Int × List α)) (hs : ∀ p ∈ s, p.2.length = nf) :
    IsMovingAverage w nf s (rollingMean w s) := by
  refine ⟨by simp [rollingMean], ?_⟩
  intro q hq
  have hq' : q < s.length + 1 - w := by omega
  have hwin : ((s.map (·.2)).drop q).take w ≠ [] := by
    intro e; have := congrArg List.length e; simp at this; omega
  have hwl : ∀ a ∈ ((s.map (·.2)).drop q).take w, a.length = nf := by
    intro a ha
    have := List.mem_of_mem_drop (List.mem_of_mem_take ha)
    obtain ⟨p, hp, rfl⟩ := List.mem_map.1 this
    exact hs p hp
  refine ⟨?_, (sumRows (((s.map (·.2)).drop q).take w)).map (fun x => x / (w : α)), ?_, ?_, ?_⟩
  · simp only [rollingMean, List.map_map, List.getElem?_map, List.getElem?_range hq', Option.map_some, Function.comp]
    rw [List.getD_eq_getElem?_getD, List.getElem?_eq_getElem (by simp; omega)]
    rw [List.getElem?_eq_getElem (show q + w - 1 < s.length by omega)]
    simp
  · simp only [rollingMean, List.map_map, List.getElem?_map, List.getElem?_range hq', Option.map_some, Function.comp]
  · rw [List.length_map, sumRows_length _ hwin hwl]
  · intro f hf
    have hlen := sumRows_length _ hwin hwl
    have := sumRows_getD _ hwin hwl f hf
    rw [← this]
    simp only [List.getD_eq_getElem?_getD, List.getElem?_map]
    rw [List.getElem?_eq_getElem (by omega)]; simp

/-- **C69.** A successful `TSCMovingAverage(window=w)` gives a valid collection in which every series is the moving average of the series with the same ID
(never mixing series); series with fewer than `w` samples are missing from the result (without an error). -/
theorem C69_moving_average [DivisionRing α] {w : Int} {k : TimeKind} {X Y : Frame α} (hv : Valid X.rows) (hr : Rect X.cols.length X.rows)
    (h : movingAverage w k X = .ok Y) :
    Valid Y.rows ∧ (∀ i, IsMovingAverage w.toNat X.cols.length (content X.rows i) (content Y.rows i)) ∧
    (∀ i, HasId Y.rows i ↔ HasId X.rows i ∧ w ≤ (series X.rows i).length) := by
  unfold movingAverage at h
  split at h
  · simp at h
  rename_i hw
  split at h
  · simp at h
  split at h
  · simp at h
  split at h
  · simp at h
  rename_i rows hb
  simp only [Except.ok.injEq] at h
  have hY : Y.rows = rows := by rw [← h]
  rw [build_ok_iff] at hb
  obtain ⟨hb, -, hval⟩ := hb
  rw [hY, ← hb]
  have hspec : ∀ i, IsMovingAverage w.toNat X.cols.length (content X.rows i) (rollingMean w.toNat (content X.rows i)) := by
    intro i
    apply rollingMean_spec _ _ (by omega)
    intro p hp
    obtain ⟨r, hrm, rfl⟩ := List.mem_map.1 hp
    exact hr r (mem_series.1 hrm).1
  have hnil : ∀ i, i ∉ ids X.rows → content X.rows i = [] := by
    intro i hi
    have : series X.rows i = [] := by rw [series_eq_nil, ← mem_ids']; exact hi
    simp [content, this]
  have hser : ∀ i, content ((itertimeseries X.rows).flatMap (fun p => (rollingMean w.toNat p.2).map (fun q => (⟨p.1, q.1, q.2⟩ : Row Int (List α))))) i =
      rollingMean w.toNat (content X.rows i) := by
    intro i
    have e : (itertimeseries X.rows).flatMap (fun p => (rollingMean w.toNat p.2).map (fun q => (⟨p.1, q.1, q.2⟩ : Row Int (List α)))) =
        (ids X.rows).flatMap (fun i => (rollingMean w.toNat (content X.rows i)).map (fun q => (⟨i, q.1, q.2⟩ : Row Int (List α)))) := by
      unfold itertimeseries; rw [List.flatMap_map]; rfl
    unfold content
    rw [e, series_flatMap (ids_nodup _)]
    · split
      · rw [List.map_map]
        exact List.map_id _
      · rename_i hi
        have := hnil i hi
        unfold content at this
        rw [this]
        have h0 : 0 + 1 - w.toNat = 0 := by omega
        have h1 : 1 - w.toNat = 0 := by omega
        simp [rollingMean, h1]
    · intro j _ r hr
      obtain ⟨q, -, rfl⟩ := List.mem_map.1 hr; rfl
  refine ⟨?_, ?_, ?_⟩
  · exact hval
  · intro i; rw [hser]; exact hspec i
  · intro i
    have hlen := (hspec i).1
    rw [← hser i] at hlen
    have hcl : (content X.rows i).length = (series X.rows i).length := by simp [content]
    have hcl' : ∀ c : List (Row Int (List α)), HasId c i ↔ 0 < (content c i).length := by
      intro c
      rw [hasId_iff_series, List.length_pos_iff]
      simp [content]
    rw [hcl', hcl', hlen, hcl]
    omega

/-- A series of four and one of two samples with window 3. -/
def exMa : Frame Rat := ⟨["x"], [⟨4, 0, [1]⟩, ⟨4, 1, [2]⟩, ⟨4, 2, [6]⟩, ⟨4, 3, [7]⟩, ⟨1, 0, [1]⟩, ⟨1, 1, [1]⟩]⟩

example : movingAverage 3 .int exMa = .ok ⟨["x_ma3"], [⟨4, 2, [3]⟩, ⟨4, 3, [5]⟩]⟩ := by decide +kernel

end Verif.Transform
