import Verif.Transform.Takens
import Verif.Transform.TakensSpec
import Verif.Tsc.CollLemmas
import Verif.Tsc.CountLemmas
/-! # Helper lemmas for the delay embedding -/

namespace Verif.Takens

open Verif.Tsc Verif.Np

variable {α : Type}

theorem arange_mul (d f : Nat) (hf : 1 ≤ f) : arange 1 (d * f + 1) f = (List.range d).map (fun k => 1 + k * f) := by
  unfold arange
  have : (d * f + 1 - 1 + f - 1) / f = d := by
    have h : d * f + 1 - 1 + f - 1 = f * d + (f - 1) := by rw [Nat.mul_comm]; omega
    rw [h, Nat.mul_add_div (by omega), Nat.div_eq_of_lt (by omega)]; simp
  rw [this]

theorem validateParams_ok (p : Params) : validateParams p = .ok () ↔
    1 ≤ p.delays ∧ 0 ≤ p.lag ∧ 1 ≤ p.frequency ∧ (1 < p.frequency → 1 < p.delays) := by
  unfold validateParams
  by_cases h1 : p.delays < 1
  · simp [h1]
  by_cases h2 : p.lag < 0
  · simp [h1, h2]
  by_cases h3 : p.frequency < 1
  · simp [h1, h2, h3]
  by_cases h4 : 1 < p.frequency ∧ p.delays ≤ 1
  · simp only [h1, h2, h3, h4, if_false]; simp; omega
  · simp only [h1, h2, h3, h4, if_false]; simp; omega

theorem delayIndices_eq {p : Params} (h : validateParams p = .ok ()) :
    delayIndices p = (List.range p.delays.toNat).map (delay p.lag.toNat p.frequency.toNat) := by
  rw [validateParams_ok] at h
  unfold delayIndices
  rw [arange_mul _ _ (by omega), List.map_map]
  congr 1
  funext k
  simp [delay]; omega

theorem foldl_max_ge (l : List Nat) (a : Nat) : a ≤ l.foldl max a ∧ ∀ x ∈ l, x ≤ l.foldl max a := by
  induction l generalizing a with
  | nil => simp
  | cons b l ih =>
    have := ih (max a b)
    simp only [List.foldl_cons, List.mem_cons]
    refine ⟨by omega, ?_⟩
    rintro x (rfl | hx)
    · omega
    · exact this.2 x hx

theorem foldl_max_mem (l : List Nat) (a : Nat) : l.foldl max a = a ∨ l.foldl max a ∈ l := by
  induction l generalizing a with
  | nil => simp
  | cons b l ih =>
    rcases ih (max a b) with h | h
    · rw [List.foldl_cons, h]
      rcases Nat.le_total a b with hab | hab
      · right; simp [Nat.max_eq_right hab]
      · left; omega
    · right; exact List.mem_cons_of_mem _ h

theorem maxDelay_delays (lag n f : Nat) (hn : 1 ≤ n) :
    maxDelay ((List.range n).map (delay lag f)) = largestDelay lag n f := by
  apply Nat.le_antisymm
  · rcases foldl_max_mem ((List.range n).map (delay lag f)) 0 with h | h
    · unfold maxDelay; rw [h]; omega
    · obtain ⟨k, hk, he⟩ := List.mem_map.1 h
      unfold maxDelay; rw [← he]
      have hk := List.mem_range.1 hk
      unfold largestDelay delay
      have := Nat.mul_le_mul_right f (show k ≤ n - 1 by omega)
      omega
  · exact (foldl_max_ge _ 0).2 _ (List.mem_map.2 ⟨n - 1, List.mem_range.2 (by omega), rfl⟩)

theorem hstack_getElem? (bs : List (List (List α))) (hne : bs ≠ []) {n : Nat} (h : ∀ b ∈ bs, b.length = n) (q : Nat) :
    (hstack bs)[q]? = if q < n then some (bs.flatMap (fun b => b.getD q [])) else none := by
  induction bs with
  | nil => simp at hne
  | cons b bs ih =>
    cases bs with
    | nil =>
      have hb := h b (by simp)
      simp only [hstack, List.flatMap_cons, List.flatMap_nil, List.append_nil]
      split
      · simp [List.getElem?_eq_getElem (show q < b.length by omega)]
      · exact List.getElem?_eq_none (by omega)
    | cons b' bs =>
      have hb := h b (by simp)
      have ih := ih (by simp) (fun b hb => h b (by simp [hb]))
      rw [hstack, List.getElem?_zipWith, ih]
      · by_cases hq : q < n
        · rw [if_pos hq, if_pos hq, List.getElem?_eq_getElem (show q < b.length by omega)]
          simp [List.flatMap_cons, List.getElem?_eq_getElem (show q < b.length by omega)]
        · rw [if_neg hq, if_neg hq]
          cases b[q]? <;> rfl
      · simp

theorem hstack_length (bs : List (List (List α))) (hne : bs ≠ []) {n : Nat} (h : ∀ b ∈ bs, b.length = n) : (hstack bs).length = n := by
  have h1 := hstack_getElem? bs hne h n
  have h2 := hstack_getElem? bs hne h (n - 1)
  simp only [lt_irrefl, if_false, List.getElem?_eq_none_iff] at h1
  by_cases h0 : n = 0
  · omega
  · rw [if_pos (by omega)] at h2
    have := (List.getElem?_eq_some_iff.1 h2).1
    omega

theorem sliceBack_length (a : List α) (s b : Nat) : (sliceBack a s b).length = a.length - b - s := by
  simp [sliceBack]

theorem sliceBack_getElem? (a : List α) (s b q : Nat) : (sliceBack a s b)[q]? = if q + s < a.length - b then a[q + s]? else none := by
  unfold sliceBack
  rw [List.getElem?_drop, List.getElem?_take, Nat.add_comm s q]

/-- Multiplying a row made of equally long blocks by the repeated weights multiplies block `k` by weight `k`. -/
theorem zipWith_npRepeat [Mul α] (n : Nat) (blocks : List (List α)) (v : List α) (hl : blocks.length = v.length)
    (h : ∀ b ∈ blocks, b.length = n) :
    List.zipWith (· * ·) blocks.flatten (npRepeat v n) =
      (List.zipWith (fun b x => b.map (· * x)) blocks v).flatten := by
  induction blocks generalizing v with
  | nil => simp
  | cons b bs ih =>
    cases v with
    | nil => simp at hl
    | cons x v =>
      have hb := h b (by simp)
      simp only [List.flatten_cons, npRepeat, List.flatMap_cons, List.zipWith_cons_cons]
      rw [List.zipWith_append (by simp [hb])]
      have := ih v (by simpa using hl) (fun b hb => h b (by simp [hb]))
      unfold npRepeat at this
      rw [this]
      congr 1
      apply List.ext_getElem
      · simp [hb]
      · intro i h1 h2; simp

/-- The scaling of delay block `k`. -/
def scaleOf [Mul α] (w : Option (Nat → α)) (k : Nat) (x : α) : α :=
  match w with
  | none => x
  | some f => x * f (k + 1)

/-- What the loop body computes for one series. -/
theorem takensSeries_spec [Mul α] (lag n f nf : Nat) (hn : 1 ≤ n) (w : Option (Nat → α)) (i : Nat) (s : List (Int × List α))
    (hw : ∀ p ∈ s, p.2.length = nf) :
    (∀ r ∈ takensSeries ((List.range n).map (delay lag f)) (kappaVec w n nf) (s.map (fun q => ⟨i, q.1, q.2⟩)), r.id = i) ∧
    IsEmbedding lag n f (scaleOf w) s
      ((takensSeries ((List.range n).map (delay lag f)) (kappaVec w n nf) (s.map (fun q => ⟨i, q.1, q.2⟩))).map (fun r => (r.time, r.val))) := by
  set m := largestDelay lag n f with hm
  have hmle : ∀ k, k < n → delay lag f k ≤ m := by
    intro k hk
    simp only [hm, largestDelay, delay]
    have := Nat.mul_le_mul_right f (show k ≤ n - 1 by omega)
    omega
  have hpos : ∀ k, 1 ≤ delay lag f k := by intro k; simp [delay]; omega
  -- the delayed block
  have hblk : ∀ b ∈ ((List.range n).map (delay lag f)).map (fun d => sliceBack (s.map (·.2)) (m - d) d), b.length = s.length - m := by
    intro b hb
    obtain ⟨d, hd, rfl⟩ := List.mem_map.1 hb
    obtain ⟨k, hk, rfl⟩ := List.mem_map.1 hd
    have := hmle k (List.mem_range.1 hk)
    rw [sliceBack_length]; simp; omega
  have hblkne : ((List.range n).map (delay lag f)).map (fun d => sliceBack (s.map (·.2)) (m - d) d) ≠ [] := by
    simp; omega
  -- a row of the delayed blocks
  have hrow : ∀ j (hmj : m ≤ j) (hj : j < s.length),
      (hstack (((List.range n).map (delay lag f)).map (fun d => sliceBack (s.map (·.2)) (m - d) d)))[j - m]? =
        some ((List.range n).map (fun k => (s[j - delay lag f k]'(by omega)).2)).flatten := by
    intro j hmj hj
    rw [hstack_getElem? _ hblkne hblk, if_pos (by omega)]
    congr 1
    rw [List.map_map, List.flatMap_def, List.map_map]
    congr 1
    apply List.map_congr_left
    intro k hk
    have := hmle k (List.mem_range.1 hk)
    have := hpos k
    simp only [Function.comp]
    rw [List.getD_eq_getElem?_getD, sliceBack_getElem?, if_pos (by simp; omega)]
    have e : j - m + (m - delay lag f k) = j - delay lag f k := by omega
    rw [e, List.getElem?_eq_getElem (by simp; omega)]
    simp
  -- after scaling
  let del := hstack (((List.range n).map (delay lag f)).map (fun d => sliceBack (s.map (·.2)) (m - d) d))
  let del' := applyKappa (kappaVec w n nf) del
  have hdlen : del'.length = s.length - m := by
    have := hstack_length _ hblkne hblk
    simp only [del', applyKappa]
    split <;> (first | exact this | (rw [List.length_map]; exact this))
  have hrow' : ∀ j (hmj : m ≤ j) (hj : j < s.length),
      del'[j - m]? = some ((List.range n).flatMap (fun k => (s[j - delay lag f k]'(by omega)).2.map (scaleOf w k))) := by
    intro j hmj hj
    have h := hrow j hmj hj
    simp only [del']
    cases w with
    | none =>
      simp only [kappaVec, Option.map_none, del, applyKappa]
      rw [h, List.flatMap_def]
      congr 2
      apply List.map_congr_left
      intro k _
      have : scaleOf (none : Option (Nat → α)) k = id := by funext x; rfl
      rw [this, List.map_id]
    | some g =>
      simp only [kappaVec, Option.map_some, del, applyKappa]
      rw [List.getElem?_map, h, Option.map_some, zipWith_npRepeat nf]
      · rw [List.flatMap_def]
        congr 2
        apply List.ext_getElem
        · simp
        · intro k h1 h2
          simp only [List.getElem_zipWith, List.getElem_map, List.getElem_range]
          rfl
      · simp
      · intro b hb
        obtain ⟨k, hk, rfl⟩ := List.mem_map.1 hb
        exact hw _ (List.getElem_mem _)
  -- the whole
  have hform : takensSeries ((List.range n).map (delay lag f)) (kappaVec w n nf) (s.map (fun q => ⟨i, q.1, q.2⟩)) =
      List.zipWith (fun (r : Row Int (List α)) v => { r with val := v }) ((s.map (fun q => ⟨i, q.1, q.2⟩)).drop m)
        (hstack [(s.map (·.2)).drop m, del']) := by
    unfold takensSeries
    rw [maxDelay_delays _ _ _ hn, ← hm]
    simp only [List.map_map, Function.comp_def, del', del]
  have hh2 : ∀ b ∈ [(s.map (·.2)).drop m, del'], b.length = s.length - m := by
    intro b hb
    simp only [List.mem_cons, List.not_mem_nil, or_false] at hb
    rcases hb with rfl | rfl
    · simp
    · exact hdlen
  have hlast := hstack_getElem? [(s.map (·.2)).drop m, del'] (by simp) hh2
  have hlastlen := hstack_length [(s.map (·.2)).drop m, del'] (by simp) hh2
  rw [hform]
  refine ⟨?_, ?_, ?_⟩
  · intro r hr
    rw [List.mem_iff_getElem] at hr
    obtain ⟨q, hq, rfl⟩ := hr
    simp
  · rw [List.length_map, List.length_zipWith, hlastlen]; simp [← hm]
  · intro j hmj hj
    rw [← hm] at hmj ⊢
    rw [List.getElem?_map, List.getElem?_zipWith, hlast, if_pos (by omega), List.getElem?_drop,
      List.getElem?_eq_getElem (by simp; omega)]
    have e : m + (j - m) = j := by omega
    have h3 := hrow' j hmj hj
    simp only [List.flatMap_cons, List.flatMap_nil, List.append_nil, List.getD_eq_getElem?_getD, h3, List.getElem?_drop, e,
      Option.getD_some]
    rw [List.getElem?_eq_getElem (by simp; omega)]
    simp

end Verif.Takens
