import Verif.Tsc.Folds
import Verif.Tsc.CollProps
import Mathlib.Data.List.Perm.Basic
/-!
# Lemmas about `KFold`, reshaped index arrays and equally long blocks
-/

namespace Verif.Tsc

open Verif.Np

variable {τ V : Type}

theorem pieces_flatten {α : Type} (ss : List Nat) (l : List α) : (pieces ss l).flatten = l.take ss.sum := by
  induction ss generalizing l with
  | nil => simp [pieces]
  | cons s ss ih => rw [pieces, List.flatten_cons, ih, List.sum_cons, List.take_add]

theorem pieces_length {α : Type} (ss : List Nat) (l : List α) : (pieces ss l).length = ss.length := by
  induction ss generalizing l with
  | nil => simp [pieces]
  | cons s ss ih => simp [pieces, ih]

theorem sum_fold (q r k : Nat) : ((List.range k).map (fun i => q + if i < r then 1 else 0)).sum = k * q + min r k := by
  induction k with
  | zero => simp
  | succ k ih =>
    rw [List.range_succ, List.map_append, List.sum_append, ih]
    simp only [List.map_cons, List.map_nil, List.sum_cons, List.sum_nil, Nat.succ_mul]
    split <;> omega

theorem foldSizes_sum (n k : Nat) (hk : 0 < k) : (foldSizes n k).sum = n := by
  rw [foldSizes, sum_fold, Nat.min_eq_left (le_of_lt (Nat.mod_lt n hk)), Nat.div_add_mod]

theorem pieces_mem_ne_nil {α : Type} (ss : List Nat) (l : List α) (hpos : ∀ s ∈ ss, 0 < s) (hl : ss.sum ≤ l.length) :
    ∀ p ∈ pieces ss l, p ≠ [] := by
  induction ss generalizing l with
  | nil => simp [pieces]
  | cons s ss ih =>
    have hs := hpos s (by simp)
    rw [List.sum_cons] at hl
    intro p hp
    rcases List.mem_cons.1 hp with rfl | hp
    · intro h
      have := congrArg List.length h
      rw [List.length_take, List.length_nil] at this; omega
    · exact ih (l.drop s) (fun x hx => hpos x (by simp [hx])) (by simp; omega) p hp

theorem foldSizes_pos (n k : Nat) (hk : 0 < k) (h : k ≤ n) : ∀ s ∈ foldSizes n k, 0 < s := by
  intro s hs
  obtain ⟨i, _, rfl⟩ := List.mem_map.1 hs
  have : 0 < n / k := Nat.div_pos h hk
  omega

theorem filter_range_contains {n : Nat} {t : List Nat} (ht : t.Nodup) (hn : ∀ x ∈ t, x < n) :
    ((List.range n).filter (fun i => t.contains i)).Perm t := by
  rw [List.perm_ext_iff_of_nodup (List.nodup_range.filter _) ht]
  intro a
  simp only [List.mem_filter, List.mem_range, List.contains_iff_mem]
  exact ⟨fun h => h.2, fun h => ⟨hn a h, h⟩⟩

/-- What a `k`-fold split of `n` rows should be. -/
structure IsKFold (n k : Nat) (fs : List (List Nat × List Nat)) : Prop where
  count : fs.length = k
  /-- the test sets together contain every row exactly once -/
  partition : ((fs.map (·.2)).flatten).Perm (List.range n)
  /-- train and test of a fold together contain every row exactly once -/
  complement : ∀ f ∈ fs, (f.1 ++ f.2).Perm (List.range n)
  sorted : ∀ f ∈ fs, f.1.Pairwise (· < ·) ∧ f.2.Pairwise (· < ·)
  nonempty : ∀ f ∈ fs, f.1 ≠ [] ∧ f.2 ≠ []

theorem flatten_perm {α : Type} {l l' : List (List α)} (h : List.Forall₂ List.Perm l l') : l.flatten.Perm l'.flatten := by
  induction h with
  | nil => simp
  | cons h _ ih => simpa using h.append ih

theorem forall2_map {α β γ : Type} (R : β → γ → Prop) (f : α → β) (g : α → γ) (l : List α) (h : ∀ a ∈ l, R (f a) (g a)) :
    List.Forall₂ R (l.map f) (l.map g) := by
  induction l with
  | nil => simp
  | cons a l ih => exact .cons (h a (by simp)) (ih (fun x hx => h x (by simp [hx])))

theorem pieces_sublist {α : Type} (ss : List Nat) (l : List α) : ∀ p ∈ pieces ss l, p.Sublist l := by
  induction ss generalizing l with
  | nil => simp [pieces]
  | cons s ss ih =>
    intro p hp
    rcases List.mem_cons.1 hp with rfl | hp
    · exact List.take_sublist _ _
    · exact (ih _ p hp).trans (List.drop_sublist _ _)

theorem range_pairwise (n : Nat) : (List.range n).Pairwise (· < ·) := List.pairwise_lt_range

theorem kfold_isKFold {n k : Nat} {order : List Nat} (ho : order.Perm (List.range n)) {fs : List (List Nat × List Nat)}
    (h : kfold n k order = .ok fs) : 2 ≤ k ∧ k ≤ n ∧ IsKFold n k fs := by
  unfold kfold at h
  split at h
  · simp at h
  rename_i hk
  simp only [Except.ok.injEq] at h
  have hk1 : 0 < k := by omega
  have hkn : k ≤ n := by omega
  have hlen : order.length = n := by rw [ho.length_eq, List.length_range]
  have hnd : order.Nodup := ho.nodup_iff.2 List.nodup_range
  have hsum := foldSizes_sum n k hk1
  have hfl : (pieces (foldSizes n k) order).flatten = order := by rw [pieces_flatten, hsum, ← hlen, List.take_length]
  have hlt : ∀ x ∈ order, x < n := fun x hx => List.mem_range.1 (ho.mem_iff.1 hx)
  have hpn : ∀ p ∈ pieces (foldSizes n k) order, p.Nodup ∧ (∀ x ∈ p, x < n) := fun p hp =>
    ⟨hnd.sublist (pieces_sublist _ _ p hp), fun x hx => hlt x ((pieces_sublist _ _ p hp).subset hx)⟩
  have hplen : (pieces (foldSizes n k) order).length = k := by rw [pieces_length]; simp [foldSizes]
  have hpne := pieces_mem_ne_nil (foldSizes n k) order (foldSizes_pos n k hk1 hkn) (by omega)
  subst h
  refine ⟨by omega, hkn, ?_, ?_, ?_, ?_, ?_⟩
  · simp [hplen]
  · rw [List.map_map]
    have h1 : (List.map ((fun x => x.2) ∘ fun test : List Nat => ((List.range n).filter (fun i => !(test.contains i)),
        (List.range n).filter (fun i => test.contains i))) (pieces (foldSizes n k) order)).flatten.Perm
        ((pieces (foldSizes n k) order).map id).flatten := by
      apply flatten_perm
      apply forall2_map
      intro p hp
      exact filter_range_contains (hpn p hp).1 (hpn p hp).2
    rw [List.map_id, hfl] at h1
    exact h1.trans ho
  · intro f hf
    obtain ⟨p, hp, rfl⟩ := List.mem_map.1 hf
    exact (List.perm_append_comm.trans (List.filter_append_perm (fun i => p.contains i) (List.range n)))
  · intro f hf
    obtain ⟨p, hp, rfl⟩ := List.mem_map.1 hf
    exact ⟨(range_pairwise n).sublist List.filter_sublist, (range_pairwise n).sublist List.filter_sublist⟩
  · intro f hf
    obtain ⟨p, hp, rfl⟩ := List.mem_map.1 hf
    have h2 : (List.range n).filter (fun i => p.contains i) ≠ [] := by
      intro e
      have := filter_range_contains (hpn p hp).1 (hpn p hp).2
      rw [e] at this
      exact hpne p hp this.nil_eq.symm
    refine ⟨?_, h2⟩
    -- another fold is non-empty
    intro e
    rw [List.filter_eq_nil_iff] at e
    have hall : ∀ x, x < n → x ∈ p := by
      intro x hx
      have := e x (List.mem_range.2 hx)
      simpa using this
    have hple : p.length < n := by
      obtain ⟨A, B, hAB⟩ := List.append_of_mem hp
      have hA : ((A ++ p :: B).map List.length).sum = n := by
        rw [← List.length_flatten, ← hAB, hfl, hlen]
      have hAB' : A ++ B ≠ [] := by
        intro e'
        have := congrArg List.length hAB
        have h0 := congrArg List.length e'
        rw [hplen, List.length_append, List.length_cons] at this
        rw [List.length_append, List.length_nil] at h0
        omega
      have hpos : 0 < ((A ++ B).map List.length).sum := by
        obtain ⟨q, t, hq⟩ := List.ne_nil_iff_exists_cons.1 hAB'
        rw [hq]
        have hqm : q ∈ pieces (foldSizes n k) order := by
          rw [hAB]
          have : q ∈ A ++ B := by rw [hq]; simp
          rcases List.mem_append.1 this with h | h <;> simp [h]
        have : 0 < q.length := List.length_pos_of_ne_nil (hpne q hqm)
        simp; omega
      simp at hA hpos; omega
    have := (List.subperm_of_subset List.nodup_range (fun x hx => hall x (List.mem_range.1 hx)) : (List.range n).Subperm p).length_le
    simp at this; omega

/-- A fold over groups (rows of an index matrix which partitions the rows) is a fold over the rows. -/
theorem isKFold_pick {N k n : Nat} {fs : List (List Nat × List Nat)} (h : IsKFold N k fs) (m : List (List Nat))
    (hm : ((List.range N).flatMap (fun r => m.getD r [])).Perm (List.range n)) (hne : ∀ r < N, m.getD r [] ≠ []) :
    IsKFold n k (fs.map (fun f => (pickRows m f.1, pickRows m f.2))) := by
  have hp : ∀ rows, (pickRows m rows).Perm (rows.flatMap (fun r => m.getD r [])) := fun rows => List.mergeSort_perm _ _
  have hcomp : ∀ f ∈ fs, (pickRows m f.1 ++ pickRows m f.2).Perm (List.range n) := by
    intro f hf
    refine ((hp _).append (hp _)).trans ?_
    rw [← List.flatMap_append]
    exact ((h.complement f hf).flatMap_right _).trans hm
  refine ⟨by simp [h.count], ?_, ?_, ?_, ?_⟩
  · refine List.Perm.trans ?_ hm
    refine List.Perm.trans ?_ (h.partition.flatMap_right _)
    rw [List.map_map, List.flatMap_def, List.map_flatten, List.flatten_flatten, List.map_map, List.map_map]
    apply flatten_perm
    apply forall2_map
    intro f hf
    exact hp _
  · intro g hg
    obtain ⟨f, hf, rfl⟩ := List.mem_map.1 hg
    exact hcomp f hf
  · intro g hg
    obtain ⟨f, hf, rfl⟩ := List.mem_map.1 hg
    have hnd : (pickRows m f.1 ++ pickRows m f.2).Nodup := (hcomp f hf).nodup_iff.2 List.nodup_range
    rw [List.nodup_append'] at hnd
    have hs : ∀ rows, (pickRows m rows).Pairwise (· ≤ ·) := by
      intro rows
      have := List.pairwise_mergeSort (le := fun a b : Nat => decide (a ≤ b)) (by intro a b c; simp; omega) (by intro a b; simp; omega)
        (rows.flatMap (fun r => m.getD r []))
      exact this.imp (by intro a b h; simpa using h)
    constructor
    · exact ((hs f.1).and (List.nodup_iff_pairwise_ne.1 hnd.1)).imp (by intro a b h; omega)
    · exact ((hs f.2).and (List.nodup_iff_pairwise_ne.1 hnd.2.1)).imp (by intro a b h; omega)
  · intro g hg
    obtain ⟨f, hf, rfl⟩ := List.mem_map.1 hg
    have hlt : ∀ x ∈ f.1 ++ f.2, x < N := fun x hx => List.mem_range.1 ((h.complement f hf).mem_iff.1 hx)
    have aux : ∀ rows : List Nat, rows ≠ [] → (∀ x ∈ rows, x < N) → pickRows m rows ≠ [] := by
      intro rows hr hl e
      have := hp rows
      rw [e] at this
      have := this.nil_eq.symm
      rw [List.flatMap_eq_nil_iff] at this
      obtain ⟨r, t, rfl⟩ := List.ne_nil_iff_exists_cons.1 hr
      exact hne r (hl r (by simp)) (this r (by simp))
    exact ⟨aux _ (h.nonempty f hf).1 (fun x hx => hlt x (by simp [hx])), aux _ (h.nonempty f hf).2 (fun x hx => hlt x (by simp [hx]))⟩

theorem rowMajor_getD (m k r : Nat) (h : r < m) : (rowMajor m k).getD r [] = (List.range k).map (fun j => r * k + j) := by
  simp [rowMajor, h]

theorem colMajor_getD (k m j : Nat) (h : j < k) : (colMajor k m).getD j [] = (List.range m).map (fun i => i * k + j) := by
  simp [colMajor, h]

theorem rowMajor_flat (m k : Nat) : (List.range m).flatMap (fun r => (List.range k).map (fun j => r * k + j)) = List.range (m * k) := by
  induction m with
  | zero => simp
  | succ m ih =>
    rw [List.range_succ, List.flatMap_append, ih, Nat.succ_mul, List.range_add]
    simp

theorem colMajor_flat (k m : Nat) (hk : 0 < k) :
    ((List.range k).flatMap (fun j => (List.range m).map (fun i => i * k + j))).Perm (List.range (m * k)) := by
  rw [List.perm_ext_iff_of_nodup _ List.nodup_range]
  · intro a
    simp only [List.mem_flatMap, List.mem_map, List.mem_range]
    constructor
    · rintro ⟨j, hj, i, hi, rfl⟩
      calc i * k + j < i * k + k := by omega
        _ = (i + 1) * k := by rw [Nat.succ_mul]
        _ ≤ m * k := Nat.mul_le_mul_right _ hi
    · intro ha
      exact ⟨a % k, Nat.mod_lt _ hk, a / k, (Nat.div_lt_iff_lt_mul hk).2 ha, Nat.div_add_mod' a k⟩
  · rw [List.nodup_flatMap]
    refine ⟨?_, ?_⟩
    · intro j _
      refine (List.nodup_map_iff_inj_on List.nodup_range).2 ?_
      intro x _ y _ h
      have : x * k = y * k := by omega
      exact Nat.eq_of_mul_eq_mul_right hk this
    · refine (List.nodup_iff_pairwise_ne.1 List.nodup_range).imp_of_mem ?_
      intro a b ha hb hab x hx hy
      simp only [List.mem_map, List.mem_range] at hx hy ha hb
      obtain ⟨i, _, rfl⟩ := hx
      obtain ⟨i', _, h⟩ := hy
      apply hab
      have h1 : (i * k + a) % k = a := Nat.mul_add_mod_of_lt ha
      have h2 : (i' * k + b) % k = b := Nat.mul_add_mod_of_lt hb
      rw [← h1, ← h2, h]

/-- Row `a` of equally long blocks. -/
theorem flatMap_getElem? {α β : Type} (l : List β) (f : β → List α) {len : Nat} (hlen : 0 < len) (h : ∀ i ∈ l, (f i).length = len) (a : Nat) :
    (l.flatMap f)[a]? = (l[a / len]?).bind (fun i => (f i)[a % len]?) := by
  induction l generalizing a with
  | nil => simp
  | cons i l ih =>
    have hi := h i (by simp)
    rw [List.flatMap_cons]
    by_cases ha : a < len
    · rw [List.getElem?_append_left (by omega), Nat.div_eq_of_lt ha, Nat.mod_eq_of_lt ha]; simp
    · rw [List.getElem?_append_right (by omega), hi, ih (fun x hx => h x (by simp [hx]))]
      have e1 : a / len = (a - len) / len + 1 := by
        rw [Nat.div_eq_sub_div hlen (by omega)]
      have e2 : a % len = (a - len) % len := by rw [Nat.mod_eq_sub_mod (by omega)]
      rw [e1, e2]; simp

/-- The rows of a valid collection of equally long series: row `a` belongs to block `a / len` at position `a % len`. -/
theorem row_block [LinearOrder τ] {c : List (Row τ V)} (hc : c ≠ []) (hv : Valid c) {len : Nat} (h : nTimesteps c = .one len) :
    0 < len ∧ c.length = nTimeseries c * len ∧ ∀ a (ha : a < c.length), ∃ i, (newIds (c.map (·.id)))[a / len]? = some i ∧
      (series c i)[a % len]? = some c[a] := by
  have hl : ∀ i ∈ newIds (c.map (·.id)), (series c i).length = len := by
    intro i hi
    exact (nTimesteps_one hc len).1 h i ((newIds_perm_ids hv.nodup).mem_iff.1 hi)
  have hpos : 0 < len := by
    obtain ⟨i, t, hi⟩ := List.ne_nil_iff_exists_cons.1 (ids_ne_nil hc)
    have hm : i ∈ ids c := by rw [hi]; simp
    have := (nTimesteps_one hc len).1 h i hm
    rw [← this]
    exact List.length_pos_of_ne_nil (series_ne_nil.2 (mem_ids'.1 hm))
  refine ⟨hpos, ?_, ?_⟩
  · conv => lhs; rw [← hv.eq_flatMap]
    rw [List.length_flatMap, List.map_congr_left (fun i hi => hl i hi), List.map_const', nTimeseries,
      (newIds_perm_ids hv.nodup).length_eq]
    simp
  · intro a ha
    have h1 : c[a]? = some c[a] := List.getElem?_eq_getElem ha
    have h2 := flatMap_getElem? (newIds (c.map (·.id))) (series c) hpos hl a
    rw [hv.eq_flatMap, h1] at h2
    cases hx : (newIds (c.map (·.id)))[a / len]? with
    | none => rw [hx] at h2; simp at h2
    | some i => rw [hx] at h2; exact ⟨i, rfl, by simpa using h2.symm⟩

end Verif.Tsc
