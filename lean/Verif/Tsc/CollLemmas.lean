import Verif.Tsc.CountLemmas
/-! Helper lemmas: sublists of valid collections, group head and tail. -/

namespace Verif.Tsc

open Verif.Np

theorem sublist3_iff (l : List Nat) : Contiguous l ↔ ∀ a b, [a, b, a].Sublist l → b = a := by
  induction l with
  | nil => simp [contiguous_nil]
  | cons x l ih =>
    cases l with
    | nil =>
      simp only [contiguous_single, true_iff]
      intro a b h
      have := h.length_le; simp at this
    | cons y l =>
      rw [contiguous_cons, ih]
      constructor
      · rintro ⟨h1, h2⟩ a b hs
        cases hs with
        | cons _ hs => exact h2 a b hs
        | cons_cons _ hs =>
          have hx : x ∈ y :: l := hs.subset (by simp)
          rcases h1 with rfl | h1
          · cases hs with
            | cons _ hs => exact h2 _ b (hs.cons_cons _)
            | cons_cons _ hs => rfl
          · exact absurd hx h1
      · intro h
        refine ⟨?_, fun a b hs => h a b (hs.cons _)⟩
        by_cases hxy : x = y
        · exact Or.inl hxy
        · right
          intro hm
          rcases List.mem_cons.1 hm with e | hm
          · exact hxy e
          · exact hxy (h x y (((List.singleton_sublist.2 hm).cons_cons _).cons_cons _)).symm

theorem Contiguous.sublist {l l' : List Nat} (h : Contiguous l) (hs : l'.Sublist l) : Contiguous l' := by
  rw [sublist3_iff] at h ⊢
  intro a b h'
  exact h a b (h'.trans hs)

variable {τ V : Type} [LinearOrder τ]

theorem Valid.sublist {c d : List (Row τ V)} (h : Valid c) (hs : d.Sublist c) : Valid d := by
  rw [valid_iff] at h ⊢
  refine ⟨?_, h.2.sublist hs⟩
  rw [← contiguous_iff_nodup] at h ⊢
  exact h.1.sublist (hs.map _)

theorem groupHead_sublist (n : Nat) (seen : List Nat) (c : List (Row τ V)) : (groupHead n seen c).Sublist c := by
  induction c generalizing seen with
  | nil => simp [groupHead]
  | cons r c ih =>
    unfold groupHead
    split
    · exact (ih _).cons_cons _
    · exact (ih _).cons _

theorem groupTail_sublist (n : Nat) (c : List (Row τ V)) : (groupTail n c).Sublist c := by
  induction c with
  | nil => simp [groupTail]
  | cons r c ih =>
    unfold groupTail
    split
    · exact ih.cons_cons _
    · exact ih.cons _

theorem series_groupHead (n : Nat) (seen : List Nat) (c : List (Row τ V)) (i : Nat) :
    series (groupHead n seen c) i = (series c i).take (n - seen.count i) := by
  induction c generalizing seen with
  | nil => simp [groupHead, series]
  | cons r c ih =>
    unfold groupHead
    by_cases hr : r.id = i
    · subst hr
      rw [series_cons_same]
      split
      · rename_i h
        rw [series_cons_same, ih, List.count_cons_self]
        have : n - seen.count r.id = (n - (seen.count r.id + 1)) + 1 := by omega
        rw [this, List.take_succ_cons]
      · rename_i h
        rw [ih, List.count_cons_self]
        have h1 : n - seen.count r.id = 0 := by omega
        have h2 : n - (seen.count r.id + 1) = 0 := by omega
        rw [h1, h2]; simp
    · have hc : (r.id :: seen).count i = seen.count i := List.count_cons_of_ne hr
      rw [series_cons_ne _ _ hr]
      split
      · rw [series_cons_ne _ _ hr, ih, hc]
      · rw [ih, hc]

theorem series_groupTail (n : Nat) (c : List (Row τ V)) (i : Nat) :
    series (groupTail n c) i = (series c i).drop ((series c i).length - n) := by
  induction c with
  | nil => simp [groupTail, series]
  | cons r c ih =>
    unfold groupTail
    by_cases hr : r.id = i
    · subst hr
      rw [count_eq_length_series, series_cons_same]
      split
      · rename_i h
        rw [series_cons_same, ih]
        have h1 : (series c r.id).length - n = 0 := by omega
        have h2 : (r :: series c r.id).length - n = 0 := by simp; omega
        rw [h1, h2]; simp
      · rename_i h
        have : (r :: series c r.id).length - n = ((series c r.id).length - n) + 1 := by simp; omega
        rw [this, List.drop_succ_cons, ih]
    · rw [series_cons_ne _ _ hr]
      split
      · rw [series_cons_ne _ _ hr, ih]
      · rw [ih]

theorem build_ok_of_valid {c : List (Row τ V)} (h : Valid c) (hne : c ≠ []) : build c = .ok c := by
  rw [build, construct_ok_of_valid h hne]

theorem build_ok_iff {c c' : List (Row τ V)} : build c = .ok c' ↔ c = c' ∧ c ≠ [] ∧ Valid c := by
  rw [← construct_ok_iff]
  unfold build
  cases construct c <;> simp

theorem hasId_iff_series {c : List (Row τ V)} {i : Nat} : HasId c i ↔ series c i ≠ [] := by
  rw [series_ne_nil, HasId, List.mem_map]

theorem series_id {c : List (Row τ V)} {i : Nat} {r : Row τ V} (h : r ∈ series c i) : r.id = i := (mem_series.1 h).2

theorem series_mk_same (i : Nat) (l : List (τ × V)) :
    series (l.map (fun p => (⟨i, p.1, p.2⟩ : Row τ V))) i = l.map (fun p => (⟨i, p.1, p.2⟩ : Row τ V)) := by
  rw [series, List.filter_eq_self]
  intro r hr
  obtain ⟨q, _, rfl⟩ := List.mem_map.1 hr
  simp

theorem series_mk_ne {i j : Nat} (h : i ≠ j) (l : List (τ × V)) :
    series (l.map (fun p => (⟨i, p.1, p.2⟩ : Row τ V))) j = [] := by
  rw [series, List.filter_eq_nil_iff]
  intro r hr
  obtain ⟨q, _, rfl⟩ := List.mem_map.1 hr
  simp [h]

theorem content_mk_same (i : Nat) (l : List (τ × V)) : content (l.map (fun p => (⟨i, p.1, p.2⟩ : Row τ V))) i = l := by
  rw [content, series_mk_same]; simp [Function.comp_def]

theorem ids_nodup (c : List (Row τ V)) : (ids c).Nodup := unique_nodup _

theorem map_fst_zip_sublist {α β : Type} (a : List α) (b : List β) : ((a.zip b).map (·.1)).Sublist a := by
  induction a generalizing b with
  | nil => simp
  | cons x a ih =>
    cases b with
    | nil => simp
    | cons y b => simpa using ih b

/-- A collection is determined by block order and series. -/
theorem series_eq_content (c : List (Row τ V)) (i : Nat) :
    series c i = (content c i).map (fun p => (⟨i, p.1, p.2⟩ : Row τ V)) := by
  unfold content
  rw [List.map_map]
  conv => lhs; rw [← List.map_id (series c i)]
  apply List.map_congr_left
  intro r hr
  have := series_id hr
  cases r; simp_all

end Verif.Tsc
