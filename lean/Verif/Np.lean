import Mathlib.Order.Defs.LinearOrder
import Mathlib.Data.List.Basic
import Mathlib.Data.List.Perm.Subperm
/-!
# Models of the numpy / pandas primitives used by datafold

Each definition models the documented behaviour of a library function that datafold calls.  They are ordinary list
functions; the lemmas are used by the other modules.
-/

namespace Verif.Np

variable {α : Type _}

/-- Insert into a strictly increasing list, dropping duplicates (helper of `unique`). -/
def insertU [LinearOrder α] (x : α) : List α → List α
  | [] => [x]
  | y :: ys => if x < y then x :: y :: ys else if x = y then y :: ys else y :: insertU x ys

/-- `np.unique(a)`: the sorted list of distinct elements. -/
def unique [LinearOrder α] (l : List α) : List α := l.foldr insertU []

theorem mem_insertU [LinearOrder α] (x a : α) (l : List α) : a ∈ insertU x l ↔ a = x ∨ a ∈ l := by
  induction l with
  | nil => simp [insertU]
  | cons y ys ih =>
    unfold insertU
    split
    · simp
    · split
      · subst_vars; simp
      · simp [ih]; tauto

theorem mem_unique [LinearOrder α] (a : α) (l : List α) : a ∈ unique l ↔ a ∈ l := by
  induction l with
  | nil => simp [unique]
  | cons y ys ih => simp only [unique, List.foldr_cons, mem_insertU, List.mem_cons] at *; rw [ih]

theorem insertU_pairwise [LinearOrder α] (x : α) (l : List α) (h : l.Pairwise (· < ·)) :
    (insertU x l).Pairwise (· < ·) := by
  induction l with
  | nil => simp [insertU]
  | cons y ys ih =>
    unfold insertU
    rw [List.pairwise_cons] at h
    split
    · rename_i hxy
      rw [List.pairwise_cons]
      refine ⟨?_, List.pairwise_cons.2 h⟩
      intro a ha
      rcases List.mem_cons.1 ha with rfl | ha
      · exact hxy
      · exact lt_trans hxy (h.1 a ha)
    · split
      · exact List.pairwise_cons.2 h
      · rename_i h1 h2
        rw [List.pairwise_cons]
        refine ⟨?_, ih h.2⟩
        intro a ha
        rcases (mem_insertU _ _ _).1 ha with rfl | ha
        · exact lt_of_le_of_ne (not_lt.1 h1) (fun e => h2 e.symm)
        · exact h.1 a ha

theorem unique_pairwise [LinearOrder α] (l : List α) : (unique l).Pairwise (· < ·) := by
  induction l with
  | nil => simp [unique]
  | cons y ys ih => exact insertU_pairwise _ _ ih

theorem unique_nodup [LinearOrder α] (l : List α) : (unique l).Nodup :=
  (unique_pairwise l).imp (fun h => ne_of_lt h)

/-- Two strictly increasing lists with the same elements are equal. -/
theorem eq_of_pairwise_lt [LinearOrder α] : ∀ {l₁ l₂ : List α}, l₁.Pairwise (· < ·) → l₂.Pairwise (· < ·) →
    (∀ a, a ∈ l₁ ↔ a ∈ l₂) → l₁ = l₂
  | [], [], _, _, _ => rfl
  | [], y :: ys, _, _, h => by have := (h y).2 (by simp); simp at this
  | x :: xs, [], _, _, h => by have := (h x).1 (by simp); simp at this
  | x :: xs, y :: ys, h1, h2, h => by
    rw [List.pairwise_cons] at h1 h2
    have hxy : x = y := by
      rcases lt_trichotomy x y with hlt | heq | hgt
      · have := (h x).1 (by simp)
        rcases List.mem_cons.1 this with e | hm
        · exact e
        · exact absurd (lt_trans hlt (h2.1 x hm)) (lt_irrefl _)
      · exact heq
      · have := (h y).2 (by simp)
        rcases List.mem_cons.1 this with e | hm
        · exact e.symm
        · exact absurd (lt_trans hgt (h1.1 y hm)) (lt_irrefl _)
    subst hxy
    congr 1
    apply eq_of_pairwise_lt h1.2 h2.2
    intro a
    constructor
    · intro ha
      have hlt := h1.1 a ha
      have := (h a).1 (List.mem_cons_of_mem _ ha)
      rcases List.mem_cons.1 this with e | hm
      · exact absurd hlt (by rw [e]; exact lt_irrefl _)
      · exact hm
    · intro ha
      have hlt := h2.1 a ha
      have := (h a).2 (List.mem_cons_of_mem _ ha)
      rcases List.mem_cons.1 this with e | hm
      · exact absurd hlt (by rw [e]; exact lt_irrefl _)
      · exact hm

theorem unique_of_pairwise [LinearOrder α] {l : List α} (h : l.Pairwise (· < ·)) : unique l = l :=
  eq_of_pairwise_lt (unique_pairwise l) h (fun a => mem_unique a l)

theorem unique_congr [LinearOrder α] {l l' : List α} (h : ∀ a, a ∈ l ↔ a ∈ l') : unique l = unique l' :=
  eq_of_pairwise_lt (unique_pairwise l) (unique_pairwise l') (fun a => by rw [mem_unique, mem_unique, h])

theorem unique_perm_of_nodup [LinearOrder α] {l : List α} (h : l.Nodup) : (unique l).Perm l :=
  (List.perm_ext_iff_of_nodup (unique_nodup l) h).2 (fun a => mem_unique a l)

theorem length_unique_eq_iff [LinearOrder α] (l : List α) : (unique l).length = l.length ↔ l.Nodup := by
  constructor
  · intro h
    induction l with
    | nil => simp
    | cons y ys ih =>
      have hle : ∀ l : List α, (unique l).length ≤ l.length := by
        intro l
        exact (List.subperm_of_subset (unique_nodup l) (fun a ha => (mem_unique a l).1 ha)).length_le
      have hins : ∀ (x : α) (l : List α), x ∈ l → l.Pairwise (· < ·) → (insertU x l).length = l.length := by
        intro x l hx hp
        have : insertU x l = l := eq_of_pairwise_lt (insertU_pairwise _ _ hp) hp (fun a => by
          rw [mem_insertU]; constructor
          · rintro (rfl | h) <;> assumption
          · exact Or.inr)
        rw [this]
      have hins2 : ∀ (x : α) (l : List α), (insertU x l).length ≤ l.length + 1 := by
        intro x l
        induction l with
        | nil => simp [insertU]
        | cons z zs ihz => unfold insertU; split <;> [simp; (split <;> simp <;> omega)]
      have hys := hle ys
      by_cases hm : y ∈ ys
      · have h1 : (insertU y (unique ys)).length = (unique ys).length :=
          hins y _ ((mem_unique _ _).2 hm) (unique_pairwise _)
        have h2 : (unique (y :: ys)).length = (insertU y (unique ys)).length := rfl
        rw [h2, h1] at h
        simp at h; omega
      · rw [List.nodup_cons]
        refine ⟨hm, ih ?_⟩
        have h2 : (unique (y :: ys)).length = (insertU y (unique ys)).length := rfl
        have h3 := hins2 y (unique ys)
        rw [h2] at h
        simp at h; omega
  · intro h; exact (unique_perm_of_nodup h).length_eq

end Verif.Np
