import Verif.Tsc.Index
import Mathlib.Tactic.Tauto
import Mathlib.Tactic.NormNum
import Mathlib.Tactic.Linarith
/-! Helper lemmas about ID blocks and validation. -/

namespace Verif.Tsc

theorem mem_newIds {α : Type} [DecidableEq α] (x : α) (l : List α) : x ∈ newIds l ↔ x ∈ l := by
  fun_induction newIds l with
  | case1 => simp
  | case2 => simp
  | case3 b l ih => rw [ih]; simp
  | case4 a b l h ih => simp [ih]

theorem contiguous_nil : Contiguous [] := by intro i j k _ _ hk; simp at hk
theorem contiguous_single (a : Nat) : Contiguous [a] := by intro i j k _ _ hk; simp at hk; omega

theorem contiguous_cons (a b : Nat) (l : List Nat) :
    Contiguous (a :: b :: l) ↔ (a = b ∨ a ∉ b :: l) ∧ Contiguous (b :: l) := by
  constructor
  · intro h
    refine ⟨?_, ?_⟩
    · by_cases hab : a = b
      · exact Or.inl hab
      · right
        intro hm
        rcases List.mem_cons.1 hm with rfl | hm
        · exact hab rfl
        · obtain ⟨n, hn, he⟩ := List.getElem_of_mem hm
          have := h 0 1 (n+2) (by omega) (by omega) (by simp; omega) (by simp [he])
          simp at this
          exact hab this.symm
    · intro i j k hij hjk hk he
      have := h (i+1) (j+1) (k+1) (by omega) (by omega) (by simpa using hk) (by simpa using he)
      simpa using this
  · rintro ⟨h1, h2⟩ i j k hij hjk hk he
    match i, j, k with
    | 0, j+1, k+1 =>
      simp only [List.getElem_cons_zero, List.getElem_cons_succ] at he ⊢
      rcases h1 with rfl | h1
      · by_cases hj : j = 0
        · subst hj; simp
        · have := h2 0 j k (by omega) (by omega) (by simpa using hk) (by simpa using he)
          simpa using this
      · exfalso; apply h1; rw [he]; exact List.getElem_mem _
    | i+1, j+1, k+1 =>
      simp only [List.getElem_cons_succ] at he ⊢
      exact h2 i j k (by omega) (by omega) (by simpa using hk) he

theorem contiguous_iff_nodup (l : List Nat) : Contiguous l ↔ (newIds l).Nodup := by
  fun_induction newIds l with
  | case1 => simp [contiguous_nil]
  | case2 a => simp [contiguous_single]
  | case3 b l ih => rw [contiguous_cons, ← ih]; simp
  | case4 a b l h ih =>
    rw [contiguous_cons, List.nodup_cons, mem_newIds, ih]
    tauto

variable {τ V : Type} [LinearOrder τ]

/-- The order relation demanded between an earlier and a later row. -/
def Before (a b : Row τ V) : Prop := a.id = b.id → a.time < b.time

theorem increasing_iff (c : List (Row τ V)) :
    (∀ i j (_ : i < j) (hj : j < c.length), c[i].id = c[j].id → c[i].time < c[j].time) ↔ c.Pairwise Before := by
  rw [List.pairwise_iff_getElem]
  constructor
  · intro h i j hi hj hij; exact h i j hij hj
  · intro h i j hij hj; exact h i j (by omega) hj hij

theorem valid_iff (c : List (Row τ V)) : Valid c ↔ (newIds (c.map (·.id))).Nodup ∧ c.Pairwise Before := by
  constructor
  · intro h; exact ⟨(contiguous_iff_nodup _).1 h.1, (increasing_iff c).1 h.2⟩
  · rintro ⟨h1, h2⟩; exact ⟨(contiguous_iff_nodup _).2 h1, (increasing_iff c).2 h2⟩

theorem sorted_iff_pairwise (c : List (Row τ V)) (h : Contiguous (c.map (·.id))) :
    construct.notSorted c = false ↔ c.Pairwise Before := by
  match c with
  | [] => simp [construct.notSorted]
  | [a] => simp [construct.notSorted]
  | a :: b :: l =>
    simp only [List.map_cons] at h
    rw [contiguous_cons] at h
    have ih := sorted_iff_pairwise (b :: l) h.2
    unfold construct.notSorted
    rw [List.pairwise_cons, Bool.or_eq_false_iff, ih]
    constructor
    · rintro ⟨h1, h2⟩
      refine ⟨?_, h2⟩
      intro x hx hid
      have hab : a.id = b.id := by
        rcases h.1 with e | e
        · exact e
        · exfalso; apply e; rw [hid]; rw [← List.map_cons (f := fun r : Row τ V => r.id)]; exact List.mem_map_of_mem hx
      have hlt : a.time < b.time := by
        simp [hab] at h1; exact h1
      rcases List.mem_cons.1 hx with rfl | hx
      · exact hlt
      · exact lt_trans hlt ((List.pairwise_cons.1 h2).1 x hx (by rw [← hab, hid]))
    · rintro ⟨h1, h2⟩
      refine ⟨?_, h2⟩
      by_cases hab : a.id = b.id
      · have := h1 b (by simp) hab
        simp [hab, this]
      · simp [hab]

theorem nodup_keys_of_pairwise (c : List (Row τ V)) (h : c.Pairwise Before) : (c.map (·.key)).Nodup := by
  rw [List.Nodup, List.pairwise_map]
  refine h.imp ?_
  intro a b hab he
  simp only [Row.key, Key.mk.injEq] at he
  exact absurd (hab he.1) (by rw [he.2]; exact lt_irrefl _)

theorem construct_ok_iff (c c' : List (Row τ V)) : construct c = .ok c' ↔ c = c' ∧ c ≠ [] ∧ Valid c := by
  unfold construct
  rw [valid_iff]
  by_cases hn : (newIds (c.map (·.id))).Nodup
  · have hc := (contiguous_iff_nodup _).2 hn
    by_cases hp : c.Pairwise Before
    · have h1 := nodup_keys_of_pairwise c hp
      have h2 := (sorted_iff_pairwise c hc).2 hp
      simp only [anyDuplicated, h1, hn, h2]
      cases c <;> simp [hp]
    · have h2 : construct.notSorted c = true := by
        by_contra hh
        exact hp ((sorted_iff_pairwise c hc).1 (by simpa using hh))
      simp only [hp, and_false, iff_false]
      repeat' split
      all_goals first | (intro h; cases h; done) | simp_all
  · simp only [hn, false_and, and_false, iff_false]
    repeat' split
    all_goals first | (intro h; cases h; done) | simp_all [anyDuplicated]

theorem construct_ok_of_valid {c : List (Row τ V)} (h : Valid c) (hne : c ≠ []) : construct c = .ok c :=
  (construct_ok_iff c c).2 ⟨rfl, hne, h⟩

end Verif.Tsc
