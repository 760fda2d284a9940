import Verif.Tsc.CountLemmas
import Mathlib.Tactic.Ring
/-! Helper lemmas for shift matrices: deleting block ends and block starts by position. -/

namespace Verif.Tsc

open Verif.Np

/-- positions of block ends -/
def endsFrom (o : Nat) : List Nat → List Nat
  | [] => []
  | n :: l => (o + n - 1) :: endsFrom (o + n) l

/-- positions of block starts -/
def startsFrom (o : Nat) : List Nat → List Nat
  | [] => []
  | n :: l => o :: startsFrom (o + n) l

theorem cumsumFrom_ends (o : Nat) (l : List Nat) : ((cumsumFrom o l).map (· - 1)).drop 1 = endsFrom o l := by
  induction l generalizing o with
  | nil => rfl
  | cons n l ih =>
    have := ih (o + n)
    simp only [cumsumFrom, List.map_cons, List.drop_succ_cons, List.drop_zero, endsFrom]
    rw [← this]
    cases l <;> simp [cumsumFrom]

theorem cumsumFrom_ne_nil (o : Nat) (l : List Nat) : cumsumFrom o l ≠ [] := by cases l <;> simp [cumsumFrom]

theorem cumsumFrom_starts (o : Nat) (l : List Nat) : (cumsumFrom o l).dropLast = startsFrom o l := by
  induction l generalizing o with
  | nil => rfl
  | cons n l ih =>
    simp only [cumsumFrom, startsFrom]
    rw [List.dropLast_cons_of_ne_nil (cumsumFrom_ne_nil _ _), ih]

theorem mem_endsFrom_replicate (o m k p : Nat) (hk : 0 < k) :
    p ∈ endsFrom o (List.replicate m k) ↔ ∃ j < m, p = o + j * k + (k - 1) := by
  induction m generalizing o with
  | zero => simp [endsFrom]
  | succ m ih =>
    simp only [List.replicate_succ, endsFrom, List.mem_cons, ih]
    constructor
    · rintro (h | ⟨j, hj, h⟩)
      · exact ⟨0, by omega, by omega⟩
      · exact ⟨j + 1, by omega, by rw [h]; ring_nf⟩
    · rintro ⟨j, hj, h⟩
      cases j with
      | zero => left; omega
      | succ j => right; exact ⟨j, by omega, by rw [h]; ring_nf⟩

theorem mem_startsFrom_replicate (o m k p : Nat) :
    p ∈ startsFrom o (List.replicate m k) ↔ ∃ j < m, p = o + j * k := by
  induction m generalizing o with
  | zero => simp [startsFrom]
  | succ m ih =>
    simp only [List.replicate_succ, startsFrom, List.mem_cons, ih]
    constructor
    · rintro (h | ⟨j, hj, h⟩)
      · exact ⟨0, by omega, by omega⟩
      · exact ⟨j + 1, by omega, by rw [h]; ring_nf⟩
    · rintro ⟨j, hj, h⟩
      cases j with
      | zero => left; omega
      | succ j => right; exact ⟨j, by omega, by rw [h]; ring_nf⟩

theorem endsFrom_ge {o p : Nat} {l : List Nat} (hl : ∀ n ∈ l, 0 < n) (h : p ∈ endsFrom o l) : o ≤ p := by
  induction l generalizing o with
  | nil => simp [endsFrom] at h
  | cons n l ih =>
    have := hl n (by simp)
    rcases List.mem_cons.1 h with h | h
    · omega
    · have := ih (fun n hn => hl n (by simp [hn])) h; omega

theorem startsFrom_ge {o p : Nat} {l : List Nat} (h : p ∈ startsFrom o l) : o ≤ p := by
  induction l generalizing o with
  | nil => simp [startsFrom] at h
  | cons n l ih =>
    rcases List.mem_cons.1 h with h | h
    · omega
    · have := ih h; omega

theorem filter_zipIdx_congr {α : Type} (l : List α) (o : Nat) {p q : Nat → Bool} (h : ∀ n, o ≤ n → n < o + l.length → p n = q n) :
    (l.zipIdx o).filter (fun x => p x.2) = (l.zipIdx o).filter (fun x => q x.2) := by
  apply List.filter_congr
  intro x hx
  obtain ⟨a, n⟩ := x
  have := List.mem_zipIdx hx
  exact h n this.1 (by omega)

theorem filter_zipIdx_last {α : Type} (l : List α) (o : Nat) (hl : l ≠ []) {p : Nat → Bool}
    (h : ∀ n, o ≤ n → n < o + l.length → p n = !(n == o + l.length - 1)) :
    ((l.zipIdx o).filter (fun x => p x.2)).map (·.1) = l.dropLast := by
  induction l generalizing o with
  | nil => simp at hl
  | cons a l ih =>
    by_cases he : l = []
    · subst he
      have := h o (by omega) (by simp)
      simp at this
      simp [this]
    · have hpos : 0 < l.length := List.length_pos_iff.2 he
      have h1 : p o = true := by
        rw [h o (by omega) (by simp)]
        simp; omega
      rw [List.dropLast_cons_of_ne_nil he, List.zipIdx_cons, List.filter_cons_of_pos (by simpa using h1), List.map_cons]
      congr 1
      apply ih (o + 1) he
      intro n hn hn'
      rw [h n (by omega) (by simp; omega)]
      simp only [List.length_cons]
      congr 1
      rw [Bool.eq_iff_iff, beq_iff_eq, beq_iff_eq]
      constructor <;> intro hh <;> omega

theorem filter_zipIdx_first {α : Type} (l : List α) (o : Nat) {p : Nat → Bool}
    (h : ∀ n, o ≤ n → n < o + l.length → p n = !(n == o)) :
    ((l.zipIdx o).filter (fun x => p x.2)).map (·.1) = l.tail := by
  cases l with
  | nil => rfl
  | cons a l =>
    have h1 : p o = false := by rw [h o (by omega) (by simp)]; simp
    rw [List.zipIdx_cons, List.filter_cons_of_neg (by simp [h1]), List.tail_cons]
    have : (l.zipIdx (o+1)).filter (fun x => p x.2) = l.zipIdx (o+1) := by
      rw [List.filter_eq_self]
      rintro ⟨x, n⟩ hx
      have hm := List.mem_zipIdx hx
      rw [h n (by omega) (by simp; omega)]
      simp; omega
    rw [this]; exact List.zipIdx_map_fst _ _

theorem delete_ends {α : Type} (bs : List (List α)) (o : Nat) (hb : ∀ b ∈ bs, b ≠ []) :
    ((bs.flatten.zipIdx o).filter (fun x => !((endsFrom o (bs.map List.length)).contains x.2))).map (·.1) =
      bs.flatMap List.dropLast := by
  induction bs generalizing o with
  | nil => rfl
  | cons b bs ih =>
    have hbpos : 0 < b.length := List.length_pos_iff.2 (hb b (by simp))
    have hpos : ∀ n ∈ bs.map List.length, 0 < n := by
      intro n hn
      obtain ⟨x, hx, rfl⟩ := List.mem_map.1 hn
      exact List.length_pos_iff.2 (hb x (by simp [hx]))
    rw [List.flatten_cons, List.zipIdx_append, List.filter_append, List.map_append, List.flatMap_cons]
    congr 1
    · apply filter_zipIdx_last (p := fun n => !((endsFrom o ((b :: bs).map List.length)).contains n)) b o (hb b (by simp))
      intro n h1 h2
      congr 1
      rw [Bool.eq_iff_iff]
      simp only [List.contains_iff_mem, beq_iff_eq, List.map_cons, endsFrom, List.mem_cons]
      constructor
      · rintro (h | h)
        · exact h
        · have := endsFrom_ge hpos h; omega
      · exact Or.inl
    · rw [← ih (o + b.length) (fun x hx => hb x (by simp [hx]))]
      congr 1
      apply filter_zipIdx_congr (p := fun n => !((endsFrom o ((b :: bs).map List.length)).contains n))
        (q := fun n => !((endsFrom (o + b.length) (bs.map List.length)).contains n))
      intro n h1 h2
      congr 1
      rw [Bool.eq_iff_iff]
      simp only [List.contains_iff_mem, List.map_cons, endsFrom, List.mem_cons]
      constructor
      · rintro (h | h)
        · omega
        · exact h
      · exact Or.inr

theorem delete_starts {α : Type} (bs : List (List α)) (o : Nat) (hb : ∀ b ∈ bs, b ≠ []) :
    ((bs.flatten.zipIdx o).filter (fun x => !((startsFrom o (bs.map List.length)).contains x.2))).map (·.1) =
      bs.flatMap List.tail := by
  induction bs generalizing o with
  | nil => rfl
  | cons b bs ih =>
    have hbpos : 0 < b.length := List.length_pos_iff.2 (hb b (by simp))
    rw [List.flatten_cons, List.zipIdx_append, List.filter_append, List.map_append, List.flatMap_cons]
    congr 1
    · apply filter_zipIdx_first (p := fun n => !((startsFrom o ((b :: bs).map List.length)).contains n)) b o
      intro n h1 h2
      congr 1
      rw [Bool.eq_iff_iff]
      simp only [List.contains_iff_mem, beq_iff_eq, List.map_cons, startsFrom, List.mem_cons]
      constructor
      · rintro (h | h)
        · exact h
        · have := startsFrom_ge h; omega
      · exact Or.inl
    · rw [← ih (o + b.length) (fun x hx => hb x (by simp [hx]))]
      congr 1
      apply filter_zipIdx_congr (p := fun n => !((startsFrom o ((b :: bs).map List.length)).contains n))
        (q := fun n => !((startsFrom (o + b.length) (bs.map List.length)).contains n))
      intro n h1 h2
      congr 1
      rw [Bool.eq_iff_iff]
      simp only [List.contains_iff_mem, List.map_cons, startsFrom, List.mem_cons]
      constructor
      · rintro (h | h)
        · omega
        · exact h
      · exact Or.inr

theorem mem_npStep_range {m s k p : Nat} : p ∈ npStep (List.range m) s k ↔ p < m ∧ s ≤ p ∧ (p - s) % k = 0 := by
  have : ∀ x : Nat × Nat, x ∈ (List.range m).zipIdx ↔ x.1 = x.2 ∧ x.1 < m := by
    rintro ⟨a, b⟩
    rw [List.mem_zipIdx_iff_getElem?]
    simp only [List.getElem?_eq_some_iff, List.length_range, List.getElem_range, exists_prop]
    constructor
    · rintro ⟨h, rfl⟩; exact ⟨rfl, h⟩
    · rintro ⟨rfl, h⟩; exact ⟨h, rfl⟩
  simp only [npStep, List.mem_map, List.mem_filter, this, Bool.and_eq_true, decide_eq_true_eq, beq_iff_eq]
  constructor
  · rintro ⟨⟨a, b⟩, ⟨⟨h1, h2⟩, h3, h4⟩, rfl⟩
    simp only at h1 h2 h3 h4 ⊢; subst h1; exact ⟨h2, h3, h4⟩
  · rintro ⟨h1, h2, h3⟩
    exact ⟨(p, p), ⟨⟨rfl, h1⟩, h2, h3⟩, rfl⟩

theorem ends_equal {m k p : Nat} (hk : 0 < k) (hp : p < m * k) :
    p ∈ endsFrom 0 (List.replicate m k) ↔ k - 1 ≤ p ∧ (p - (k - 1)) % k = 0 := by
  rw [mem_endsFrom_replicate _ _ _ _ hk]
  constructor
  · rintro ⟨j, hj, rfl⟩
    refine ⟨by omega, ?_⟩
    have : 0 + j * k + (k - 1) - (k - 1) = j * k := by omega
    rw [this]; exact Nat.mul_mod_left _ _
  · rintro ⟨h1, h2⟩
    refine ⟨(p - (k - 1)) / k, ?_, ?_⟩
    · rw [Nat.div_lt_iff_lt_mul hk]; omega
    · have := Nat.div_mul_cancel (Nat.dvd_of_mod_eq_zero h2)
      rw [this]; omega

theorem starts_equal {m k p : Nat} (hk : 0 < k) (hp : p < m * k) :
    p ∈ startsFrom 0 (List.replicate m k) ↔ p % k = 0 := by
  rw [mem_startsFrom_replicate]
  constructor
  · rintro ⟨j, hj, rfl⟩
    simp
  · intro h2
    refine ⟨p / k, ?_, ?_⟩
    · rw [Nat.div_lt_iff_lt_mul hk]; omega
    · have := Nat.div_mul_cancel (Nat.dvd_of_mod_eq_zero h2)
      rw [this]; omega

/-- the two index arrays for equal lengths delete block ends and starts -/
theorem npDelete_equal {α : Type} (bs : List (List α)) (k : Nat) (hk : 0 < k) (hb : ∀ b ∈ bs, b.length = k) :
    npDelete bs.flatten (npStep (List.range bs.flatten.length) (k - 1) k) = bs.flatMap List.dropLast ∧
    npDelete bs.flatten (npStep (List.range bs.flatten.length) 0 k) = bs.flatMap List.tail := by
  have hne : ∀ b ∈ bs, b ≠ [] := by
    rintro b h rfl
    have := hb _ h; simp at this; omega
  have hlen : bs.map List.length = List.replicate bs.length k := by
    rw [List.eq_replicate_iff]; simp; exact hb
  have hfl : bs.flatten.length = bs.length * k := by
    rw [List.length_flatten, hlen]; simp
  constructor
  · rw [← delete_ends bs 0 hne]
    unfold npDelete
    congr 1
    apply filter_zipIdx_congr (p := fun n => !(npStep (List.range bs.flatten.length) (k - 1) k).contains n)
      (q := fun n => !(endsFrom 0 (bs.map List.length)).contains n)
    intro n _ h2
    rw [hlen]
    congr 1
    rw [Bool.eq_iff_iff, List.contains_iff_mem, List.contains_iff_mem, mem_npStep_range, ends_equal hk (by omega)]
    constructor
    · rintro ⟨_, h⟩; exact h
    · intro h; exact ⟨by omega, h⟩
  · rw [← delete_starts bs 0 hne]
    unfold npDelete
    congr 1
    apply filter_zipIdx_congr (p := fun n => !(npStep (List.range bs.flatten.length) 0 k).contains n)
      (q := fun n => !(startsFrom 0 (bs.map List.length)).contains n)
    intro n _ h2
    rw [hlen]
    congr 1
    rw [Bool.eq_iff_iff, List.contains_iff_mem, List.contains_iff_mem, mem_npStep_range, starts_equal hk (by omega)]
    constructor
    · rintro ⟨_, _, h⟩; exact h
    · intro h; exact ⟨by omega, by omega, h⟩

theorem npStep_two {α : Type} (bs : List (List α)) (hb : ∀ b ∈ bs, b.length = 2) :
    npStep bs.flatten 0 2 = bs.flatMap List.dropLast ∧ npStep bs.flatten 1 2 = bs.flatMap List.tail := by
  obtain ⟨h1, h2⟩ := npDelete_equal bs 2 (by omega) hb
  rw [← h1, ← h2]
  constructor
  · unfold npDelete
    rw [npStep]
    congr 1
    apply filter_zipIdx_congr (p := fun n => decide (0 ≤ n) && (n - 0) % 2 == 0)
      (q := fun n => !(npStep (List.range bs.flatten.length) (2 - 1) 2).contains n)
    intro n _ h
    rw [Bool.eq_iff_iff, Bool.not_eq_true', ← Bool.not_eq_true, List.contains_iff_mem, mem_npStep_range]
    simp only [Bool.and_eq_true, decide_eq_true_eq, beq_iff_eq]; omega
  · unfold npDelete
    rw [npStep]
    congr 1
    apply filter_zipIdx_congr (p := fun n => decide (1 ≤ n) && (n - 1) % 2 == 0)
      (q := fun n => !(npStep (List.range bs.flatten.length) 0 2).contains n)
    intro n _ h
    rw [Bool.eq_iff_iff, Bool.not_eq_true', ← Bool.not_eq_true, List.contains_iff_mem, mem_npStep_range]
    simp only [Bool.and_eq_true, decide_eq_true_eq, beq_iff_eq]; omega

theorem npDelete_unequal {α : Type} (bs : List (List α)) (hb : ∀ b ∈ bs, b ≠ []) :
    npDelete bs.flatten (((cumsumFrom 0 (bs.map List.length)).map (· - 1)).drop 1) = bs.flatMap List.dropLast ∧
    npDelete bs.flatten (cumsumFrom 0 (bs.map List.length)).dropLast = bs.flatMap List.tail := by
  rw [cumsumFrom_ends, cumsumFrom_starts]
  exact ⟨delete_ends bs 0 hb, delete_starts bs 0 hb⟩

theorem zip_dropLast_tail {α : Type} (l : List α) : l.dropLast.zip l.tail = consecutive l := by
  fun_induction consecutive l with
  | case1 a b l ih => simp_all
  | case2 l h =>
    match l, h with
    | [], _ => rfl
    | [a], _ => rfl
    | a :: b :: l, h => exact absurd rfl (h a b l)

theorem flatMap_length_eq {α : Type} (bs : List (List α)) : (bs.flatMap List.dropLast).length = (bs.flatMap List.tail).length := by
  induction bs with
  | nil => rfl
  | cons b bs ih => simp [ih]

theorem zip_flatMap {α : Type} (bs : List (List α)) :
    (bs.flatMap List.dropLast).zip (bs.flatMap List.tail) = bs.flatMap consecutive := by
  induction bs with
  | nil => rfl
  | cons b bs ih => rw [List.flatMap_cons, List.flatMap_cons, List.zip_append (by simp), ih, zip_dropLast_tail, List.flatMap_cons]

theorem consecutive_map {α β : Type} (f : α → β) (l : List α) : consecutive (l.map f) = (consecutive l).map (Prod.map f f) := by
  fun_induction consecutive l with
  | case1 a b l ih => simp_all [consecutive]
  | case2 l h =>
    match l, h with
    | [], _ => rfl
    | [a], _ => rfl
    | a :: b :: l, h => exact absurd rfl (h a b l)

theorem mem_consecutive {α : Type} {l : List α} {a b : α} (h : (a, b) ∈ consecutive l) : a ∈ l ∧ b ∈ l := by
  fun_induction consecutive l with
  | case1 x y l ih =>
    rcases List.mem_cons.1 h with h | h
    · simp at h; simp [h]
    · have := ih h; exact ⟨List.mem_cons_of_mem _ this.1, List.mem_cons_of_mem _ this.2⟩
  | case2 => simp at h

variable {τ V : Type}

theorem filter_consecutive_append (i : Nat) (b r : List (Row τ V)) (hb : ∀ x ∈ b, x.id = i) (hr : ∀ x ∈ r, x.id ≠ i) :
    (consecutive (b ++ r)).filter (fun p => p.1.id == p.2.id) =
      consecutive b ++ (consecutive r).filter (fun p => p.1.id == p.2.id) := by
  induction b with
  | nil => simp [consecutive]
  | cons a b ih =>
    match b, r with
    | [], [] => simp [consecutive]
    | [], y :: r =>
      have : a.id ≠ y.id := by rw [hb a (by simp)]; exact (hr y (by simp)).symm
      simp [consecutive, this]
    | y :: b, r =>
      have ih := ih (fun x hx => hb x (List.mem_cons_of_mem _ hx))
      have : a.id = y.id := by rw [hb a (by simp), hb y (by simp)]
      simp only [List.cons_append, consecutive] at ih ⊢
      rw [List.filter_cons_of_pos (by simp [this]), ih]

theorem snapshotPairs_flatMap {is : List Nat} (hn : is.Nodup) (f : Nat → List (Row τ V)) (hf : ∀ i ∈ is, ∀ r ∈ f i, r.id = i) :
    snapshotPairs (is.flatMap f) = (is.map (fun i => (f i).map (·.val))).flatMap consecutive := by
  induction is with
  | nil => rfl
  | cons i is ih =>
    rw [List.nodup_cons] at hn
    have ih := ih hn.2 (fun j hj => hf j (by simp [hj]))
    unfold snapshotPairs at ih ⊢
    rw [List.flatMap_cons, filter_consecutive_append i _ _ (hf i (by simp))]
    · rw [List.map_append, ih, List.map_cons, List.flatMap_cons, consecutive_map]; rfl
    · intro x hx e
      obtain ⟨j, hj, hxj⟩ := List.mem_flatMap.1 hx
      have := hf j (by simp [hj]) x hxj
      exact hn.1 (by rw [← e, this]; exact hj)

end Verif.Tsc
