import Verif.Transform.Polynomial
import Mathlib.Algebra.BigOperators.Group.List.Basic
import Mathlib.Data.List.Nodup
import Mathlib.Data.List.Count
/-!
# C132: polynomial features are all monomials, each once
-/

namespace Verif.Transform

/-- The monomial with exponents `e` at the point `x`. -/
def monomial {α : Type} [CommSemiring α] (x : List α) (e : List Nat) : α := (List.zipWith (fun a k => a ^ k) x e).prod

/-- Which monomials are wanted: exponents per feature, total degree at most `degree`; degree 0 only with bias, degree 1 only with first order, and only square free ones with
`interaction_only`. -/
def Wanted (io bias first : Bool) (degree n : Nat) (e : List Nat) : Prop :=
  e.length = n ∧ (io = true → ∀ a ∈ e, a ≤ 1) ∧
    ((e.sum = 0 ∧ bias = true) ∨ (e.sum = 1 ∧ first = true ∧ 1 ≤ degree) ∨ (2 ≤ e.sum ∧ e.sum ≤ degree))

/-! ### Lemmas -/

theorem combs_subset (io : Bool) : ∀ (l : List Nat) (k : Nat), ∀ c ∈ combs io l k, ∀ x ∈ c, x ∈ l
  | [], k, c, hc, x, hx => by
    simp only [combs] at hc
    split at hc
    · simp at hc; simp [hc] at hx
    · simp at hc
  | a :: l, k, c, hc, x, hx => by
    simp only [combs, List.mem_flatMap, List.mem_map] at hc
    obtain ⟨j, _, c', hc', rfl⟩ := hc
    rcases List.mem_append.1 hx with hx | hx
    · simp [List.eq_of_mem_replicate hx]
    · exact List.mem_cons_of_mem _ (combs_subset io l _ c' hc' x hx)

/-- exponent lists of length `n` with sum `k`, in the order of the code -/
def expos (io : Bool) : Nat → Nat → List (List Nat)
  | 0, k => if k = 0 then [[]] else []
  | n + 1, k => ((List.range (k + 1)).reverse.filter (fun j => !io || decide (j ≤ 1))).flatMap (fun j => (expos io n (k - j)).map (fun e => j :: e))

theorem combs_counts (io : Bool) : ∀ (l : List Nat), l.Nodup → ∀ k, (combs io l k).map (fun c => l.map (fun i => c.count i)) = expos io l.length k
  | [], _, k => by
    simp only [combs, expos, List.length_nil]
    split <;> simp
  | a :: l, h, k => by
    obtain ⟨ha, hl⟩ := List.nodup_cons.1 h
    simp only [combs, expos, List.length_cons, List.map_flatMap, List.map_map]
    apply List.flatMap_congr
    intro j _
    rw [← combs_counts io l hl (k - j), List.map_map]
    apply List.map_congr_left
    intro c hc
    have hsub := combs_subset io l _ c hc
    simp only [Function.comp, List.map_cons, List.count_append, List.cons.injEq]
    constructor
    · rw [List.count_replicate_self, List.count_eq_zero.2 (fun hm => ha (hsub a hm))]; rfl
    · apply List.map_congr_left
      intro i hi
      rw [List.count_eq_zero.2, Nat.zero_add]
      intro hm
      rw [List.eq_of_mem_replicate hm] at hi
      exact ha hi

theorem mem_expos (io : Bool) : ∀ (n k : Nat) (e : List Nat), e ∈ expos io n k ↔ e.length = n ∧ e.sum = k ∧ (io = true → ∀ a ∈ e, a ≤ 1)
  | 0, k, e => by
    simp only [expos, List.length_eq_zero_iff]
    constructor
    · intro h
      split at h
      · rename_i hk; simp at h; subst h; simp [hk]
      · simp at h
    · rintro ⟨rfl, h, _⟩
      simp at h
      simp [h.symm]
  | n + 1, k, e => by
    simp only [expos, List.mem_flatMap, List.mem_filter, List.mem_reverse, List.mem_range, List.mem_map, Bool.or_eq_true, Bool.not_eq_true', decide_eq_true_eq]
    constructor
    · rintro ⟨j, ⟨hj, hio⟩, e', he', rfl⟩
      obtain ⟨h1, h2, h3⟩ := (mem_expos io n (k - j) e').1 he'
      refine ⟨by simp [h1], by simp [h2]; omega, ?_⟩
      intro hi a ha
      rcases List.mem_cons.1 ha with rfl | ha
      · rcases hio with h | h
        · rw [hi] at h; simp at h
        · exact h
      · exact h3 hi a ha
    · rintro ⟨h1, h2, h3⟩
      cases e with
      | nil => simp at h1
      | cons j e' =>
        simp only [List.length_cons, Nat.add_right_cancel_iff, List.sum_cons] at h1 h2
        refine ⟨j, ⟨by omega, ?_⟩, e', (mem_expos io n (k - j) e').2 ⟨h1, by omega, fun hi a ha => h3 hi a (List.mem_cons_of_mem _ ha)⟩, rfl⟩
        cases io with
        | false => exact Or.inl rfl
        | true => exact Or.inr (h3 rfl j (by simp))

theorem expos_nodup (io : Bool) : ∀ (n k : Nat), (expos io n k).Nodup
  | 0, k => by simp only [expos]; split <;> simp
  | n + 1, k => by
    simp only [expos]
    rw [List.nodup_flatMap]
    constructor
    · intro j _
      exact (expos_nodup io n (k - j)).map (fun a b h => (List.cons.inj h).2)
    · apply List.Pairwise.filter
      rw [List.pairwise_reverse]
      refine List.nodup_range.imp ?_
      intro a b hab
      simp only [Function.onFun, List.disjoint_left, List.mem_map]
      rintro x ⟨e, _, rfl⟩ ⟨e', _, h⟩
      exact hab (List.cons.inj h).1

theorem superPowers_eq (io bias : Bool) (degree n : Nat) :
    superPowers io bias degree n = (if bias then expos io n 0 else []) ++ (List.range degree).flatMap (fun i => expos io n (i + 1)) := by
  have h : ∀ k, (combs io (List.range n) k).map (bincount n) = expos io n k := by
    intro k
    have := combs_counts io (List.range n) List.nodup_range k
    rw [List.length_range] at this
    exact this
  unfold superPowers allCombs
  rw [List.map_append, List.map_flatMap]
  congr 1
  · cases bias <;> simp [h]
  · apply List.flatMap_congr
    intro i _
    exact h _

theorem prod_replicate_pow {α : Type} [CommSemiring α] (f : Nat → α) : ∀ (l : List Nat), l.Nodup → ∀ c : List Nat, (∀ x ∈ c, x ∈ l) →
    (c.map f).prod = (l.map (fun i => f i ^ c.count i)).prod
  | l, hl, [], _ => by
    have : ∀ l : List Nat, (l.map (fun i => f i ^ ([] : List Nat).count i)).prod = 1 := by
      intro l
      induction l with
      | nil => rfl
      | cons a l ih => simp
    rw [this]; rfl
  | l, hl, x :: c, hc => by
    have ih := prod_replicate_pow f l hl c (fun y hy => hc y (List.mem_cons_of_mem _ hy))
    rw [List.map_cons, List.prod_cons, ih]
    have hx := hc x (by simp)
    have key : ∀ m : List Nat, m.Nodup → (m.map (fun i => f i ^ (x :: c).count i)).prod = (if x ∈ m then f x else 1) * (m.map (fun i => f i ^ c.count i)).prod := by
      intro m
      induction m with
      | nil => intro _; simp
      | cons a m ihm =>
        intro hm
        obtain ⟨ha, hm⟩ := List.nodup_cons.1 hm
        rw [List.map_cons, List.prod_cons, ihm hm, List.map_cons, List.prod_cons]
        by_cases hax : x = a
        · subst hax
          simp [ha, pow_succ, mul_comm, mul_assoc]
        · have : (x :: c).count a = c.count a := List.count_cons_of_ne (fun h => hax h)
          rw [this]
          by_cases hxm : x ∈ m
          · simp [hxm, mul_left_comm]
          · simp [hxm, hax]
    rw [key l hl, if_pos hx]

theorem mem_allCombs_lt {io bias : Bool} {degree n : Nat} {c : List Nat} (h : c ∈ allCombs io bias degree n) : ∀ x ∈ c, x ∈ List.range n := by
  unfold allCombs at h
  rcases List.mem_append.1 h with h | h
  · split at h
    · exact combs_subset io _ _ c h
    · simp at h
  · obtain ⟨i, _, h⟩ := List.mem_flatMap.1 h
    exact combs_subset io _ _ c h

theorem superTransform_eq {α : Type} [CommSemiring α] (io bias : Bool) (degree : Nat) (x : List α) :
    superTransform io bias degree x = (superPowers io bias degree x.length).map (monomial x) := by
  unfold superTransform superPowers
  rw [List.map_map]
  apply List.map_congr_left
  intro c hc
  rw [prod_replicate_pow _ _ List.nodup_range c (mem_allCombs_lt hc)]
  simp only [Function.comp, monomial, bincount]
  congr 1
  apply List.ext_getElem
  · simp
  · intro i h1 h2
    simp at h1
    simp [h1]

theorem maskRow_map {α β : Type} (f : β → α) (q : β → Bool) (l : List β) : maskRow (l.map f) (l.map q) = (l.filter q).map f := by
  unfold maskRow
  induction l with
  | nil => rfl
  | cons a l ih =>
    simp only [List.map_cons, List.zip_cons_cons, List.filter_cons]
    cases h : q a <;> simp [ih]

/-- **C132 (exponents).** `powers_` lists exactly the wanted exponents, each once. -/
theorem C132_powers (io bias first : Bool) (degree n : Nat) :
    (polyPowers io bias first degree n).Nodup ∧ ∀ e, e ∈ polyPowers io bias first degree n ↔ Wanted io bias first degree n e := by
  have hsup : ∀ e, e ∈ superPowers io bias degree n ↔ e.length = n ∧ (io = true → ∀ a ∈ e, a ≤ 1) ∧ ((e.sum = 0 ∧ bias = true) ∨ (1 ≤ e.sum ∧ e.sum ≤ degree)) := by
    intro e
    rw [superPowers_eq, List.mem_append, List.mem_flatMap]
    constructor
    · rintro (h | ⟨i, hi, h⟩)
      · split at h
        · rename_i hb
          obtain ⟨h1, h2, h3⟩ := (mem_expos _ _ _ _).1 h
          exact ⟨h1, h3, Or.inl ⟨h2, hb⟩⟩
        · simp at h
      · obtain ⟨h1, h2, h3⟩ := (mem_expos _ _ _ _).1 h
        have := List.mem_range.1 hi
        exact ⟨h1, h3, Or.inr ⟨by omega, by omega⟩⟩
    · rintro ⟨h1, h3, ⟨h2, hb⟩ | ⟨h2, h4⟩⟩
      · left
        rw [if_pos hb]
        exact (mem_expos _ _ _ _).2 ⟨h1, h2, h3⟩
      · right
        exact ⟨e.sum - 1, by simp; omega, (mem_expos _ _ _ _).2 ⟨h1, by omega, h3⟩⟩
  have hnd : (superPowers io bias degree n).Nodup := by
    rw [superPowers_eq, List.nodup_append']
    refine ⟨by split <;> simp [expos_nodup], ?_, ?_⟩
    · rw [List.nodup_flatMap]
      refine ⟨fun i _ => expos_nodup _ _ _, List.nodup_range.imp ?_⟩
      intro a b hab
      simp only [Function.onFun, List.disjoint_left]
      intro e h1 h2
      have := ((mem_expos _ _ _ _).1 h1).2.1
      have := ((mem_expos _ _ _ _).1 h2).2.1
      omega
    · rw [List.disjoint_left]
      intro e h1 h2
      split at h1
      · obtain ⟨i, _, h2⟩ := List.mem_flatMap.1 h2
        have := ((mem_expos _ _ _ _).1 h1).2.1
        have := ((mem_expos _ _ _ _).1 h2).2.1
        omega
      · simp at h1
  unfold polyPowers Wanted
  cases first with
  | true =>
    refine ⟨by simpa using hnd, fun e => ?_⟩
    simp only [if_true, hsup]
    refine and_congr_right (fun _ => and_congr_right (fun _ => ?_))
    simp only [true_and]
    constructor
    · rintro (h | ⟨h1, h2⟩)
      · exact Or.inl h
      · by_cases h3 : e.sum = 1
        · exact Or.inr (Or.inl ⟨h3, by omega⟩)
        · exact Or.inr (Or.inr ⟨by omega, h2⟩)
    · rintro (h | ⟨h1, h2⟩ | ⟨h1, h2⟩)
      · exact Or.inl h
      · exact Or.inr ⟨by omega, by omega⟩
      · exact Or.inr ⟨by omega, h2⟩
  | false =>
    refine ⟨by simpa using hnd.filter _, fun e => ?_⟩
    simp only [Bool.false_eq_true, if_false, List.mem_filter, hsup, decide_eq_true_eq]
    simp only [false_and, and_false, false_or]
    constructor
    · rintro ⟨⟨h1, h2, h | ⟨h3, h4⟩⟩, h5⟩
      · exact ⟨h1, h2, Or.inl h⟩
      · exact ⟨h1, h2, Or.inr ⟨by omega, h4⟩⟩
    · rintro ⟨h1, h2, h | ⟨h3, h4⟩⟩
      · exact ⟨⟨h1, h2, Or.inl h⟩, by omega⟩
      · exact ⟨⟨h1, h2, Or.inr ⟨by omega, h4⟩⟩, by omega⟩

/-- **C132 (values).** Column `j` of the transformed data is the monomial with the exponents `powers_[j]`. -/
theorem C132_values {α : Type} [CommSemiring α] (io bias first : Bool) (degree : Nat) (x : List α) :
    polyTransform io bias first degree x = (polyPowers io bias first degree x.length).map (monomial x) := by
  unfold polyTransform polyPowers
  cases first with
  | true => simp [superTransform_eq]
  | false =>
    simp only [Bool.false_eq_true, if_false]
    rw [superTransform_eq, nonIdMask, maskRow_map]

/-- **C132 (names).** The names have the order of the values and name the features with non-zero exponent. -/
theorem C132_names {α : Type} [CommSemiring α] (io bias first : Bool) (degree : Nat) (names : List String) (x : List α) (hx : x.length = names.length) (j : Nat)
    (v : α) (hv : (polyTransform io bias first degree x)[j]? = some v) :
    ∃ e, Wanted io bias first degree names.length e ∧ v = monomial x e ∧
      (polyNames io bias first degree names)[j]? = some ((names.zip e).filter (fun p => decide (p.2 ≠ 0))) := by
  rw [C132_values, List.getElem?_map, Option.map_eq_some_iff] at hv
  obtain ⟨e, he, rfl⟩ := hv
  rw [hx] at he
  refine ⟨e, (C132_powers _ _ _ _ _).2 e |>.1 (List.mem_of_getElem? he), rfl, ?_⟩
  simp [polyNames, he]

/-- non-vacuity: degree 3, two features, no first order -/
example : Wanted false false false 3 2 [1, 2] ∧ ¬ Wanted false false false 3 2 [1, 0] ∧ monomial ([3, 5] : List Nat) [1, 2] = 75 := by
  refine ⟨⟨rfl, by simp, by simp⟩, ?_, by decide⟩
  rintro ⟨_, _, h⟩
  simp at h

end Verif.Transform
