import Verif.Tsc.FoldLemmas
/-!
# C16: `assign_ids_train_test`
-/

namespace Verif.Tsc

open Verif.Np

variable {τ V : Type}

/-- number of `true` among `M 0, ..., M (n-1)` -/
def cnt (M : Nat → Bool) : Nat → Nat
  | 0 => 0
  | n + 1 => cnt M n + (if M n then 1 else 0)

theorem cnt_mono (M : Nat → Bool) {a b : Nat} (h : a ≤ b) : cnt M a ≤ cnt M b := by
  induction h with
  | refl => exact le_refl _
  | step _ ih => exact le_trans ih (by simp [cnt])

theorem cnt_eq_iff (M : Nat → Bool) {a b : Nat} (h : a ≤ b) : cnt M a = cnt M b ↔ ∀ j, a ≤ j → j < b → M j = false := by
  induction h with
  | refl => simp only [true_iff]; intro j h1 h2; omega
  | @step b hab ih =>
    have hm := cnt_mono M hab
    simp only [cnt, Nat.succ_eq_add_one]
    constructor
    · intro he j h1 h2
      by_cases hj : j = b
      · subst hj
        by_contra hc
        have hc : M j = true := by simpa using hc
        rw [hc] at he; simp at he; omega
      · exact ih.1 (by omega) j h1 (by omega)
    · intro hall
      rw [hall b hab (by omega)]
      simpa using ih.2 (fun j h1 h2 => hall j h1 (by omega))

theorem cumsumBool_eq (M : Nat → Bool) (o n s : Nat) :
    cumsumBool (o + cnt M s) ((List.range' s n).map M) = (List.range' s n).map (fun i => o + cnt M (i + 1)) := by
  induction n generalizing s with
  | zero => simp [cumsumBool]
  | succ n ih =>
    rw [List.range'_succ]
    simp only [List.map_cons, cumsumBool]
    have e : o + cnt M s + (if M s = true then 1 else 0) = o + cnt M (s + 1) := by simp only [cnt]; omega
    rw [e, ih (s + 1)]

theorem changeIndicator_getElem? {α : Type} [DecidableEq α] (l : List α) (i : Nat) :
    (changeIndicator l)[i]? = if h : i < l.length then (if h0 : i = 0 then some false else some (!(decide (l[i - 1] = l[i])))) else none := by
  cases l with
  | nil => simp [changeIndicator]
  | cons x l =>
    cases i with
    | zero => simp [changeIndicator]
    | succ i =>
      simp only [changeIndicator, List.getElem?_cons_succ, List.getElem?_zipWith]
      by_cases h : i < l.length
      · have h' : i < (x :: l).length := by simp; omega
        rw [List.getElem?_eq_getElem h', List.getElem?_eq_getElem h]
        simp [h]
      · have h2 : l[i]? = none := by simp; omega
        rw [h2]
        simp [h]

theorem changeIndicator_length {α : Type} [DecidableEq α] (l : List α) : (changeIndicator l).length = l.length := by
  cases l <;> simp [changeIndicator]

/-- Does a new series start at row `j` (or is it dropped)? -/
def breakAt (c : List (Row τ V)) (train test : List Nat) (j : Nat) : Bool :=
  (decide (0 < j) && !(decide (test.contains (j - 1) = test.contains j))) ||
  (decide (0 < j) && !(decide ((c[j - 1]?).map (·.id) = (c[j]?).map (·.id)))) || (!(train.contains j) && !(test.contains j))

theorem trainTestIds_eq [LinearOrder τ] (c : List (Row τ V)) (train test : List Nat) :
    trainTestIds c train test = (List.range c.length).map (fun i => cnt (breakAt c train test) (i + 1)) := by
  unfold trainTestIds
  have hmask : List.zipWith (· || ·) (List.zipWith (· || ·) (changeIndicator ((List.range c.length).map (fun i => test.contains i)))
      (changeIndicator (c.map (·.id)))) ((List.range c.length).map (fun i => !(train.contains i) && !(test.contains i))) =
      (List.range c.length).map (breakAt c train test) := by
    apply List.ext_getElem?
    intro i
    simp only [List.getElem?_zipWith, changeIndicator_getElem?, List.getElem?_map]
    by_cases h : i < c.length
    · by_cases h0 : i = 0
      · subst h0
        simp [h, breakAt]
      · have h1 : i - 1 < c.length := by omega
        simp [h, h0, breakAt, h1, Nat.pos_of_ne_zero h0]
    · simp [h]
  simp only [hmask]
  have := cumsumBool_eq (breakAt c train test) 0 c.length 0
  simpa [cnt, List.range_eq_range'] using this

/-- `sortedIndices` is strict monotonicity. -/
theorem sortedIndices_iff (l : List Nat) : sortedIndices l = true ↔ l.Pairwise (· < ·) := by
  induction l with
  | nil => simp [sortedIndices]
  | cons a l ih =>
    cases l with
    | nil => simp [sortedIndices]
    | cons b l =>
      have e : sortedIndices (a :: b :: l) = (decide (a < b) && sortedIndices (b :: l)) := by simp [sortedIndices]
      rw [e, Bool.and_eq_true, ih, List.pairwise_cons (a := a)]
      constructor
      · rintro ⟨h1, h2⟩
        refine ⟨?_, h2⟩
        intro x hx
        rcases List.mem_cons.1 hx with rfl | hx
        · simpa using h1
        · have := (List.pairwise_cons.1 h2).1 x hx
          have : a < b := by simpa using h1
          omega
      · rintro ⟨h1, h2⟩
        exact ⟨by simpa using h1 b (by simp), h2⟩

/-- New IDs of two kept rows of the same fold agree iff everything between them is kept in this fold and belongs to the same series. -/
theorem newId_iff [LinearOrder τ] {c : List (Row τ V)} (hv : Valid c) {train test fold : List Nat} (hd : ∀ x ∈ train, x ∉ test)
    (hf : fold = train ∨ fold = test) {a b : Nat} (hab : a ≤ b) (hb : b < c.length) (ha' : a ∈ fold) :
    cnt (breakAt c train test) (a + 1) = cnt (breakAt c train test) (b + 1) ↔
      ∀ j, a ≤ j → (hj : j ≤ b) → j ∈ fold ∧ c[j].id = c[a].id := by
  rw [cnt_eq_iff _ (by omega)]
  have hfold : ∀ j, (train.contains j = true ∨ test.contains j = true) → (j ∈ fold ↔ (test.contains j = test.contains a)) := by
    intro j hj
    simp only [List.contains_iff_mem] at hj
    rcases hf with rfl | rfl
    · have := hd a ha'
      constructor
      · intro h; have := hd j h; simp_all
      · intro h
        by_contra hc
        rcases hj with hj | hj
        · exact hc hj
        · rw [Bool.eq_iff_iff] at h; simp_all
    · constructor
      · intro h; rw [Bool.eq_iff_iff]; simp_all
      · intro h; rw [Bool.eq_iff_iff] at h; simp_all
  constructor
  · intro h
    have key : ∀ j, a ≤ j → (hj : j ≤ b) → (test.contains j = test.contains a) ∧ c[j].id = c[a].id := by
      intro j h1
      induction h1 with
      | refl => intro _; simp
      | @step j h1 ih =>
        intro hj
        have hj : j + 1 ≤ b := hj
        obtain ⟨i1, i2⟩ := ih (by omega)
        have hbr := h (j + 1) (by have : a ≤ j := h1; omega) (by omega)
        unfold breakAt at hbr
        have hlt1 : j < c.length := by omega
        have hlt2 : j + 1 < c.length := by omega
        simp only [Nat.add_sub_cancel, Nat.zero_lt_succ, decide_true, Bool.true_and, Bool.or_eq_false_iff, Bool.not_eq_false',
          decide_eq_true_eq, List.getElem?_eq_getElem hlt1, List.getElem?_eq_getElem hlt2, Option.map_some, Option.some.injEq] at hbr
        obtain ⟨⟨h3, h4⟩, _⟩ := hbr
        exact ⟨h3.symm.trans i1, h4.symm.trans i2⟩
    intro j h1 h2
    obtain ⟨k1, k2⟩ := key j h1 h2
    refine ⟨?_, k2⟩
    rw [hfold]
    · exact k1
    · by_cases hja : j = a
      · subst hja; rcases hf with rfl | rfl <;> simp [ha']
      · have hbr := h j (by omega) (by omega)
        unfold breakAt at hbr
        rw [Bool.or_eq_false_iff] at hbr
        have := hbr.2
        simp only [Bool.and_eq_false_iff, Bool.not_eq_false'] at this
        exact this
  · intro h j h1 h2
    have ha2 := h (j - 1) (by omega) (by omega)
    have hb2 := h j (by omega) (by omega)
    have hlt1 : j - 1 < c.length := by omega
    have hlt2 : j < c.length := by omega
    have hk : ∀ x ∈ fold, train.contains x = true ∨ test.contains x = true := by
      intro x hx; rcases hf with rfl | rfl <;> simp [hx]
    unfold breakAt
    simp only [List.getElem?_eq_getElem hlt1, List.getElem?_eq_getElem hlt2, Option.map_some, Option.some.injEq, Bool.or_eq_false_iff]
    refine ⟨⟨?_, ?_⟩, ?_⟩
    · rw [(hfold _ (hk _ ha2.1)).1 ha2.1, (hfold _ (hk _ hb2.1)).1 hb2.1]; simp
    · rw [ha2.2, hb2.2]; simp
    · rcases hk j hb2.1 with h | h <;> rw [h] <;> simp

theorem newId_ne [LinearOrder τ] {c : List (Row τ V)} {train test : List Nat} (hd : ∀ x ∈ train, x ∉ test) {a b : Nat}
    (ha : a ∈ train) (hb : b ∈ test) :
    cnt (breakAt c train test) (a + 1) ≠ cnt (breakAt c train test) (b + 1) := by
  have key : ∀ x y : Nat, x ≤ y → (∀ j, x + 1 ≤ j → j < y + 1 → breakAt c train test j = false) → test.contains x = test.contains y := by
    intro x y hxy
    induction hxy with
    | refl => intro _; rfl
    | @step y hxy ih =>
      intro h
      rw [ih (fun j h1 h2 => h j h1 (by have := h2; omega))]
      have hbr := h (y + 1) (by have : x ≤ y := hxy; omega) (by simp)
      unfold breakAt at hbr
      simp only [Nat.add_sub_cancel, Nat.zero_lt_succ, decide_true, Bool.true_and, Bool.or_eq_false_iff, Bool.not_eq_false',
          decide_eq_true_eq] at hbr
      exact hbr.1.1
  have h1 : test.contains a = false := by simpa using hd a ha
  have h2 : test.contains b = true := by simpa using hb
  intro he
  rcases Nat.le_total a b with hab | hab
  · have := key a b hab ((cnt_eq_iff _ (by omega)).1 he)
    rw [h1, h2] at this; simp at this
  · have := key b a hab ((cnt_eq_iff _ (by omega)).1 he.symm)
    rw [h1, h2] at this; simp at this

/-- rows of a fold with their new IDs -/
theorem iloc_split [LinearOrder τ] (c : List (Row τ V)) (ν : Nat → Nat) (idx : List Nat) :
    ilocRows (List.zipWith (fun (r : Row τ V) i => { r with id := i }) c ((List.range c.length).map ν)) idx =
      idx.filterMap (fun i => (c[i]?).map (fun r => { r with id := ν i })) := by
  unfold ilocRows
  congr 1
  funext i
  rw [List.getElem?_zipWith]
  by_cases h : i < c.length
  · simp [h]
  · simp [h]

theorem fold_valid [LinearOrder τ] {c : List (Row τ V)} (hv : Valid c) {train test fold : List Nat} (hd : ∀ x ∈ train, x ∉ test)
    (hf : fold = train ∨ fold = test) (hs : fold.Pairwise (· < ·)) :
    Valid (fold.filterMap (fun i => (c[i]?).map (fun r => ({ r with id := cnt (breakAt c train test) (i + 1) } : Row τ V)))) := by
  have hp : (fold.filterMap (fun i => (c[i]?).map (fun r => ({ r with id := cnt (breakAt c train test) (i + 1) } : Row τ V)))).Pairwise
      (fun a b => a.id ≤ b.id ∧ Before a b) := by
    rw [List.pairwise_filterMap]
    refine hs.imp_of_mem ?_
    intro a b ha hb hab x hx y hy
    obtain ⟨r, hr, rfl⟩ := Option.map_eq_some_iff.1 hx
    obtain ⟨r', hr', rfl⟩ := Option.map_eq_some_iff.1 hy
    obtain ⟨h1, rfl⟩ := List.getElem?_eq_some_iff.1 hr
    obtain ⟨h2, rfl⟩ := List.getElem?_eq_some_iff.1 hr'
    refine ⟨cnt_mono _ (by omega), ?_⟩
    intro he
    have := (newId_iff hv hd hf (le_of_lt hab) h2 ha).1 he b (le_of_lt hab) (le_refl _)
    exact hv.increasing a b hab h2 this.2.symm
  rw [valid_iff]
  refine ⟨?_, hp.imp (fun h => h.2)⟩
  rw [newIds_eq_ids]
  · exact ids_nodup _
  · rw [List.pairwise_map]; exact hp.imp (fun h => h.1)

/-- **C16.** For index arrays that are accepted, the training (test) collection consists of exactly the requested rows in order, unchanged up to the
ID.  There is a renumbering `ν` such that two rows of the same fold get the same new ID iff every row between them is in this fold and belongs
to the same original series; rows of different folds never share an ID. Both results are valid collections. -/
theorem C16_train_test [LinearOrder τ] {c : List (Row τ V)} (hv : Valid c) {train test : List Nat} {A B : List (Row τ V)}
    (h : assignIdsTrainTest c train test = .ok (A, B)) :
    Valid A ∧ Valid B ∧ ∃ ν : Nat → Nat,
      A = train.filterMap (fun i => (c[i]?).map (fun r => { r with id := ν i })) ∧ A.length = train.length ∧
      B = test.filterMap (fun i => (c[i]?).map (fun r => { r with id := ν i })) ∧ B.length = test.length ∧
      (∀ fold, fold = train ∨ fold = test → ∀ a ∈ fold, ∀ b ∈ fold, (hab : a ≤ b) → (hb : b < c.length) →
        (ν a = ν b ↔ ∀ j, a ≤ j → (hj : j ≤ b) → j ∈ fold ∧ c[j].id = c[a].id)) ∧
      (∀ a ∈ train, ∀ b ∈ test, ν a ≠ ν b) := by
  unfold assignIdsTrainTest at h
  split at h
  · simp at h
  rename_i hs
  split at h
  · simp at h
  rename_i hu
  split at h
  · simp at h
  rename_i hr
  simp only [Bool.or_eq_true, Bool.not_eq_true', not_or, Bool.not_eq_false] at hs
  rw [sortedIndices_iff, sortedIndices_iff] at hs
  rw [ne_eq, not_not, length_unique_eq_iff, List.nodup_append'] at hu
  have hd : ∀ x ∈ train, x ∉ test := fun x hx hy => hu.2.2 hx hy
  have hr' : ∀ x ∈ train ++ test, x < c.length := by
    intro x hx
    by_contra hc
    exact hr (List.any_eq_true.2 ⟨x, hx, by simpa using hc⟩)
  have hlen : ∀ (ν : Nat → Nat) (fold : List Nat), (∀ x ∈ fold, x < c.length) →
      (fold.filterMap (fun i => (c[i]?).map (fun r => ({ r with id := ν i } : Row τ V)))).length = fold.length := by
    intro ν fold hf
    rw [List.length_filterMap_eq_countP, List.countP_eq_length]
    intro i hi
    simp [hf i hi]
  simp only [trainTestIds_eq, iloc_split] at h
  split at h
  · rename_i a b ha hb
    simp only [Except.ok.injEq, Prod.mk.injEq] at h
    obtain ⟨rfl, rfl⟩ := h
    obtain ⟨rfl, _, va⟩ := build_ok_iff.1 ha
    obtain ⟨rfl, _, vb⟩ := build_ok_iff.1 hb
    refine ⟨va, vb, fun i => cnt (breakAt c train test) (i + 1), rfl, ?_, rfl, ?_, ?_, ?_⟩
    · exact hlen _ _ (fun x hx => hr' x (by simp [hx]))
    · exact hlen _ _ (fun x hx => hr' x (by simp [hx]))
    · intro fold hf a ha b hb hab hbl
      exact newId_iff hv hd hf hab hbl ha
    · intro a ha b hb
      exact newId_ne hd ha hb
  · simp at h
  · simp at h

/-- **C16 (acceptance).** The call returns two collections iff both index arrays are strictly increasing, disjoint, in range and non-empty. -/
theorem C16_accepts [LinearOrder τ] {c : List (Row τ V)} (hv : Valid c) (train test : List Nat) :
    (∃ r, assignIdsTrainTest c train test = .ok r) ↔
      train.Pairwise (· < ·) ∧ test.Pairwise (· < ·) ∧ (∀ x ∈ train, x ∉ test) ∧ (∀ x ∈ train ++ test, x < c.length) ∧ train ≠ [] ∧ test ≠ [] := by
  unfold assignIdsTrainTest
  by_cases hs : (!sortedIndices train || !sortedIndices test) = true
  · simp only [hs, if_true, reduceCtorEq, exists_false, false_iff]
    rintro ⟨h1, h2, _⟩
    rw [← sortedIndices_iff] at h1 h2
    simp [h1, h2] at hs
  have hs' : train.Pairwise (· < ·) ∧ test.Pairwise (· < ·) := by
    simp only [Bool.or_eq_true, Bool.not_eq_true', not_or, Bool.not_eq_false] at hs
    rwa [sortedIndices_iff, sortedIndices_iff] at hs
  have hn1 : train.Nodup := hs'.1.imp (fun h => ne_of_lt h)
  have hn2 : test.Nodup := hs'.2.imp (fun h => ne_of_lt h)
  by_cases hu : (unique (train ++ test)).length = (train ++ test).length
  swap
  · simp only [hs, hu, ne_eq, not_false_eq_true, if_true, reduceCtorEq, exists_false, false_iff, Bool.false_eq_true, if_false]
    rintro ⟨_, _, hd, _⟩
    apply hu
    rw [length_unique_eq_iff, List.nodup_append']
    exact ⟨hn1, hn2, fun x hx hy => hd x hx hy⟩
  have hd : ∀ x ∈ train, x ∉ test := by
    rw [length_unique_eq_iff, List.nodup_append'] at hu
    exact fun x hx hy => hu.2.2 hx hy
  by_cases hr : (train ++ test).any (fun i => decide (c.length ≤ i)) = true
  · simp only [hs, hu, hr, ne_eq, not_true_eq_false, if_true, reduceCtorEq, exists_false, false_iff, Bool.false_eq_true, if_false]
    rintro ⟨_, _, _, h, _⟩
    obtain ⟨x, hx, hx'⟩ := List.any_eq_true.1 hr
    have := h x hx
    simp at hx'; omega
  have hr' : ∀ x ∈ train ++ test, x < c.length := by
    intro x hx
    by_contra hc
    exact hr (List.any_eq_true.2 ⟨x, hx, by simpa using hc⟩)
  have hne : ∀ (ν : Nat → Nat) (fold : List Nat), (∀ x ∈ fold, x < c.length) →
      (fold.filterMap (fun i => (c[i]?).map (fun r => ({ r with id := ν i } : Row τ V))) ≠ [] ↔ fold ≠ []) := by
    intro ν fold hf
    cases fold with
    | nil => simp
    | cons i t =>
      have hi := hf i (by simp)
      simp [hi]
  simp only [hs, hu, hr, ne_eq, not_true_eq_false, Bool.false_eq_true, if_false, trainTestIds_eq, iloc_split]
  have va := fold_valid hv hd (Or.inl rfl) hs'.1
  have vb := fold_valid hv hd (Or.inr rfl) hs'.2
  have na := hne (fun i => cnt (breakAt c train test) (i + 1)) train (fun x hx => hr' x (by simp [hx]))
  have nb := hne (fun i => cnt (breakAt c train test) (i + 1)) test (fun x hx => hr' x (by simp [hx]))
  constructor
  · rintro ⟨r, h⟩
    refine ⟨hs'.1, hs'.2, hd, hr', ?_, ?_⟩
    · split at h
      · rename_i a b ha hb
        exact na.1 (build_ok_iff.1 ha).2.1
      · simp at h
      · simp at h
    · split at h
      · rename_i a b ha hb
        exact nb.1 (build_ok_iff.1 hb).2.1
      · simp at h
      · simp at h
  · rintro ⟨_, _, _, _, h1, h2⟩
    rw [build_ok_of_valid va (na.2 h1), build_ok_of_valid vb (nb.2 h2)]
    exact ⟨_, rfl⟩

/-- non-vacuity: two series, a test window inside the first, one dropped row -/
example : ∃ r, assignIdsTrainTest ([⟨7, 0, ()⟩, ⟨7, 1, ()⟩, ⟨7, 2, ()⟩, ⟨7, 3, ()⟩, ⟨2, 0, ()⟩, ⟨2, 1, ()⟩] : List (Row Int Unit)) [0, 3, 4] [1, 2] = .ok r := by
  refine (C16_accepts ?_ _ _).2 ⟨by decide, by decide, by decide, by decide, by decide, by decide⟩
  rw [valid_iff]; constructor
  · decide
  · unfold Before; decide

end Verif.Tsc
