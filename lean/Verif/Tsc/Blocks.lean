import Verif.Tsc.IndexLemmas
/-! Block structure of valid collections: helper lemmas. -/

namespace Verif.Tsc

variable {τ V : Type}

theorem series_cons_same (a : Row τ V) (c : List (Row τ V)) : series (a :: c) a.id = a :: series c a.id := by
  simp [series]

theorem series_cons_ne (a : Row τ V) (c : List (Row τ V)) {i : Nat} (h : a.id ≠ i) : series (a :: c) i = series c i := by
  simp [series, h]

theorem series_append (c d : List (Row τ V)) (i : Nat) : series (c ++ d) i = series c i ++ series d i := by
  simp [series]

theorem mem_series {c : List (Row τ V)} {i : Nat} {r : Row τ V} : r ∈ series c i ↔ r ∈ c ∧ r.id = i := by
  simp [series]

theorem series_ne_nil {c : List (Row τ V)} {i : Nat} : series c i ≠ [] ↔ i ∈ c.map (·.id) := by
  rw [List.ne_nil_iff_exists_cons]
  constructor
  · rintro ⟨b, l, h⟩
    have : b ∈ series c i := by rw [h]; simp
    rw [mem_series] at this
    exact List.mem_map.2 ⟨b, this.1, this.2⟩
  · intro h
    obtain ⟨r, hr, hi⟩ := List.mem_map.1 h
    have : r ∈ series c i := mem_series.2 ⟨hr, hi⟩
    match hs : series c i with
    | [] => rw [hs] at this; simp at this
    | b :: l => exact ⟨b, l, rfl⟩

theorem series_eq_nil {c : List (Row τ V)} {i : Nat} : series c i = [] ↔ i ∉ c.map (·.id) := by
  rw [← series_ne_nil]; simp

theorem newIds_cons_head {α : Type} [DecidableEq α] (b : α) (l : List α) : ∃ t, newIds (b :: l) = b :: t := by
  induction l generalizing b with
  | nil => exact ⟨[], rfl⟩
  | cons a l ih =>
    unfold newIds
    split
    · rename_i h; subst h; exact ih b
    · exact ⟨_, rfl⟩

theorem newIds_length_le {α : Type} [DecidableEq α] (l : List α) : (newIds l).length ≤ l.length := by
  fun_induction newIds l <;> simp_all <;> omega

/-- A collection with contiguous blocks is the concatenation of its series in order of appearance. -/
theorem flatMap_series {c : List (Row τ V)} (h : (newIds (c.map (·.id))).Nodup) :
    (newIds (c.map (·.id))).flatMap (series c) = c := by
  match c with
  | [] => rfl
  | [a] => simp [newIds, series]
  | a :: b :: l =>
    have heq : newIds ((a :: b :: l).map (·.id)) = if a.id = b.id then newIds ((b :: l).map (·.id))
        else a.id :: newIds ((b :: l).map (·.id)) := by simp [newIds]
    rw [heq] at h ⊢
    by_cases hab : a.id = b.id
    · rw [if_pos hab] at h ⊢
      have ih := flatMap_series (c := b :: l) h
      obtain ⟨t, ht⟩ := newIds_cons_head b.id (l.map (·.id))
      rw [← List.map_cons (f := fun r : Row τ V => r.id)] at ht
      rw [ht] at h ih ⊢
      rw [List.flatMap_cons] at ih ⊢
      rw [← hab] at ih h ⊢
      rw [series_cons_same, List.cons_append]
      congr 1
      conv => rhs; rw [← ih]
      congr 1
      apply List.flatMap_congr
      intro i hi
      apply series_cons_ne
      intro e
      exact (List.nodup_cons.1 h).1 (by rw [e]; exact hi)
    · rw [if_neg hab] at h ⊢
      have ih := flatMap_series (c := b :: l) (List.nodup_cons.1 h).2
      have hn := (List.nodup_cons.1 h).1
      rw [List.flatMap_cons, series_cons_same, List.cons_append]
      have : series (b :: l) a.id = [] := by
        rw [series_eq_nil]
        intro hm; exact hn ((mem_newIds _ _).2 hm)
      rw [this, List.nil_append]
      congr 1
      conv => rhs; rw [← ih]
      apply List.flatMap_congr
      intro i hi
      apply series_cons_ne
      intro e; exact hn (by rw [e]; exact hi)

theorem newIds_block (i : Nat) (l : List Nat) (hne : l ≠ []) (hl : ∀ x ∈ l, x = i) (r : List Nat) (hr : r.head? ≠ some i) :
    newIds (l ++ r) = i :: newIds r := by
  induction l with
  | nil => simp at hne
  | cons a l ih =>
    have ha := hl a (by simp); subst ha
    match l, r with
    | [], [] => rfl
    | [], b :: r =>
      have : a ≠ b := fun e => hr (by simp [e])
      simp [newIds, this]
    | b :: l, r =>
      have hb := hl b (by simp); subst hb
      have := ih (by simp) (fun x hx => hl x (List.mem_cons_of_mem _ hx))
      simpa [newIds] using this

/-- Concatenating non-empty blocks with distinct IDs. -/
theorem newIds_flatMap {is : List Nat} (hn : is.Nodup) (f : Nat → List (Row τ V)) (hf : ∀ i ∈ is, ∀ r ∈ f i, r.id = i)
    (hne : ∀ i ∈ is, f i ≠ []) : newIds ((is.flatMap f).map (·.id)) = is := by
  induction is with
  | nil => rfl
  | cons i is ih =>
    rw [List.nodup_cons] at hn
    rw [List.flatMap_cons, List.map_append, newIds_block i]
    · rw [ih hn.2 (fun j hj => hf j (by simp [hj])) (fun j hj => hne j (by simp [hj]))]
    · simpa using hne i (by simp)
    · intro x hx
      obtain ⟨r, hr, rfl⟩ := List.mem_map.1 hx
      exact hf i (by simp) r hr
    · intro h
      have hm := List.mem_of_mem_head? h
      obtain ⟨r, hr, hri⟩ := List.mem_map.1 hm
      obtain ⟨j, hj, hrj⟩ := List.mem_flatMap.1 hr
      have := hf j (by simp [hj]) r hrj
      exact hn.1 (by rw [← hri, this]; exact hj)

theorem series_flatMap {is : List Nat} (hn : is.Nodup) (f : Nat → List (Row τ V)) (hf : ∀ i ∈ is, ∀ r ∈ f i, r.id = i)
    (j : Nat) : series (is.flatMap f) j = if j ∈ is then f j else [] := by
  induction is with
  | nil => simp [series]
  | cons i is ih =>
    rw [List.nodup_cons] at hn
    rw [List.flatMap_cons, series_append, ih hn.2 (fun j hj => hf j (by simp [hj]))]
    by_cases hij : j = i
    · subst hij
      have : series (f j) j = f j := by
        rw [series, List.filter_eq_self]; intro r hr; simp [hf j (by simp) r hr]
      simp [this, hn.1]
    · have : series (f i) j = [] := by
        rw [series, List.filter_eq_nil_iff]; intro r hr; simp [hf i (by simp) r hr, Ne.symm hij]
      simp [this, hij]

variable [LinearOrder τ]

theorem series_pairwise {c : List (Row τ V)} (h : c.Pairwise Before) (i : Nat) :
    (series c i).Pairwise (fun a b => a.time < b.time) := by
  have hp : (series c i).Pairwise Before := h.sublist List.filter_sublist
  refine hp.imp_of_mem ?_
  intro a b ha hb hab
  exact hab (by rw [(mem_series.1 ha).2, (mem_series.1 hb).2])

theorem valid_flatMap {is : List Nat} (hn : is.Nodup) (f : Nat → List (Row τ V)) (hf : ∀ i ∈ is, ∀ r ∈ f i, r.id = i)
    (hs : ∀ i ∈ is, (f i).Pairwise (fun a b => a.time < b.time)) : Valid (is.flatMap f) := by
  -- drop the empty blocks first
  have hdrop : is.flatMap f = (is.filter (fun i => !(f i).isEmpty)).flatMap f := by
    clear hn hf hs
    induction is with
    | nil => rfl
    | cons i is ih =>
      rw [List.flatMap_cons, ih]
      by_cases h : f i = []
      · simp [h]
      · simp [h]
  rw [hdrop]
  set is' := is.filter (fun i => !(f i).isEmpty) with his
  have hn' : is'.Nodup := hn.filter _
  have hsub : ∀ i ∈ is', i ∈ is := fun i hi => (List.mem_filter.1 hi).1
  rw [valid_iff, newIds_flatMap hn' f (fun i hi => hf i (hsub i hi))]
  · refine ⟨hn', ?_⟩
    rw [List.pairwise_flatMap]
    refine ⟨fun i hi => (hs i (hsub i hi)).imp (by intro a b h _; exact h), ?_⟩
    refine hn'.imp_of_mem ?_
    intro i j hi hj hij a ha b hb hid
    exact absurd (by rw [← hf i (hsub i hi) a ha, hid, hf j (hsub j hj) b hb]) hij
  · intro i hi
    simpa using (List.mem_filter.1 hi).2

/-- Per-series view of validity. -/
theorem Valid.series_sorted {c : List (Row τ V)} (h : Valid c) (i : Nat) :
    (series c i).Pairwise (fun a b => a.time < b.time) := series_pairwise ((valid_iff c).1 h).2 i

theorem Valid.nodup {c : List (Row τ V)} (h : Valid c) : (newIds (c.map (·.id))).Nodup := ((valid_iff c).1 h).1

theorem Valid.eq_flatMap {c : List (Row τ V)} (h : Valid c) : (newIds (c.map (·.id))).flatMap (series c) = c :=
  flatMap_series h.nodup

/-- Replace every series of a valid collection by a time-sorted list of rows of the same ID. -/
theorem Valid.map_series {c : List (Row τ V)} (h : Valid c) {W : Type} (f : Nat → List (Row τ W))
    (hf : ∀ i, ∀ r ∈ f i, r.id = i) (hs : ∀ i, (f i).Pairwise (fun a b => a.time < b.time)) :
    Valid ((newIds (c.map (·.id))).flatMap f) :=
  valid_flatMap h.nodup f (fun i _ => hf i) (fun i _ => hs i)

end Verif.Tsc
