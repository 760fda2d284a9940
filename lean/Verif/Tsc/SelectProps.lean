import Verif.Tsc.Select
import Verif.Tsc.CollLemmas
import Verif.Tsc.StatesProps
import Mathlib.Data.List.Sort
/-!
# C175: selected rows of a collection
-/

namespace Verif.Tsc

open Verif.Np

variable {τ V : Type} [LinearOrder τ]

/-! ## Helper lemmas -/

theorem selBuild_ok {rows : List (Row τ V)} {s : Selected τ V} : selBuild rows = .ok s ↔ s = .tsc rows ∧ rows ≠ [] ∧ Valid rows := by
  unfold selBuild
  have h := fun c' => construct_ok_iff rows c'
  cases hc : construct rows with
  | ok d =>
    obtain ⟨rfl, h2⟩ := (h d).1 hc
    simp only [Except.ok.injEq]
    exact ⟨fun he => ⟨he.symm, h2⟩, fun he => he.1.symm⟩
  | error e =>
    simp only [reduceCtorEq, false_iff]
    rintro ⟨-, h2⟩
    rw [(h rows).2 ⟨rfl, h2⟩] at hc
    cases hc

theorem zip_map_filter {α : Type} (l : List α) (p : α → Bool) : ((l.zip (l.map p)).filter (·.2)).map (·.1) = l.filter p := by
  induction l with
  | nil => rfl
  | cons a l ih =>
    simp only [List.map_cons, List.zip_cons_cons, List.filter_cons]
    cases p a <;> simp [ih]

theorem rowAt_ok {c : List (Row τ V)} {k : Key τ} {r : Row τ V} (hv : Valid c) : rowAt c k = .ok r ↔ r ∈ c ∧ r.key = k := by
  unfold rowAt
  have hnd := nodup_keys_of_pairwise c ((valid_iff c).1 hv).2
  cases h : c.find? (fun r => decide (r.key = k)) with
  | none =>
    simp only [List.find?_eq_none, decide_eq_true_eq] at h
    simp only [reduceCtorEq, false_iff, not_and]
    exact fun hr => h r hr
  | some x =>
    have h1 := List.mem_of_find?_eq_some h
    have h2 : x.key = k := by simpa using List.find?_some h
    simp only [Except.ok.injEq]
    constructor
    · rintro rfl; exact ⟨h1, h2⟩
    · rintro ⟨hr, hk⟩; exact row_eq_of_key hnd h1 hr (h2.trans hk.symm)

/-- Rows whose index entries form a valid index. -/
def keyRows (keys : List (Key τ)) : List (Row τ Unit) := keys.map (fun k => ⟨k.id, k.time, ()⟩)

theorem valid_keyRows {c : List (Row τ V)} : Valid (keyRows (c.map (·.key))) ↔ Valid c := by
  rw [valid_iff, valid_iff]
  simp only [keyRows, List.map_map, List.pairwise_map]
  exact Iff.rfl

theorem mapM_rowAt {c : List (Row τ V)} (hv : Valid c) (keys : List (Key τ)) (rows : List (Row τ V)) :
    keys.mapM (rowAt c) = .ok rows ↔ rows.map (·.key) = keys ∧ ∀ r ∈ rows, r ∈ c := by
  induction keys generalizing rows with
  | nil =>
    rw [List.mapM_nil]
    constructor
    · intro h; cases h; simp
    · rintro ⟨h, -⟩
      rw [List.map_eq_nil_iff.1 h]; rfl
  | cons k keys ih =>
    rw [List.mapM_cons]
    cases h : rowAt c k with
    | error e =>
      constructor
      · intro h'; cases h'
      · rintro ⟨h1, h2⟩
        cases rows with
        | nil => cases h1
        | cons r rows =>
          simp only [List.map_cons, List.cons.injEq] at h1
          rw [(rowAt_ok hv).2 ⟨h2 r (by simp), h1.1⟩] at h
          cases h
    | ok r =>
      obtain ⟨hr, hk⟩ := (rowAt_ok hv).1 h
      cases h2 : keys.mapM (rowAt c) with
      | error e =>
        constructor
        · intro h'; cases h'
        · rintro ⟨h3, h4⟩
          cases rows with
          | nil => cases h3
          | cons x rows =>
            simp only [List.map_cons, List.cons.injEq] at h3
            rw [(ih rows).2 ⟨h3.2, fun y hy => h4 y (by simp [hy])⟩] at h2
            cases h2
      | ok l =>
        obtain ⟨h3, h4⟩ := (ih l).1 h2
        change (Except.ok (r :: l) : Except SelErr _) = .ok rows ↔ _
        constructor
        · intro h'
          cases h'
          exact ⟨by simp [hk, h3], by rintro y (_ | ⟨_, hy⟩); exacts [hr, h4 y hy]⟩
        · rintro ⟨h5, h6⟩
          cases rows with
          | nil => cases h5
          | cons x rows =>
            simp only [List.map_cons, List.cons.injEq] at h5
            have hnd := nodup_keys_of_pairwise c ((valid_iff c).1 hv).2
            have e1 : x = r := row_eq_of_key hnd (h6 x (by simp)) hr (h5.1.trans hk.symm)
            have e2 := (ih rows).2 ⟨h5.2, fun y hy => h6 y (by simp [hy])⟩
            rw [h2] at e2
            cases e2
            rw [e1]

/-! ## Theorems -/

/-- **C175 (conditions, partial).** `tsc[condition]` with a condition that at least one row meets is the collection of exactly the rows that meet it, in the same order; it is a valid collection.
Missing: conditions that no row meets, see `C175_empty_violated`. -/
theorem C175_condition_partial {c : List (Row τ V)} (hv : Valid c) (p : Row τ V → Bool) (h : ∃ r ∈ c, p r = true) :
    getMask c (c.map p) = .ok (.tsc (c.filter p)) ∧ Valid (c.filter p) ∧ ∀ i, content (c.filter p) i = ((series c i).filter p).map (fun r => (r.time, r.val)) := by
  have hf : Valid (c.filter p) := hv.sublist List.filter_sublist
  refine ⟨?_, hf, fun i => ?_⟩
  · unfold getMask
    rw [if_neg (by simp), zip_map_filter, selBuild_ok]
    obtain ⟨r, hr, hp⟩ := h
    exact ⟨rfl, List.ne_nil_of_mem (List.mem_filter.2 ⟨hr, hp⟩), hf⟩
  · simp only [content, series, List.filter_filter, Bool.and_comm]

/-- **C175 (masks).** A list of Booleans is accepted exactly if it has the length of the collection and selects at least one row; the result are the rows at its true positions. -/
theorem C175_mask {c : List (Row τ V)} (hv : Valid c) (mask : List Bool) (s : Selected τ V) :
    getMask c mask = .ok s ↔ mask.length = c.length ∧ true ∈ mask ∧ s = .tsc (((c.zip mask).filter (·.2)).map (·.1)) := by
  unfold getMask
  by_cases hl : mask.length = c.length
  · rw [if_neg (by simpa using hl), selBuild_ok]
    have hsub : (((c.zip mask).filter (·.2)).map (·.1)).Sublist c := by
      have h1 : (((c.zip mask).filter (·.2)).map (·.1)).Sublist ((c.zip mask).map (·.1)) := List.filter_sublist.map _
      rwa [List.map_fst_zip hl.ge] at h1
    have hne : ((c.zip mask).filter (·.2)).map (·.1) ≠ [] ↔ true ∈ mask := by
      rw [Ne, List.map_eq_nil_iff, List.filter_eq_nil_iff]
      push Not
      constructor
      · rintro ⟨⟨r, b⟩, hr, hb⟩
        obtain rfl : b = true := hb
        exact (List.of_mem_zip hr).2
      · intro h
        obtain ⟨i, hi, hb⟩ := List.getElem_of_mem h
        exact ⟨(c[i], mask[i]), List.mem_iff_getElem.2 ⟨i, by simp; omega, by simp⟩, hb⟩
    rw [hne]
    exact ⟨fun ⟨h1, h2, _⟩ => ⟨hl, h2, h1⟩, fun ⟨_, h2, h3⟩ => ⟨h3, h2, hv.sublist hsub⟩⟩
  · rw [if_pos (by simpa using hl)]
    simp [hl]

/-- **C175 (empty selections, violated).** For every collection and every condition that no row meets, the selection raises an `IndexError` instead of returning an empty frame. -/
theorem C175_empty_violated (c : List (Row τ V)) (p : Row τ V → Bool) (h : ∀ r ∈ c, p r = false) : getMask c (c.map p) = .error (.validate .indexError) := by
  unfold getMask
  rw [if_neg (by simp), zip_map_filter, List.filter_eq_nil_iff.2 (fun r hr => by simp [h r hr])]
  rfl

/-- **C175 (index entries).** `tsc.loc[entries, :]` is accepted exactly if every entry is in the index and the entries in the given order form the index of a collection; the result is then the collection of exactly
these rows in the given order. -/
theorem C175_index {c : List (Row τ V)} (hv : Valid c) (keys : List (Key τ)) (s : Selected τ V) :
    locIndex c keys = .ok s ↔ keys ≠ [] ∧ Valid (keyRows keys) ∧ ∃ d, s = .tsc d ∧ d.map (·.key) = keys ∧ ∀ r ∈ d, r ∈ c := by
  have key : ∀ rows, keys.mapM (rowAt c) = .ok rows → (locIndex c keys = .ok s ↔ selBuild rows = .ok s) := by
    intro rows h
    unfold locIndex
    rw [h]
    exact Iff.rfl
  constructor
  · intro h
    cases hm : keys.mapM (rowAt c) with
    | error e => unfold locIndex at h; rw [hm] at h; cases h
    | ok rows =>
      obtain ⟨h1, h2, h3⟩ := selBuild_ok.1 ((key rows hm).1 h)
      obtain ⟨h4, h5⟩ := (mapM_rowAt hv keys rows).1 hm
      refine ⟨?_, ?_, rows, h1, h4, h5⟩
      · rintro rfl
        exact h2 (List.map_eq_nil_iff.1 h4)
      · rw [← h4]; exact valid_keyRows.2 h3
  · rintro ⟨h1, h2, d, rfl, h3, h4⟩
    rw [key d ((mapM_rowAt hv keys d).2 ⟨h3, h4⟩), selBuild_ok]
    refine ⟨rfl, ?_, ?_⟩
    · rintro rfl; exact h1 h3.symm
    · rw [← h3] at h2; exact valid_keyRows.1 h2

/-- **C175 (aligned collections).** Selecting the index of another collection is possible exactly if all entries of the other collection are present; every row then holds the value stored in the first collection
under its own ID and time. -/
theorem C175_aligned {W : Type} {c : List (Row τ V)} {y : List (Row τ W)} (hv : Valid c) (hy : Valid y) (hne : y ≠ []) :
    ((∀ r ∈ y, r.key ∈ c.map (·.key)) ↔ ∃ s, locIndex c (y.map (·.key)) = .ok s) ∧
    ∀ s, locIndex c (y.map (·.key)) = .ok s → ∃ d, s = .tsc d ∧ Valid d ∧ d.map (·.key) = y.map (·.key) ∧ ∀ r ∈ d, r ∈ c := by
  constructor
  · constructor
    · intro h
      have : ∃ d : List (Row τ V), d.map (·.key) = y.map (·.key) ∧ ∀ r ∈ d, r ∈ c := by
        clear hy hne
        induction y with
        | nil => exact ⟨[], rfl, by simp⟩
        | cons r y ih =>
          obtain ⟨d, h1, h2⟩ := ih (fun x hx => h x (by simp [hx]))
          obtain ⟨x, hx, hk⟩ := List.mem_map.1 (h r (by simp))
          exact ⟨x :: d, by simp [h1, hk], by rintro z (_ | ⟨_, hz⟩); exacts [hx, h2 z hz]⟩
      obtain ⟨d, h1, h2⟩ := this
      exact ⟨.tsc d, (C175_index hv _ _).2 ⟨by simpa using hne, valid_keyRows.2 hy, d, rfl, h1, h2⟩⟩
    · rintro ⟨s, hs⟩ r hr
      obtain ⟨-, -, d, -, h3, h4⟩ := (C175_index hv _ _).1 hs
      have : r.key ∈ d.map (·.key) := by rw [h3]; exact List.mem_map_of_mem hr
      obtain ⟨x, hx, hk⟩ := List.mem_map.1 this
      exact List.mem_map.2 ⟨x, h4 x hx, hk⟩
  · intro s hs
    obtain ⟨-, h2, d, h3, h4, h5⟩ := (C175_index hv _ _).1 hs
    refine ⟨d, h3, ?_, h4, h5⟩
    rw [← h4] at h2
    exact valid_keyRows.1 h2

/-- **C175 (other orders, violated).** Index entries that exist but are not given in the order of time raise an `AttributeError`: the fallback to a plain `DataFrame`, which the code intends for selections that are
no collection any more, is never reached.  This holds for any two samples of one series. -/
theorem C175_order_violated {c : List (Row τ V)} (hv : Valid c) {a b : Row τ V} (ha : a ∈ c) (hb : b ∈ c) (hid : a.id = b.id) (ht : a.time < b.time) :
    locIndex c [b.key, a.key] = .error (.validate .notSorted) := by
  have h : [b.key, a.key].mapM (rowAt c) = .ok [b, a] := (mapM_rowAt hv _ _).2 ⟨rfl, by simp [ha, hb]⟩
  unfold locIndex
  rw [h]
  change selBuild [b, a] = _
  have hne : b.key ≠ a.key := fun h => by
    have := congrArg Key.time h
    simp only [Row.key] at this
    exact absurd this (ne_of_gt ht)
  simp [selBuild, construct, construct.notSorted, anyDuplicated, newIds, hne, hid, ht.le]

/-- No selection of rows of a collection by a mask, by index entries or by positions ever falls back to a plain frame. -/
theorem C175_fallback_violated (c : List (Row τ V)) (mask : List Bool) (keys : List (Key τ)) (pos : List Int) (d : List (Row τ V)) :
    getMask c mask ≠ .ok (.frame d) ∧ locIndex c keys ≠ .ok (.frame d) ∧ ilocList c pos ≠ .ok (.frame d) := by
  have hb : ∀ rows : List (Row τ V), selBuild rows ≠ .ok (.frame d) := by
    intro rows h
    have := (selBuild_ok.1 h).1
    cases this
  refine ⟨?_, ?_, ?_⟩
  · unfold getMask
    split
    · simp
    · exact hb _
  · unfold locIndex
    cases keys.mapM (rowAt c) with
    | error e => exact fun h => by cases h
    | ok rows => exact hb rows
  · unfold ilocList
    cases pos.mapM (rowPos c) with
    | error e => exact fun h => by cases h
    | ok rows => exact hb rows

/-- **C175 (all positions).** `tsc.iloc[positions, :]` is accepted exactly if every position is in the range `-n, ..., n - 1` and the rows at these positions, negative positions counted from the end, form a
collection in the given order; the result is then this collection. -/
theorem C175_iloc (c : List (Row τ V)) (pos : List Int) (s : Selected τ V) :
    ilocList c pos = .ok s ↔ ∃ d, s = .tsc d ∧ d ≠ [] ∧ Valid d ∧
      List.Forall₂ (fun (p : Int) (r : Row τ V) => (0 ≤ p ∧ c[p.toNat]? = some r) ∨ (p < 0 ∧ 0 ≤ c.length + p ∧ c[(c.length + p).toNat]? = some r)) pos d := by
  have h1 : ∀ (p : Int) (r : Row τ V), rowPos c p = .ok r ↔ (0 ≤ p ∧ c[p.toNat]? = some r) ∨ (p < 0 ∧ 0 ≤ c.length + p ∧ c[(c.length + p).toNat]? = some r) := by
    intro p r
    unfold rowPos
    by_cases hb : p < -(c.length : Int) ∨ (c.length : Int) ≤ p
    · rw [if_pos hb]
      simp only [reduceCtorEq, false_iff, not_or, not_and]
      refine ⟨fun h0 h => ?_, fun h0 h => ?_⟩
      · have := (List.getElem?_eq_some_iff.1 h).1
        omega
      · omega
    · rw [if_neg hb]
      push Not at hb
      by_cases h0 : p < 0
      · rw [if_pos h0]
        have h2 : p + (c.length : Int) = c.length + p := by omega
        rw [h2]
        have h3 : 0 ≤ (c.length : Int) + p := by omega
        cases hc : c[((c.length : Int) + p).toNat]? with
        | none => simp [not_le.2 h0]
        | some x => simp [h0, h3, not_le.2 h0]
      · rw [if_neg h0]
        have h0' : 0 ≤ p := not_lt.1 h0
        cases hc : c[p.toNat]? with
        | none => simp [h0]
        | some x => simp [h0, h0']
  have h2 : ∀ d, pos.mapM (rowPos c) = .ok d ↔ List.Forall₂ (fun p r => rowPos c p = .ok r) pos d := by
    intro d
    induction pos generalizing d with
    | nil =>
      rw [List.mapM_nil, List.forall₂_nil_left_iff]
      constructor
      · intro h; cases h; rfl
      · rintro rfl; rfl
    | cons p pos ih =>
      rw [List.mapM_cons, List.forall₂_cons_left_iff]
      constructor
      · intro h
        cases hp : rowPos c p with
        | error e => rw [hp] at h; cases h
        | ok r =>
          rw [hp] at h
          cases hm : pos.mapM (rowPos c) with
          | error e => rw [hm] at h; cases h
          | ok rs =>
            rw [hm] at h
            cases h
            exact ⟨r, rs, rfl, (ih rs).1 hm, rfl⟩
      · rintro ⟨r, rs, hr, hrs, rfl⟩
        rw [hr, (ih rs).2 hrs]
        rfl
  have h3 : ilocList c pos = .ok s ↔ ∃ d, pos.mapM (rowPos c) = .ok d ∧ selBuild d = .ok s := by
    unfold ilocList
    cases pos.mapM (rowPos c) with
    | error e =>
      constructor
      · intro h; cases h
      · rintro ⟨d, h, _⟩; cases h
    | ok d =>
      constructor
      · intro h; exact ⟨d, rfl, h⟩
      · rintro ⟨d', h, h'⟩; cases h; exact h'
  rw [h3]
  simp only [h2, h1, selBuild_ok]
  exact ⟨fun ⟨d, ha, hb, hc, hd⟩ => ⟨d, hb, hc, hd, ha⟩, fun ⟨d, hb, hc, hd, ha⟩ => ⟨d, ha, hb, hc, hd⟩⟩

/-- **C175 (positions).** Increasing positions select the collection of the rows at these positions. -/
theorem C175_positions {c : List (Row τ V)} (hv : Valid c) (pos : List Nat) (hne : pos ≠ []) (hp : pos.Pairwise (· < ·)) (hl : ∀ p ∈ pos, p < c.length) :
    ∃ d, ilocList c (pos.map (fun p : Nat => (p : Int))) = .ok (.tsc d) ∧ Valid d ∧ d.length = pos.length ∧ ∀ (k : Nat) (p : Nat), pos[k]? = some p → d[k]? = c[p]? := by
  have hex : ∀ pos : List Nat, (∀ p ∈ pos, p < c.length) → (pos.map (fun p : Nat => (p : Int))).mapM (rowPos c) = .ok (pos.filterMap (fun p => c[p]?)) := by
    intro pos hl
    induction pos with
    | nil => rfl
    | cons p pos ih =>
      have hp := hl p (by simp)
      have h1 : rowPos c (p : Int) = .ok c[p] := by
        unfold rowPos
        rw [if_neg (by omega), if_neg (by omega), Int.toNat_natCast, List.getElem?_eq_getElem hp]
      rw [List.map_cons, List.mapM_cons, h1, ih (fun q hq => hl q (by simp [hq]))]
      simp only [List.filterMap_cons, List.getElem?_eq_getElem hp]
      rfl
  have hget : ∀ pos : List Nat, (∀ p ∈ pos, p < c.length) → (pos.filterMap (fun p => c[p]?)).length = pos.length ∧
      ∀ (k : Nat) (p : Nat), pos[k]? = some p → (pos.filterMap (fun p => c[p]?))[k]? = c[p]? := by
    intro pos hl
    induction pos with
    | nil => exact ⟨rfl, by simp⟩
    | cons q pos ih =>
      have hq := hl q (by simp)
      obtain ⟨h1, h2⟩ := ih (fun q hq => hl q (by simp [hq]))
      simp only [List.filterMap_cons, List.getElem?_eq_getElem hq, List.length_cons, h1, true_and]
      intro k p hk
      cases k with
      | zero =>
        simp only [List.getElem?_cons_zero, Option.some.injEq] at hk
        subst hk
        simp [List.getElem?_eq_getElem hq]
      | succ k =>
        simp only [List.getElem?_cons_succ] at hk ⊢
        exact h2 k p hk
  obtain ⟨hlen, hg⟩ := hget pos hl
  have hsub : (pos.filterMap (fun p => c[p]?)).Sublist c := by
    have h1 : pos.Sublist (List.range c.length) :=
      List.sublist_of_subperm_of_pairwise (r := (· < ·)) (List.Nodup.subperm (hp.imp (fun h => ne_of_lt h)) (fun p h => List.mem_range.2 (hl p h))) hp List.pairwise_lt_range
    have h2 : (List.range c.length).filterMap (fun p => c[p]?) = c := by
      have : ∀ n, n ≤ c.length → (List.range n).filterMap (fun p => c[p]?) = c.take n := by
        intro n hn
        induction n with
        | zero => rfl
        | succ n ih =>
          rw [List.range_succ, List.filterMap_append, ih (by omega), List.take_add_one]
          simp [List.getElem?_eq_getElem (show n < c.length by omega)]
      rw [this _ le_rfl, List.take_length]
    have h3 := h1.filterMap (fun p => c[p]?)
    rwa [h2] at h3
  refine ⟨_, ?_, hv.sublist hsub, hlen, hg⟩
  unfold ilocList
  rw [hex pos hl]
  exact selBuild_ok.2 ⟨rfl, fun h => hne (List.length_eq_zero_iff.1 (by rw [← hlen, h]; rfl)), hv.sublist hsub⟩

/-- **C175 (cross sections).** `xs` of an ID is the series with this ID, `xs` of a time value the samples at this time; with the level kept it is a collection, with the level dropped a plain frame, and without
any such row a `KeyError`. -/
theorem C175_cross_section {c : List (Row τ V)} (hv : Valid c) (i : Nat) (t : τ) :
    (HasId c i → xsId c i false = .ok (.tsc (series c i)) ∧ xsId c i true = .ok (.frame (series c i))) ∧
    (¬ HasId c i → ∀ b, xsId c i b = .error .key) ∧
    ((∃ r ∈ c, r.time = t) → xsTime c t false = .ok (.tsc (c.filter (fun r => decide (r.time = t)))) ∧ xsTime c t true = .ok (.frame (c.filter (fun r => decide (r.time = t))))) ∧
    ((¬ ∃ r ∈ c, r.time = t) → ∀ b, xsTime c t b = .error .key) := by
  have pos : ∀ p : Row τ V → Bool, (∃ r ∈ c, p r = true) → xsRows c p false = .ok (.tsc (c.filter p)) ∧ xsRows c p true = .ok (.frame (c.filter p)) := by
    rintro p ⟨r, hr, hp⟩
    have hne : c.filter p ≠ [] := List.ne_nil_of_mem (List.mem_filter.2 ⟨hr, hp⟩)
    have hc := (construct_ok_iff (c.filter p) (c.filter p)).2 ⟨rfl, hne, hv.sublist List.filter_sublist⟩
    unfold xsRows
    have he : (c.filter p).isEmpty = false := by simpa using hne
    rw [he, hc]
    simp
  have neg : ∀ p : Row τ V → Bool, (¬ ∃ r ∈ c, p r = true) → ∀ b, xsRows c p b = .error .key := by
    intro p h b
    unfold xsRows
    have he : (c.filter p).isEmpty = true := by
      rw [List.isEmpty_iff, List.filter_eq_nil_iff]
      exact fun r hr hp => h ⟨r, hr, hp⟩
    rw [he]; rfl
  have hs : series c i = c.filter (fun r => decide (r.id = i)) := by
    unfold series
    congr 1
  refine ⟨?_, ?_, ?_, ?_⟩
  · rintro ⟨r, hr, hi⟩
    rw [hs]
    exact pos _ ⟨r, hr, by simpa using hi⟩
  · intro h
    exact neg _ (fun ⟨r, hr, hi⟩ => h ⟨r, hr, by simpa using hi⟩)
  · rintro ⟨r, hr, ht⟩
    exact pos _ ⟨r, hr, by simpa using ht⟩
  · intro h
    exact neg _ (fun ⟨r, hr, ht⟩ => h ⟨r, hr, by simpa using ht⟩)

/-- The entries of the value are numbers. -/
def Assigned.Numeric : Assigned → Prop
  | .number => True
  | .array b => b = true
  | .series b => b = true
  | .frame l => ∀ b ∈ l, b = true
  | .list b => b = true
  | .other => False

/-- **C175 (assignment, partial).** Through the indexers exactly numeric values can be assigned.  Missing: lists, see `C175_assign_violated`. -/
theorem C175_assign_partial (v : Assigned) (h : ∀ b, v ≠ .list b) : isNumericValue v = true ↔ v.Numeric := by
  cases v with
  | list b => exact absurd rfl (h b)
  | frame l => simp [isNumericValue, Assigned.Numeric]
  | _ => simp [isNumericValue, Assigned.Numeric]

/-- **C175 (assignment, violated).** A list of numbers is rejected as "not numeric", although the array with the same numbers is accepted. -/
theorem C175_assign_violated : Assigned.Numeric (.list true) ∧ isNumericValue (.list true) = false ∧ isNumericValue (.array true) = true := ⟨rfl, rfl, rfl⟩

/-! ## Non-vacuity -/

/-- Two series: ID 2 at 0, 5, 6 and ID 1 at 5. -/
def exSelect : List (Row Int Nat) := [⟨2, 0, 10⟩, ⟨2, 5, 11⟩, ⟨2, 6, 12⟩, ⟨1, 5, 13⟩]

example : Valid exSelect := ((build_ok_iff (c := exSelect) (c' := exSelect)).1 (by decide +kernel)).2.2
example : getMask exSelect (exSelect.map (fun r => decide (r.time = 5))) = .ok (.tsc [⟨2, 5, 11⟩, ⟨1, 5, 13⟩]) := by decide +kernel
example : getMask exSelect [false, true, false, true, true] = .error .length := by decide +kernel
example : locIndex exSelect [⟨1, 5⟩, ⟨2, 0⟩, ⟨2, 6⟩] = .ok (.tsc [⟨1, 5, 13⟩, ⟨2, 0, 10⟩, ⟨2, 6, 12⟩]) := by decide +kernel
example : locIndex exSelect [⟨2, 6⟩, ⟨2, 0⟩] = .error (.validate .notSorted) := by decide +kernel
example : locIndex exSelect [⟨3, 0⟩] = .error .key := by decide +kernel
example : ilocList exSelect [0, 3] = .ok (.tsc [⟨2, 0, 10⟩, ⟨1, 5, 13⟩]) := by decide +kernel
example : ilocList exSelect [0, -5] = .error .position := by decide +kernel
example : ilocList exSelect [-1, -2] = .ok (.tsc [⟨1, 5, 13⟩, ⟨2, 6, 12⟩]) := by decide +kernel
example : xsId exSelect 2 false = .ok (.tsc [⟨2, 0, 10⟩, ⟨2, 5, 11⟩, ⟨2, 6, 12⟩]) := by decide +kernel

end Verif.Tsc
