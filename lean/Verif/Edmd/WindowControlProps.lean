import Verif.Edmd.WindowProps
/-! # C150, C151: rejections of windowed reconstruction, windowed reconstruction with control input -/

namespace Verif.Edmd

open Verif.Tsc Verif.Np

variable {V W P : Type}

/-- Start of the first window. -/
def firstStart (c : List (Row Int V)) (w : Nat) (offset : Int) : Int := startOf ((windowList c w offset).headD [])

/-- The frame of the windowed reconstruction around any reconstruction of windows with common time values. -/
theorem windowCore_ok {recon : List (Row Int V) → Except WinErr (List (Row Int W))} {n w : Nat} {offset : Int} (hn : 1 ≤ n) (hw : n < w) (ho : 0 < offset)
    {c : List (Row Int V)} (hc : c ≠ []) (hv : Valid c) {d : Int} (hreg : ∀ i, HasId c i → Regular (timesOf c i) d)
    (hlen : ∀ i, HasId c i → w ≤ (series c i).length) (g : Nat → Nat → W)
    (hrec : ∀ e' : List (Row Int V), e' ≠ [] → Valid e' → IdsAscending e' → (∀ k, HasId e' k ↔ k < (windowList c w offset).length) →
      (∀ (k : Nat) (win : List (Row Int V)), (windowList c w offset)[k]? = some win → content e' k = ((List.range w).map (fun j : Nat => firstStart c w offset + j * d)).zip (win.map (·.val))) →
      ∃ r, recon e' = .ok r ∧ Valid r ∧ IdsAscending r ∧ (∀ k, HasId r k ↔ k < (windowList c w offset).length) ∧
        ∀ k, k < (windowList c w offset).length → content r k = (List.range (w - n + 1)).map (fun j : Nat => (firstStart c w offset + ((n - 1 + j : Nat) : Int) * d, g k j))) :
    ∃ out, windowCore recon n w offset c = .ok out ∧ Valid out ∧ (∀ k, HasId out k ↔ k < (windowList c w offset).length) ∧
      ∀ (k : Nat) (win : List (Row Int V)), (windowList c w offset)[k]? = some win → content out k = ((win.drop (n - 1)).map (·.time)).zip ((List.range (w - n + 1)).map (g k)) := by
  have hconst := isConstDelta_regular hc hv hreg
  obtain ⟨e, he, hene, hev, hea, heids, hecont⟩ := windowFrames_ok hc hv hconst (by omega : 0 < w) ho hlen
  set K := (windowList c w offset).length with hK
  have hid : ∀ k, HasId e k ↔ k < K := by intro k; rw [← mem_ids, heids, List.mem_range]
  have hget : ∀ k, k < K → ∃ win : List (Row Int V), (windowList c w offset)[k]? = some win := fun k hk => ⟨_, List.getElem?_eq_getElem hk⟩
  have hwin : ∀ (k : Nat) (win : List (Row Int V)), (windowList c w offset)[k]? = some win → win.length = w ∧ Regular (win.map (·.time)) d := by
    intro k win hk
    obtain ⟨i, q, hi, rfl, hl⟩ := mem_windowList (List.mem_of_getElem? hk)
    refine ⟨hl, by rw [List.length_map, hl]; omega, fun p hp => ?_⟩
    rw [List.map_take, List.map_drop] at hp
    exact (hreg i hi).2 p (consecutive_take_drop hp)
  have hetimes : ∀ (k : Nat) (win : List (Row Int V)), (windowList c w offset)[k]? = some win → timesOf e k = win.map (·.time) := by
    intro k win hk
    have := congrArg (List.map (·.1)) (hecont k win hk)
    simpa [content, timesOf, Function.comp_def] using this
  have hevals : ∀ (k : Nat) (win : List (Row Int V)), (windowList c w offset)[k]? = some win → (series e k).map (·.val) = win.map (·.val) := by
    intro k win hk
    have := congrArg (List.map (·.2)) (hecont k win hk)
    simpa [content, Function.comp_def] using this
  have helen : ∀ k, HasId e k → (series e k).length = w := by
    intro k hk
    obtain ⟨win, h⟩ := hget k ((hid k).1 hk)
    have := congrArg List.length (hetimes k win h)
    rw [List.length_map, (hwin k win h).1] at this
    simpa [timesOf] using this
  have hdpos : 0 < d := by
    obtain ⟨r0, l, hl⟩ := List.ne_nil_iff_exists_cons.1 hc
    exact regular_pos hv (hreg r0.id ⟨r0, by rw [hl]; simp, rfl⟩)
  -- the time values of the first window
  have hK0 : 0 < K := by
    obtain ⟨r0, l, hl⟩ := List.ne_nil_iff_exists_cons.1 hene
    have := (hid r0.id).1 ⟨r0, by rw [hl]; simp, rfl⟩
    omega
  obtain ⟨win0, hwin0⟩ := hget 0 hK0
  have hhead : (ids e).headD 0 = 0 := by
    obtain ⟨m, hm⟩ : ∃ m, K = m + 1 := ⟨K - 1, by omega⟩
    rw [heids, hm, List.range_succ_eq_map]; rfl
  have hprod : productIndex e = (ids e).flatMap (fun i => ((fun _ : Nat => timesOf e 0) i).map (fun t => (⟨i, t⟩ : Key Int))) := by
    unfold productIndex; rw [hhead]; rfl
  have h00 : HasId e 0 := (hid 0).2 hK0
  obtain ⟨e', he', hne', hv', ha', hid', hcont', htimes'⟩ := writeIndex_ok hene hev hea (fun _ => timesOf e 0)
    (fun i hi => by rw [helen i hi]; simp [timesOf, helen 0 h00])
    (fun i hi => by rw [timesOf, List.pairwise_map]; exact hev.series_sorted 0)
  rw [← hprod] at he'
  have hreg0 : Regular (timesOf e 0) d := by rw [hetimes 0 win0 hwin0]; exact (hwin 0 win0 hwin0).2
  have hreg' : ∀ i, HasId e' i → Regular (timesOf e' i) d := fun i hi => by rw [htimes' i ((hid' i).1 hi)]; exact hreg0
  have hlen' : ∀ i, HasId e' i → (series e' i).length = w := by
    intro i hi
    have := congrArg List.length (htimes' i ((hid' i).1 hi))
    have h2 := helen 0 h00
    simp only [timesOf, List.length_map] at this
    omega
  have hidK : ∀ k, HasId e' k ↔ k < K := fun k => (hid' k).trans (hid k)
  have hf0 : ∀ k, HasId e' k → firstTime e' k = (timesOf e 0).headD 0 := by
    intro k hk
    have := firstTime_head hk
    rw [htimes' k ((hid' k).1 hk)] at this
    rw [List.headD_eq_head?_getD, this]; rfl
  have ht0 : ∀ j (hj : j < (timesOf e 0).length), (timesOf e 0)[j] = (timesOf e 0).headD 0 + j * d := by
    intro j hj
    have := regular_getElem hreg0.2 (firstTime_head h00) j hj
    rw [this, List.headD_eq_head?_getD, firstTime_head h00]; rfl
  have hl0 : (timesOf e 0).length = w := by rw [timesOf, List.length_map, helen 0 h00]
  have hwt : ∀ (k : Nat) (win : List (Row Int V)), (windowList c w offset)[k]? = some win → ∀ j (hj : j < win.length), win[j].time = startOf win + j * d := by
    intro k win hk j hj
    have h1 : (win.map (·.time)).head? = some (startOf win) := by
      unfold startOf
      rw [List.head?_map]
      cases win with
      | nil => simp at hj
      | cons a l => simp
    have := regular_getElem (hwin k win hk).2.2 h1 j (by simpa using hj)
    simpa using this
  have hfs : firstStart c w offset = (timesOf e 0).headD 0 := by
    unfold firstStart startOf
    have h1 : (windowList c w offset).headD [] = win0 := by
      rw [List.headD_eq_head?_getD, List.head?_eq_getElem?, hwin0]
      rfl
    rw [h1, hetimes 0 win0 hwin0, List.headD_eq_head?_getD, List.head?_map]
  have hgrid : timesOf e 0 = (List.range w).map (fun j : Nat => firstStart c w offset + j * d) := by
    apply List.ext_getElem
    · simp [hl0]
    · intro j h1 h2
      rw [ht0 j h1]
      simp [hfs]
  obtain ⟨r, hr, hrv, hra, hridK, hrcont⟩ := hrec e' hne' hv' ha' hidK (fun k win hk => by
    have hkK := (List.getElem?_eq_some_iff.1 hk).1
    rw [hcont' k ((hid k).2 hkK), hevals k win hk, hgrid])
  have hidsr : ids r = List.range K := by
    apply eq_of_pairwise_lt (ids_sorted r) List.pairwise_lt_range
    intro i
    rw [mem_ids, List.mem_range, hridK]
  have hrne : r ≠ [] := by
    obtain ⟨x, hx, -⟩ := (hridK 0).2 hK0
    exact List.ne_nil_of_mem hx
  have hser : ∀ k, HasId e k → (series e k).drop ((series e k).length - (w - n + 1)) = (series e k).drop (n - 1) := by
    intro k hk
    rw [helen k hk]; congr 1; omega
  have htail : (groupTail (w - n + 1) e).map (·.key) = (ids r).flatMap (fun i => (((timesOf e i).drop (n - 1))).map (fun t => (⟨i, t⟩ : Key Int))) := by
    obtain ⟨g, hg, hgv, hgid, hgser⟩ := (C06_final hene hev ((w - n + 1 : Nat) : Int)).1 ⟨by omega, fun i hi => by rw [helen i hi]; omega⟩
    have hgeq : groupTail (w - n + 1) e = g := by
      unfold finalStates at hg
      split at hg
      · simp at hg
      split at hg
      · simp at hg
      rw [Int.toNat_natCast] at hg
      exact (build_ok_iff.1 hg).1
    have hga : IdsAscending g := by
      rw [← hgeq]; unfold IdsAscending
      exact List.Pairwise.sublist ((groupTail_sublist _ _).map _) hea
    have hidg : ids g = ids r := by
      rw [hidsr]
      apply eq_of_pairwise_lt (ids_sorted g) List.pairwise_lt_range
      intro i
      rw [mem_ids, List.mem_range, hgid, hid]
    rw [hgeq]
    conv => lhs; rw [← eq_flatMap_ids hgv hga]
    rw [List.map_flatMap, hidg]
    apply List.flatMap_congr
    intro i hi
    have hie : HasId e i := by rw [hid, ← List.mem_range, ← hidsr]; exact hi
    rw [hgser i, Int.toNat_natCast, hser i hie, timesOf, ← List.map_drop, List.map_map]
    apply List.map_congr_left
    intro x hx
    have := (mem_series.1 (List.mem_of_mem_drop hx)).2
    simp [Row.key, this]
  have hrlen : ∀ k, HasId r k → (series r k).length = w - n + 1 := by
    intro k hk
    have := congrArg List.length (hrcont k ((hridK k).1 hk))
    simpa [content] using this
  obtain ⟨out, hout, -, houtv, -, houtid, houtcont, -⟩ := writeIndex_ok hrne hrv hra (fun i => (timesOf e i).drop (n - 1))
    (fun i hi => by
      have hie : HasId e i := (hid i).2 ((hridK i).1 hi)
      rw [List.length_drop, hrlen i hi, timesOf, List.length_map, helen i hie]; omega)
    (fun i hi => by
      refine List.Pairwise.drop ?_
      rw [timesOf, List.pairwise_map]; exact hev.series_sorted i)
  rw [← htail] at hout
  refine ⟨out, ?_, houtv, fun k => (houtid k).trans (hridK k), ?_⟩
  · unfold windowCore
    rw [if_neg (by omega), hconst, (checkMinTimesteps_iff hc w).2 (fun i hi => by exact_mod_cast hlen i hi)]
    simp only [Bool.not_true, Bool.false_eq_true, if_false]
    rw [he]
    simp only
    rw [if_neg (by rw [(nTimesteps_one hene w).2 (fun i hi => helen i (mem_ids.1 hi))]; simp), he']
    simp only [hr]
    exact hout
  · intro k win hk
    have hkK := (List.getElem?_eq_some_iff.1 hk).1
    have hkr := (hridK k).2 hkK
    rw [houtcont k hkr, hetimes k win hk, ← List.map_drop]
    congr 1
    have := congrArg (List.map (·.2)) (hrcont k hkK)
    simpa [content, Function.comp_def] using this

/-- What the reconstruction of windows is called with. -/
theorem windowCore_error {recon : List (Row Int V) → Except WinErr (List (Row Int W))} {n w : Nat} {offset : Int} (hn : 1 ≤ n) (hw : n < w) (ho : 0 < offset)
    {c : List (Row Int V)} (hc : c ≠ []) (hv : Valid c) {d : Int} (hreg : ∀ i, HasId c i → Regular (timesOf c i) d)
    (hlen : ∀ i, HasId c i → w ≤ (series c i).length)
    (hrec : ∀ e' : List (Row Int V), e' ≠ [] → Valid e' → IdsAscending e' → (∀ k, HasId e' k ↔ k < (windowList c w offset).length) →
      (∀ (k : Nat) (win : List (Row Int V)), (windowList c w offset)[k]? = some win → content e' k = ((List.range w).map (fun j : Nat => firstStart c w offset + j * d)).zip (win.map (·.val))) →
      ∃ x, recon e' = .error x) :
    ∃ x, windowCore recon n w offset c = .error x := by
  have hconst := isConstDelta_regular hc hv hreg
  obtain ⟨e, he, hene, hev, hea, heids, hecont⟩ := windowFrames_ok hc hv hconst (by omega : 0 < w) ho hlen
  set K := (windowList c w offset).length with hK
  have hid : ∀ k, HasId e k ↔ k < K := by intro k; rw [← mem_ids, heids, List.mem_range]
  have hget : ∀ k, k < K → ∃ win : List (Row Int V), (windowList c w offset)[k]? = some win := fun k hk => ⟨_, List.getElem?_eq_getElem hk⟩
  have hwin : ∀ (k : Nat) (win : List (Row Int V)), (windowList c w offset)[k]? = some win → win.length = w ∧ Regular (win.map (·.time)) d := by
    intro k win hk
    obtain ⟨i, q, hi, rfl, hl⟩ := mem_windowList (List.mem_of_getElem? hk)
    refine ⟨hl, by rw [List.length_map, hl]; omega, fun p hp => ?_⟩
    rw [List.map_take, List.map_drop] at hp
    exact (hreg i hi).2 p (consecutive_take_drop hp)
  have hetimes : ∀ (k : Nat) (win : List (Row Int V)), (windowList c w offset)[k]? = some win → timesOf e k = win.map (·.time) := by
    intro k win hk
    have := congrArg (List.map (·.1)) (hecont k win hk)
    simpa [content, timesOf, Function.comp_def] using this
  have hevals : ∀ (k : Nat) (win : List (Row Int V)), (windowList c w offset)[k]? = some win → (series e k).map (·.val) = win.map (·.val) := by
    intro k win hk
    have := congrArg (List.map (·.2)) (hecont k win hk)
    simpa [content, Function.comp_def] using this
  have helen : ∀ k, HasId e k → (series e k).length = w := by
    intro k hk
    obtain ⟨win, h⟩ := hget k ((hid k).1 hk)
    have := congrArg List.length (hetimes k win h)
    rw [List.length_map, (hwin k win h).1] at this
    simpa [timesOf] using this
  have hdpos : 0 < d := by
    obtain ⟨r0, l, hl⟩ := List.ne_nil_iff_exists_cons.1 hc
    exact regular_pos hv (hreg r0.id ⟨r0, by rw [hl]; simp, rfl⟩)
  -- the time values of the first window
  have hK0 : 0 < K := by
    obtain ⟨r0, l, hl⟩ := List.ne_nil_iff_exists_cons.1 hene
    have := (hid r0.id).1 ⟨r0, by rw [hl]; simp, rfl⟩
    omega
  obtain ⟨win0, hwin0⟩ := hget 0 hK0
  have hhead : (ids e).headD 0 = 0 := by
    obtain ⟨m, hm⟩ : ∃ m, K = m + 1 := ⟨K - 1, by omega⟩
    rw [heids, hm, List.range_succ_eq_map]; rfl
  have hprod : productIndex e = (ids e).flatMap (fun i => ((fun _ : Nat => timesOf e 0) i).map (fun t => (⟨i, t⟩ : Key Int))) := by
    unfold productIndex; rw [hhead]; rfl
  have h00 : HasId e 0 := (hid 0).2 hK0
  obtain ⟨e', he', hne', hv', ha', hid', hcont', htimes'⟩ := writeIndex_ok hene hev hea (fun _ => timesOf e 0)
    (fun i hi => by rw [helen i hi]; simp [timesOf, helen 0 h00])
    (fun i hi => by rw [timesOf, List.pairwise_map]; exact hev.series_sorted 0)
  rw [← hprod] at he'
  have hreg0 : Regular (timesOf e 0) d := by rw [hetimes 0 win0 hwin0]; exact (hwin 0 win0 hwin0).2
  have hreg' : ∀ i, HasId e' i → Regular (timesOf e' i) d := fun i hi => by rw [htimes' i ((hid' i).1 hi)]; exact hreg0
  have hlen' : ∀ i, HasId e' i → (series e' i).length = w := by
    intro i hi
    have := congrArg List.length (htimes' i ((hid' i).1 hi))
    have h2 := helen 0 h00
    simp only [timesOf, List.length_map] at this
    omega
  have hidK : ∀ k, HasId e' k ↔ k < K := fun k => (hid' k).trans (hid k)
  have hf0 : ∀ k, HasId e' k → firstTime e' k = (timesOf e 0).headD 0 := by
    intro k hk
    have := firstTime_head hk
    rw [htimes' k ((hid' k).1 hk)] at this
    rw [List.headD_eq_head?_getD, this]; rfl
  have ht0 : ∀ j (hj : j < (timesOf e 0).length), (timesOf e 0)[j] = (timesOf e 0).headD 0 + j * d := by
    intro j hj
    have := regular_getElem hreg0.2 (firstTime_head h00) j hj
    rw [this, List.headD_eq_head?_getD, firstTime_head h00]; rfl
  have hl0 : (timesOf e 0).length = w := by rw [timesOf, List.length_map, helen 0 h00]
  have hwt : ∀ (k : Nat) (win : List (Row Int V)), (windowList c w offset)[k]? = some win → ∀ j (hj : j < win.length), win[j].time = startOf win + j * d := by
    intro k win hk j hj
    have h1 : (win.map (·.time)).head? = some (startOf win) := by
      unfold startOf
      rw [List.head?_map]
      cases win with
      | nil => simp at hj
      | cons a l => simp
    have := regular_getElem (hwin k win hk).2.2 h1 j (by simpa using hj)
    simpa using this
  have hfs : firstStart c w offset = (timesOf e 0).headD 0 := by
    unfold firstStart startOf
    have h1 : (windowList c w offset).headD [] = win0 := by
      rw [List.headD_eq_head?_getD, List.head?_eq_getElem?, hwin0]
      rfl
    rw [h1, hetimes 0 win0 hwin0, List.headD_eq_head?_getD, List.head?_map]
  have hgrid : timesOf e 0 = (List.range w).map (fun j : Nat => firstStart c w offset + j * d) := by
    apply List.ext_getElem
    · simp [hl0]
    · intro j h1 h2
      rw [ht0 j h1]
      simp [hfs]
  obtain ⟨x, hx⟩ := hrec e' hne' hv' ha' hidK (fun k win hk => by
    have hkK := (List.getElem?_eq_some_iff.1 hk).1
    rw [hcont' k ((hid k).2 hkK), hevals k win hk, hgrid])
  refine ⟨x, ?_⟩
  unfold windowCore
  rw [if_neg (by omega), hconst, (checkMinTimesteps_iff hc w).2 (fun i hi => by exact_mod_cast hlen i hi)]
  simp only [Bool.not_true, Bool.false_eq_true, if_false]
  rw [he]
  simp only
  rw [if_neg (by rw [(nTimesteps_one hene w).2 (fun i hi => helen i (mem_ids.1 hi))]; simp), he']
  simp only [hx]

theorem windowsOf_map {α β : Type} (f : α → β) (s : List α) (w o : Nat) : (windowsOf s w o).map (List.map f) = windowsOf (s.map f) w o := by
  unfold windowsOf
  simp [List.map_map, Function.comp_def, List.map_take, List.map_drop]

/-- Control input with the time values of the states has the same windows. -/
theorem windowList_times {c : List (Row Int V)} {u : List (Row Int P)} (hid : ∀ i, HasId u i ↔ HasId c i) (ht : ∀ i, HasId c i → timesOf u i = timesOf c i) (w : Nat) (offset : Int) :
    (windowList u w offset).map (List.map (·.time)) = (windowList c w offset).map (List.map (·.time)) := by
  have hids : ids u = ids c := eq_of_pairwise_lt (ids_sorted u) (ids_sorted c) (fun i => by rw [mem_ids, mem_ids, hid])
  unfold windowList
  rw [List.map_flatMap, List.map_flatMap, hids]
  apply List.flatMap_congr
  intro i hi
  rw [windowsOf_map, windowsOf_map]
  have := ht i (mem_ids.1 hi)
  unfold timesOf at this
  rw [this]

theorem series_dropKeys_head {c : List (Row Int V)} (hv : Valid c) (n i : Nat) :
    series (dropKeys c ((groupHead n [] c).map (·.key))) i = (series c i).drop n := by
  have hnd : (c.map (·.key)).Nodup := nodup_keys_of_pairwise c ((valid_iff c).1 hv).2
  have hmem : ∀ r ∈ c, ((groupHead n [] c).map (·.key)).contains r.key = true ↔ r ∈ groupHead n [] c := by
    intro r hr
    rw [List.contains_iff_mem, List.mem_map]
    constructor
    · rintro ⟨x, hx, hk⟩
      rwa [← row_eq_of_key hnd ((groupHead_sublist n [] c).subset hx) hr hk]
    · intro h; exact ⟨r, h, rfl⟩
  have hcomm : series (dropKeys c ((groupHead n [] c).map (·.key))) i =
      (series c i).filter (fun r => !((groupHead n [] c).map (·.key)).contains r.key) := by
    simp only [series, dropKeys, List.filter_filter]
    apply List.filter_congr; intro r _; exact Bool.and_comm _ _
  rw [hcomm]
  conv => lhs; rw [← List.take_append_drop n (series c i)]
  have hsplit : series (groupHead n [] c) i = (series c i).take n := by simpa using series_groupHead n [] c i
  have hndS : (series c i).Nodup := by
    have : (c).Nodup := List.Nodup.of_map _ hnd
    exact this.filter _
  rw [List.filter_append]
  have h1 : ((series c i).drop n).filter (fun r => !((groupHead n [] c).map (·.key)).contains r.key) = (series c i).drop n := by
    rw [List.filter_eq_self]
    intro r hr
    have hrs := List.mem_of_mem_drop hr
    have hrc := (mem_series.1 hrs).1
    rw [Bool.not_eq_true', ← Bool.not_eq_true, hmem r hrc]
    intro hg
    have hgs : r ∈ series (groupHead n [] c) i := mem_series.2 ⟨hg, (mem_series.1 hrs).2⟩
    rw [hsplit] at hgs
    have := List.take_append_drop n (series c i)
    rw [← this, List.nodup_append] at hndS
    exact hndS.2.2 r hgs r hr rfl
  have h2 : ((series c i).take n).filter (fun r => !((groupHead n [] c).map (·.key)).contains r.key) = [] := by
    rw [List.filter_eq_nil_iff]
    intro r hr
    have hrs := List.mem_of_mem_take hr
    rw [Bool.not_eq_true', Bool.not_eq_false, hmem r (mem_series.1 hrs).1]
    rw [← hsplit] at hr
    exact (mem_series.1 hr).1
  rw [h1, h2, List.nil_append]

/-- The windows of the control input: the samples `n - 1, ..., w - 2` of each window, with the time values of the first window. -/
theorem controlWindows_ok {n w : Nat} {offset : Int} (hn : 1 ≤ n) (hw : n < w) (ho : 0 < offset) {u : List (Row Int P)} (hu : u ≠ []) (hv : Valid u) {d : Int}
    (hreg : ∀ i, HasId u i → Regular (timesOf u i) d) (hlen : ∀ i, HasId u i → w ≤ (series u i).length) :
    ∃ u', controlWindows d n w offset u = .ok u' ∧ u' ≠ [] ∧ Valid u' ∧ (∀ k, HasId u' k ↔ k < (windowList u w offset).length) ∧
      ∀ (k : Nat) (win : List (Row Int P)), (windowList u w offset)[k]? = some win →
        content u' k = ((List.range (w - n)).map (fun j : Nat => firstStart u w offset + ((n - 1 + j : Nat) : Int) * d)).zip (((win.drop (n - 1)).take (w - n)).map (·.val)) := by
  have hconst := isConstDelta_regular hu hv hreg
  have hdelta := C11_regular hu hv .int hreg
  obtain ⟨e, he, hene, hev, hea, heids, hecont⟩ := windowFrames_ok hu hv hconst (by omega : 0 < w) ho hlen
  set K := (windowList u w offset).length with hK
  have hid : ∀ k, HasId e k ↔ k < K := by intro k; rw [← mem_ids, heids, List.mem_range]
  have hget : ∀ k, k < K → ∃ win : List (Row Int P), (windowList u w offset)[k]? = some win := fun k hk => ⟨_, List.getElem?_eq_getElem hk⟩
  have hwin : ∀ (k : Nat) (win : List (Row Int P)), (windowList u w offset)[k]? = some win → win.length = w ∧ Regular (win.map (·.time)) d := by
    intro k win hk
    obtain ⟨i, q, hi, rfl, hl⟩ := mem_windowList (List.mem_of_getElem? hk)
    refine ⟨hl, by rw [List.length_map, hl]; omega, fun p hp => ?_⟩
    rw [List.map_take, List.map_drop] at hp
    exact (hreg i hi).2 p (consecutive_take_drop hp)
  have helen : ∀ k, HasId e k → (series e k).length = w := by
    intro k hk
    obtain ⟨win, h⟩ := hget k ((hid k).1 hk)
    have := congrArg List.length (hecont k win h)
    rw [List.length_map, (hwin k win h).1] at this
    simpa [content] using this
  -- the first `w - 1` samples
  set h := groupHead (w - 1) [] e with hh
  have hhser : ∀ k, series h k = (series e k).take (w - 1) := fun k => by simpa using series_groupHead (w - 1) [] e k
  have hhv : Valid h := hev.sublist (groupHead_sublist _ _ _)
  have hhid : ∀ k, HasId h k ↔ k < K := by
    intro k
    rw [hasId_iff_series, hhser, ← hid, hasId_iff_series]
    constructor
    · intro h1 h2; rw [h2] at h1; simp at h1
    · intro h1
      have h2 := helen k (hasId_iff_series.2 h1)
      rw [← List.length_pos_iff, List.length_take, h2]
      omega
  have hK0 : 0 < K := by
    obtain ⟨r0, l, hl⟩ := List.ne_nil_iff_exists_cons.1 hene
    have := (hid r0.id).1 ⟨r0, by rw [hl]; simp, rfl⟩
    omega
  have hhne : h ≠ [] := by
    obtain ⟨x, hx, -⟩ := (hhid 0).2 hK0
    exact List.ne_nil_of_mem hx
  have hhn : nTimesteps h = .one (w - 1) := by
    rw [nTimesteps_one hhne]
    intro i hi
    rw [hhser, List.length_take, helen i ((hid i).2 ((hhid i).1 (mem_ids.1 hi)))]
    omega
  -- without the first `n - 1` samples
  set d' := dropKeys h ((groupHead (n - 1) [] h).map (·.key)) with hd'
  have hdser : ∀ k, series d' k = ((series e k).take (w - 1)).drop (n - 1) := by
    intro k
    rw [hd', series_dropKeys_head hhv, hhser]
  have hdsub : d'.Sublist e := (List.filter_sublist).trans (groupHead_sublist _ _ _)
  have hdv : Valid d' := hev.sublist hdsub
  have hda : IdsAscending d' := List.Pairwise.sublist (hdsub.map _) hea
  have hdlen : ∀ k, HasId e k → (series d' k).length = w - n := by
    intro k hk
    rw [hdser, List.length_drop, List.length_take, helen k hk]
    omega
  have hdid : ∀ k, HasId d' k ↔ k < K := by
    intro k
    constructor
    · rintro ⟨r, hr, hrk⟩
      exact (hid k).1 ⟨r, hdsub.subset hr, hrk⟩
    · intro hk
      rw [hasId_iff_series, ← List.length_pos_iff, hdlen k ((hid k).2 hk)]
      omega
  have hdne : d' ≠ [] := by
    obtain ⟨x, hx, -⟩ := (hdid 0).2 hK0
    exact List.ne_nil_of_mem hx
  have hdids : ids d' = List.range K := eq_of_pairwise_lt (ids_sorted d') List.pairwise_lt_range (fun i => by rw [mem_ids, List.mem_range, hdid])
  have hhead : (ids d').headD 0 = 0 := by
    obtain ⟨m, hm⟩ : ∃ m, K = m + 1 := ⟨K - 1, by omega⟩
    rw [hdids, hm, List.range_succ_eq_map]; rfl
  have hprod : productIndex d' = (ids d').flatMap (fun i => ((fun _ : Nat => timesOf d' 0) i).map (fun t => (⟨i, t⟩ : Key Int))) := by
    unfold productIndex; rw [hhead]; rfl
  have h00 : HasId d' 0 := (hdid 0).2 hK0
  obtain ⟨u', hu', hne', hv', -, hid', hcont', -⟩ := writeIndex_ok hdne hdv hda (fun _ => timesOf d' 0)
    (fun i hi => by rw [hdlen i ((hid i).2 ((hdid i).1 hi)), timesOf, List.length_map, hdlen 0 ((hid 0).2 hK0)])
    (fun i hi => by rw [timesOf, List.pairwise_map]; exact hdv.series_sorted 0)
  rw [← hprod] at hu'
  obtain ⟨win0, hwin0⟩ := hget 0 hK0
  have hgrid : timesOf d' 0 = (List.range (w - n)).map (fun j : Nat => firstStart u w offset + ((n - 1 + j : Nat) : Int) * d) := by
    have h1 : timesOf e 0 = win0.map (·.time) := by
      have := congrArg (List.map (·.1)) (hecont 0 win0 hwin0)
      simpa [content, timesOf, Function.comp_def] using this
    have h2 : (windowList u w offset).headD [] = win0 := by
      rw [List.headD_eq_head?_getD, List.head?_eq_getElem?, hwin0]
      rfl
    have h3 : (win0.map (·.time)).head? = some (firstStart u w offset) := by
      unfold firstStart startOf
      rw [h2, List.head?_map]
      have := (hwin 0 win0 hwin0).1
      cases win0 with
      | nil => simp at this; omega
      | cons a l => simp
    have hl := (hwin 0 win0 hwin0).1
    have h4 : timesOf d' 0 = ((timesOf e 0).take (w - 1)).drop (n - 1) := by
      rw [timesOf, hdser, List.map_drop, List.map_take]
      rfl
    rw [h4, h1]
    apply List.ext_getElem
    · simp [hl]; omega
    · intro j h5 h6
      have hj : n - 1 + j < (win0.map (·.time)).length := by simp at h6; simp [hl]; omega
      rw [List.getElem_drop, List.getElem_take, regular_getElem (hwin 0 win0 hwin0).2.2 h3 (n - 1 + j) hj]
      simp
  refine ⟨u', ?_, hne', hv', fun k => (hid' k).trans (hdid k), ?_⟩
  · unfold controlWindows
    rw [hconst, hdelta]
    simp only [Bool.not_true, Bool.false_eq_true, if_false, ne_eq, not_true_eq_false]
    rw [he]
    simp only
    rw [← hh, if_neg (by rw [hhn]; simp), ← hd', build_ok_of_valid hdv hdne]
    simp only
    rw [hu']
  · intro k win hk
    have hkK := (List.getElem?_eq_some_iff.1 hk).1
    rw [hcont' k ((hdid k).2 hkK), hgrid, hdser, List.map_drop, List.map_take]
    congr 1
    have h1 : (series e k).map (·.val) = win.map (·.val) := by
      have := congrArg (List.map (·.2)) (hecont k win hk)
      simpa [content, Function.comp_def] using this
    rw [h1, List.map_take, List.map_drop, List.drop_take]
    congr 1
    omega

/-- **C151 (windows, true part).** Windowed reconstruction with control input, for control input that is sampled at all time values of the states (also at the last one), if the first series starts at time zero:
every window is predicted from its own first `n` samples with the control samples `n - 1, ..., w - 2` of the same window, and returned at the time values of the window. -/
theorem C151_windows_partial {predict : List (Row Int V) → List (Row Int P) → List Int → Except WinErr (List (Row Int W))} {n w : Nat} {offset : Int} (hn : 1 ≤ n) (hw : n < w) (ho : 0 < offset)
    {c : List (Row Int V)} {u : List (Row Int P)} (hc : c ≠ []) (hv : Valid c) {d : Int} (hreg : ∀ i, HasId c i → Regular (timesOf c i) d)
    (hlen : ∀ i, HasId c i → w ≤ (series c i).length) (huv : Valid u) (huid : ∀ i, HasId u i ↔ HasId c i) (hut : ∀ i, HasId c i → timesOf u i = timesOf c i)
    (hzero : ∀ i, (ids c).head? = some i → (timesOf c i).head? = some 0) (f : Nat → Int → W)
    (hp : ∀ ic us times, Valid ic → IdsAscending ic → (∀ k, HasId ic k ↔ k < (windowList c w offset).length) →
      (∀ k win, (windowList c w offset)[k]? = some win → content ic k = (win.take n).map (fun r => (r.time - startOf win, r.val))) →
      Valid us → (∀ k, HasId us k ↔ k < (windowList c w offset).length) →
      (∀ k win, (windowList u w offset)[k]? = some win → content us k = ((win.drop (n - 1)).take (w - n)).map (fun r => (r.time - startOf win, r.val))) →
      times = (List.range (w - n + 1)).map (fun j : Nat => ((n - 1 + j : Nat) : Int) * d) →
      ∃ r, predict ic us times = .ok r ∧ Valid r ∧ IdsAscending r ∧ (∀ k, HasId r k ↔ HasId ic k) ∧ ∀ k, HasId ic k → content r k = times.map (fun t => (t, f k t))) :
    ∃ r, windowControl predict d n w offset c (some u) = .ok r ∧ Valid r ∧ (∀ k, HasId r k ↔ k < (windowList c w offset).length) ∧
      ∀ k win, (windowList c w offset)[k]? = some win → content r k = (win.drop (n - 1)).map (fun x => (x.time, f k (x.time - startOf win))) := by
  have hd : 0 < w := by omega
  have hwin : ∀ (k : Nat) (win : List (Row Int V)), (windowList c w offset)[k]? = some win → win.length = w ∧ Regular (win.map (·.time)) d := by
    intro k win hk
    obtain ⟨i, q, hi, rfl, hl⟩ := mem_windowList (List.mem_of_getElem? hk)
    refine ⟨hl, by rw [List.length_map, hl]; omega, fun p hp => ?_⟩
    rw [List.map_take, List.map_drop] at hp
    exact (hreg i hi).2 p (consecutive_take_drop hp)
  have hwt : ∀ (k : Nat) (win : List (Row Int V)), (windowList c w offset)[k]? = some win → ∀ j (hj : j < win.length), win[j].time = startOf win + j * d := by
    intro k win hk j hj
    have h1 : (win.map (·.time)).head? = some (startOf win) := by
      unfold startOf
      rw [List.head?_map]
      cases win with
      | nil => simp at hj
      | cons a l => simp
    have := regular_getElem (hwin k win hk).2.2 h1 j (by simpa using hj)
    simpa using this
  -- the windows of the control input
  have hune : u ≠ [] := by
    obtain ⟨i, hi⟩ := exists_hasId hc
    obtain ⟨r, hr, -⟩ := (huid i).2 hi
    exact List.ne_nil_of_mem hr
  have hureg : ∀ i, HasId u i → Regular (timesOf u i) d := fun i hi => by rw [hut i ((huid i).1 hi)]; exact hreg i ((huid i).1 hi)
  have hulen : ∀ i, HasId u i → w ≤ (series u i).length := by
    intro i hi
    have h1 := congrArg List.length (hut i ((huid i).1 hi))
    have h2 := hlen i ((huid i).1 hi)
    simp only [timesOf, List.length_map] at h1
    omega
  have hwt' := windowList_times huid hut w offset
  have hKu : (windowList u w offset).length = (windowList c w offset).length := by simpa using congrArg List.length hwt'
  have hpair : ∀ (k : Nat) (winu : List (Row Int P)), (windowList u w offset)[k]? = some winu → ∃ win, (windowList c w offset)[k]? = some win ∧ winu.map (·.time) = win.map (·.time) := by
    intro k winu hk
    have h1 : ((windowList u w offset).map (List.map (·.time)))[k]? = some (winu.map (·.time)) := by rw [List.getElem?_map, hk]; rfl
    rw [hwt', List.getElem?_map, Option.map_eq_some_iff] at h1
    obtain ⟨win, h2, h3⟩ := h1
    exact ⟨win, h2, h3.symm⟩
  have hstart : ∀ {winu : List (Row Int P)} {win : List (Row Int V)}, winu.map (·.time) = win.map (·.time) → startOf winu = startOf win := by
    intro winu win h
    have := congrArg List.head? h
    rw [List.head?_map, List.head?_map] at this
    unfold startOf
    rw [this]
  have hfs : firstStart c w offset = 0 := by
    obtain ⟨i, hi⟩ : ∃ i, (ids c).head? = some i := by
      have := ids_ne_nil hc
      cases h : ids c with
      | nil => exact absurd h this
      | cons a l => exact ⟨a, rfl⟩
    obtain ⟨l, hl⟩ : ∃ l, ids c = i :: l := by
      cases h : ids c with
      | nil => rw [h] at hi; simp at hi
      | cons a l => rw [h] at hi; simp at hi; exact ⟨l, by rw [hi]⟩
    have hii : HasId c i := mem_ids.1 (by rw [hl]; simp)
    have h0 := hzero i hi
    unfold firstStart startOf windowList
    rw [hl, List.flatMap_cons, windowsOf_eq _ _ _ (by omega) (hlen i hii), List.range_succ_eq_map]
    simp only [List.map_cons, List.cons_append, List.headD_cons]
    rw [timesOf] at h0
    have hh : ((series c i).take w).head? = (series c i).head? := by
      cases hs : series c i with
      | nil => simp
      | cons a t => obtain ⟨m, rfl⟩ : ∃ m, w = m + 1 := ⟨w - 1, by omega⟩; simp
    rw [Nat.zero_mul, List.drop_zero, hh, ← List.head?_map, h0]
    rfl
  have hfsu : firstStart u w offset = 0 := by
    rw [← hfs]
    unfold firstStart
    apply hstart
    have := congrArg (fun l => l.headD []) hwt'
    simp only [List.headD_eq_head?_getD, List.head?_map] at this
    cases hcu : (windowList u w offset).head? <;> cases hcc : (windowList c w offset).head? <;> rw [hcu, hcc] at this <;> simpa [List.headD_eq_head?_getD, hcu, hcc] using this
  obtain ⟨u', hu', hune', huv', huid', hucont⟩ := controlWindows_ok hn hw ho hune huv hureg hulen
  rw [hKu] at huid'
  obtain ⟨r, hr, hrv, hrid, hrc⟩ := windowCore_ok (recon := fun e => match controlWindows d n w offset u with
    | .error e => .error e
    | .ok u' => (reconstructControl predict n e u').1) hn hw ho hc hv hreg hlen (fun k j => f k (((n - 1 + j : Nat) : Int) * d)) (by
      intro e' hne hev hea heid hec
      have hget : ∀ k, HasId e' k → ∃ win : List (Row Int V), (windowList c w offset)[k]? = some win := fun k hk => ⟨_, List.getElem?_eq_getElem ((heid k).1 hk)⟩
      have htimes : ∀ k, HasId e' k → timesOf e' k = (List.range w).map (fun j : Nat => (j : Int) * d) := by
        intro k hk
        obtain ⟨win, hwk⟩ := hget k hk
        have h1 := congrArg (List.map (·.1)) (hec k win hwk)
        rw [show (content e' k).map (·.1) = timesOf e' k by simp [content, timesOf, Function.comp_def], hfs] at h1
        rw [h1, List.map_fst_zip (by simp [(hwin k win hwk).1])]
        simp
      have hereg : ∀ k, HasId e' k → Regular (timesOf e' k) d := by
        intro k hk
        obtain ⟨win, hwk⟩ := hget k hk
        have h1 : timesOf e' k = (win.map (·.time)).map (· - startOf win) := by
          rw [htimes k hk]
          apply List.ext_getElem
          · simp [(hwin k win hwk).1]
          · intro j h1 h2
            have := hwt k win hwk j (by simpa using h2)
            simp [this]
        refine ⟨by rw [htimes k hk]; simp; omega, fun p hp => ?_⟩
        rw [h1, consecutive_map] at hp
        obtain ⟨q, hq, rfl⟩ := List.mem_map.1 hp
        have := (hwin k win hwk).2.2 q hq
        simp only [Prod.map_fst, Prod.map_snd]
        omega
      have helen : ∀ k, HasId e' k → (series e' k).length = w := by
        intro k hk
        have := congrArg List.length (htimes k hk)
        simpa [timesOf] using this
      have hezero : ∀ k, HasId e' k → firstTime e' k = 0 := by
        intro k hk
        have h1 := firstTime_head hk
        rw [htimes k hk] at h1
        obtain ⟨m, rfl⟩ : ∃ m, w = m + 1 := ⟨w - 1, by omega⟩
        rw [List.range_succ_eq_map] at h1
        simp at h1
        exact h1.symm
      have hfit : ControlFits e' u' n := by
        refine ⟨huv', fun k => (huid' k).trans (heid k).symm, fun k hk => ?_⟩
        have hkK := (heid k).1 hk
        obtain ⟨winu, hwu⟩ : ∃ winu : List (Row Int P), (windowList u w offset)[k]? = some winu := ⟨_, List.getElem?_eq_getElem (by omega)⟩
        have hlu : winu.length = w := by
          obtain ⟨win, h1, h2⟩ := hpair k winu hwu
          have := congrArg List.length h2
          simpa [(hwin k win h1).1] using this
        have h1 := congrArg (List.map (·.1)) (hucont k winu hwu)
        rw [show (content u' k).map (·.1) = timesOf u' k by simp [content, timesOf, Function.comp_def], hfsu, List.map_fst_zip (by simp [hlu]; omega)] at h1
        rw [h1, htimes k hk]
        apply List.ext_getElem
        · simp; omega
        · intro j h3 h4
          simp
      obtain ⟨r, hr, hrv, hra, hrid, hrc⟩ := C151_reconstruct_partial (predict := predict) hn hne hev hea hereg (fun k hk => by rw [helen k hk]; omega)
        (fun i j hi hj => by rw [helen i hi, helen j hj]) hezero hfit f (by
          intro ic times hicv hica hicid hic
          refine hp ic u' times hicv hica (fun k => (hicid k).trans (heid k)) ?_ huv' huid' ?_ ?_
          · intro k win hk
            have hk' : HasId e' k := (heid k).2 (List.getElem?_eq_some_iff.1 hk).1
            rw [(hic k hk').1, hec k win hk, hfs]
            have hl := (hwin k win hk).1
            apply List.ext_getElem
            · simp [hl]
            · intro j h1 h2
              have hj : j < win.length := by simp at h2; omega
              have := hwt k win hk j hj
              simp [this]
          · intro k winu hk
            obtain ⟨win, h1, h2⟩ := hpair k winu hk
            have hlu : winu.length = w := by
              have := congrArg List.length h2
              simpa [(hwin k win h1).1] using this
            rw [hucont k winu hk, hfsu]
            apply List.ext_getElem
            · simp [hlu]
            · intro j h3 h4
              have hj : n - 1 + j < winu.length := by simp at h4; omega
              have hj' : n - 1 + j < win.length := by rw [(hwin k win h1).1]; omega
              have h5 := hwt k win h1 (n - 1 + j) hj'
              have h6 : (winu[n - 1 + j]).time = win[n - 1 + j].time := by
                have := congrArg (fun l => l[n - 1 + j]?) h2
                simpa [hj, hj'] using this
              have h7 : winu[n - 1 + j].time - startOf winu = ((n - 1 + j : Nat) : Int) * d := by
                rw [h6, h5, hstart h2]; omega
              simp only [List.getElem_zip, List.getElem_map, List.getElem_range, List.getElem_take, List.getElem_drop]
              rw [h7]
              simp
          · obtain ⟨k, hk⟩ := exists_hasId hne
            rw [(hic k hk).2, htimes k hk]
            apply List.ext_getElem
            · simp; omega
            · intro j h3 h4
              simp)
      refine ⟨r, ?_, hrv, hra, fun k => (hrid k).trans (heid k), ?_⟩
      · rw [hu']
        simp only
        rw [hr]
      · intro k hk
        have hk' := (heid k).2 hk
        rw [hrc k hk', htimes k hk', hfs]
        apply List.ext_getElem
        · simp; omega
        · intro j h3 h4
          simp)
  refine ⟨r, hr, hrv, hrid, fun k win hk => ?_⟩
  rw [hrc k win hk]
  have hl := (hwin k win hk).1
  apply List.ext_getElem
  · simp [hl]; omega
  · intro j h1 h2
    have hj : n - 1 + j < win.length := by simp at h2; omega
    have := hwt k win hk (n - 1 + j) hj
    simp [this]

/-- A controlled model for the example: the state plus the first control value. -/
def addFirst (ic : List (Row Int Int)) (u : List (Row Int Int)) (times : List Int) : Except WinErr (List (Row Int Int)) :=
  .ok ((ids ic).flatMap (fun i => times.map (fun t => ⟨i, t, ((series ic i).map (·.val)).getLastD 0 + ((series u i).map (·.val)).headD 0⟩)))

example : windowControl addFirst 5 1 3 2 [⟨4, 0, 1⟩, ⟨4, 5, 2⟩, ⟨4, 10, 3⟩, ⟨4, 15, 4⟩, ⟨4, 20, 5⟩, ⟨7, 30, 6⟩, ⟨7, 35, 7⟩, ⟨7, 40, 8⟩]
    (some [⟨4, 0, 10⟩, ⟨4, 5, 20⟩, ⟨4, 10, 30⟩, ⟨4, 15, 40⟩, ⟨4, 20, 50⟩, ⟨7, 30, 60⟩, ⟨7, 35, 70⟩, ⟨7, 40, 80⟩]) =
    .ok [⟨0, 0, 11⟩, ⟨0, 5, 11⟩, ⟨0, 10, 11⟩, ⟨1, 10, 33⟩, ⟨1, 15, 33⟩, ⟨1, 20, 33⟩, ⟨2, 30, 66⟩, ⟨2, 35, 66⟩, ⟨2, 40, 66⟩] := by decide +kernel

/-- **C151 fails** for windows if the first series does not start at time zero: no window is predicted (`validate_control` compares shifted with unshifted time values). -/
theorem C151_windows_start_violated {predict : List (Row Int V) → List (Row Int P) → List Int → Except WinErr (List (Row Int W))} {n w : Nat} {offset : Int} (hn : 1 ≤ n) (hw : n < w) (ho : 0 < offset)
    {c : List (Row Int V)} {u : List (Row Int P)} (hc : c ≠ []) (hv : Valid c) {d : Int} (hreg : ∀ i, HasId c i → Regular (timesOf c i) d)
    (hlen : ∀ i, HasId c i → w ≤ (series c i).length) (huv : Valid u) (huid : ∀ i, HasId u i ↔ HasId c i) (hut : ∀ i, HasId c i → timesOf u i = timesOf c i)
    (hstart : ∀ i, (ids c).head? = some i → (timesOf c i).head? ≠ some 0) :
    ∃ e, windowControl predict d n w offset c (some u) = .error e := by
  have hd : 0 < w := by omega
  have hwin : ∀ (k : Nat) (win : List (Row Int V)), (windowList c w offset)[k]? = some win → win.length = w ∧ Regular (win.map (·.time)) d := by
    intro k win hk
    obtain ⟨i, q, hi, rfl, hl⟩ := mem_windowList (List.mem_of_getElem? hk)
    refine ⟨hl, by rw [List.length_map, hl]; omega, fun p hp => ?_⟩
    rw [List.map_take, List.map_drop] at hp
    exact (hreg i hi).2 p (consecutive_take_drop hp)
  have hwt : ∀ (k : Nat) (win : List (Row Int V)), (windowList c w offset)[k]? = some win → ∀ j (hj : j < win.length), win[j].time = startOf win + j * d := by
    intro k win hk j hj
    have h1 : (win.map (·.time)).head? = some (startOf win) := by
      unfold startOf
      rw [List.head?_map]
      cases win with
      | nil => simp at hj
      | cons a l => simp
    have := regular_getElem (hwin k win hk).2.2 h1 j (by simpa using hj)
    simpa using this
  -- the windows of the control input
  have hune : u ≠ [] := by
    obtain ⟨i, hi⟩ := exists_hasId hc
    obtain ⟨r, hr, -⟩ := (huid i).2 hi
    exact List.ne_nil_of_mem hr
  have hureg : ∀ i, HasId u i → Regular (timesOf u i) d := fun i hi => by rw [hut i ((huid i).1 hi)]; exact hreg i ((huid i).1 hi)
  have hulen : ∀ i, HasId u i → w ≤ (series u i).length := by
    intro i hi
    have h1 := congrArg List.length (hut i ((huid i).1 hi))
    have h2 := hlen i ((huid i).1 hi)
    simp only [timesOf, List.length_map] at h1
    omega
  have hwt' := windowList_times huid hut w offset
  have hKu : (windowList u w offset).length = (windowList c w offset).length := by simpa using congrArg List.length hwt'
  have hpair : ∀ (k : Nat) (winu : List (Row Int P)), (windowList u w offset)[k]? = some winu → ∃ win, (windowList c w offset)[k]? = some win ∧ winu.map (·.time) = win.map (·.time) := by
    intro k winu hk
    have h1 : ((windowList u w offset).map (List.map (·.time)))[k]? = some (winu.map (·.time)) := by rw [List.getElem?_map, hk]; rfl
    rw [hwt', List.getElem?_map, Option.map_eq_some_iff] at h1
    obtain ⟨win, h2, h3⟩ := h1
    exact ⟨win, h2, h3.symm⟩
  have hstart' : ∀ {winu : List (Row Int P)} {win : List (Row Int V)}, winu.map (·.time) = win.map (·.time) → startOf winu = startOf win := by
    intro winu win h
    have := congrArg List.head? h
    rw [List.head?_map, List.head?_map] at this
    unfold startOf
    rw [this]
  have hfs : firstStart c w offset ≠ 0 := by
    obtain ⟨i, hi⟩ : ∃ i, (ids c).head? = some i := by
      have := ids_ne_nil hc
      cases h : ids c with
      | nil => exact absurd h this
      | cons a l => exact ⟨a, rfl⟩
    obtain ⟨l, hl⟩ : ∃ l, ids c = i :: l := by
      cases h : ids c with
      | nil => rw [h] at hi; simp at hi
      | cons a l => rw [h] at hi; simp at hi; exact ⟨l, by rw [hi]⟩
    have hii : HasId c i := mem_ids.1 (by rw [hl]; simp)
    have h0 := hstart i hi
    unfold firstStart startOf windowList
    rw [hl, List.flatMap_cons, windowsOf_eq _ _ _ (by omega) (hlen i hii), List.range_succ_eq_map]
    simp only [List.map_cons, List.cons_append, List.headD_cons]
    rw [timesOf] at h0
    have hh : ((series c i).take w).head? = (series c i).head? := by
      cases hs : series c i with
      | nil => simp
      | cons a t => obtain ⟨m, rfl⟩ : ∃ m, w = m + 1 := ⟨w - 1, by omega⟩; simp
    rw [Nat.zero_mul, List.drop_zero, hh, ← List.head?_map]
    cases hs : ((series c i).map (·.time)).head? with
    | none =>
      rw [List.head?_eq_none_iff, List.map_eq_nil_iff] at hs
      exact absurd hs (hasId_iff_series.1 hii)
    | some t =>
      rw [hs] at h0
      simpa using h0
  have hfsu : firstStart u w offset = firstStart c w offset := by
    unfold firstStart
    apply hstart'
    have := congrArg (fun l => l.headD []) hwt'
    simp only [List.headD_eq_head?_getD, List.head?_map] at this
    cases hcu : (windowList u w offset).head? <;> cases hcc : (windowList c w offset).head? <;> rw [hcu, hcc] at this <;> simpa [List.headD_eq_head?_getD, hcu, hcc] using this
  obtain ⟨u', hu', hune', huv', huid', hucont⟩ := controlWindows_ok hn hw ho hune huv hureg hulen
  rw [hKu] at huid'
  apply windowCore_error hn hw ho hc hv hreg hlen
  intro e' hne hev hea heid hec
  have hget : ∀ k, HasId e' k → ∃ win : List (Row Int V), (windowList c w offset)[k]? = some win := fun k hk => ⟨_, List.getElem?_eq_getElem ((heid k).1 hk)⟩
  have htimes : ∀ k, HasId e' k → timesOf e' k = (List.range w).map (fun j : Nat => firstStart c w offset + (j : Int) * d) := by
    intro k hk
    obtain ⟨win, hwk⟩ := hget k hk
    have h1 := congrArg (List.map (·.1)) (hec k win hwk)
    rw [show (content e' k).map (·.1) = timesOf e' k by simp [content, timesOf, Function.comp_def]] at h1
    rw [h1, List.map_fst_zip (by simp [(hwin k win hwk).1])]
  have hereg : ∀ k, HasId e' k → Regular (timesOf e' k) d := by
    intro k hk
    obtain ⟨win, hwk⟩ := hget k hk
    have h1 : timesOf e' k = (win.map (·.time)).map (· - startOf win + firstStart c w offset) := by
      rw [htimes k hk]
      apply List.ext_getElem
      · simp [(hwin k win hwk).1]
      · intro j h1 h2
        have := hwt k win hwk j (by simpa using h2)
        simp [this, add_comm]
    refine ⟨by rw [htimes k hk]; simp; omega, fun p hp => ?_⟩
    rw [h1, consecutive_map] at hp
    obtain ⟨q, hq, rfl⟩ := List.mem_map.1 hp
    have := (hwin k win hwk).2.2 q hq
    simp only [Prod.map_fst, Prod.map_snd]
    omega
  have helen : ∀ k, HasId e' k → (series e' k).length = w := by
    intro k hk
    have := congrArg List.length (htimes k hk)
    simpa [timesOf] using this
  have hfit : ControlFits e' u' n := by
    refine ⟨huv', fun k => (huid' k).trans (heid k).symm, fun k hk => ?_⟩
    have hkK := (heid k).1 hk
    obtain ⟨winu, hwu⟩ : ∃ winu : List (Row Int P), (windowList u w offset)[k]? = some winu := ⟨_, List.getElem?_eq_getElem (by omega)⟩
    have hlu : winu.length = w := by
      obtain ⟨win, h1, h2⟩ := hpair k winu hwu
      have := congrArg List.length h2
      simpa [(hwin k win h1).1] using this
    have h1 := congrArg (List.map (·.1)) (hucont k winu hwu)
    rw [show (content u' k).map (·.1) = timesOf u' k by simp [content, timesOf, Function.comp_def], hfsu, List.map_fst_zip (by simp [hlu]; omega)] at h1
    rw [h1, htimes k hk]
    apply List.ext_getElem
    · simp; omega
    · intro j h3 h4
      simp
  have hK0 : HasId e' 0 := by
    obtain ⟨k, hk⟩ := exists_hasId hne
    have := (heid k).1 hk
    exact (heid 0).2 (by omega)
  have hez : firstTime e' 0 ≠ 0 := by
    have h1 := firstTime_head hK0
    rw [htimes 0 hK0] at h1
    obtain ⟨m, rfl⟩ : ∃ m, w = m + 1 := ⟨w - 1, by omega⟩
    rw [List.range_succ_eq_map] at h1
    simp at h1
    rw [← h1]; exact hfs
  obtain ⟨x, hx⟩ := C151_start_violated predict hn hne hev hea hereg (fun k hk => by rw [helen k hk]; omega) hfit hK0 hez
  refine ⟨x, ?_⟩
  rw [hu']
  exact hx

example : windowControl addFirst 5 1 3 2 [⟨4, 5, 1⟩, ⟨4, 10, 2⟩, ⟨4, 15, 3⟩] (some [⟨4, 5, 10⟩, ⟨4, 10, 20⟩, ⟨4, 15, 30⟩]) = .error .controlStart := by decide +kernel

/-- **C150 (rejections).** Whatever the model, windows without samples behind the initial condition, a collection without a common sampling interval and a series that is shorter than a window are rejected. -/
theorem C150_rejects {c : List (Row Int V)} (hc : c ≠ []) (hv : Valid c) (hm : ModerateSteps c) (predict : List (Row Int V) → List Int → Except WinErr (List (Row Int W))) {n w : Nat} (offset : Int)
    (h : w ≤ n ∨ (¬ ∃ d, ∀ i, HasId c i → Regular (timesOf c i) d) ∨ ∃ i, HasId c i ∧ (series c i).length < w) :
    ∃ e, windowReconstruct predict n w offset c = .error e := by
  unfold windowReconstruct windowCore
  by_cases h1 : w ≤ n
  · rw [if_pos h1]; exact ⟨_, rfl⟩
  · rw [if_neg h1]
    cases hd : isConstDeltaTime .int c with
    | false => exact ⟨.deltaTime, by simp⟩
    | true =>
      have h2 := (isConstDelta_iff hc hv hm).1 hd
      obtain ⟨i, hi, hl⟩ := (h.resolve_left h1).resolve_left (not_not.2 h2)
      have h3 : checkMinTimesteps c w = false := by
        rw [← Bool.not_eq_true, checkMinTimesteps_iff hc]
        intro h4
        have := h4 i hi
        omega
      exact ⟨.steps, by simp [h3]⟩

example : windowReconstruct restModel' 3 3 2 [⟨4, 10, 1⟩, ⟨4, 15, 2⟩, ⟨4, 20, 3⟩, ⟨4, 25, 4⟩] = .error .windowSize ∧
    windowReconstruct restModel' 1 3 2 [⟨4, 10, 1⟩, ⟨4, 15, 2⟩, ⟨4, 21, 3⟩, ⟨4, 25, 4⟩] = .error .deltaTime ∧
    windowReconstruct restModel' 1 3 2 [⟨4, 10, 1⟩, ⟨4, 15, 2⟩, ⟨4, 20, 3⟩, ⟨5, 25, 4⟩, ⟨5, 30, 4⟩] = .error .steps := by decide +kernel

end Verif.Edmd
