import Verif.Tsc.ConstDeltaProps
/-!
# C256: which samples `assign_ids_const_delta` with `drop_samples=True` keeps
-/

namespace Verif.Tsc

open Verif.Np

variable {V : Type}

/-! ## Helper lemmas -/

theorem count_two {l : List Nat} {p q : Nat} (hpq : p < q) (hq : q < l.length) (h : l[p]'(hpq.trans hq) = l[q]) : 2 ≤ l.count l[q] := by
  have e : l = l.take q ++ l.drop q := by simp
  have h1 : 1 ≤ (l.take q).count l[q] := by
    rw [Nat.one_le_iff_ne_zero, ← Nat.pos_iff_ne_zero, List.count_pos_iff, ← h, List.mem_iff_getElem]
    exact ⟨p, by rw [List.length_take]; omega, by simp⟩
  have h2 : 1 ≤ (l.drop q).count l[q] := by
    rw [Nat.one_le_iff_ne_zero, ← Nat.pos_iff_ne_zero, List.count_pos_iff, List.mem_iff_getElem]
    exact ⟨0, by rw [List.length_drop]; omega, by simp⟩
  have := congrArg (List.count l[q]) e
  rw [List.count_append] at this
  omega

/-- Of three equally spaced samples, every one has a neighbour in the same piece. -/
theorem triple_start {t : List Int} {j : Nat} (hj : j + 2 < t.length) (h : t[j + 1] - t[j] = t[j + 2] - t[j + 1]) :
    startAt t (j + 1) = false ∧ (startAt t (j + 2) = false ∨ (j + 3 < t.length ∧ startAt t (j + 3) = false)) := by
  have hsd : sdAt t (j + 1) = false := by
    unfold sdAt
    have a0 : t.getD j 0 = t[j] := by simp [List.getD, (by omega : j < t.length)]
    have a1 : t.getD (j + 1) 0 = t[j + 1] := by simp [List.getD, (by omega : j + 1 < t.length)]
    have a2 : t.getD (j + 1 + 1) 0 = t[j + 2] := by simp [List.getD, hj]
    simp only [Nat.add_sub_cancel, a0, a1, a2, h]
    simp
  refine ⟨by unfold startAt; simp [hsd], ?_⟩
  rcases Nat.lt_or_ge (j + 3) t.length with h3 | h3
  · by_cases hs2 : startAt t (j + 2) = true
    · right
      refine ⟨h3, ?_⟩
      unfold startAt at hs2 ⊢
      simp only [show j + 2 - 1 = j + 1 by omega, show j + 3 - 1 = j + 2 by omega, hsd] at *
      cases h4 : sdAt t (j + 2) <;> cases h5 : sdAt t (j + 3) <;> cases h6 : sdAt t (j + 3 + 1) <;> simp_all
    · left; simpa using hs2
  · left
    have := start_last t
    rwa [show t.length - 1 = j + 2 by omega] at this

theorem splitRows_id_eq {minId : Nat} {s : List (Row Int V)} {p : Nat} (hp : p + 1 < ((splitRows minId s).map (·.id)).length) (h : startAt (s.map (·.time)) (p + 1) = false) :
    ((splitRows minId s).map (·.id))[p] = ((splitRows minId s).map (·.id))[p + 1] := by
  have hp' : p + 1 < (splitRows minId s).length := by simpa using hp
  rw [List.getElem_map, List.getElem_map, splitRows_getElem, splitRows_getElem]
  simp only [cnt, h]
  simp

theorem splitOne_triple (k : TimeKind) (minId : Nat) {s : List (Row Int V)} {i j : Nat} (hs : s.Pairwise (fun a b => a.time < b.time)) (hi : ∀ r ∈ s, r.id = i)
    (hj : j + 2 < s.length) (h : s[j + 1].time - s[j].time = s[j + 2].time - s[j + 1].time) :
    ∃ d, splitOne k true minId s = .ok (some d) ∧ ∀ p (hp : p < s.length), j ≤ p → p ≤ j + 2 → (s[p].time, s[p].val) ∈ d.map (fun r => (r.time, r.val)) := by
  have hne : s ≠ [] := by rintro rfl; simp at hj
  unfold splitOne
  rw [deltaTime_single k hne hs hi]
  match hrd : rowDelta (npDiff (s.map (·.time))) with
  | some d0 =>
    rw [hrd]
    refine ⟨_, rfl, fun p hp _ _ => ?_⟩
    rw [List.map_map, List.mem_map]
    exact ⟨s[p], List.getElem_mem hp, rfl⟩
  | none =>
    rw [hrd]
    simp only
    unfold splitIrregular
    rw [if_neg (by omega), if_neg (by omega)]
    simp only [if_true]
    rw [(split_cond (i := i) hne).1, (split_cond (i := i) hne).2]
    have hlen := splitRows_length minId s
    set R := splitRows minId s with hR
    have hcount : ∀ p (hp : p < R.length), j ≤ p → p ≤ j + 2 → (!((R.map (·.id)).count R[p].id == 1)) = true := by
      intro p hp h1 h2
      obtain ⟨hs1, hs2⟩ := triple_start (t := s.map (·.time)) (j := j) (by simpa using hj) (by simpa using h)
      have hl : (R.map (·.id)).length = s.length := by simp [hlen]
      have e1 : (R.map (·.id))[j] = (R.map (·.id))[j + 1] := splitRows_id_eq (by rw [← hR]; omega) hs1
      have key : 2 ≤ (R.map (·.id)).count ((R.map (·.id))[p]'(by omega)) := by
        rcases (by omega : p = j ∨ p = j + 1 ∨ p = j + 2) with rfl | rfl | rfl
        · rw [e1]; exact count_two (Nat.lt_succ_self _) (by omega) e1
        · exact count_two (Nat.lt_succ_self _) (by omega) e1
        · rcases hs2 with hs2 | ⟨h3, hs2⟩
          · exact count_two (Nat.lt_succ_self _) (by omega) (splitRows_id_eq (by rw [← hR]; omega) hs2)
          · rw [List.length_map] at h3
            have e3 : (R.map (·.id))[j + 2] = (R.map (·.id))[j + 3] := splitRows_id_eq (by rw [← hR]; omega) hs2
            rw [e3]
            exact count_two (Nat.lt_succ_self _) (by omega) e3
      rw [List.getElem_map] at key
      simp only [Bool.not_eq_true', beq_eq_false_iff_ne]
      omega
    have hkept3 : 3 ≤ (R.filter (fun r => !((R.map (·.id)).count r.id == 1))).length := by
      have hsub : [R[j], R[j + 1], R[j + 2]].Sublist R := by
        have e2 : R.drop j = R[j] :: R[j + 1] :: R[j + 2] :: R.drop (j + 3) := by
          rw [List.drop_eq_getElem_cons (by omega), List.drop_eq_getElem_cons (i := j + 1) (by omega), List.drop_eq_getElem_cons (i := j + 1 + 1) (by omega)]
        refine List.Sublist.trans ?_ (List.drop_sublist j R)
        rw [e2]
        exact ((List.nil_sublist _).cons_cons _).cons_cons _ |>.cons_cons _
      have := (hsub.filter (fun r => !((R.map (·.id)).count r.id == 1))).length_le
      rw [List.filter_eq_self.2 (fun x hx => ?_)] at this
      · exact this
      · simp only [List.mem_cons, List.not_mem_nil, or_false] at hx
        rcases hx with rfl | rfl | rfl
        · exact hcount j _ le_rfl (by omega)
        · exact hcount (j + 1) _ (by omega) (by omega)
        · exact hcount (j + 2) _ (by omega) le_rfl
    rw [if_neg (by omega), build_ok_of_valid ((splitRows_valid hs minId).sublist List.filter_sublist) (by intro e; rw [e] at hkept3; simp at hkept3)]
    refine ⟨_, rfl, fun p hp h1 h2 => ?_⟩
    rw [List.mem_map]
    refine ⟨R[p], List.mem_filter.2 ⟨List.getElem_mem _, hcount p (by omega) h1 h2⟩, ?_⟩
    simp only [hR, splitRows_getElem]

theorem loop_keeps (k : TimeKind) {x : Int × V} {s : List (Row Int V)} (hx : ∀ m, ∃ d, splitOne k true m s = .ok (some d) ∧ x ∈ d.map (fun r => (r.time, r.val))) :
    ∀ (l : List (List (Row Int V))) (m : Nat) r, s ∈ l → constDeltaLoop k true m l = .ok r → x ∈ r.flatten.map (fun r => (r.time, r.val)) := by
  intro l
  induction l with
  | nil => intro m r hs; simp at hs
  | cons g l ih =>
    intro m r hs hr
    rw [constDeltaLoop] at hr
    rcases List.mem_cons.1 hs with rfl | hs
    · obtain ⟨d, hd, hxd⟩ := hx m
      rw [hd] at hr
      simp only at hr
      split at hr
      · simp at hr
      · rw [← Except.ok.inj hr]
        rw [List.flatten_cons, List.map_append]
        exact List.mem_append_left _ hxd
    · split at hr
      · simp at hr
      · exact ih _ _ hs hr
      · split at hr
        · simp at hr
        · rename_i hl
          rw [← Except.ok.inj hr, List.flatten_cons, List.map_append]
          exact List.mem_append_right _ (ih _ _ hs hl)

/-! ## Property theorems -/

/-- **C256.** Three consecutive equally spaced samples of a series are never dropped. -/
theorem C256_kept (k : TimeKind) {c : List (Row Int V)} (hv : Valid c) {i j : Nat} {a b e : Int × V} (ha : (content c i)[j]? = some a) (hb : (content c i)[j + 1]? = some b)
    (he : (content c i)[j + 2]? = some e) (heq : b.1 - a.1 = e.1 - b.1) :
    ∃ r, assignIdsConstDelta k true c = .ok (some r) ∧ ∀ x ∈ [a, b, e], ∃ n, x ∈ content r n := by
  obtain ⟨hj, he'⟩ := List.getElem?_eq_some_iff.1 he
  obtain ⟨hj1, hb'⟩ := List.getElem?_eq_some_iff.1 hb
  obtain ⟨hj0, ha'⟩ := List.getElem?_eq_some_iff.1 ha
  have hlen : (content c i).length = (series c i).length := by simp [content]
  have hhas : HasId c i := by
    rw [hasId_iff_series]
    intro h0
    rw [hlen, h0] at hj
    simp at hj
  have hget : ∀ p (hp : p < (content c i).length), (content c i)[p] = ((series c i)[p]'(hlen ▸ hp) |>.time, (series c i)[p]'(hlen ▸ hp) |>.val) := fun p hp => by simp [content]
  have hspace : ((series c i)[j + 1]'(hlen ▸ hj1)).time - ((series c i)[j]'(hlen ▸ hj0)).time = ((series c i)[j + 2]'(hlen ▸ hj)).time - ((series c i)[j + 1]'(hlen ▸ hj1)).time := by
    rw [← ha', ← hb', ← he', hget, hget, hget] at heq
    exact heq
  have hsplit : ∀ x ∈ [a, b, e], ∀ m, ∃ d, splitOne k true m (series c i) = .ok (some d) ∧ x ∈ d.map (fun r => (r.time, r.val)) := by
    intro x hx m
    obtain ⟨d, hd, hmem⟩ := splitOne_triple k m (hv.series_sorted i) (fun r hr => series_id hr) (j := j) (hlen ▸ hj) hspace
    refine ⟨d, hd, ?_⟩
    simp only [List.mem_cons, List.not_mem_nil, or_false] at hx
    rcases hx with rfl | rfl | rfl
    · rw [← ha', hget]; exact hmem j _ le_rfl (by omega)
    · rw [← hb', hget]; exact hmem (j + 1) _ (by omega) (by omega)
    · rw [← he', hget]; exact hmem (j + 2) _ (by omega) le_rfl
  have hgr : ∀ g ∈ (ids c).map (fun i => c.filter (fun r => r.id == i)), g ≠ [] ∧ g.Pairwise (fun a b => a.time < b.time) ∧ ∃ i, ∀ r ∈ g, r.id = i := by
    intro g hg
    obtain ⟨i, hi, rfl⟩ := List.mem_map.1 hg
    exact ⟨series_ne_nil.2 (mem_ids'.1 hi), hv.series_sorted i, i, fun r hr => series_id hr⟩
  obtain ⟨hgood, htot⟩ := loop_good k true _ 0 hgr
  obtain ⟨l, hl⟩ := htot rfl
  have hmem : ∀ x ∈ [a, b, e], x ∈ l.flatten.map (fun r => (r.time, r.val)) := fun x hx =>
    loop_keeps k (hsplit x hx) _ 0 l (List.mem_map.2 ⟨i, mem_ids.2 hhas, rfl⟩) hl
  unfold assignIdsConstDelta
  rw [hl]
  match l, hl, hmem with
  | [], _, hmem => exact absurd (hmem a (by simp)) (by simp)
  | d0 :: ds, hl, hmem =>
    obtain ⟨hG, hne⟩ := hgood _ hl
    simp only
    have hRv : Valid (d0 :: ds).flatten := valid_of_asc hG.asc hG.before
    rw [build_ok_of_valid hRv (hne (by simp))]
    obtain ⟨d, hd, -, -, -, hdt, -⟩ := C08_assign_ids_sequential (hne (by simp)) hRv
    simp only
    rw [hd]
    refine ⟨d, rfl, fun x hx => ?_⟩
    have := hmem x hx
    rw [← hdt, List.mem_map] at this
    obtain ⟨r, hr, rfl⟩ := this
    exact ⟨r.id, List.mem_map.2 ⟨r, List.mem_filter.2 ⟨hr, by simp⟩, rfl⟩⟩

/-- non-vacuity: three samples per second, a pause, and a single sample later. -/
example : (assignIdsConstDelta (V := Nat) .int true [⟨0, 0, 5⟩, ⟨0, 1, 6⟩, ⟨0, 2, 7⟩, ⟨0, 9, 8⟩, ⟨0, 20, 9⟩, ⟨0, 21, 9⟩]).toOption = some (some [⟨0, 0, 5⟩, ⟨0, 1, 6⟩, ⟨0, 2, 7⟩, ⟨1, 20, 9⟩, ⟨1, 21, 9⟩]) := by
  decide +kernel

/-- **C256 (three samples).** A series of three samples with different intervals is dropped as a whole, although its last two samples are a series with one interval. -/
theorem C256_three (k : TimeKind) (i : Nat) (t0 t1 t2 : Int) (v0 v1 v2 : V) (h01 : t0 < t1) (h12 : t1 < t2) (h : t1 - t0 ≠ t2 - t1) :
    assignIdsConstDelta k true [⟨i, t0, v0⟩, ⟨i, t1, v1⟩, ⟨i, t2, v2⟩] = .ok none := by
  set c : List (Row Int V) := [⟨i, t0, v0⟩, ⟨i, t1, v1⟩, ⟨i, t2, v2⟩] with hc
  have hids : ids c = [i] := by
    apply eq_of_pairwise_lt (ids_sorted c) (by simp)
    intro x
    rw [mem_ids, List.mem_singleton]
    constructor
    · rintro ⟨r, hr, rfl⟩; simp [hc] at hr; rcases hr with rfl | rfl | rfl <;> rfl
    · rintro rfl; exact ⟨_, by rw [hc]; exact List.mem_cons_self, rfl⟩
  have hf : c.filter (fun r => r.id == i) = c := by simp [hc]
  have hd : deltaTime k c = .one none := by
    rw [deltaTime_single k (i := i) (by simp [hc]) (by simp [hc, h01, h12, h01.trans h12]) (by simp [hc])]
    have h' : ¬ (t2 - t1 = t1 - t0) := fun e => h e.symm
    simp [hc, npDiff, rowDelta, h']
  have hs : splitOne k true 0 c = .ok none := by
    unfold splitOne
    rw [hd]
    simp [hc, splitIrregular, splitIndicator, secondDiffNonzero, firstDiff, npDiff, cumsumBool, h]
  unfold assignIdsConstDelta
  rw [hids, List.map_singleton, hf, constDeltaLoop, hs]
  rfl

/-- The same samples with a further sample at the end are kept but for the first one. -/
example : (assignIdsConstDelta (V := Nat) .int true [⟨0, 0, 5⟩, ⟨0, 5, 6⟩, ⟨0, 6, 7⟩]).toOption = some none ∧
    (assignIdsConstDelta (V := Nat) .int true [⟨0, 0, 5⟩, ⟨0, 5, 6⟩, ⟨0, 6, 7⟩, ⟨0, 7, 8⟩]).toOption = some (some [⟨0, 5, 6⟩, ⟨0, 6, 7⟩, ⟨0, 7, 8⟩]) := by
  decide +kernel

end Verif.Tsc
