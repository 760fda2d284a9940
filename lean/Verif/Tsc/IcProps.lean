import Verif.Tsc.FramesProps
/-! # Properties of initial conditions (C127) -/

namespace Verif.Tsc

open Verif.Np

variable {V : Type}

/-- `c` has the format of an initial condition: finite values, all series sampled at the same time values, with a constant interval if there are several. -/
structure IcFormat (fin : V → Bool) (c : List (Row Int V)) : Prop where
  finite : ∀ r ∈ c, fin r.val = true
  sameTimes : ∀ i j, HasId c i → HasId c j → timesOf c i = timesOf c j
  regular : ∀ i, HasId c i → 1 < (series c i).length → ∃ d, Regular (timesOf c i) d

theorem any_timesteps {c : List (Row Int V)} (hc : c ≠ []) :
    (nTimesteps c).values.any (fun m => decide (1 < m)) = true ↔ ∃ i, HasId c i ∧ 1 < (series c i).length := by
  rw [List.any_eq_true]
  match h : nTimesteps c with
  | .one k =>
    have hk := (nTimesteps_one hc k).1 h
    obtain ⟨i0, t, hi⟩ := List.ne_nil_iff_exists_cons.1 (ids_ne_nil hc)
    have hi0 : i0 ∈ ids c := by rw [hi]; simp
    simp only [PerId.values, List.mem_singleton, exists_eq_left, decide_eq_true_eq]
    constructor
    · intro h1
      exact ⟨i0, mem_ids.1 hi0, by rw [hk i0 hi0]; exact h1⟩
    · rintro ⟨i, h1, h2⟩
      rwa [hk i (mem_ids.2 h1)] at h2
  | .per l =>
    have hl := nTimesteps_per h
    simp only [PerId.values, hl, List.map_map, List.mem_map, Function.comp_apply, decide_eq_true_eq]
    constructor
    · rintro ⟨m, ⟨i, hi, rfl⟩, h1⟩
      exact ⟨i, mem_ids.1 hi, h1⟩
    · rintro ⟨i, h1, h2⟩
      exact ⟨_, ⟨i, mem_ids.2 h1, rfl⟩, h2⟩

theorem checkTsc_ok (k : TimeKind) (fin : V → Bool) (nCols : Nat) (q : TscReq) (c c' : List (Row Int V)) (h : checkTsc k fin nCols q c = .ok c') : c' = c := by
  unfold checkTsc at h
  split at h <;> simp_all

/-- **C127 (validate).** For a collection with integer time values, `validate` accepts iff the collection has the format of an initial condition, each initial condition has the required number of
samples, and the required sampling interval; a sampling interval can only be required for a number of samples that is given and not one. -/
theorem C127_validate {c : List (Row Int V)} (hc : c ≠ []) (hv : Valid c) (hm : ModerateSteps c) (fin : V → Bool) {nCols : Nat} (hcol : 1 ≤ nCols) (n dt : Option Int)
    (hd : ∀ d, dt = some d → d.natAbs < 10 ^ 12 - 1) :
    icValidate .int fin nCols n dt c = .ok () ↔ IcFormat fin c ∧ (∀ m, n = some m → ∀ i, HasId c i → ((series c i).length : Int) = m) ∧
      ∀ d, dt = some d → n ≠ none ∧ n ≠ some 1 ∧ ∀ i, HasId c i → Regular (timesOf c i) d := by
  have hiff := fun c' => C62_check_tsc_partial hc hv hm fin nCols (icReq n dt c) hd c'
  have hlen : 1 ≤ c.length := List.length_pos_iff.2 hc
  have hmeets : Meets fin nCols (icReq n dt c) c ↔ IcFormat fin c ∧ (∀ m, n = some m → ∀ i, HasId c i → ((series c i).length : Int) = m) ∧
      ∀ d, dt = some d → ∀ i, HasId c i → Regular (timesOf c i) d := by
    constructor
    · intro h
      refine ⟨⟨h.finite rfl, h.sameTimes rfl, ?_⟩, h.nTimesteps, h.delta⟩
      intro i hi h1
      obtain ⟨d, hd⟩ := h.constDelta ((any_timesteps hc).2 ⟨i, hi, h1⟩)
      exact ⟨d, hd i hi⟩
    · rintro ⟨h1, h2, h3⟩
      constructor
      · exact fun _ => h1.finite
      · simpa [icReq] using hlen
      · simpa [icReq] using hcol
      · intro _ i j hi hj
        have := congrArg List.length (h1.sameTimes i j hi hj)
        simpa [timesOf] using this
      · intro h
        obtain ⟨i, hi, hl⟩ := (any_timesteps hc).1 h
        obtain ⟨d, hd⟩ := h1.regular i hi hl
        exact ⟨d, fun j hj => by rw [h1.sameTimes j i hj hi]; exact hd⟩
      · exact h3
      · exact fun _ => h1.sameTimes
      · simp [icReq]
      · simp [icReq]
      · exact h2
      · simp [icReq]
      · simp [icReq]
      · simp [icReq]
  unfold icValidate
  by_cases e1 : n = none ∧ dt ≠ none
  · rw [if_pos e1]
    obtain ⟨d, hd'⟩ := Option.ne_none_iff_exists'.1 e1.2
    exact ⟨fun h => by simp at h, fun h => absurd e1.1 (h.2.2 d hd').1⟩
  · rw [if_neg e1]
    by_cases e2 : n = some 1 ∧ dt ≠ none
    · rw [if_pos e2]
      obtain ⟨d, hd'⟩ := Option.ne_none_iff_exists'.1 e2.2
      exact ⟨fun h => by simp at h, fun h => absurd e2.1 (h.2.2 d hd').2.1⟩
    · rw [if_neg e2]
      have hok : (∃ c', checkTsc .int fin nCols (icReq n dt c) c = .ok c') ↔ Meets fin nCols (icReq n dt c) c := by
        constructor
        · rintro ⟨c', h⟩
          exact ((hiff c').1 h).2
        · intro h
          exact ⟨c, (hiff c).2 ⟨rfl, h⟩⟩
      have hside : ∀ d, dt = some d → n ≠ none ∧ n ≠ some 1 := by
        rintro d rfl
        simp only [ne_eq, reduceCtorEq, not_false_eq_true, and_true] at e1 e2
        exact ⟨e1, e2⟩
      have : (∀ d, dt = some d → n ≠ none ∧ n ≠ some 1 ∧ ∀ i, HasId c i → Regular (timesOf c i) d) ↔ ∀ d, dt = some d → ∀ i, HasId c i → Regular (timesOf c i) d :=
        ⟨fun h d hd => (h d hd).2.2, fun h d hd => ⟨(hside d hd).1, (hside d hd).2, h d hd⟩⟩
      rw [this, ← hmeets, ← hok]
      cases checkTsc .int fin nCols (icReq n dt c) c <;> simp

theorem consecutive_take {α : Type} (l : List α) (n : Nat) : ∀ p ∈ consecutive (l.take n), p ∈ consecutive l := by
  induction l generalizing n with
  | nil => simp [consecutive]
  | cons a l ih =>
    cases n with
    | zero => simp [consecutive]
    | succ n =>
      cases l with
      | nil => simp [consecutive]
      | cons b l =>
        cases n with
        | zero => simp [consecutive]
        | succ n =>
          intro p hp
          have hp' : p ∈ (a, b) :: consecutive ((b :: l).take (n + 1)) := by simpa [consecutive] using hp
          rcases List.mem_cons.1 hp' with rfl | h
          · simp [consecutive]
          · exact List.mem_cons_of_mem _ (ih (n + 1) p h)

theorem moderate_take {c d : List (Row Int V)} (hm : ModerateSteps c) {n : Nat} (h : ∀ i, series d i = (series c i).take n) : ModerateSteps d := by
  intro i p hp
  refine hm i p ?_
  unfold timesOf at hp
  rw [h, List.map_take] at hp
  exact consecutive_take _ _ p hp

theorem regular_moderate {c : List (Row Int V)} (hm : ModerateSteps c) (hv : Valid c) {i : Nat} {d : Int} (h : Regular (timesOf c i) d) : d.natAbs < 10 ^ 12 - 1 := by
  have hp := regular_pos hv h
  obtain ⟨h1, h2⟩ := h
  match ht : timesOf c i with
  | [] => rw [ht] at h1; simp at h1
  | [a] => rw [ht] at h1; simp at h1
  | a :: b :: l =>
    have e1 := h2 (a, b) (by rw [ht]; simp [consecutive])
    have e2 := hm i (a, b) (by rw [ht]; simp [consecutive])
    simp only at e1 e2
    omega

/-- **C127 (from_tsc).** For integer time values, `from_tsc` with `n` samples succeeds iff all series have at least `n ≥ 1` samples, the first `n` time values agree in all series, the first `n` samples are
finite, and (if `n > 1`) the whole collection is sampled with one constant interval. The result consists of the first `n` samples of every series, under their IDs. -/
theorem C127_from_tsc {X : List (Row Int V)} (hX : X ≠ []) (hv : Valid X) (hm : ModerateSteps X) (fin : V → Bool) {nCols : Nat} (hcol : 1 ≤ nCols) (n : Int) :
    ((∃ c, icFromTsc .int fin nCols X n = .ok c) ↔ 1 ≤ n ∧ (∀ i, HasId X i → n ≤ (series X i).length) ∧
      (∀ i j, HasId X i → HasId X j → (timesOf X i).take n.toNat = (timesOf X j).take n.toNat) ∧
      (∀ i, HasId X i → ∀ r ∈ (series X i).take n.toNat, fin r.val = true) ∧ (1 < n → ∃ d, ∀ i, HasId X i → Regular (timesOf X i) d)) ∧
    (∀ c, icFromTsc .int fin nCols X n = .ok c → Valid c ∧ (∀ i, HasId c i ↔ HasId X i) ∧ ∀ i, series c i = (series X i).take n.toNat) := by
  by_cases h0 : 1 ≤ n ∧ ∀ i, HasId X i → n ≤ (series X i).length
  swap
  · obtain ⟨e, he⟩ := (C06_initial hX hv n).2 h0
    unfold icFromTsc
    rw [he]
    refine ⟨⟨fun ⟨c, hc⟩ => by simp at hc, fun h => absurd ⟨h.1, h.2.1⟩ h0⟩, fun c hc => by simp at hc⟩
  obtain ⟨c, h1, hvc, hids, hser⟩ := (C06_initial hX hv n).1 h0
  obtain ⟨hn1, hnl⟩ := h0
  have htim : ∀ i, timesOf c i = (timesOf X i).take n.toNat := fun i => by
    unfold timesOf
    rw [hser, List.map_take]
  have hmc := moderate_take hm hser
  have hcne : c ≠ [] := by
    rintro rfl
    obtain ⟨i, t, hi⟩ := List.ne_nil_iff_exists_cons.1 (ids_ne_nil hX)
    have : HasId X i := mem_ids.1 (by rw [hi]; simp)
    obtain ⟨r, hr, -⟩ := (hids i).2 this
    simp at hr
  have hlenc : ∀ i, HasId c i → ((series c i).length : Int) = n := by
    intro i hi
    rw [hser, List.length_take]
    have := hnl i ((hids i).1 hi)
    omega
  have hfin : (∀ r ∈ c, fin r.val = true) ↔ ∀ i, HasId X i → ∀ r ∈ (series X i).take n.toNat, fin r.val = true := by
    constructor
    · intro h i _ r hr
      rw [← hser] at hr
      exact h r (mem_series.1 hr).1
    · intro h r hr
      have hi : HasId c r.id := ⟨r, hr, rfl⟩
      refine h r.id ((hids _).1 hi) r ?_
      rw [← hser]
      exact mem_series.2 ⟨hr, rfl⟩
  have hsame : (∀ i j, HasId c i → HasId c j → timesOf c i = timesOf c j) ↔
      ∀ i j, HasId X i → HasId X j → (timesOf X i).take n.toNat = (timesOf X j).take n.toNat := by
    constructor
    · intro h i j hi hj
      rw [← htim, ← htim]
      exact h i j ((hids i).2 hi) ((hids j).2 hj)
    · intro h i j hi hj
      rw [htim, htim]
      exact h i j ((hids i).1 hi) ((hids j).1 hj)
  unfold icFromTsc
  rw [h1]
  by_cases hn : 1 < n
  · -- several samples
    rw [← hfin, ← hsame]
    simp only [hn, if_true, forall_true_left]
    have hreg : ∀ d, (∀ i, HasId X i → Regular (timesOf X i) d) → ∀ i, HasId c i → Regular (timesOf c i) d := by
      intro d h i hi
      obtain ⟨e1, e2⟩ := h i ((hids i).1 hi)
      refine ⟨?_, fun p hp => e2 p ?_⟩
      · have := hlenc i hi
        unfold timesOf
        rw [List.length_map]
        omega
      · rw [htim] at hp
        exact consecutive_take _ _ p hp
    by_cases hex : ∃ d, ∀ i, HasId X i → Regular (timesOf X i) d
    · obtain ⟨d, hd⟩ := hex
      rw [C11_regular hX hv .int hd]
      obtain ⟨i0, t, hi0⟩ := List.ne_nil_iff_exists_cons.1 (ids_ne_nil hX)
      have hi0 : HasId X i0 := mem_ids.1 (by rw [hi0]; simp)
      have hval := C127_validate hcne hvc hmc fin hcol (some n) (some d) (by
        intro d' hd'
        cases hd'
        exact regular_moderate hm hv (hd i0 hi0))
      have hiff : icValidate .int fin nCols (some n) (some d) c = .ok () ↔ (∀ i j, HasId c i → HasId c j → timesOf c i = timesOf c j) ∧ (∀ r ∈ c, fin r.val = true) := by
        rw [hval]
        constructor
        · intro h
          exact ⟨h.1.sameTimes, h.1.finite⟩
        · intro h
          refine ⟨⟨h.2, h.1, fun i hi _ => ⟨d, hreg d hd i hi⟩⟩, ?_, ?_⟩
          · rintro m hm' i hi
            cases hm'
            exact hlenc i hi
          · rintro d' hd'
            cases hd'
            exact ⟨by simp, by simp; omega, hreg d hd⟩
      simp only
      cases hic : icValidate .int fin nCols (some n) (some d) c with
      | ok u =>
        have := hiff.1 hic
        refine ⟨⟨fun _ => ⟨hn1, hnl, this.1, this.2, d, hd⟩, fun _ => ⟨c, rfl⟩⟩, ?_⟩
        intro c' hc'
        cases hc'
        exact ⟨hvc, hids, hser⟩
      | error e =>
        refine ⟨⟨fun ⟨c', hc'⟩ => by simp at hc', fun h => ?_⟩, fun c' hc' => by simp at hc'⟩
        have := hiff.2 ⟨h.2.2.1, h.2.2.2.1⟩
        rw [hic] at this
        simp at this
    · have hdelta : ∀ d, deltaTime .int X ≠ .one (some d) := fun d hd => hex ⟨d, (C11_int_partial hX hv hm d).1 hd⟩
      have : ∀ c', (match deltaTime .int X with
          | .one (some d) => match icValidate .int fin nCols (some n) (some d) c with
            | .ok _ => .ok c
            | .error e => .error e
          | _ => .error (.check .requiredDelta) : Except IcErr (List (Row Int V))) ≠ .ok c' := by
        intro c' h
        match hdt : deltaTime .int X with
        | .one (some d) => exact hdelta d hdt
        | .one none => rw [hdt] at h; simp at h
        | .per l => rw [hdt] at h; simp at h
      exact ⟨⟨fun ⟨c', hc'⟩ => absurd hc' (this c'), fun h => absurd h.2.2.2.2 hex⟩, fun c' hc' => absurd hc' (this c')⟩
  · have hn' : n = 1 := by omega
    subst hn'
    rw [← hfin, ← hsame]
    simp only [lt_irrefl, if_false, false_imp_iff, and_true]
    have hval := C127_validate hcne hvc hmc fin hcol (some 1) none (by simp)
    have hiff : icValidate .int fin nCols (some 1) none c = .ok () ↔ (∀ i j, HasId c i → HasId c j → timesOf c i = timesOf c j) ∧ (∀ r ∈ c, fin r.val = true) := by
      rw [hval]
      constructor
      · intro h
        exact ⟨h.1.sameTimes, h.1.finite⟩
      · intro h
        refine ⟨⟨h.2, h.1, fun i hi hl => ?_⟩, ?_, by simp⟩
        · have := hlenc i hi
          omega
        · rintro m hm' i hi
          cases hm'
          exact hlenc i hi
    cases hic : icValidate .int fin nCols (some 1) none c with
    | ok u =>
      have := hiff.1 hic
      refine ⟨⟨fun _ => ⟨hn1, hnl, this.1, this.2⟩, fun _ => ⟨c, rfl⟩⟩, ?_⟩
      intro c' hc'
      cases hc'
      exact ⟨hvc, hids, hser⟩
    | error e =>
      refine ⟨⟨fun ⟨c', hc'⟩ => by simp at hc', fun h => ?_⟩, fun c' hc' => by simp at hc'⟩
      have := hiff.2 ⟨h.2.2.1, h.2.2.2⟩
      rw [hic] at this
      simp at this

/-- **C127 (from_array).** For a non-empty matrix, `from_array` at an integer time value succeeds iff the time value is not negative, the IDs (if given) are distinct and one per row, and all states are finite.
The result has one single-sample series per row: the `k`-th ID (by default the number `k`) with the `k`-th state. -/
theorem C127_from_array (fin : V → Bool) {nCols : Nat} (hcol : 1 ≤ nCols) {X : List V} (hX : X ≠ []) (t : Int) (tsIds : Option (List Nat)) :
    ((∃ c, icFromArray .int fin nCols X t tsIds = .ok c) ↔ 0 ≤ t ∧ (∀ l, tsIds = some l → l.Nodup ∧ l.length = X.length) ∧ ∀ x ∈ X, fin x = true) ∧
    (∀ c, icFromArray .int fin nCols X t tsIds = .ok c → Valid c ∧ newIds (c.map (·.id)) = tsIds.getD (List.range X.length) ∧
      (newIds (c.map (·.id))).map (content c) = X.map (fun x => [(t, x)])) := by
  have hids : (∀ l, tsIds = some l → l.Nodup ∧ l.length = X.length) ↔
      (tsIds.getD (List.range X.length)).Nodup ∧ (tsIds.getD (List.range X.length)).length = X.length := by
    cases tsIds with
    | none => simp [List.nodup_range]
    | some is => simp
  rw [hids]
  unfold icFromArray
  simp only
  generalize tsIds.getD (List.range X.length) = is
  by_cases hl : is.length = X.length
  swap
  · rw [if_pos hl]
    exact ⟨⟨fun ⟨c, hc⟩ => by simp at hc, fun h => absurd h.2.1.2 hl⟩, fun c hc => by simp at hc⟩
  rw [if_neg (by simpa using hl)]
  set rows := List.zipWith (fun i x => (⟨i, t, x⟩ : Row Int V)) is X with hrows
  have hne : rows ≠ [] := by
    intro h
    have := congrArg List.length h
    rw [hrows, List.length_zipWith, hl, min_self, List.length_nil, List.length_eq_zero_iff] at this
    exact hX this
  have hid : rows.map (·.id) = is := by
    rw [hrows, List.map_zipWith]
    simp only
    exact List.ext_getElem (by simp [hl]) (fun n h1 h2 => by simp)
  have hvals : rows.map (·.val) = X := by
    rw [hrows, List.map_zipWith]
    simp only
    exact List.ext_getElem (by simp [hl]) (fun n h1 h2 => by simp)
  have htime : ∀ r ∈ rows, r.time = t := by
    intro r hr
    rw [hrows] at hr
    obtain ⟨n, hn, rfl⟩ := List.mem_iff_getElem.1 hr
    simp
  unfold buildInt
  by_cases ht : 0 ≤ t
  swap
  · rw [if_pos]
    · exact ⟨⟨fun ⟨c, hc⟩ => by simp at hc, fun h => absurd h.1 ht⟩, fun c hc => by simp at hc⟩
    · refine ⟨rfl, List.any_eq_true.2 ?_⟩
      obtain ⟨r, l, hr⟩ := List.ne_nil_iff_exists_cons.1 hne
      have hr : r ∈ rows := by rw [hr]; simp
      exact ⟨r, hr, by rw [htime r hr]; simpa using ht⟩
  rw [if_neg]
  swap
  · rintro ⟨-, h⟩
    obtain ⟨r, hr, h⟩ := List.any_eq_true.1 h
    rw [htime r hr] at h
    simp at h
    omega
  have hvalid : Valid rows ↔ is.Nodup := by
    constructor
    · intro h
      rw [← hid, List.nodup_iff_injective_get, ← List.nodup_iff_injective_get]
      rw [List.Nodup, List.pairwise_map, List.pairwise_iff_getElem]
      intro i j hi hj hij he
      have := h.increasing i j hij hj he
      rw [htime _ (List.getElem_mem _), htime _ (List.getElem_mem _)] at this
      omega
    · intro h
      refine (valid_iff _).2 ⟨?_, ?_⟩
      · rw [hid]
        exact h.sublist (newIds_sublist _)
      · rw [List.pairwise_iff_getElem]
        intro i j hi hj hij he
        rw [← hid, List.Nodup, List.pairwise_map, List.pairwise_iff_getElem] at h
        exact absurd he (h i j hi hj hij)
  by_cases hnd : is.Nodup
  swap
  · have : ∀ c, build rows ≠ .ok c := fun c hc => hnd (hvalid.1 (build_ok_iff.1 hc).2.2)
    cases hb : build rows with
    | ok c => exact absurd hb (this c)
    | error e => exact ⟨⟨fun ⟨c, hc⟩ => by simp at hc, fun h => absurd h.2.1.1 hnd⟩, fun c hc => by simp at hc⟩
  have hv := hvalid.2 hnd
  rw [build_ok_of_valid hv hne]
  simp only
  obtain ⟨g, hg1, hg2⟩ := blocks_by_id is (X.map (fun x => [(t, x)])) hnd (by simpa using hl)
  have hflat : rows = is.flatMap (fun i => rowsOf i (g i)) := by
    have e : is.flatMap (fun i => rowsOf i (g i)) = ((is.zip (X.map (fun x => [(t, x)]))).map (fun p => rowsOf p.1 p.2)).flatten := by
      rw [hg1]
      rfl
    rw [e, hrows, List.zip_map_right, List.map_map]
    clear * -
    induction is generalizing X with
    | nil => simp
    | cons i is ih =>
      cases X with
      | nil => simp
      | cons x X => simp [ih, rowsOf]
  have hgi : ∀ i ∈ is, ∃ x ∈ X, g i = [(t, x)] := by
    intro i hi
    have : g i ∈ X.map (fun x => [(t, x)]) := by rw [← hg2]; exact List.mem_map_of_mem hi
    obtain ⟨x, hx, he⟩ := List.mem_map.1 this
    exact ⟨x, hx, he.symm⟩
  have hidr : ∀ i ∈ is, ∀ r ∈ rowsOf i (g i), r.id = i := by
    intro i _ r hr
    obtain ⟨q, -, rfl⟩ := List.mem_map.1 hr
    rfl
  have hnei : ∀ i ∈ is, rowsOf i (g i) ≠ [] := fun i hi => by
    obtain ⟨x, -, h⟩ := hgi i hi
    simp [rowsOf, h]
  have hnew : newIds (rows.map (·.id)) = is := by rw [hflat]; exact newIds_flatMap hnd _ hidr hnei
  have hser : ∀ i, series rows i = if i ∈ is then rowsOf i (g i) else [] := fun i => by
    rw [hflat]; exact series_flatMap hnd _ hidr i
  have hhas : ∀ i, HasId rows i ↔ i ∈ is := by
    intro i
    rw [hasId_iff_series, hser]
    split
    · rename_i h
      simp [h, hnei i h]
    · rename_i h
      simp [h]
  have htimes : ∀ i, HasId rows i → timesOf rows i = [t] := by
    intro i hi
    have hi' := (hhas i).1 hi
    obtain ⟨x, -, h⟩ := hgi i hi'
    rw [timesOf, hser, if_pos hi', h]
    rfl
  have hmod : ModerateSteps rows := by
    intro i p hp
    by_cases hi : HasId rows i
    · rw [htimes i hi] at hp
      simp [consecutive] at hp
    · rw [hasId_iff_series, not_not] at hi
      rw [timesOf, hi] at hp
      simp [consecutive] at hp
  have hlen : ∀ i, HasId rows i → (series rows i).length = 1 := by
    intro i hi
    have := congrArg List.length (htimes i hi)
    simpa [timesOf] using this
  have hiff : icValidate .int fin nCols (some 1) none rows = .ok () ↔ ∀ x ∈ X, fin x = true := by
    rw [C127_validate hne hv hmod fin hcol (some 1) none (by simp)]
    constructor
    · intro h x hx
      rw [← hvals] at hx
      obtain ⟨r, hr, rfl⟩ := List.mem_map.1 hx
      exact h.1.finite r hr
    · intro h
      refine ⟨⟨?_, ?_, ?_⟩, ?_, by simp⟩
      · intro r hr
        exact h _ (by rw [← hvals]; exact List.mem_map_of_mem hr)
      · intro i j hi hj
        rw [htimes i hi, htimes j hj]
      · intro i hi h1
        rw [hlen i hi] at h1
        omega
      · rintro m hm i hi
        cases hm
        rw [hlen i hi]
        rfl
  cases hic : icValidate .int fin nCols (some 1) none rows with
  | ok u =>
    refine ⟨⟨fun _ => ⟨ht, ⟨hnd, hl⟩, hiff.1 hic⟩, fun _ => ⟨rows, rfl⟩⟩, ?_⟩
    intro c' hc'
    cases hc'
    refine ⟨hv, hnew, ?_⟩
    rw [hnew, ← hg2]
    apply List.map_congr_left
    intro i hi
    rw [content, hser, if_pos hi]
    simp [rowsOf, Function.comp_def]
  | error e =>
    refine ⟨⟨fun ⟨c', hc'⟩ => by simp at hc', fun h => ?_⟩, fun c' hc' => by simp at hc'⟩
    have := hiff.2 h.2.2
    rw [hic] at this
    simp at this

/-- Two initial conditions with two samples each meet the hypotheses and the format. -/
example : icFromTsc .int (fun _ => true) 1 ([⟨4, 0, 1⟩, ⟨4, 2, 2⟩, ⟨4, 4, 3⟩, ⟨1, 0, 4⟩, ⟨1, 2, 5⟩] : List (Row Int Nat)) 2 =
    .ok [⟨4, 0, 1⟩, ⟨4, 2, 2⟩, ⟨1, 0, 4⟩, ⟨1, 2, 5⟩] := by decide +kernel
example : icFromTsc .int (fun _ => true) 1 ([⟨4, 0, 1⟩, ⟨4, 2, 2⟩, ⟨4, 5, 3⟩, ⟨1, 0, 4⟩, ⟨1, 2, 5⟩] : List (Row Int Nat)) 2 =
    .error (.check .requiredDelta) := by decide +kernel
example : icFromArray .int (fun _ => true) 1 [7, 8] 3 (some [5, 2]) = .ok ([⟨5, 3, 7⟩, ⟨2, 3, 8⟩] : List (Row Int Nat)) := by decide +kernel

end Verif.Tsc
