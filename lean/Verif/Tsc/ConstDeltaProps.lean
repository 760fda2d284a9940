import Verif.Tsc.TrainTestProps
import Verif.Tsc.DeltaProps
/-!
# C17: `assign_ids_const_delta`
-/

namespace Verif.Tsc

open Verif.Np

variable {V : Type}

/-! ### The indicator of new series -/

/-- The second time difference at position `j` is non-zero. -/
def sdAt (t : List Int) (j : Nat) : Bool :=
  decide (j + 1 < t.length) && (decide (j = 0) || !(decide (t.getD j 0 - t.getD (j - 1) 0 = t.getD (j + 1) 0 - t.getD j 0)))

/-- A new series starts at position `j`. -/
def startAt (t : List Int) (j : Nat) : Bool :=
  (decide (0 < j) && (sdAt t (j - 1) && sdAt t j)) ||
    (sdAt t j && !(decide (0 < j) && (sdAt t (j - 1) && sdAt t j)) && !(sdAt t j && sdAt t (j + 1)))

theorem secondDiff_getElem? (t : List Int) (ht : t ≠ []) (j : Nat) :
    (secondDiffNonzero t)[j]? = if j < t.length then some (sdAt t j) else none := by
  have hpos : 0 < t.length := List.length_pos_of_ne_nil ht
  have hlen : (npDiff t).length = t.length - 1 := npDiff_length t
  unfold secondDiffNonzero firstDiff
  simp only [List.tail_cons]
  have hzl : (List.zipWith (fun a b => !(decide (a = b))) (none :: (npDiff t).map some) ((npDiff t).map some)).length = t.length - 1 := by
    simp [hlen]
  rcases Nat.lt_trichotomy (j + 1) t.length with h | h | h
  · rw [List.getElem?_append_left (by omega), List.getElem?_zipWith]
    have h1 : j < (npDiff t).length := by omega
    have e1 : ((npDiff t).map some)[j]? = some (some (t[j + 1] - t[j])) := by
      simp [getElem?_npDiff, h]
    rw [e1]
    by_cases h0 : j = 0
    · subst h0
      simp [sdAt, h, hpos]
    · obtain ⟨k, rfl⟩ := Nat.exists_eq_succ_of_ne_zero h0
      have e2 : (none :: (npDiff t).map some)[k + 1]? = some (some (t[k + 1] - t[k])) := by
        simp [getElem?_npDiff, (by omega : k + 1 < t.length)]
      simp only [Nat.succ_eq_add_one] at *
      rw [e2]
      have a1 : k < t.length := by omega
      have a2 : k + 1 < t.length := by omega
      have a3 : k + 1 + 1 < t.length := by omega
      simp [sdAt, List.getD_eq_getElem?_getD, a1, a2, a3]
  · rw [List.getElem?_append_right (by omega), hzl]
    have : j - (t.length - 1) = 0 := by omega
    rw [this, if_pos (by omega)]
    have : sdAt t j = false := by unfold sdAt; rw [decide_eq_false (by omega)]; rfl
    simp [this]
  · rw [List.getElem?_append_right (by omega), hzl]
    rw [if_neg (by omega), List.getElem?_eq_none_iff]
    simp only [List.length_cons, List.length_nil]; omega

theorem splitIndicator_eq (t : List Int) (ht : t ≠ []) : splitIndicator t = (List.range t.length).map (startAt t) := by
  have hpos : 0 < t.length := List.length_pos_of_ne_nil ht
  have hsd : secondDiffNonzero t = (List.range t.length).map (sdAt t) := by
    apply List.ext_getElem?
    intro j
    rw [secondDiff_getElem? t ht]
    by_cases h : j < t.length <;> simp [h]
  unfold splitIndicator
  simp only [hsd]
  obtain ⟨n, hn⟩ : ∃ n, t.length = n + 1 := ⟨t.length - 1, by omega⟩
  have hind : List.zipWith (· && ·) ((List.range t.length).map (sdAt t)) ((List.range t.length).map (sdAt t)).tail =
      (List.range n).map (fun j => sdAt t j && sdAt t (j + 1)) := by
    apply List.ext_getElem?
    intro j
    rw [List.getElem?_zipWith, hn]
    by_cases h : j < n
    · simp [h, (by omega : j < n + 1)]
    · by_cases h' : j < n + 1
      · have : ((List.range (n + 1)).map (sdAt t)).tail[j]? = none := by
          rw [List.getElem?_eq_none_iff]; simp; omega
        rw [this]; simp [h]
      · simp [h, h']
  rw [hind]
  apply List.ext_getElem?
  intro j
  simp only [List.getElem?_zipWith]
  have hlast : sdAt t n = false := by unfold sdAt; simp [hn]
  have hs1 : sdAt t (n + 1) = false := by unfold sdAt; simp [hn]
  by_cases h : j < n + 1
  · have e1 : ((List.range t.length).map (sdAt t))[j]? = some (sdAt t j) := by simp [hn, h]
    have e2 : (false :: (List.range n).map (fun j => sdAt t j && sdAt t (j + 1)))[j]? = some (decide (0 < j) && (sdAt t (j - 1) && sdAt t j)) := by
      cases j with
      | zero => simp
      | succ k => simp [(by omega : k < n)]
    have e3 : ((List.range n).map (fun j => sdAt t j && sdAt t (j + 1)) ++ [false])[j]? = some (sdAt t j && sdAt t (j + 1)) := by
      by_cases h' : j < n
      · rw [List.getElem?_append_left (by simpa using h')]; simp [h']
      · have : j = n := by omega
        subst this
        rw [List.getElem?_append_right (by simp)]
        simp [hlast]
    rw [e1, e2, e3]
    simp [hn, h, startAt]
  · simp [hn, h]

/-- A change of the sampling interval at `j` separates the neighbours of `j`. -/
theorem start_of_sd {t : List Int} {j : Nat} (h0 : 0 < j) (h : sdAt t j = true) : startAt t j = true ∨ startAt t (j + 1) = true := by
  unfold startAt
  cases h1 : sdAt t (j - 1) <;> cases h2 : sdAt t (j + 1) <;> simp [h0, h, h1, h2]

/-- The last two samples stay together. -/
theorem start_last (t : List Int) : startAt t (t.length - 1) = false := by
  have : sdAt t (t.length - 1) = false := by
    unfold sdAt
    cases t <;> simp
  unfold startAt; simp [this]

/-! ### Pieces of one series -/

/-- Rows of one series with the new IDs. -/
def splitRows (minId : Nat) (s : List (Row Int V)) : List (Row Int V) :=
  List.zipWith (fun (r : Row Int V) i => { r with id := i }) s
    ((List.range s.length).map (fun j => cnt (startAt (s.map (·.time))) (j + 1) + minId))

theorem splitRows_length (minId : Nat) (s : List (Row Int V)) : (splitRows minId s).length = s.length := by simp [splitRows]

theorem splitRows_getElem (minId : Nat) (s : List (Row Int V)) (j : Nat) (h : j < (splitRows minId s).length) :
    (splitRows minId s)[j] = { s[j]'(by rwa [splitRows_length] at h) with id := cnt (startAt (s.map (·.time))) (j + 1) + minId } := by
  simp [splitRows]

theorem splitRows_tv (minId : Nat) (s : List (Row Int V)) :
    (splitRows minId s).map (fun r => (r.time, r.val)) = s.map (fun r => (r.time, r.val)) := by
  apply List.ext_getElem
  · simp [splitRows_length]
  · intro j h1 h2
    simp [splitRows_getElem]

theorem splitRows_ids (minId : Nat) (s : List (Row Int V)) :
    (splitRows minId s).map (·.id) = (List.range s.length).map (fun j => cnt (startAt (s.map (·.time))) (j + 1) + minId) := by
  apply List.ext_getElem
  · simp [splitRows_length]
  · intro j h1 h2
    simp [splitRows_getElem]

/-- A list without second differences is regularly sampled. -/
theorem regular_of_second_diff : ∀ (l : List Int), 2 ≤ l.length →
    (∀ p (h : p + 2 < l.length), l[p + 2] - l[p + 1] = l[p + 1] - l[p]) → ∃ d, Regular l d
  | [], h, _ => by simp at h
  | [_], h, _ => by simp at h
  | [a, b], _, _ => ⟨b - a, by simp, by simp [consecutive]⟩
  | a :: b :: x :: l, _, h => by
    obtain ⟨d, h1, h2⟩ := regular_of_second_diff (b :: x :: l) (by simp) (by
      intro p hp
      exact h (p + 1) (by simp at hp ⊢; omega))
    refine ⟨d, by simp, ?_⟩
    intro q hq
    simp only [consecutive, List.mem_cons] at hq
    have e := h2 (b, x) (by simp [consecutive])
    have e0 := h 0 (by simp)
    simp at e e0
    rcases hq with rfl | hq
    · simp; omega
    · exact h2 q (by simpa [consecutive] using hq)

/-- What the pieces made from the given series (lists of rows) have to satisfy. -/
structure Good (minId : Nat) (drop : Bool) (groups : List (List (Row Int V))) (R : List (Row Int V)) : Prop where
  asc : (R.map (·.id)).Pairwise (· ≤ ·)
  ge : ∀ r ∈ R, minId ≤ r.id
  before : R.Pairwise Before
  reg : ∀ x, HasId R x → ∃ d, Regular (timesOf R x) d
  inf : ∀ x, HasId R x → ∃ g ∈ groups, content R x <:+: g.map (fun r => (r.time, r.val))
  sub : (R.map (fun r => (r.time, r.val))).Sublist (groups.flatten.map (fun r => (r.time, r.val)))
  full : drop = false → R.map (fun r => (r.time, r.val)) = groups.flatten.map (fun r => (r.time, r.val))

theorem valid_of_asc {R : List (Row Int V)} (h : (R.map (·.id)).Pairwise (· ≤ ·)) (hb : R.Pairwise Before) : Valid R := by
  rw [valid_iff]
  refine ⟨?_, hb⟩
  rw [newIds_eq_ids h]; exact ids_nodup _

section
variable {s : List (Row Int V)} (hs : s.Pairwise (fun a b => a.time < b.time)) (minId : Nat)
include hs

theorem splitRows_asc : ((splitRows minId s).map (·.id)).Pairwise (· ≤ ·) := by
  rw [splitRows_ids, List.pairwise_map]
  refine (range_pairwise _).imp ?_
  intro a b h
  have := cnt_mono (startAt (s.map (·.time))) (show a + 1 ≤ b + 1 by omega)
  omega

theorem splitRows_before : (splitRows minId s).Pairwise Before := by
  rw [List.pairwise_iff_getElem]
  intro i j hi hj hij _
  rw [splitRows_getElem, splitRows_getElem]
  rw [splitRows_length] at hi hj
  exact List.pairwise_iff_getElem.1 hs i j hi hj hij

theorem splitRows_valid : Valid (splitRows minId s) := valid_of_asc (splitRows_asc hs minId) (splitRows_before hs minId)

theorem splitRows_infix {x : Nat} (hx : HasId (splitRows minId s) x) :
    content (splitRows minId s) x <:+: s.map (fun r => (r.time, r.val)) := by
  obtain ⟨pre, post, he, _, _⟩ := (splitRows_valid hs minId).split hx
  rw [← splitRows_tv minId]
  refine ⟨pre.map (fun r => (r.time, r.val)), post.map (fun r => (r.time, r.val)), ?_⟩
  conv => rhs; rw [he]
  simp [content]

theorem splitRows_regular {x : Nat} (h2 : 2 ≤ (series (splitRows minId s) x).length) :
    ∃ d, Regular (timesOf (splitRows minId s) x) d := by
  have hx : HasId (splitRows minId s) x := by
    rw [hasId_iff_series]; intro e; rw [e] at h2; simp at h2
  obtain ⟨pre, post, he, _, _⟩ := (splitRows_valid hs minId).split hx
  apply regular_of_second_diff
  · simpa [timesOf] using h2
  intro p hp
  have hp' : p + 2 < (series (splitRows minId s) x).length := by simpa [timesOf] using hp
  simp only [timesOf, List.getElem_map]
  have hlen := congrArg List.length he
  simp only [List.length_append] at hlen
  have hget : ∀ q (hq : q < (series (splitRows minId s) x).length), ∃ h : pre.length + q < (splitRows minId s).length,
      (series (splitRows minId s) x)[q] = (splitRows minId s)[pre.length + q] := by
    intro q hq
    have h1 : pre.length + q < (splitRows minId s).length := by omega
    refine ⟨h1, ?_⟩
    have e := List.getElem?_eq_getElem h1
    have e' : (splitRows minId s)[pre.length + q]? = (pre ++ series (splitRows minId s) x ++ post)[pre.length + q]? := congrArg (·[pre.length + q]?) he
    rw [List.append_assoc, List.getElem?_append_right (by omega), List.getElem?_append_left (by omega),
      show pre.length + q - pre.length = q by omega, List.getElem?_eq_getElem hq, e] at e'
    simpa using e'.symm
  obtain ⟨a0, e0⟩ := hget p (by omega)
  obtain ⟨a1, e1⟩ := hget (p + 1) (by omega)
  obtain ⟨a2, e2⟩ := hget (p + 2) (by omega)
  have i0 : (splitRows minId s)[pre.length + p].id = x := by rw [← e0]; exact series_id (List.getElem_mem _)
  have i2 : (splitRows minId s)[pre.length + (p + 2)].id = x := by rw [← e2]; exact series_id (List.getElem_mem _)
  rw [e0, e1, e2]
  rw [splitRows_getElem] at i0 i2
  simp only at i0 i2
  have hcnt : cnt (startAt (s.map (·.time))) (pre.length + p + 1) = cnt (startAt (s.map (·.time))) (pre.length + p + 2 + 1) := by
    rw [show pre.length + (p + 2) = pre.length + p + 2 by omega] at i2; omega
  rw [cnt_eq_iff _ (by omega)] at hcnt
  have hsd : sdAt (s.map (·.time)) (pre.length + p + 1) = false := by
    by_contra hc
    have hc : sdAt (s.map (·.time)) (pre.length + p + 1) = true := by simpa using hc
    rcases start_of_sd (by omega) hc with h | h
    · rw [hcnt _ (by omega) (by omega)] at h; simp at h
    · rw [hcnt _ (by omega) (by omega)] at h; simp at h
  rw [splitRows_length] at a0 a1 a2
  unfold sdAt at hsd
  have d1 : decide (pre.length + p + 1 + 1 < s.length) = true := decide_eq_true (by omega)
  have d2 : decide (pre.length + p + 1 = 0) = false := decide_eq_false (by omega)
  simp only [List.length_map, d1, d2, Bool.true_and, Bool.false_or, Bool.not_eq_false', decide_eq_true_eq,
    Nat.add_sub_cancel, List.getD_eq_getElem?_getD, List.getElem?_map, List.getElem?_eq_getElem a0,
    List.getElem?_eq_getElem (show pre.length + p + 1 < s.length by omega),
    List.getElem?_eq_getElem (show pre.length + p + 1 + 1 < s.length by omega), Option.map_some, Option.getD_some] at hsd
  simp only [splitRows_getElem]
  have r1 : s[pre.length + (p + 1)].time = s[pre.length + p + 1].time := by congr 1
  have r2 : s[pre.length + (p + 2)].time = s[pre.length + p + 1 + 1].time := by congr 1
  rw [r1, r2]
  exact hsd.symm

end

theorem deltaTime_single (k : TimeKind) {s : List (Row Int V)} (hne : s ≠ []) (hs : s.Pairwise (fun a b => a.time < b.time)) {i : Nat}
    (hi : ∀ r ∈ s, r.id = i) : deltaTime k s = .one (rowDelta (npDiff (s.map (·.time)))) := by
  have hids : ids s = [i] := by
    apply eq_of_pairwise_lt (ids_sorted s) (by simp)
    intro a
    rw [mem_ids, List.mem_singleton]
    constructor
    · rintro ⟨r, hr, rfl⟩; exact hi r hr
    · rintro rfl
      obtain ⟨r, t, rfl⟩ := List.ne_nil_iff_exists_cons.1 hne
      exact ⟨r, by simp, hi r (by simp)⟩
  have hser : series s i = s := by
    rw [series, List.filter_eq_self]; intro r hr; simp [hi r hr]
  have hv : Valid s := valid_of_asc (by
    rw [List.pairwise_map]
    exact hs.imp_of_mem (fun ha hb _ => by rw [hi _ ha, hi _ hb])) (hs.imp (by intro a b h _; exact h))
  obtain ⟨order, hperm, -, hd⟩ := dts_eq hne hv
  rw [hids] at hperm
  have : order = [i] := List.perm_singleton.1 hperm
  subst this
  unfold deltaTime
  rw [if_pos (Or.inl (by rw [nTimeseries, hids]; rfl)), hd]
  simp [timesOf, hser]

theorem good_regular (k : TimeKind) (minId : Nat) (drop : Bool) {s : List (Row Int V)} {d : Int}
    (hs : s.Pairwise (fun a b => a.time < b.time)) (hr : Regular (s.map (·.time)) d) :
    Good minId drop [s] (s.map (fun r => { r with id := minId })) := by
  have hser : ∀ x, HasId (s.map (fun r => ({ r with id := minId } : Row Int V))) x →
      x = minId ∧ series (s.map (fun r => ({ r with id := minId } : Row Int V))) x = s.map (fun r => { r with id := minId }) := by
    rintro x ⟨r, hr, rfl⟩
    obtain ⟨r', _, rfl⟩ := List.mem_map.1 hr
    refine ⟨rfl, ?_⟩
    rw [series, List.filter_eq_self]
    intro q hq
    obtain ⟨q', _, rfl⟩ := List.mem_map.1 hq
    simp
  refine ⟨?_, ?_, ?_, ?_, ?_, ?_, ?_⟩
  · simp [Function.comp_def]
  · intro r hr; obtain ⟨r', _, rfl⟩ := List.mem_map.1 hr; simp
  · rw [List.pairwise_map]; exact hs.imp (by intro a b h _; exact h)
  · intro x hx
    refine ⟨d, ?_⟩
    rw [timesOf, (hser x hx).2]
    simpa [Function.comp_def] using hr
  · intro x hx
    refine ⟨s, by simp, ?_⟩
    rw [content, (hser x hx).2]
    simp [Function.comp_def]
  · simp [Function.comp_def]
  · intro _; simp [Function.comp_def]

theorem series_filter_count (R : List (Row Int V)) (x : Nat) :
    series (R.filter (fun r => !((R.map (·.id)).count r.id == 1))) x = if (series R x).length = 1 then [] else series R x := by
  have h : ∀ y, (R.map (·.id)).count y = (series R y).length := count_eq_length_series R
  rw [series, List.filter_filter]
  split
  · rename_i hx
    rw [List.filter_eq_nil_iff]
    intro r _
    simp only [Bool.and_eq_true, beq_iff_eq, Bool.not_eq_true', not_and]
    rintro rfl
    rw [h, hx]; simp
  · rename_i hx
    rw [series]
    apply List.filter_congr
    intro r _
    by_cases e : r.id = x
    · subst e; rw [h]; simp [hx]
    · simp [e]

theorem split_cond {s : List (Row Int V)} {i : Nat} {minId : Nat} (hne : s ≠ []) :
    List.zipWith (fun (r : Row Int V) i => ({ r with id := i } : Row Int V)) s
      ((cumsumBool 0 (splitIndicator (s.map (·.time)))).map (· + minId)) = splitRows minId s ∧
    (cumsumBool 0 (splitIndicator (s.map (·.time)))).map (· + minId) = (splitRows minId s).map (·.id) := by
  have e : (cumsumBool 0 (splitIndicator (s.map (·.time)))).map (· + minId) =
      (List.range s.length).map (fun j => cnt (startAt (s.map (·.time))) (j + 1) + minId) := by
    rw [splitIndicator_eq _ (by simpa using hne)]
    have := cumsumBool_eq (startAt (s.map (·.time))) 0 s.length 0
    rw [← List.range_eq_range', show cnt (startAt (s.map (·.time))) 0 = 0 from rfl] at this
    simp only [Nat.zero_add] at this
    rw [List.length_map, this]
    simp [Function.comp_def]
  rw [e]
  exact ⟨rfl, (splitRows_ids minId s).symm⟩

/-- The last piece has at least two samples. -/
theorem splitRows_last {minId : Nat} {s : List (Row Int V)} (h2 : 2 ≤ s.length) :
    ∃ x, 2 ≤ (series (splitRows minId s) x).length := by
  obtain ⟨n, hn⟩ : ∃ n, s.length = n + 2 := ⟨s.length - 2, by omega⟩
  have hlen := splitRows_length minId s
  have h1 : n < (splitRows minId s).length := by omega
  have h1' : n + 1 < (splitRows minId s).length := by omega
  refine ⟨(splitRows minId s)[n].id, ?_⟩
  have hl := start_last (s.map (·.time))
  rw [List.length_map, hn] at hl
  have hid : (splitRows minId s)[n + 1].id = (splitRows minId s)[n].id := by
    rw [splitRows_getElem, splitRows_getElem]
    simp only [cnt]
    simp at hl
    simp [hl]
  have hsub : [(splitRows minId s)[n], (splitRows minId s)[n + 1]].Sublist (splitRows minId s) := by
    have e : splitRows minId s = (splitRows minId s).take n ++ (splitRows minId s).drop n := by simp
    have e2 : (splitRows minId s).drop n = [(splitRows minId s)[n], (splitRows minId s)[n + 1]] := by
      rw [List.drop_eq_getElem_cons h1, List.drop_eq_getElem_cons h1']
      congr 2
      rw [List.drop_eq_nil_iff]; omega
    conv => rhs; rw [e, e2]
    exact List.sublist_append_right _ _
  have := hsub.filter (fun r => r.id == (splitRows minId s)[n].id)
  simp only [List.filter_cons, beq_self_eq_true, if_true, hid, List.filter_nil] at this
  exact this.length_le

theorem splitOne_good (k : TimeKind) (drop : Bool) (minId : Nat) {s : List (Row Int V)} {i : Nat} (hne : s ≠ [])
    (hs : s.Pairwise (fun a b => a.time < b.time)) (hi : ∀ r ∈ s, r.id = i) :
    (∀ d, splitOne k drop minId s = .ok (some d) → d ≠ [] ∧ Good minId drop [s] d) ∧
    (splitOne k drop minId s = .ok none → drop = true) ∧
    (drop = true → ∃ o, splitOne k drop minId s = .ok o) := by
  have hso1 : ∀ d0, rowDelta (npDiff (s.map (·.time))) = some d0 → splitOne k drop minId s = .ok (some (s.map (fun r => { r with id := minId }))) := by
    intro d0 h0
    unfold splitOne
    rw [deltaTime_single k hne hs hi, h0]
  have hso2 : rowDelta (npDiff (s.map (·.time))) = none → splitOne k drop minId s = splitIrregular drop minId s := by
    intro h0
    unfold splitOne
    rw [deltaTime_single k hne hs hi, h0]
  match hrd : rowDelta (npDiff (s.map (·.time))) with
  | some d0 =>
    rw [hso1 d0 hrd]
    have hreg := (rowDelta_iff _ _).1 hrd
    refine ⟨?_, by simp, by simp⟩
    intro d hd
    simp only [Except.ok.injEq, Option.some.injEq] at hd
    subst hd
    exact ⟨by simpa using hne, good_regular k minId drop hs hreg⟩
  | none =>
    rw [hso2 hrd]
    unfold splitIrregular
    by_cases h1 : s.length = 1
    · simp only [h1, if_true]
      cases drop <;> simp
    by_cases h2 : s.length = 2
    · -- two samples are regular
      exfalso
      obtain ⟨a, b, rfl⟩ := List.length_eq_two.1 h2
      simp [npDiff, rowDelta] at hrd
    simp only [h1, h2, if_false]
    rw [(split_cond (i := i) hne).1, (split_cond (i := i) hne).2]
    have hpos : 0 < s.length := List.length_pos_of_ne_nil hne
    have hcount : ∀ x, HasId (splitRows minId s) x → ((splitRows minId s).map (·.id)).count x ≠ 1 → 2 ≤ (series (splitRows minId s) x).length := by
      intro x hx hc
      rw [count_eq_length_series] at hc
      have := List.length_pos_of_ne_nil (hasId_iff_series.1 hx)
      omega
    have hge : ∀ r ∈ splitRows minId s, minId ≤ r.id := by
      intro r hr
      have : r.id ∈ (splitRows minId s).map (·.id) := List.mem_map_of_mem hr
      rw [splitRows_ids] at this
      obtain ⟨j, _, hj⟩ := List.mem_map.1 this
      omega
    cases drop with
    | true =>
      simp only [if_true]
      set kept := (splitRows minId s).filter (fun r => !(((splitRows minId s).map (·.id)).count r.id == 1)) with hkept
      have hksub : kept.Sublist (splitRows minId s) := List.filter_sublist
      have hkv : Valid kept := (splitRows_valid hs minId).sublist hksub
      have hkne : kept ≠ [] := by
        obtain ⟨x, hx⟩ := splitRows_last (minId := minId) (s := s) (by omega)
        intro e
        have := series_filter_count (splitRows minId s) x
        rw [← hkept, e, if_neg (by omega)] at this
        rw [← this] at hx; simp [series] at hx
      have hkser : ∀ x, HasId kept x → series kept x = series (splitRows minId s) x ∧ HasId (splitRows minId s) x ∧
          2 ≤ (series (splitRows minId s) x).length := by
        intro x hx
        have e := series_filter_count (splitRows minId s) x
        rw [← hkept] at e
        have hne' := hasId_iff_series.1 hx
        split at e
        · rw [e] at hne'; simp at hne'
        · rename_i hl
          have hx' : HasId (splitRows minId s) x := by rw [hasId_iff_series, ← e]; exact hne'
          refine ⟨e, hx', ?_⟩
          have := List.length_pos_of_ne_nil (hasId_iff_series.1 hx')
          omega
      rw [build_ok_of_valid hkv hkne]
      refine ⟨?_, ?_, ?_⟩
      · intro d hd
        split at hd
        · simp at hd
        · simp only [Except.ok.injEq, Option.some.injEq] at hd
          subst hd
          refine ⟨hkne, ?_, ?_, ?_, ?_, ?_, ?_, ?_⟩
          · exact (splitRows_asc hs minId).sublist (hksub.map _)
          · exact fun r hr => hge r (hksub.subset hr)
          · exact (splitRows_before hs minId).sublist hksub
          · intro x hx
            obtain ⟨e, _, h2⟩ := hkser x hx
            obtain ⟨d, hd⟩ := splitRows_regular hs minId h2
            exact ⟨d, by rw [timesOf, e]; exact hd⟩
          · intro x hx
            obtain ⟨e, hx', _⟩ := hkser x hx
            refine ⟨s, by simp, ?_⟩
            rw [content, e]
            exact splitRows_infix hs minId hx'
          · have := hksub.map (fun r => (r.time, r.val))
            rw [splitRows_tv] at this
            simpa using this
          · simp
      · simp
      · intro _
        split <;> simp
    | false =>
      simp only [Bool.false_eq_true, if_false, false_implies, and_true]
      by_cases hany : ((splitRows minId s).map (·.id)).any (fun i => ((splitRows minId s).map (·.id)).count i == 1) = true
      · simp [hany]
      · simp only [hany, Bool.false_eq_true, if_false]
        have hsne : splitRows minId s ≠ [] := by
          intro e; have := congrArg List.length e; rw [splitRows_length] at this; simp at this; exact hne this
        rw [build_ok_of_valid (splitRows_valid hs minId) hsne]
        refine ⟨?_, by simp⟩
        intro d hd
        simp only [Except.ok.injEq, Option.some.injEq] at hd
        subst hd
        have h2 : ∀ x, HasId (splitRows minId s) x → 2 ≤ (series (splitRows minId s) x).length := by
          intro x hx
          apply hcount x hx
          intro hc
          apply hany
          rw [List.any_eq_true]
          obtain ⟨r, hr, rfl⟩ := hx
          exact ⟨r.id, List.mem_map_of_mem hr, by simpa using hc⟩
        refine ⟨hsne, splitRows_asc hs minId, hge, splitRows_before hs minId, ?_, ?_, ?_, ?_⟩
        · intro x hx; exact splitRows_regular hs minId (h2 x hx)
        · intro x hx; exact ⟨s, by simp, splitRows_infix hs minId hx⟩
        · rw [splitRows_tv]; simp
        · intro _; rw [splitRows_tv]; simp

theorem good_append {m m' : Nat} {drop : Bool} {g : List (Row Int V)} {l : List (List (Row Int V))} {d R : List (Row Int V)}
    (hd : Good m drop [g] d) (hR : Good m' drop l R) (hm : m ≤ m') (hlt : ∀ r ∈ d, r.id < m') : Good m drop (g :: l) (d ++ R) := by
  have hser : ∀ x, (HasId d x ∧ series (d ++ R) x = series d x) ∨ (¬ HasId d x ∧ series (d ++ R) x = series R x) := by
    intro x
    by_cases hx : HasId d x
    · left
      refine ⟨hx, ?_⟩
      rw [series_append]
      have : series R x = [] := by
        by_contra hc
        obtain ⟨r, hr, rfl⟩ := hasId_iff_series.2 hc
        obtain ⟨q, hq, he⟩ := hx
        have := hlt q hq; have := hR.ge r hr; omega
      simp [this]
    · right
      refine ⟨hx, ?_⟩
      rw [series_append]
      have : series d x = [] := by by_contra hc; exact hx (hasId_iff_series.2 hc)
      simp [this]
  have hid : ∀ x, HasId (d ++ R) x → HasId d x ∨ HasId R x := by
    rintro x ⟨r, hr, rfl⟩
    rcases List.mem_append.1 hr with h | h
    · exact Or.inl ⟨r, h, rfl⟩
    · exact Or.inr ⟨r, h, rfl⟩
  have hlt' : ∀ a ∈ d, ∀ b ∈ R, a.id < b.id := fun a ha b hb => lt_of_lt_of_le (hlt a ha) (hR.ge b hb)
  refine ⟨?_, ?_, ?_, ?_, ?_, ?_, ?_⟩
  · rw [List.map_append, List.pairwise_append]
    refine ⟨hd.asc, hR.asc, ?_⟩
    intro a ha b hb
    obtain ⟨a, ha', rfl⟩ := List.mem_map.1 ha
    obtain ⟨b, hb', rfl⟩ := List.mem_map.1 hb
    exact le_of_lt (hlt' a ha' b hb')
  · intro r hr
    rcases List.mem_append.1 hr with h | h
    · exact hd.ge r h
    · exact le_trans hm (hR.ge r h)
  · rw [List.pairwise_append]
    refine ⟨hd.before, hR.before, ?_⟩
    intro a ha b hb e
    have := hlt' a ha b hb; omega
  · intro x hx
    rcases hser x with ⟨h1, h2⟩ | ⟨h1, h2⟩
    · obtain ⟨e, he⟩ := hd.reg x h1
      exact ⟨e, by rw [timesOf, h2]; exact he⟩
    · obtain ⟨e, he⟩ := hR.reg x ((hid x hx).resolve_left h1)
      exact ⟨e, by rw [timesOf, h2]; exact he⟩
  · intro x hx
    rcases hser x with ⟨h1, h2⟩ | ⟨h1, h2⟩
    · obtain ⟨g', hg, he⟩ := hd.inf x h1
      simp only [List.mem_singleton] at hg
      exact ⟨g', by simp [hg], by rw [content, h2]; exact he⟩
    · obtain ⟨g', hg, he⟩ := hR.inf x ((hid x hx).resolve_left h1)
      exact ⟨g', by simp [hg], by rw [content, h2]; exact he⟩
  · have h1 := hd.sub
    have h2 := hR.sub
    simp only [List.flatten_cons, List.flatten_nil, List.append_nil, List.map_append] at h1 ⊢
    exact h1.append h2
  · intro hf
    have h1 := hd.full hf
    have h2 := hR.full hf
    simp only [List.flatten_cons, List.flatten_nil, List.append_nil, List.map_append] at h1 ⊢
    rw [h1, h2]

theorem good_nil_cons {m : Nat} {g : List (Row Int V)} {l : List (List (Row Int V))} {R : List (Row Int V)}
    (hR : Good m true l R) : Good m true (g :: l) R := by
  refine ⟨hR.asc, hR.ge, hR.before, hR.reg, ?_, ?_, by simp⟩
  · intro x hx
    obtain ⟨g', hg, he⟩ := hR.inf x hx
    exact ⟨g', by simp [hg], he⟩
  · rw [List.flatten_cons, List.map_append]
    exact hR.sub.trans (List.sublist_append_right _ _)

theorem good_empty (m : Nat) (drop : Bool) : Good m drop ([] : List (List (Row Int V))) [] :=
  ⟨by simp, by simp, by simp, by rintro x ⟨r, hr, _⟩; simp at hr, by rintro x ⟨r, hr, _⟩; simp at hr, by simp, by simp⟩

theorem loop_good (k : TimeKind) (drop : Bool) : ∀ (l : List (List (Row Int V))) (m : Nat),
    (∀ g ∈ l, g ≠ [] ∧ g.Pairwise (fun a b => a.time < b.time) ∧ ∃ i, ∀ r ∈ g, r.id = i) →
    (∀ r, constDeltaLoop k drop m l = .ok r → Good m drop l r.flatten ∧ (r ≠ [] → r.flatten ≠ [])) ∧
    (drop = true → ∃ r, constDeltaLoop k drop m l = .ok r)
  | [], m, _ => by
    refine ⟨?_, by simp [constDeltaLoop]⟩
    intro r hr
    simp only [constDeltaLoop, Except.ok.injEq] at hr
    subst hr
    exact ⟨good_empty m drop, by simp⟩
  | g :: l, m, hg => by
    obtain ⟨hgne, hgs, i, hgi⟩ := hg g (by simp)
    obtain ⟨h1, h2, h3⟩ := splitOne_good k drop m hgne hgs hgi
    have ih := fun m => loop_good k drop l m (fun g' hg' => hg g' (by simp [hg']))
    unfold constDeltaLoop
    match ho : splitOne k drop m g with
    | .error e =>
      refine ⟨by simp, ?_⟩
      intro hd
      obtain ⟨o, ho'⟩ := h3 hd
      rw [ho] at ho'; simp at ho'
    | .ok none =>
      have hd := h2 ho
      subst hd
      simp only
      refine ⟨?_, fun _ => (ih m).2 rfl⟩
      intro r hr
      exact ⟨good_nil_cons ((ih m).1 r hr).1, ((ih m).1 r hr).2⟩
    | .ok (some d) =>
      obtain ⟨hdne, hdg⟩ := h1 d ho
      simp only
      have ih' := ih ((ids d).foldl max 0 + 1)
      match hl : constDeltaLoop k drop ((ids d).foldl max 0 + 1) l with
      | .error e =>
        refine ⟨by simp, ?_⟩
        intro hd
        obtain ⟨r, hr⟩ := ih'.2 hd
        rw [hl] at hr; simp at hr
      | .ok r =>
        refine ⟨?_, by simp⟩
        intro r' hr'
        simp only [Except.ok.injEq] at hr'
        subst hr'
        have hmax : ∀ q ∈ d, q.id ≤ (ids d).foldl max 0 := fun q hq => (foldl_max_ge (ids d) 0).2 _ (mem_ids.2 ⟨q, hq, rfl⟩)
        refine ⟨?_, ?_⟩
        · rw [List.flatten_cons]
          apply good_append hdg (ih'.1 r hl).1
          · obtain ⟨q, t, rfl⟩ := List.ne_nil_iff_exists_cons.1 hdne
            have := hdg.ge q (by simp)
            have := hmax q (by simp)
            omega
          · intro q hq; have := hmax q hq; omega
        · intro _
          simp [hdne]

/-! ### The property -/

/-- **C17.** If `assign_ids_const_delta` returns a collection then it is valid, every series in it has at least two samples and one constant sampling interval,
every series is a run of consecutive samples of one original series, and all samples taken together are a sub-sequence of the original samples (series in ID
order): nothing is invented, duplicated or reordered.  Without `drop_samples` nothing is dropped either. -/
theorem C17_const_delta (k : TimeKind) (drop : Bool) {c r : List (Row Int V)} (hv : Valid c)
    (h : assignIdsConstDelta k drop c = .ok (some r)) :
    Valid r ∧ (∀ x, HasId r x → ∃ d, Regular (timesOf r x) d) ∧
    (∀ x, HasId r x → ∃ i, HasId c i ∧ content r x <:+: content c i) ∧
    (r.map (fun q => (q.time, q.val))).Sublist ((ids c).flatMap (content c)) ∧
    (drop = false → r.map (fun q => (q.time, q.val)) = (ids c).flatMap (content c)) := by
  have hgr : ∀ g ∈ (ids c).map (fun i => c.filter (fun r => r.id == i)), g ≠ [] ∧ g.Pairwise (fun a b => a.time < b.time) ∧ ∃ i, ∀ r ∈ g, r.id = i := by
    intro g hg
    obtain ⟨i, hi, rfl⟩ := List.mem_map.1 hg
    exact ⟨series_ne_nil.2 (mem_ids'.1 hi), hv.series_sorted i, i, fun r hr => series_id hr⟩
  obtain ⟨hgood, -⟩ := loop_good k drop _ 0 hgr
  unfold assignIdsConstDelta at h
  match hl : constDeltaLoop k drop 0 ((ids c).map (fun i => c.filter (fun r => r.id == i))) with
  | .error e => rw [hl] at h; simp at h
  | .ok [] => rw [hl] at h; simp at h
  | .ok (d0 :: ds) =>
    rw [hl] at h
    simp only at h
    obtain ⟨hG, hne⟩ := hgood _ hl
    set R := (d0 :: ds).flatten with hR
    have hRne : R ≠ [] := hne (by simp)
    have hRv : Valid R := valid_of_asc hG.asc hG.before
    rw [build_ok_of_valid hRv hRne] at h
    simp only at h
    obtain ⟨d, hd, hdv, hdi, hdc, hdt, -⟩ := C08_assign_ids_sequential hRne hRv
    rw [hd] at h
    simp only [Except.ok.injEq, Option.some.injEq] at h
    subst h
    have hflat : ((ids c).map (fun i => c.filter (fun r => r.id == i))).flatten.map (fun r => (r.time, r.val)) = (ids c).flatMap (content c) := by
      rw [List.map_flatten, List.map_map, List.flatMap_def]; rfl
    have hx : ∀ x, HasId d x → ∃ y, HasId R y ∧ content d x = content R y := by
      intro x hx
      have hx' := mem_ids.2 hx
      rw [hdi, List.mem_range] at hx'
      exact ⟨(ids R)[x]'hx', mem_ids.1 (List.getElem_mem _), hdc x hx'⟩
    have htimes : ∀ (c : List (Row Int V)) i, timesOf c i = (content c i).map (·.1) := by
      intro c i; simp [timesOf, content, Function.comp_def]
    refine ⟨hdv, ?_, ?_, ?_, ?_⟩
    · intro x hx'
      obtain ⟨y, hy, he⟩ := hx x hx'
      obtain ⟨e, hreg⟩ := hG.reg y hy
      exact ⟨e, by rw [htimes, he, ← htimes]; exact hreg⟩
    · intro x hx'
      obtain ⟨y, hy, he⟩ := hx x hx'
      obtain ⟨g, hg, hinf⟩ := hG.inf y hy
      obtain ⟨i, hi, rfl⟩ := List.mem_map.1 hg
      exact ⟨i, mem_ids.1 hi, by rw [he]; exact hinf⟩
    · rw [hdt, ← hflat]; exact hG.sub
    · intro hf; rw [hdt, ← hflat]; exact hG.full hf

/-- **C17 (totality).** With `drop_samples=True` the call never raises. -/
theorem C17_total (k : TimeKind) {c : List (Row Int V)} (hv : Valid c) : ∃ o, assignIdsConstDelta k true c = .ok o := by
  have hgr : ∀ g ∈ (ids c).map (fun i => c.filter (fun r => r.id == i)), g ≠ [] ∧ g.Pairwise (fun a b => a.time < b.time) ∧ ∃ i, ∀ r ∈ g, r.id = i := by
    intro g hg
    obtain ⟨i, hi, rfl⟩ := List.mem_map.1 hg
    exact ⟨series_ne_nil.2 (mem_ids'.1 hi), hv.series_sorted i, i, fun r hr => series_id hr⟩
  obtain ⟨hgood, htot⟩ := loop_good k true _ 0 hgr
  obtain ⟨l, hl⟩ := htot rfl
  unfold assignIdsConstDelta
  rw [hl]
  match l, hl with
  | [], _ => exact ⟨_, rfl⟩
  | d0 :: ds, hl =>
    obtain ⟨hG, hne⟩ := hgood _ hl
    simp only
    have hRv : Valid (d0 :: ds).flatten := valid_of_asc hG.asc hG.before
    rw [build_ok_of_valid hRv (hne (by simp))]
    obtain ⟨d, hd, -⟩ := C08_assign_ids_sequential (hne (by simp)) hRv
    simp only [hd]
    exact ⟨_, rfl⟩

/-- non-vacuity: the example of the documentation, a gap and a new sampling interval -/
example : assignIdsConstDelta .int false
    ([1, 2, 3, 10, 11, 12, 14, 16].map (fun t => (⟨4, t, ()⟩ : Row Int Unit))) =
    .ok (some [⟨0, 1, ()⟩, ⟨0, 2, ()⟩, ⟨0, 3, ()⟩, ⟨1, 10, ()⟩, ⟨1, 11, ()⟩, ⟨2, 12, ()⟩, ⟨2, 14, ()⟩, ⟨2, 16, ()⟩]) := by decide +kernel

end Verif.Tsc
