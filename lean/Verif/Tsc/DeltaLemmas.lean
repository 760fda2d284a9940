import Verif.Tsc.ShiftLemmas
import Verif.Tsc.CollLemmas
import Verif.Tsc.DeltaTime
/-! Helper lemmas for `delta_time`. -/

namespace Verif.Tsc

open Verif.Np

variable {V : Type}

theorem npDiff_cons (a b : Int) (l : List Int) : npDiff (a :: b :: l) = (b - a) :: npDiff (b :: l) := rfl
theorem npDiff_single (a : Int) : npDiff [a] = [] := rfl
theorem npDiff_nil : npDiff [] = [] := rfl

theorem npDiff_length (l : List Int) : (npDiff l).length = l.length - 1 := by
  simp [npDiff]

theorem npDiff_eq (l : List Int) : npDiff l = (consecutive l).map (fun p => p.2 - p.1) := by
  fun_induction consecutive l with
  | case1 a b l ih => rw [npDiff_cons, ih]; rfl
  | case2 l h =>
    match l, h with
    | [], _ => rfl
    | [a], _ => rfl
    | a :: b :: l, h => exact absurd rfl (h a b l)

theorem npDiff_append (a : Int) (l r : List Int) (b : Int) :
    npDiff ((l ++ [a]) ++ (b :: r)) = npDiff (l ++ [a]) ++ (b - a) :: npDiff (b :: r) := by
  induction l with
  | nil => rfl
  | cons x l ih =>
    cases l with
    | nil => simp [npDiff_cons, npDiff_single]
    | cons y l =>
      simp only [List.cons_append] at ih ⊢
      rw [npDiff_cons, npDiff_cons, ih]; rfl

/-- Removing the differences at block ends leaves the differences inside the blocks. -/
theorem diff_delete_ends (bs : List (List Int)) (o : Nat) (hb : ∀ b ∈ bs, b ≠ []) :
    (((npDiff bs.flatten).zipIdx o).filter (fun x => !((endsFrom o (bs.map List.length)).contains x.2))).map (·.1) =
      bs.flatMap npDiff := by
  induction bs generalizing o with
  | nil => rfl
  | cons b bs ih =>
    have hpos : ∀ n ∈ bs.map List.length, 0 < n := by
      intro n hn
      obtain ⟨x, hx, rfl⟩ := List.mem_map.1 hn
      exact List.length_pos_iff.2 (hb x (by simp [hx]))
    have hbne := hb b (by simp)
    have hbpos : 0 < b.length := List.length_pos_iff.2 hbne
    have keepb : ∀ (l : List Int), l.length ≤ b.length - 1 →
        ((l.zipIdx o).filter (fun x => !((endsFrom o ((b :: bs).map List.length)).contains x.2))).map (·.1) = l := by
      intro l hl
      have : (l.zipIdx o).filter (fun x => !((endsFrom o ((b :: bs).map List.length)).contains x.2)) = l.zipIdx o := by
        rw [List.filter_eq_self]
        rintro ⟨x, n⟩ hx
        have hm := List.mem_zipIdx hx
        rw [Bool.not_eq_true', ← Bool.not_eq_true, List.contains_iff_mem]
        simp only [List.map_cons, endsFrom, List.mem_cons]
        rintro (h | h)
        · omega
        · have := endsFrom_ge hpos h; omega
      rw [this]; exact List.zipIdx_map_fst _ _
    rw [List.flatten_cons, List.flatMap_cons]
    match hr : bs.flatten with
    | [] =>
      have hbs : bs = [] := by
        match bs, hb, hr with
        | [], _, _ => rfl
        | x :: xs, hb, hr =>
          have := hb x (by simp); simp at hr; exact absurd hr.1 this
      subst hbs
      rw [List.append_nil, keepb _ (by rw [npDiff_length])]
      simp
    | y :: r =>
      have hlast := List.dropLast_append_getLast hbne
      conv => lhs; rw [← hlast]
      rw [npDiff_append, hlast, List.zipIdx_append, List.filter_append, List.map_append, keepb _ (by rw [npDiff_length])]
      congr 1
      rw [List.zipIdx_cons, npDiff_length]
      have hpos2 : o + (b.length - 1) = o + b.length - 1 := by omega
      rw [List.filter_cons_of_neg (by simp [endsFrom, hpos2])]
      have e : o + (b.length - 1) + 1 = o + b.length := by omega
      rw [e]
      rw [← ih (o + b.length) (fun x hx => hb x (by simp [hx])), hr]
      congr 1
      apply filter_zipIdx_congr (p := fun n => !((endsFrom o ((b :: bs).map List.length)).contains n))
        (q := fun n => !((endsFrom (o + b.length) (bs.map List.length)).contains n))
      intro n h1 h2
      congr 1
      rw [Bool.eq_iff_iff]
      simp only [List.contains_iff_mem, List.map_cons, endsFrom, List.mem_cons]
      constructor
      · rintro (h | h)
        · omega
        · exact h
      · exact Or.inr

theorem reshapeRows_flatten {α : Type} (bs : List (List α)) (k : Nat) (hb : ∀ b ∈ bs, b.length = k) :
    reshapeRows bs.length k bs.flatten = bs := by
  induction bs with
  | nil => rfl
  | cons b bs ih =>
    have hbk := hb b (by simp)
    unfold reshapeRows at ih ⊢
    rw [List.length_cons, List.range_succ_eq_map, List.map_cons, List.map_map]
    have e0 : List.take k (List.drop (0 * k) (b :: bs).flatten) = b := by
      simp [← hbk]
    rw [e0]
    congr 1
    refine Eq.trans ?_ (ih (fun b hb' => hb b (by simp [hb'])))
    apply List.map_congr_left
    intro i hi
    have : (i + 1) * k = b.length + i * k := by rw [hbk]; ring
    simp only [Function.comp_apply, Nat.succ_eq_add_one, this, List.flatten_cons]
    rw [← List.drop_drop, List.drop_left]

/-- The differences used for the `k`-th entry in the equal length branch are those of the `k`-th *block*. -/
theorem deltaEqualLength_eq {c : List (Row Int V)} (hc : c ≠ []) (hv : Valid c) {n : Nat} (h : nTimesteps c = .one n) :
    deltaEqualLength c n = (newIds (c.map (·.id))).map (fun i => rowDelta (npDiff ((series c i).map (·.time)))) := by
  have hk := (nTimesteps_one hc n).1 h
  have hperm := newIds_perm_ids hv.nodup
  set bs := (newIds (c.map (·.id))).map (fun i => (series c i).map (·.time)) with hbs
  have hfl : c.map (·.time) = bs.flatten := by
    conv => lhs; rw [← hv.eq_flatMap]
    rw [List.map_flatMap, hbs]; rfl
  have hlen : ∀ b ∈ bs, b.length = n := by
    intro b hb
    obtain ⟨i, hi, rfl⟩ := List.mem_map.1 hb
    rw [mem_newIds] at hi
    rw [List.length_map]; exact hk i (mem_ids'.2 hi)
  have hne : ∀ b ∈ bs, b ≠ [] := by
    intro b hb
    obtain ⟨i, hi, rfl⟩ := List.mem_map.1 hb
    rw [mem_newIds] at hi
    simpa using series_ne_nil.2 hi
  have hbl : bs.length = nTimeseries c := by rw [hbs, List.length_map, hperm.length_eq]; rfl
  unfold deltaEqualLength
  split
  · rename_i h1
    subst h1
    have e1 : ∀ i ∈ newIds (c.map (·.id)), rowDelta (npDiff ((series c i).map (·.time))) = none := by
      intro i hi
      have hl := hlen _ (List.mem_map.2 ⟨i, hi, rfl⟩)
      obtain ⟨x, hx⟩ := List.length_eq_one_iff.1 hl
      rw [hx]; rfl
    rw [List.map_congr_left e1]
    rw [List.map_const', List.map_const', hperm.length_eq]
  · rename_i h1
    dsimp only
    rw [hfl]
    have hnpos : 0 < n := by
      obtain ⟨i0, t, hi⟩ := List.ne_nil_iff_exists_cons.1 (ids_ne_nil hc)
      have hm : i0 ∈ ids c := by rw [hi]; simp
      rw [← hk i0 hm, List.length_pos_iff]
      exact series_ne_nil.2 (mem_ids'.1 hm)
    have hlens : bs.map List.length = List.replicate bs.length n := by
      rw [List.eq_replicate_iff]; simp; exact hlen
    have hflen : bs.flatten.length = bs.length * n := by rw [List.length_flatten, hlens]; simp
    have hmask : ((npDiff bs.flatten).zipIdx.filter (fun p => !(p.2 % n == n - 1))).map (·.1) = bs.flatMap npDiff := by
      rw [← diff_delete_ends bs 0 hne]
      congr 1
      apply filter_zipIdx_congr (p := fun p => !(p % n == n - 1)) (q := fun p => !((endsFrom 0 (bs.map List.length)).contains p))
      intro p _ hp
      rw [npDiff_length] at hp
      congr 1
      rw [Bool.eq_iff_iff, beq_iff_eq, List.contains_iff_mem, hlens, ends_equal hnpos (by omega)]
      constructor
      · intro hpm
        have hdm := Nat.div_add_mod p n
        refine ⟨by have := Nat.mod_le p n; omega, ?_⟩
        have : p - (n - 1) = n * (p / n) := by omega
        rw [this]; exact Nat.mul_mod_right _ _
      · rintro ⟨h1, h2⟩
        have hd := Nat.div_add_mod (p - (n - 1)) n
        rw [h2] at hd
        have : p = n - 1 + n * ((p - (n - 1)) / n) := by omega
        rw [this, Nat.add_mul_mod_self_left]
        exact Nat.mod_eq_of_lt (by omega)
    rw [hmask]
    have hflat : bs.flatMap npDiff = (bs.map npDiff).flatten := by rw [List.flatMap]
    have hbl' : (bs.map npDiff).length = nTimeseries c := by simpa using hbl
    rw [hflat, ← hbl', reshapeRows_flatten _ (n - 1)]
    · simp [hbs, Function.comp_def]
    · intro b hb
      obtain ⟨x, hx, rfl⟩ := List.mem_map.1 hb
      rw [npDiff_length, hlen x hx]

theorem Valid.split {τ : Type} [LinearOrder τ] {c : List (Row τ V)} (hv : Valid c) {i : Nat} (hi : HasId c i) :
    ∃ pre post, c = pre ++ series c i ++ post ∧ (∀ r ∈ pre, r.id ≠ i) ∧ (∀ r ∈ post, r.id ≠ i) := by
  have hm : i ∈ newIds (c.map (·.id)) := (mem_newIds _ _).2 (List.mem_map.2 hi)
  obtain ⟨a, b, hab⟩ := List.append_of_mem hm
  have hnd := hv.nodup
  rw [hab, List.nodup_append] at hnd
  refine ⟨a.flatMap (series c), b.flatMap (series c), ?_, ?_, ?_⟩
  · conv => lhs; rw [← hv.eq_flatMap, hab]
    simp
  · intro r hr e
    obtain ⟨j, hj, hrj⟩ := List.mem_flatMap.1 hr
    rw [series_id hrj] at e
    exact hnd.2.2 j hj i (by simp) e
  · intro r hr e
    obtain ⟨j, hj, hrj⟩ := List.mem_flatMap.1 hr
    rw [series_id hrj] at e
    exact (List.nodup_cons.1 hnd.2.1).1 (by rw [← e]; exact hj)

theorem positions_split (i : Nat) (pre mid post : List Nat) (h1 : ∀ x ∈ pre, x ≠ i) (h2 : ∀ x ∈ mid, x = i) (h3 : ∀ x ∈ post, x ≠ i) (o : Nat) :
    (((pre ++ mid ++ post).zipIdx o).filter (fun p => p.1 == i)).map (·.2) = List.range' (o + pre.length) mid.length := by
  have hz : ∀ (l : List Nat) (o : Nat), (∀ x ∈ l, x ≠ i) → (l.zipIdx o).filter (fun p => p.1 == i) = [] := by
    intro l o hl
    rw [List.filter_eq_nil_iff]
    rintro ⟨x, n⟩ hx
    have := List.fst_mem_of_mem_zipIdx hx
    simpa using hl x this
  have hm : ((mid.zipIdx (o + pre.length)).filter (fun p => p.1 == i)) = mid.zipIdx (o + pre.length) := by
    rw [List.filter_eq_self]
    rintro ⟨x, n⟩ hx
    have := List.fst_mem_of_mem_zipIdx hx
    simpa using h2 x this
  rw [List.zipIdx_append, List.zipIdx_append, List.filter_append, List.filter_append, hz pre o h1, hz post _ h3, hm]
  simp

theorem getElem?_npDiff (l : List Int) (p : Nat) : (npDiff l)[p]? = if h : p + 1 < l.length then some (l[p+1] - l[p]) else none := by
  unfold npDiff
  rw [List.getElem?_zipWith]
  by_cases h : p + 1 < l.length
  · have h0 : p < l.length := by omega
    simp [h, h0, List.getElem?_tail]
  · have hn : l.tail[p]? = none := by rw [List.getElem?_tail]; exact List.getElem?_eq_none (by omega)
    rw [hn]; simp [h]

/-- The differences used for ID `i` in the loop branch are those of series `i`. -/
theorem deltaUnequal_diffs {c : List (Row Int V)} (hv : Valid c) {i : Nat} (hi : HasId c i) :
    ((((c.map (·.id)).zipIdx.filter (fun p => p.1 == i)).map (·.2)).dropLast.map (fun p => (npDiff (c.map (·.time))).getD p 0)) =
      npDiff ((series c i).map (·.time)) := by
  obtain ⟨pre, post, hc, h1, h3⟩ := hv.split hi
  set S := series c i with hS
  have hpos := positions_split i (pre.map (·.id)) (S.map (·.id)) (post.map (·.id))
    (by simpa using h1) (by intro x hx; obtain ⟨r, hr, rfl⟩ := List.mem_map.1 hx; exact series_id hr) (by simpa using h3) 0
  have hids : c.map (·.id) = pre.map (·.id) ++ S.map (·.id) ++ post.map (·.id) := by
    conv => lhs; rw [hc]
    simp
  rw [hids, hpos]
  apply List.ext_getElem?
  intro k
  have hlen : (c.map (·.time)).length = pre.length + S.length + post.length := by
    rw [hc]; simp; omega
  rw [List.getElem?_map, getElem?_npDiff, List.getElem?_dropLast]
  simp only [List.length_range', List.length_map]
  by_cases hk : k + 1 < S.length
  · have hk' : k < S.length - 1 := by omega
    simp only [hk', if_true, hk, dif_pos, Option.map_eq_some_iff]
    refine ⟨0 + pre.length + k, ?_, ?_⟩
    · rw [List.getElem?_range' (by omega)]; simp
    · rw [List.getD_eq_getElem?_getD, getElem?_npDiff]
      have hlt : 0 + pre.length + k + 1 < (c.map (·.time)).length := by omega
      rw [dif_pos hlt]
      have hget : ∀ m (hm : m < S.length) (h' : 0 + pre.length + m < (c.map (·.time)).length),
          (c.map (·.time))[0 + pre.length + m] = (S.map (·.time))[m]'(by simpa using hm) := by
        intro m hm h'
        have : (c.map (·.time))[0 + pre.length + m]? = (S.map (·.time))[m]? := by
          conv => lhs; rw [hc]
          rw [List.map_append, List.map_append, List.append_assoc, List.getElem?_append_right (by simp),
            List.getElem?_append_left (by simp; omega)]
          simp
        rw [List.getElem?_eq_getElem h', List.getElem?_eq_getElem (by simpa using hm)] at this
        exact Option.some.inj this
      have e1 := hget (k+1) hk (by omega)
      have e0 := hget k (by omega) (by omega)
      simp only [Option.getD_some]
      rw [e0]
      have : (c.map (·.time))[0 + pre.length + k + 1] = (c.map (·.time))[0 + pre.length + (k + 1)] := rfl
      rw [this, e1]
  · have hk' : ¬ k < S.length - 1 := by omega
    simp [hk', hk]

theorem unique_head_rowDelta (l : List Int) : (if (unique l).length = 1 then l.head? else none) = rowDelta l := by
  unfold rowDelta
  match l with
  | [] => simp [unique]
  | d :: l =>
    simp only [List.head?_cons]
    by_cases h : (unique (d :: l)).length = 1
    · rw [if_pos h]
      obtain ⟨a, _, h⟩ := unique_length_one.1 h
      have hd := h d (by simp)
      rw [if_pos]
      simp only [List.all_eq_true, beq_iff_eq]
      intro x hx; rw [h x (by simp [hx]), hd]
    · rw [if_neg h, if_neg]
      intro hall
      apply h
      rw [unique_length_one]
      refine ⟨d, by simp, ?_⟩
      intro b hb
      simp only [List.all_eq_true, beq_iff_eq] at hall
      rcases List.mem_cons.1 hb with rfl | hb
      · rfl
      · exact hall b hb

theorem deltaUnequalLength_eq {c : List (Row Int V)} (hv : Valid c) :
    deltaUnequalLength c = (ids c).map (fun i => rowDelta (npDiff ((series c i).map (·.time)))) := by
  unfold deltaUnequalLength
  apply List.map_congr_left
  intro i hi
  dsimp only
  rw [deltaUnequal_diffs hv (mem_ids.1 hi)]
  exact unique_head_rowDelta _

end Verif.Tsc
