import Verif.Tsc.DeltaLemmas
import Verif.Tsc.RealDelta
/-! Helper lemmas for `delta_time` with floating point time values. -/

namespace Verif.Tsc

open Verif.Np

variable {V : Type}

theorem qDiff_cons (a b : ℚ) (l : List ℚ) : qDiff (a :: b :: l) = (b - a) :: qDiff (b :: l) := rfl
theorem qDiff_single (a : ℚ) : qDiff [a] = [] := rfl
theorem qDiff_nil : qDiff [] = [] := rfl

theorem qDiff_length (l : List ℚ) : (qDiff l).length = l.length - 1 := by
  simp [qDiff]

theorem qDiff_eq (l : List ℚ) : qDiff l = (consecutive l).map (fun p => p.2 - p.1) := by
  fun_induction consecutive l with
  | case1 a b l ih => rw [qDiff_cons, ih]; rfl
  | case2 l h =>
    match l, h with
    | [], _ => rfl
    | [a], _ => rfl
    | a :: b :: l, h => exact absurd rfl (h a b l)

theorem qDiff_append (a : ℚ) (l r : List ℚ) (b : ℚ) :
    qDiff ((l ++ [a]) ++ (b :: r)) = qDiff (l ++ [a]) ++ (b - a) :: qDiff (b :: r) := by
  induction l with
  | nil => rfl
  | cons x l ih =>
    cases l with
    | nil => simp [qDiff_cons, qDiff_single]
    | cons y l =>
      simp only [List.cons_append] at ih ⊢
      rw [qDiff_cons, qDiff_cons, ih]; rfl

/-- Removing the differences at block ends leaves the differences inside the blocks. -/
theorem qdiff_delete_ends (bs : List (List ℚ)) (o : Nat) (hb : ∀ b ∈ bs, b ≠ []) :
    (((qDiff bs.flatten).zipIdx o).filter (fun x => !((endsFrom o (bs.map List.length)).contains x.2))).map (·.1) =
      bs.flatMap qDiff := by
  induction bs generalizing o with
  | nil => rfl
  | cons b bs ih =>
    have hpos : ∀ n ∈ bs.map List.length, 0 < n := by
      intro n hn
      obtain ⟨x, hx, rfl⟩ := List.mem_map.1 hn
      exact List.length_pos_iff.2 (hb x (by simp [hx]))
    have hbne := hb b (by simp)
    have hbpos : 0 < b.length := List.length_pos_iff.2 hbne
    have keepb : ∀ (l : List ℚ), l.length ≤ b.length - 1 →
        ((l.zipIdx o).filter (fun x => !((endsFrom o ((b :: bs).map List.length)).contains x.2))).map (·.1) = l := by
      intro l hl
      have : (l.zipIdx o).filter (fun x => !((endsFrom o ((b :: bs).map List.length)).contains x.2)) = l.zipIdx o := by
        rw [List.filter_eq_self]
        rintro ⟨x, n⟩ hx
        have hm := List.mem_zipIdx hx
        rw [Bool.not_eq_true', ← Bool.not_eq_true, List.contains_iff_mem]
        simp only [List.map_cons, endsFrom, List.mem_cons]
        rintro (h | h)
        · omega
        · have := endsFrom_ge hpos h; omega
      rw [this]; exact List.zipIdx_map_fst _ _
    rw [List.flatten_cons, List.flatMap_cons]
    match hr : bs.flatten with
    | [] =>
      have hbs : bs = [] := by
        match bs, hb, hr with
        | [], _, _ => rfl
        | x :: xs, hb, hr =>
          have := hb x (by simp); simp at hr; exact absurd hr.1 this
      subst hbs
      rw [List.append_nil, keepb _ (by rw [qDiff_length])]
      simp
    | y :: r =>
      have hlast := List.dropLast_append_getLast hbne
      conv => lhs; rw [← hlast]
      rw [qDiff_append, hlast, List.zipIdx_append, List.filter_append, List.map_append, keepb _ (by rw [qDiff_length])]
      congr 1
      rw [List.zipIdx_cons, qDiff_length]
      have hpos2 : o + (b.length - 1) = o + b.length - 1 := by omega
      rw [List.filter_cons_of_neg (by simp [endsFrom, hpos2])]
      have e : o + (b.length - 1) + 1 = o + b.length := by omega
      rw [e]
      rw [← ih (o + b.length) (fun x hx => hb x (by simp [hx])), hr]
      congr 1
      apply filter_zipIdx_congr (p := fun n => !((endsFrom o ((b :: bs).map List.length)).contains n))
        (q := fun n => !((endsFrom (o + b.length) (bs.map List.length)).contains n))
      intro n h1 h2
      congr 1
      rw [Bool.eq_iff_iff]
      simp only [List.contains_iff_mem, List.map_cons, endsFrom, List.mem_cons]
      constructor
      · rintro (h | h)
        · omega
        · exact h
      · exact Or.inr

/-- The differences used for the `k`-th entry in the equal length branch are those of the `k`-th *block*. -/
theorem qEqualLength_eq {c : List (Row ℚ V)} (hc : c ≠ []) (hv : Valid c) {n : Nat} (h : nTimesteps c = .one n) :
    qEqualLength c n = (newIds (c.map (·.id))).map (fun i => qRowDelta (qDiff ((series c i).map (·.time)))) := by
  have hk := (nTimesteps_one hc n).1 h
  have hperm := newIds_perm_ids hv.nodup
  set bs := (newIds (c.map (·.id))).map (fun i => (series c i).map (·.time)) with hbs
  have hfl : c.map (·.time) = bs.flatten := by
    conv => lhs; rw [← hv.eq_flatMap]
    rw [List.map_flatMap, hbs]; rfl
  have hlen : ∀ b ∈ bs, b.length = n := by
    intro b hb
    obtain ⟨i, hi, rfl⟩ := List.mem_map.1 hb
    rw [mem_newIds] at hi
    rw [List.length_map]; exact hk i (mem_ids'.2 hi)
  have hne : ∀ b ∈ bs, b ≠ [] := by
    intro b hb
    obtain ⟨i, hi, rfl⟩ := List.mem_map.1 hb
    rw [mem_newIds] at hi
    simpa using series_ne_nil.2 hi
  have hbl : bs.length = nTimeseries c := by rw [hbs, List.length_map, hperm.length_eq]; rfl
  unfold qEqualLength
  split
  · rename_i h1
    subst h1
    have e1 : ∀ i ∈ newIds (c.map (·.id)), qRowDelta (qDiff ((series c i).map (·.time))) = none := by
      intro i hi
      have hl := hlen _ (List.mem_map.2 ⟨i, hi, rfl⟩)
      obtain ⟨x, hx⟩ := List.length_eq_one_iff.1 hl
      rw [hx]; rfl
    rw [List.map_congr_left e1]
    rw [List.map_const', List.map_const', hperm.length_eq]
  · rename_i h1
    dsimp only
    rw [hfl]
    have hnpos : 0 < n := by
      obtain ⟨i0, t, hi⟩ := List.ne_nil_iff_exists_cons.1 (ids_ne_nil hc)
      have hm : i0 ∈ ids c := by rw [hi]; simp
      rw [← hk i0 hm, List.length_pos_iff]
      exact series_ne_nil.2 (mem_ids'.1 hm)
    have hlens : bs.map List.length = List.replicate bs.length n := by
      rw [List.eq_replicate_iff]; simp; exact hlen
    have hflen : bs.flatten.length = bs.length * n := by rw [List.length_flatten, hlens]; simp
    have hmask : ((qDiff bs.flatten).zipIdx.filter (fun p => !(p.2 % n == n - 1))).map (·.1) = bs.flatMap qDiff := by
      rw [← qdiff_delete_ends bs 0 hne]
      congr 1
      apply filter_zipIdx_congr (p := fun p => !(p % n == n - 1)) (q := fun p => !((endsFrom 0 (bs.map List.length)).contains p))
      intro p _ hp
      rw [qDiff_length] at hp
      congr 1
      rw [Bool.eq_iff_iff, beq_iff_eq, List.contains_iff_mem, hlens, ends_equal hnpos (by omega)]
      constructor
      · intro hpm
        have hdm := Nat.div_add_mod p n
        refine ⟨by have := Nat.mod_le p n; omega, ?_⟩
        have : p - (n - 1) = n * (p / n) := by omega
        rw [this]; exact Nat.mul_mod_right _ _
      · rintro ⟨h1, h2⟩
        have hd := Nat.div_add_mod (p - (n - 1)) n
        rw [h2] at hd
        have : p = n - 1 + n * ((p - (n - 1)) / n) := by omega
        rw [this, Nat.add_mul_mod_self_left]
        exact Nat.mod_eq_of_lt (by omega)
    rw [hmask]
    have hflat : bs.flatMap qDiff = (bs.map qDiff).flatten := by rw [List.flatMap]
    have hbl' : (bs.map qDiff).length = nTimeseries c := by simpa using hbl
    rw [hflat, ← hbl', reshapeRows_flatten _ (n - 1)]
    · simp [hbs, Function.comp_def]
    · intro b hb
      obtain ⟨x, hx, rfl⟩ := List.mem_map.1 hb
      rw [qDiff_length, hlen x hx]

theorem getElem?_qDiff (l : List ℚ) (p : Nat) : (qDiff l)[p]? = if h : p + 1 < l.length then some (l[p+1] - l[p]) else none := by
  unfold qDiff
  rw [List.getElem?_zipWith]
  by_cases h : p + 1 < l.length
  · have h0 : p < l.length := by omega
    simp [h, h0, List.getElem?_tail]
  · have hn : l.tail[p]? = none := by rw [List.getElem?_tail]; exact List.getElem?_eq_none (by omega)
    rw [hn]; simp [h]

/-- The differences used for ID `i` in the loop branch are those of series `i`. -/
theorem qIdDiffs_eq {c : List (Row ℚ V)} (hv : Valid c) {i : Nat} (hi : HasId c i) :
    ((((c.map (·.id)).zipIdx.filter (fun p => p.1 == i)).map (·.2)).dropLast.map (fun p => (qDiff (c.map (·.time))).getD p 0)) =
      qDiff ((series c i).map (·.time)) := by
  obtain ⟨pre, post, hc, h1, h3⟩ := hv.split hi
  set S := series c i with hS
  have hpos := positions_split i (pre.map (·.id)) (S.map (·.id)) (post.map (·.id))
    (by simpa using h1) (by intro x hx; obtain ⟨r, hr, rfl⟩ := List.mem_map.1 hx; exact series_id hr) (by simpa using h3) 0
  have hids : c.map (·.id) = pre.map (·.id) ++ S.map (·.id) ++ post.map (·.id) := by
    conv => lhs; rw [hc]
    simp
  rw [hids, hpos]
  apply List.ext_getElem?
  intro k
  have hlen : (c.map (·.time)).length = pre.length + S.length + post.length := by
    rw [hc]; simp; omega
  rw [List.getElem?_map, getElem?_qDiff, List.getElem?_dropLast]
  simp only [List.length_range', List.length_map]
  by_cases hk : k + 1 < S.length
  · have hk' : k < S.length - 1 := by omega
    simp only [hk', if_true, hk, dif_pos, Option.map_eq_some_iff]
    refine ⟨0 + pre.length + k, ?_, ?_⟩
    · rw [List.getElem?_range' (by omega)]; simp
    · rw [List.getD_eq_getElem?_getD, getElem?_qDiff]
      have hlt : 0 + pre.length + k + 1 < (c.map (·.time)).length := by omega
      rw [dif_pos hlt]
      have hget : ∀ m (hm : m < S.length) (h' : 0 + pre.length + m < (c.map (·.time)).length),
          (c.map (·.time))[0 + pre.length + m] = (S.map (·.time))[m]'(by simpa using hm) := by
        intro m hm h'
        have : (c.map (·.time))[0 + pre.length + m]? = (S.map (·.time))[m]? := by
          conv => lhs; rw [hc]
          rw [List.map_append, List.map_append, List.append_assoc, List.getElem?_append_right (by simp),
            List.getElem?_append_left (by simp; omega)]
          simp
        rw [List.getElem?_eq_getElem h', List.getElem?_eq_getElem (by simpa using hm)] at this
        exact Option.some.inj this
      have e1 := hget (k+1) hk (by omega)
      have e0 := hget k (by omega) (by omega)
      simp only [Option.getD_some]
      rw [e0]
      have : (c.map (·.time))[0 + pre.length + k + 1] = (c.map (·.time))[0 + pre.length + (k + 1)] := rfl
      rw [this, e1]
  · have hk' : ¬ k < S.length - 1 := by omega
    simp [hk', hk]

end Verif.Tsc
