import Verif.Tsc.InitCond
import Verif.Tsc.DeltaProps
import Verif.Tsc.StatesProps
/-!
# The reconstruction loop visits every series once, with its own initial states and time values
-/

namespace Verif.Tsc

open Verif.Np

variable {V W : Type}

/-! ### Lemmas -/

theorem mapM_ok_map {α β E : Type} (f : α → Except E β) (g : α → β) (l : List α) (h : ∀ a ∈ l, f a = .ok (g a)) :
    l.mapM f = .ok (l.map g) := by
  induction l with
  | nil => rfl
  | cons a l ih =>
    rw [List.mapM_cons, h a (by simp), ih (fun x hx => h x (by simp [hx]))]
    rfl

theorem valid_append {τ V : Type} [LinearOrder τ] {c d : List (Row τ V)} (hc : Valid c) (hd : Valid d) (h : ∀ i, HasId c i → ¬ HasId d i) :
    Valid (c ++ d) := by
  have hm : ∀ (e : List (Row τ V)) i, i ∈ newIds (e.map (·.id)) ↔ HasId e i := by
    intro e i; rw [mem_newIds]; simp [HasId]
  have hs1 : ∀ i, HasId c i → series (c ++ d) i = series c i := by
    intro i hi
    have : series d i = [] := by by_contra hne; exact h i hi (hasId_iff_series.2 hne)
    rw [series_append, this, List.append_nil]
  have hs2 : ∀ i, HasId d i → series (c ++ d) i = series d i := by
    intro i hi
    have : series c i = [] := by by_contra hne; exact h i (hasId_iff_series.2 hne) hi
    rw [series_append, this, List.nil_append]
  have heq : (newIds (c.map (·.id)) ++ newIds (d.map (·.id))).flatMap (series (c ++ d)) = c ++ d := by
    rw [List.flatMap_append]
    conv_rhs => rw [← hc.eq_flatMap, ← hd.eq_flatMap]
    congr 1
    · exact List.flatMap_congr (fun i hi => hs1 i ((hm c i).1 hi))
    · exact List.flatMap_congr (fun i hi => hs2 i ((hm d i).1 hi))
  rw [← heq]
  apply valid_flatMap
  · rw [List.nodup_append]
    refine ⟨hc.nodup, hd.nodup, ?_⟩
    intro a ha b hb hab
    subst hab
    exact h a ((hm c a).1 ha) ((hm d a).1 hb)
  · intro i _ r hr; exact (mem_series.1 hr).2
  · intro i hi
    rcases List.mem_append.1 hi with hi | hi
    · rw [hs1 i ((hm c i).1 hi)]; exact hc.series_sorted i
    · rw [hs2 i ((hm d i).1 hi)]; exact hd.series_sorted i

theorem regular_determined : ∀ {l l' : List Int} {d : Int}, 0 < d → (∀ p ∈ consecutive l, p.2 - p.1 = d) → (∀ p ∈ consecutive l', p.2 - p.1 = d) →
    l ≠ [] → l' ≠ [] → l.head? = l'.head? → l.getLast? = l'.getLast? → l = l'
  | [], _, _, _, _, _, h, _, _, _ => absurd rfl h
  | _ :: _, [], _, _, _, _, _, h, _, _ => absurd rfl h
  | [a], [b], _, _, _, _, _, _, h, _ => by simpa using h
  | [a], b :: b' :: l, d, hd, _, h2, _, _, h, hl => by
    exfalso
    have hp := regular_pairwise hd h2
    simp only [List.head?_cons, Option.some.injEq] at h
    subst h
    have : (b' :: l).getLast? = some a := by rw [← List.getLast?_cons_cons (a := a)]; simpa using hl.symm
    have hm : a ∈ b' :: l := List.mem_of_getLast? this
    have := List.rel_of_pairwise_cons hp hm
    omega
  | a :: a' :: l, [b], d, hd, h1, _, _, _, h, hl => by
    exfalso
    have hp := regular_pairwise hd h1
    simp only [List.head?_cons, Option.some.injEq] at h
    subst h
    have : (a' :: l).getLast? = some a := by rw [← List.getLast?_cons_cons (a := a)]; simpa using hl
    have hm : a ∈ a' :: l := List.mem_of_getLast? this
    have := List.rel_of_pairwise_cons hp hm
    omega
  | a :: a' :: l, b :: b' :: l', d, hd, h1, h2, _, _, h, hl => by
    simp only [List.head?_cons, Option.some.injEq] at h
    subst h
    have ha := h1 (a, a') (by simp [consecutive])
    have hb := h2 (a, b') (by simp [consecutive])
    simp only at ha hb
    have hab : a' = b' := by omega
    have := regular_determined (l := a' :: l) (l' := b' :: l') hd (fun p hp => h1 p (by simp [consecutive, hp]))
      (fun p hp => h2 p (by simp [consecutive, hp])) (by simp) (by simp) (by simp [hab]) (by simpa using hl)
    rw [this]

theorem timeInterval_eq {c : List (Row Int V)} (hv : Valid c) (i : Nat) :
    timeInterval c i = ((timesOf c i).headD 0, (timesOf c i).getLastD 0) := by
  have : unique (timesOf c i) = timesOf c i := unique_of_pairwise (by
    unfold timesOf; rw [List.pairwise_map]; exact hv.series_sorted i)
  unfold timeInterval
  show ((unique (timesOf c i)).headD 0, (unique (timesOf c i)).getLastD 0) = _
  rw [this]

/-- What the delta time column has to hold: the sampling interval of each series. -/
def HasDeltas (k : TimeKind) (c : List (Row Int V)) (δ : Nat → Int) : Prop :=
  ∀ i, HasId c i → deltaOf k c i = some (δ i) ∧ Regular (timesOf c i) (δ i)

theorem hasDeltas_int {c : List (Row Int V)} (hc : c ≠ []) (hv : Valid c) {d : Int}
    (h : ∀ i, HasId c i → Regular (timesOf c i) d) : HasDeltas .int c (fun _ => d) := by
  intro i hi
  refine ⟨?_, h i hi⟩
  unfold deltaOf
  rw [C11_regular hc hv .int h]

theorem hasDeltas_datetime {c : List (Row Int V)} (hc : c ≠ []) (hv : Valid c) {d : Int}
    (h : ∀ i, HasId c i → Regular (timesOf c i) d) : HasDeltas .datetime c (fun _ => d) := by
  intro i hi
  refine ⟨?_, h i hi⟩
  unfold deltaOf
  rw [C11_datetime_partial hc hv d h]

theorem overviewKey_inj {k : TimeKind} {c : List (Row Int V)} (hv : Valid c) {δ : Nat → Int} (h : HasDeltas k c δ) {i j : Nat}
    (hi : HasId c i) (hj : HasId c j) (he : overviewKey k c i = overviewKey k c j) : timesOf c i = timesOf c j := by
  obtain ⟨hdi, hri⟩ := h i hi
  obtain ⟨hdj, hrj⟩ := h j hj
  unfold overviewKey at he
  rw [hdi, hdj, timeInterval_eq hv, timeInterval_eq hv] at he
  simp only [Option.map_some, Option.some.injEq, EmbeddingLike.apply_eq_iff_eq, Prod.mk.injEq] at he
  obtain ⟨h1, h2, h3⟩ := he
  have hpos : 0 < δ i := regular_pos hv hri
  obtain ⟨a, la, hla⟩ := List.ne_nil_iff_exists_cons.1 (show timesOf c i ≠ [] by
    intro e; rw [e] at hri; exact absurd hri.1 (by simp))
  obtain ⟨b, lb, hlb⟩ := List.ne_nil_iff_exists_cons.1 (show timesOf c j ≠ [] by
    intro e; rw [e] at hrj; exact absurd hrj.1 (by simp))
  apply regular_determined hpos hri.2 (by rw [h3]; exact hrj.2)
  · rw [hla]; simp
  · rw [hlb]; simp
  · rw [hla, hlb] at h1 ⊢; simpa using h1
  · rw [hla, hlb] at h2 ⊢
    simp only [List.getLastD_eq_getLast?, List.getLast?_cons, Option.getD_some] at h2
    rw [List.getLast?_cons, List.getLast?_cons, h2]

theorem series_group {c : List (Row Int V)} {l : List Nat} (hl : l.Nodup) (i : Nat) :
    series (l.flatMap (fun i => c.filter (fun r => r.id == i))) i = if i ∈ l then series c i else [] := by
  have : (fun i => c.filter (fun r => r.id == i)) = series c := rfl
  rw [this]
  by_cases hi : i ∈ l
  · rw [if_pos hi, series_flatMap hl (series c) (fun j _ r hr => (mem_series.1 hr).2) i, if_pos hi]
  · rw [if_neg hi, series_eq_nil]
    intro hm
    obtain ⟨r, hr, rfl⟩ := List.mem_map.1 hm
    obtain ⟨j, hj, hr⟩ := List.mem_flatMap.1 hr
    exact hi ((mem_series.1 hr).2 ▸ hj)

/-! ### Property theorems -/

/-- The loop with the order of the groups: ascending in (start, end, interval). -/
theorem iter_order {k : TimeKind} {c : List (Row Int V)} (hc : c ≠ []) (hv : Valid c) {δ : Nat → Int} (h : HasDeltas k c δ) {n : Nat} (hn : 1 ≤ n)
    (hlen : ∀ i, HasId c i → n ≤ (series c i).length) :
    ∃ gs, iterReconstruct k c n = .ok gs ∧
      (∀ g ∈ gs, g.1 ≠ [] ∧ Valid g.1 ∧ ∀ i, HasId g.1 i → HasId c i ∧ content g.1 i = (content c i).take n ∧ g.2 = ((content c i).map (·.1)).drop (n - 1)) ∧
      (∀ i, HasId c i → ∃ g ∈ gs, HasId g.1 i) ∧
      gs.Pairwise (fun g g' => ∀ i j, HasId g.1 i → HasId g'.1 j → ∃ ki kj, overviewKey k c i = some ki ∧ overviewKey k c j = some kj ∧ ki < kj) := by
  have hmin := (checkMinTimesteps_iff hc (n : Int)).2 (fun i hi => by exact_mod_cast hlen i hi)
  have hkey : ∀ i ∈ ids c, ∃ key, overviewKey k c i = some key := by
    intro i hi
    unfold overviewKey
    rw [(h i (mem_ids.1 hi)).1]
    exact ⟨_, rfl⟩
  have hany : (ids c).any (fun i => (overviewKey k c i).isNone) = false := by
    rw [List.any_eq_false]
    intro i hi
    obtain ⟨key, hk⟩ := hkey i hi
    simp [hk]
  unfold iterReconstruct
  rw [hmin, hany]
  simp only [Bool.not_true, Bool.false_eq_true, if_false]
  set keys := unique ((ids c).filterMap (overviewKey k c)) with hkeys
  have hmemk : ∀ key, key ∈ keys ↔ ∃ i, HasId c i ∧ overviewKey k c i = some key := by
    intro key
    rw [hkeys, mem_unique, List.mem_filterMap]
    simp only [mem_ids]
  -- one group
  set grp := fun key => (ids c).filter (fun i => overviewKey k c i == some key) with hgrp
  set rows := fun key => (grp key).flatMap (fun i => c.filter (fun r => r.id == i)) with hrows
  have hgm : ∀ key i, i ∈ grp key ↔ HasId c i ∧ overviewKey k c i = some key := by
    intro key i; simp [hgrp, mem_ids]
  have hgnd : ∀ key, (grp key).Nodup := fun key => (ids_nodup c).filter _
  have hser : ∀ key i, series (rows key) i = if i ∈ grp key then series c i else [] := fun key i => series_group (hgnd key) i
  have hid : ∀ key i, HasId (rows key) i ↔ i ∈ grp key := by
    intro key i
    rw [hasId_iff_series, hser]
    constructor
    · intro hne; by_contra hn'; rw [if_neg hn'] at hne; exact hne rfl
    · intro hi; rw [if_pos hi]; exact hasId_iff_series.1 ((hgm key i).1 hi).1
  have hval : ∀ key, Valid (rows key) := by
    intro key
    have := valid_flatMap (hgnd key) (series c) (fun i _ r hr => (mem_series.1 hr).2) (fun i _ => by
      exact hv.series_sorted i)
    exact this
  have htimes : ∀ key i, i ∈ grp key → timeValues (rows key) = (content c i).map (·.1) := by
    intro key i hi
    have hti : ((content c i).map (·.1)) = timesOf c i := by simp [content, timesOf, Function.comp_def]
    rw [hti]
    have hs : (timesOf c i).Pairwise (· < ·) := by unfold timesOf; rw [List.pairwise_map]; exact hv.series_sorted i
    rw [← unique_of_pairwise hs]
    unfold timeValues
    apply unique_congr
    intro t
    constructor
    · intro ht
      obtain ⟨r, hr, rfl⟩ := List.mem_map.1 ht
      obtain ⟨j, hj, hrj⟩ := List.mem_flatMap.1 hr
      have h1 := (hgm key i).1 hi
      have h2 := (hgm key j).1 hj
      rw [overviewKey_inj hv h h1.1 h2.1 (h1.2.trans h2.2.symm)]
      exact List.mem_map.2 ⟨r, hrj, rfl⟩
    · intro ht
      obtain ⟨r, hr, rfl⟩ := List.mem_map.1 ht
      exact List.mem_map.2 ⟨r, List.mem_flatMap.2 ⟨i, hi, hr⟩, rfl⟩
  have hic : ∀ key ∈ keys, ∃ ic, initialStates (rows key) n = .ok ic ∧ Valid ic ∧ (∀ i, HasId ic i ↔ i ∈ grp key) ∧
      ∀ i ∈ grp key, content ic i = (content c i).take n := by
    intro key hk
    obtain ⟨i0, hi0, hk0⟩ := (hmemk key).1 hk
    have hne : rows key ≠ [] := by
      obtain ⟨r, hr, _⟩ := (hid key i0).2 ((hgm key i0).2 ⟨hi0, hk0⟩)
      exact List.ne_nil_of_mem hr
    obtain ⟨ic, h1, h2, h3, h4⟩ := (C06_initial hne (hval key) (n : Int)).1 ⟨by exact_mod_cast hn, by
      intro i hi
      have hi' := (hid key i).1 hi
      rw [hser, if_pos hi']
      exact_mod_cast hlen i ((hgm key i).1 hi').1⟩
    refine ⟨ic, h1, h2, fun i => (h3 i).trans (hid key i), ?_⟩
    intro i hi
    unfold content
    rw [h4, hser, if_pos hi, List.map_take]
    rfl
  choose! ic h1 h2 h3 h4 using hic
  refine ⟨keys.map (fun key => (ic key, (timeValues (rows key)).drop (n - 1))), ?_, ?_, ?_, ?_⟩
  · apply mapM_ok_map
    intro key hk
    show (match initialStates (rows key) (n : Int) with
      | .error e => .error e
      | .ok ic => .ok (ic, (timeValues (rows key)).drop (n - 1)) : Except TscErr (List (Row Int V) × List Int)) = _
    rw [h1 key hk]
  · intro g hg
    obtain ⟨key, hk, rfl⟩ := List.mem_map.1 hg
    refine ⟨?_, h2 key hk, ?_⟩
    · obtain ⟨i0, hi0, hk0⟩ := (hmemk key).1 hk
      obtain ⟨r, hr, _⟩ := (h3 key hk i0).2 ((hgm key i0).2 ⟨hi0, hk0⟩)
      exact List.ne_nil_of_mem hr
    · intro i hi
      have hi' := (h3 key hk i).1 hi
      exact ⟨((hgm key i).1 hi').1, h4 key hk i hi', by rw [htimes key i hi']⟩
  · intro i hi
    obtain ⟨key, hk⟩ := hkey i (mem_ids.2 hi)
    have hkm : key ∈ keys := (hmemk key).2 ⟨i, hi, hk⟩
    exact ⟨_, List.mem_map.2 ⟨key, hkm, rfl⟩, (h3 key hkm i).2 ((hgm key i).2 ⟨hi, hk⟩)⟩
  · rw [List.pairwise_map]
    refine List.Pairwise.imp_of_mem ?_ (unique_pairwise ((ids c).filterMap (overviewKey k c)))
    intro a b ha hb hab i j hi hj
    exact ⟨a, b, ((hgm a i).1 ((h3 a ha i).1 hi)).2, ((hgm b j).1 ((h3 b hb j).1 hj)).2, hab⟩

/-- **C35 / C77 (loop).** For a valid collection of regularly sampled series with at least `n ≥ 1` samples each, the reconstruction loop visits every
series exactly once; the initial condition it hands out for a series are the first `n` samples of that series and the time values are those of the series from the
`n`-th one on. -/
theorem C77_iter {k : TimeKind} {c : List (Row Int V)} (hc : c ≠ []) (hv : Valid c) {δ : Nat → Int} (h : HasDeltas k c δ) {n : Nat} (hn : 1 ≤ n)
    (hlen : ∀ i, HasId c i → n ≤ (series c i).length) :
    ∃ gs, iterReconstruct k c n = .ok gs ∧
      (∀ g ∈ gs, g.1 ≠ [] ∧ Valid g.1 ∧ ∀ i, HasId g.1 i → HasId c i ∧ content g.1 i = (content c i).take n ∧ g.2 = ((content c i).map (·.1)).drop (n - 1)) ∧
      (∀ i, HasId c i → ∃ g ∈ gs, HasId g.1 i) ∧
      gs.Pairwise (fun g g' => ∀ i, HasId g.1 i → ¬ HasId g'.1 i) := by
  obtain ⟨gs, h1, h2, h3, h4⟩ := iter_order hc hv h hn hlen
  refine ⟨gs, h1, h2, h3, h4.imp ?_⟩
  intro g g' hgg i hi hi'
  obtain ⟨ki, kj, e1, e2, hlt⟩ := hgg i i hi hi'
  rw [e1] at e2
  exact absurd (Option.some.inj e2) (ne_of_lt hlt)

/-- **C77 (result).** If `predict` returns, for every initial condition handed out by the loop, a valid collection with the IDs of the initial condition
in which the series of ID `i` is `f i`, then `reconstruct` returns a valid collection with the IDs of `X` and the series of every ID `i` is `f i`: no
prediction ends up under another ID. -/
theorem C77_reconstruct {E : Type} {lift : TscErr → E} {predict : List (Row Int V) → List Int → Except E (List (Row Int W))} {k : TimeKind}
    {c : List (Row Int V)} (hc : c ≠ []) (hv : Valid c) {δ : Nat → Int} (h : HasDeltas k c δ) (f : Nat → List (Int × W))
    (hp : ∀ ic times, ic ≠ [] → Valid ic →
      (∀ i, HasId ic i → HasId c i ∧ content ic i = (content c i).take 1 ∧ times = (content c i).map (·.1)) →
      ∃ d, predict ic times = .ok d ∧ Valid d ∧ (∀ i, HasId d i ↔ HasId ic i) ∧ ∀ i, HasId ic i → content d i = f i) :
    ∃ d, reconstructWith lift predict k c = .ok d ∧ Valid d ∧ (∀ i, HasId d i ↔ HasId c i) ∧ ∀ i, HasId c i → content d i = f i := by
  obtain ⟨gs, hgs, hg, hall, hdis⟩ := C77_iter hc hv h (n := 1) le_rfl (by
    intro i hi; exact List.length_pos_iff.2 (hasId_iff_series.1 hi))
  unfold reconstructWith
  rw [hgs]
  have hex : ∀ g ∈ gs, ∃ d, predict g.1 g.2 = .ok d ∧ Valid d ∧ (∀ i, HasId d i ↔ HasId g.1 i) ∧ ∀ i, HasId g.1 i → content d i = f i := by
    intro g hgm
    obtain ⟨h1, h2, h3⟩ := hg g hgm
    exact hp g.1 g.2 h1 h2 (fun i hi => by simpa using h3 i hi)
  choose! d hd1 hd2 hd3 hd4 using hex
  have hm : gs.mapM (fun g => predict g.1 g.2) = .ok (gs.map d) := mapM_ok_map _ _ _ hd1
  have hval : Valid (gs.map d).flatten ∧ (∀ i, HasId (gs.map d).flatten i ↔ ∃ g ∈ gs, HasId g.1 i) ∧
      ∀ i, (∃ g ∈ gs, HasId g.1 i) → content (gs.map d).flatten i = f i := by
    clear hgs hall hm hg hp
    induction gs with
    | nil => exact ⟨by rw [valid_iff]; simp [newIds], by simp [HasId], by simp⟩
    | cons g gs ih =>
      obtain ⟨e1, e2, e3⟩ := ih hdis.of_cons (fun x hx => hd1 x (by simp [hx])) (fun x hx => hd2 x (by simp [hx])) (fun x hx => hd3 x (by simp [hx]))
        (fun x hx => hd4 x (by simp [hx]))
      have hg0 := hd3 g (by simp)
      have hnot : ∀ i, HasId (d g) i → ¬ HasId (gs.map d).flatten i := by
        intro i hi hi'
        obtain ⟨g', hg', hi'⟩ := (e2 i).1 hi'
        exact List.rel_of_pairwise_cons hdis hg' i ((hg0 i).1 hi) hi'
      rw [List.map_cons, List.flatten_cons]
      refine ⟨valid_append (hd2 g (by simp)) e1 hnot, ?_, ?_⟩
      · intro i
        have : HasId (d g ++ (gs.map d).flatten) i ↔ HasId (d g) i ∨ HasId (gs.map d).flatten i := by
          unfold HasId; simp only [List.mem_append]
          constructor
          · rintro ⟨r, hr | hr, e⟩
            · exact Or.inl ⟨r, hr, e⟩
            · exact Or.inr ⟨r, hr, e⟩
          · rintro (⟨r, hr, e⟩ | ⟨r, hr, e⟩)
            · exact ⟨r, Or.inl hr, e⟩
            · exact ⟨r, Or.inr hr, e⟩
        rw [this, hg0, e2]; simp
      · rintro i ⟨g', hg', hi⟩
        unfold content
        rw [series_append, List.map_append]
        change content (d g) i ++ content (gs.map d).flatten i = f i
        rcases List.mem_cons.1 hg' with rfl | hg'
        · have hn : content (gs.map d).flatten i = [] := by
            have : series (gs.map d).flatten i = [] := by
              by_contra hne
              exact hnot i ((hg0 i).2 hi) (hasId_iff_series.2 hne)
            simp [content, this]
          rw [hn, List.append_nil]
          exact hd4 g' (by simp) i hi
        · have hn : content (d g) i = [] := by
            have : series (d g) i = [] := by
              by_contra hne
              exact hnot i (hasId_iff_series.2 hne) ((e2 i).2 ⟨g', hg', hi⟩)
            simp [content, this]
          rw [hn, List.nil_append]
          exact e3 i ⟨g', hg', hi⟩
  obtain ⟨v1, v2, v3⟩ := hval
  have hiff : ∀ i, (∃ g ∈ gs, HasId g.1 i) ↔ HasId c i := by
    intro i
    constructor
    · rintro ⟨g, hgm, hi⟩; exact ((hg g hgm).2.2 i hi).1
    · exact hall i
  have hne : (gs.map d).flatten ≠ [] := by
    obtain ⟨r, l, rfl⟩ := List.ne_nil_iff_exists_cons.1 hc
    obtain ⟨x, hx, _⟩ := (v2 r.id).2 ((hiff r.id).2 ⟨r, by simp, rfl⟩)
    exact List.ne_nil_of_mem hx
  refine ⟨(gs.map d).flatten, ?_, v1, fun i => (v2 i).trans (hiff i), fun i hi => v3 i ((hiff i).2 hi)⟩
  simp only [hm]
  rw [build_ok_of_valid v1 hne]

end Verif.Tsc
