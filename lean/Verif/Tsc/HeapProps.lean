import Verif.Tsc.Heap
import Verif.Tsc.ConstDeltaProps
import Verif.Tsc.TrainTestProps
import Verif.Tsc.SelectProps
import Verif.Tsc.TimeOpsProps
import Verif.Tsc.FramesProps
import Verif.Tsc.OrientProps
import Verif.Edmd.ReconstructLemmas
/-!
# C218 and C219: histories of operations on collections, shifts per time series
-/

namespace Verif.Tsc

open Verif.Np

variable {V : Type}

/-! ### Specification -/

/-- What a user relies on for every collection at every time: it has samples, is valid, and time values that are not datetimes are not negative. -/
structure GoodObj (o : Obj V) : Prop where
  nonempty : o.rows ≠ []
  valid : Valid o.rows
  nonneg : o.kind = .int → ∀ r ∈ o.rows, 0 ≤ r.time

/-- The documentation of a call names the object `x` as the one it works on in place, or passes it to `insert_ts`. -/
def Touches (x : Nat) (s : Nat × Call V) : Prop :=
  match s.2 with
  | .query _ => False
  | .insert b _ => x = b
  | _ => x = s.1

/-! ### Helper lemmas -/

theorem GoodObj.mk' {k : TimeKind} {c d : List (Row Int V)} (h : GoodObj ⟨k, c⟩) {e : List (Row Int V)} (hb : build e = .ok d) (hs : ∀ r ∈ e, ∃ q ∈ c, q.time = r.time) : GoodObj (⟨k, d⟩ : Obj V) := by
  obtain ⟨rfl, hne, hv⟩ := build_ok_iff.1 hb
  exact ⟨hne, hv, fun hk r hr => by obtain ⟨q, hq, e⟩ := hs r hr; exact e ▸ h.nonneg hk q hq⟩

theorem GoodObj.of_buildInt {k : TimeKind} {c d : List (Row Int V)} (hb : buildInt k c = .ok d) : GoodObj (⟨k, d⟩ : Obj V) := by
  unfold buildInt at hb
  split at hb
  · cases hb
  · rename_i hn
    obtain ⟨rfl, hne, hv⟩ := build_ok_iff.1 hb
    refine ⟨hne, hv, fun hk r hr => ?_⟩
    by_contra hlt
    exact hn ⟨hk, List.any_eq_true.2 ⟨r, hr, by simpa using hlt⟩⟩

theorem groupHead_subset {τ V : Type} (n : Nat) (c : List (Row τ V)) (seen : List Nat) : ∀ r ∈ groupHead n seen c, r ∈ c := by
  induction c generalizing seen with
  | nil => intro r hr; simp [groupHead] at hr
  | cons a c ih =>
    intro r hr
    simp only [groupHead] at hr
    split at hr
    · rcases List.mem_cons.1 hr with rfl | hr
      · exact List.mem_cons_self
      · exact List.mem_cons_of_mem _ (ih _ r hr)
    · exact List.mem_cons_of_mem _ (ih _ r hr)

theorem groupTail_subset {τ V : Type} (n : Nat) (c : List (Row τ V)) : ∀ r ∈ groupTail n c, r ∈ c := by
  induction c with
  | nil => intro r hr; simp [groupTail] at hr
  | cons a c ih =>
    intro r hr
    simp only [groupTail] at hr
    split at hr
    · rcases List.mem_cons.1 hr with rfl | hr
      · exact List.mem_cons_self
      · exact List.mem_cons_of_mem _ (ih r hr)
    · exact List.mem_cons_of_mem _ (ih r hr)

theorem toOption_eq_some {ε α : Type} {x : Except ε α} {a : α} (h : x.toOption = some a) : x = .ok a := by
  cases x with
  | error e => cases h
  | ok b => cases h; rfl

theorem selBuild_good {k : TimeKind} {c rows : List (Row Int V)} (h : GoodObj ⟨k, c⟩) {s : Selected Int V} (hs : selBuild rows = .ok s) (hm : ∀ r ∈ rows, r ∈ c) :
    ∀ d ∈ s.tsc?.toList, GoodObj (⟨k, d⟩ : Obj V) := by
  obtain ⟨rfl, hne, hv⟩ := selBuild_ok.1 hs
  intro d hd
  simp only [Selected.tsc?, Option.toList_some, List.mem_singleton] at hd
  subst hd
  exact ⟨hne, hv, fun hk r hr => h.nonneg hk r (hm r hr)⟩

theorem mapM_mem {ε α β : Type} (f : α → Except ε β) (p : β → Prop) (hf : ∀ a b, f a = .ok b → p b) (l : List α) : ∀ r, l.mapM f = .ok r → ∀ b ∈ r, p b := by
  induction l with
  | nil => intro r h b hb; rw [List.mapM_nil] at h; cases h; cases hb
  | cons a l ih =>
    intro r h b hb
    rw [List.mapM_cons] at h
    cases ha : f a with
    | error e => rw [ha] at h; cases h
    | ok x =>
      cases hl : l.mapM f with
      | error e => rw [ha, hl] at h; cases h
      | ok y =>
        rw [ha, hl] at h; cases h
        rcases List.mem_cons.1 hb with rfl | hb
        · exact hf _ _ ha
        · exact ih y hl b hb

theorem rowAt_mem {c : List (Row Int V)} {k : Key Int} {r : Row Int V} (h : rowAt c k = .ok r) : r ∈ c := by
  unfold rowAt at h
  cases hf : c.find? (fun r => decide (r.key = k)) with
  | none => rw [hf] at h; cases h
  | some x => rw [hf] at h; cases h; exact List.mem_of_find?_eq_some hf

theorem rowPos_mem {c : List (Row Int V)} {p : Int} {r : Row Int V} (h : rowPos c p = .ok r) : r ∈ c := by
  unfold rowPos at h
  split at h
  · cases h
  · cases hf : c[(if p < 0 then p + c.length else p).toNat]? with
    | none => rw [hf] at h; cases h
    | some x => rw [hf] at h; cases h; exact List.mem_of_getElem? hf

theorem delta_pos' {k : TimeKind} {c : List (Row Int V)} (hc : c ≠ []) (hv : Valid c) {d : Int} (hd : deltaTime k c = .one (some d)) : 0 < d := by
  obtain ⟨order, hperm, -, hdts⟩ := dts_eq hc hv
  unfold deltaTime at hd
  split at hd
  · rw [hdts] at hd
    match horder : order with
    | [] => simp at hd
    | i :: t =>
      simp only [List.map_cons, List.headD_cons, PerId.one.injEq] at hd
      exact regular_pos hv ((rowDelta_iff _ d).1 hd)
  · simp at hd

theorem constDelta_ne_nil {k : TimeKind} {drop : Bool} {c r : List (Row Int V)} (h : assignIdsConstDelta k drop c = .ok (some r)) : r ≠ [] := by
  unfold assignIdsConstDelta at h
  split at h
  · cases h
  · cases h
  · split at h
    · cases h
    · rename_i d hd
      split at h
      · cases h
      · rename_i e he
        cases h
        obtain ⟨rfl, hne, -⟩ := build_ok_iff.1 he
        exact hne

/-- A query returns good collections. -/
theorem query_good {o : Obj V} (h : GoodObj o) (q : Query V) {l : List (List (Row Int V))} (hq : query o q = some l) : ∀ c ∈ l, GoodObj (⟨o.kind, c⟩ : Obj V) := by
  obtain ⟨k, c⟩ := o
  have one : ∀ {x : Except TscErr (List (Row Int V))}, x.toOption.map ([·]) = some l → (∀ d, x = .ok d → GoodObj (⟨k, d⟩ : Obj V)) → ∀ c ∈ l, GoodObj (⟨k, c⟩ : Obj V) := by
    intro x hx hd d hm
    obtain ⟨y, hy, rfl⟩ := Option.map_eq_some_iff.1 hx
    obtain rfl := List.mem_singleton.1 hm
    exact hd _ (toOption_eq_some hy)
  have two : ∀ {x : Except TscErr (List (Row Int V))}, x.toOption.bind (fun d => (buildInt k d).toOption.map ([·])) = some l → ∀ c ∈ l, GoodObj (⟨k, c⟩ : Obj V) := by
    intro x hx d hm
    obtain ⟨y, -, hy⟩ := Option.bind_eq_some_iff.1 hx
    obtain ⟨z, hz, rfl⟩ := Option.map_eq_some_iff.1 hy
    obtain rfl := List.mem_singleton.1 hm
    exact GoodObj.of_buildInt (toOption_eq_some hz)
  cases q with
  | initial n =>
    refine one hq (fun d hd => ?_)
    unfold initialStates at hd
    split at hd
    · cases hd
    · split at hd
      · cases hd
      · exact h.mk' hd (fun r hr => ⟨r, groupHead_subset _ _ _ r hr, rfl⟩)
  | final n =>
    refine one hq (fun d hd => ?_)
    unfold finalStates at hd
    split at hd
    · cases hd
    · split at hd
      · cases hd
      · exact h.mk' hd (fun r hr => ⟨r, groupTail_subset _ _ r hr, rfl⟩)
  | dropLast n =>
    refine one hq (fun d hd => ?_)
    unfold dropLastInt at hd
    split at hd
    · cases hd
    · exact h.mk' hd (fun r hr => ⟨r, (List.mem_filter.1 hr).1, rfl⟩)
  | constDelta drop =>
    obtain ⟨y, hy, rfl⟩ := Option.map_eq_some_iff.1 hq
    have hy := toOption_eq_some hy
    intro d hd
    cases y with
    | none => cases hd
    | some r =>
      simp only [Option.toList_some, List.mem_singleton] at hd
      subst hd
      obtain ⟨hv, -, -, hs, -⟩ := C17_const_delta k drop h.valid hy
      refine ⟨?_, hv, fun hk q hq => ?_⟩
      · exact constDelta_ne_nil hy
      · have := hs.subset (List.mem_map.2 ⟨q, hq, rfl⟩)
        obtain ⟨i, -, hi⟩ := List.mem_flatMap.1 this
        obtain ⟨r, hr, e⟩ := List.mem_map.1 hi
        have h1 := h.nonneg hk r (List.mem_filter.1 hr).1
        have h2 : r.time = q.time := (Prod.ext_iff.1 e).1
        exact h2 ▸ h1
  | trainTest train test =>
    obtain ⟨⟨A, B⟩, hy, rfl⟩ := Option.map_eq_some_iff.1 hq
    have hy := toOption_eq_some hy
    obtain ⟨hA, hB, ν, eA, lA, eB, lB, -, -⟩ := C16_train_test h.valid hy
    obtain ⟨-, -, -, -, hne1, hne2⟩ := (C16_accepts h.valid train test).1 ⟨_, hy⟩
    have key : ∀ (X : List (Row Int V)) (fold : List Nat), X = fold.filterMap (fun i => (c[i]?).map (fun r => { r with id := ν i })) → ∀ r ∈ X, k = .int → 0 ≤ r.time := by
      rintro X fold rfl r hr hk
      obtain ⟨i, -, hi⟩ := List.mem_filterMap.1 hr
      obtain ⟨q, hq, rfl⟩ := Option.map_eq_some_iff.1 hi
      exact h.nonneg hk q (List.mem_of_getElem? hq)
    intro d hd
    rcases List.mem_cons.1 hd with rfl | hd
    · exact ⟨fun e => hne1 (List.eq_nil_of_length_eq_zero (by rw [← lA]; exact congrArg List.length e)), hA, fun hk r hr => key _ _ eA r hr hk⟩
    · obtain rfl := List.mem_singleton.1 hd
      exact ⟨fun e => hne2 (List.eq_nil_of_length_eq_zero (by rw [← lB]; exact congrArg List.length e)), hB, fun hk r hr => key _ _ eB r hr hk⟩
  | loc keys =>
    obtain ⟨s, hs, rfl⟩ := Option.map_eq_some_iff.1 hq
    have hs := toOption_eq_some hs
    unfold locIndex at hs
    cases hm : keys.mapM (rowAt c) with
    | error e => dsimp only at hs; rw [hm] at hs; cases hs
    | ok rows =>
      dsimp only at hs
      rw [hm] at hs
      exact selBuild_good h hs (mapM_mem _ (fun r => r ∈ c) (fun _ _ => rowAt_mem) _ _ hm)
  | mask m =>
    obtain ⟨s, hs, rfl⟩ := Option.map_eq_some_iff.1 hq
    have hs := toOption_eq_some hs
    unfold getMask at hs
    split at hs
    · cases hs
    · refine selBuild_good h hs ?_
      intro r hr
      obtain ⟨p, hp, rfl⟩ := List.mem_map.1 hr
      exact (List.of_mem_zip (List.mem_filter.1 hp).1).1
  | iloc pos =>
    obtain ⟨s, hs, rfl⟩ := Option.map_eq_some_iff.1 hq
    have hs := toOption_eq_some hs
    unfold ilocList at hs
    cases hm : pos.mapM (rowPos c) with
    | error e => dsimp only at hs; rw [hm] at hs; cases hs
    | ok rows =>
      dsimp only at hs
      rw [hm] at hs
      exact selBuild_good h hs (mapM_mem _ (fun r => r ∈ c) (fun _ _ => rowPos_mem) _ _ hm)
  | expand times v => exact two hq
  | fill n =>
    simp only [query] at hq
    split at hq
    · exact two hq
    · cases hq
  | insertPlain df tsId => exact two hq

theorem minTime_le' {c : List (Row Int V)} (hc : c ≠ []) : ∀ r ∈ c, minTime c ≤ r.time := fun r hr => ((timeValues_bounds hc).1 r hr).1

/-- A call in place leaves a good collection. -/
theorem inPlace_good {o : Obj V} (h : GoodObj o) (call : Call V) : GoodObj (inPlace o call).2 := by
  obtain ⟨k, c⟩ := o
  cases call with
  | query q => exact h
  | insert b t => exact h
  | sequential =>
    simp only [inPlace]
    split
    · rename_i d hd
      refine h.mk' hd (fun r hr => ?_)
      obtain ⟨q, hq, rfl⟩ := List.mem_map.1 hr
      exact ⟨q, hq, rfl⟩
    · exact h
  | normalize =>
    simp only [inPlace, normalizeObj]
    split
    · rename_i d hd
      split
      · exact h
      · rename_i c' hc'
        obtain ⟨rfl, hne, hv⟩ := build_ok_iff.1 hc'
        refine ⟨hne, hv, fun _ r hr => ?_⟩
        obtain ⟨q, hq, rfl⟩ := List.mem_map.1 hr
        have h1 := minTime_le' h.nonempty q hq
        have h2 : 0 < d := delta_pos' h.nonempty h.valid hd
        exact Int.ediv_nonneg (by dsimp only at h1 ⊢; omega) h2.le
    · exact h
  | shift s =>
    simp only [inPlace, shiftTime]
    split
    · exact h
    · split
      · rename_i d hd; exact GoodObj.of_buildInt hd
      · exact h
  | shiftSeries l =>
    simp only [inPlace, shiftSeries]
    split
    · exact h
    · split
      · exact h
      · split
        · rename_i d hd; exact GoodObj.of_buildInt hd
        · exact h


theorem insert_good {h : Heap V} (hg : ∀ o ∈ h, GoodObj o) {a b : Nat} {o p : Obj V} (ho : h[a]? = some o) (hp : h[b]? = some p) (tsId : Option Int) :
    ∀ x ∈ (insertObj h a b o p tsId).1, GoodObj x := by
  have go := hg o (List.mem_of_getElem? ho)
  have gp := hg p (List.mem_of_getElem? hp)
  unfold insertObj
  split
  · exact hg
  · rename_i hk
    rw [not_not] at hk
    split
    · exact hg
    · split
      · exact hg
      · split
        · exact hg
        · rename_i d hd
          have gd : GoodObj (⟨p.kind, d⟩ : Obj V) := by
            refine GoodObj.mk' (c := p.rows) gp hd (fun r hr => ?_)
            obtain ⟨q, hq, rfl⟩ := List.mem_map.1 hr
            exact ⟨q, hq, rfl⟩
          have hset : ∀ x ∈ h.set b ⟨p.kind, d⟩, GoodObj x := by
            intro x hx
            rcases List.mem_or_eq_of_mem_set hx with hx | rfl
            · exact hg x hx
            · exact gd
          split
          · exact hset
          · rename_i e he
            intro x hx
            rcases List.mem_append.1 hx with hx | hx
            · exact hset x hx
            · obtain rfl := List.mem_singleton.1 hx
              obtain ⟨rfl, hne, hv⟩ := build_ok_iff.1 he
              refine ⟨hne, hv, fun hk' r hr => ?_⟩
              rcases List.mem_append.1 hr with hr | hr
              · split at hr
                · exact gd.nonneg (hk ▸ hk') r hr
                · exact go.nonneg hk' r hr
              · exact gd.nonneg (hk ▸ hk') r hr

theorem step_good {h : Heap V} (hg : ∀ o ∈ h, GoodObj o) (a : Nat) (call : Call V) : ∀ o ∈ (step h a call).1, GoodObj o := by
  unfold step
  cases ho : h[a]? with
  | none => exact hg
  | some o =>
    have go := hg o (List.mem_of_getElem? ho)
    have hin : ∀ c : Call V, ∀ x ∈ h.set a (inPlace o c).2, GoodObj x := by
      intro c x hx
      rcases List.mem_or_eq_of_mem_set hx with hx | rfl
      · exact hg x hx
      · exact inPlace_good go c
    cases call with
    | query q =>
      dsimp only
      cases hq : query o q with
      | none => exact hg
      | some l =>
        intro x hx
        rcases List.mem_append.1 hx with hx | hx
        · exact hg x hx
        · obtain ⟨c, hc, rfl⟩ := List.mem_map.1 hx
          exact query_good go q hq c hc
    | insert b t =>
      dsimp only
      cases hp : h[b]? with
      | none => exact hg
      | some p => exact insert_good hg ho hp t
    | sequential => exact hin _
    | normalize => exact hin _
    | shift s => exact hin _
    | shiftSeries l => exact hin _

theorem step_frame (h : Heap V) (s : Nat × Call V) {x : Nat} (hx : x < h.length) (hn : ¬ Touches x s) : (step h s.1 s.2).1[x]? = h[x]? := by
  obtain ⟨a, call⟩ := s
  unfold step
  dsimp only
  cases ho : h[a]? with
  | none => rfl
  | some o =>
    have hin : ∀ c : Call V, ¬ x = a → (h.set a (inPlace o c).2)[x]? = h[x]? := by
      intro c hne
      rw [List.getElem?_set_ne (fun e => hne e.symm)]
    cases call with
    | query q =>
      dsimp only
      cases hq : query o q with
      | none => rfl
      | some l => exact List.getElem?_append_left hx
    | insert b t =>
      dsimp only
      have hne : ¬ b = x := fun e => hn e.symm
      cases hp : h[b]? with
      | none => rfl
      | some p =>
        dsimp only
        unfold insertObj
        split
        · rfl
        · split
          · rfl
          · split
            · rfl
            · split
              · rfl
              · split
                · rw [List.getElem?_set_ne hne]
                · rw [List.getElem?_append_left (by simpa using hx), List.getElem?_set_ne hne]
    | sequential => exact hin _ hn
    | normalize => exact hin _ hn
    | shift s => exact hin _ hn
    | shiftSeries l => exact hin _ hn

theorem step_length (h : Heap V) (s : Nat × Call V) : h.length ≤ (step h s.1 s.2).1.length := by
  obtain ⟨a, call⟩ := s
  unfold step
  dsimp only
  cases ho : h[a]? with
  | none => exact le_rfl
  | some o =>
    cases call with
    | query q =>
      dsimp only
      cases hq : query o q with
      | none => exact le_rfl
      | some l => simp
    | insert b t =>
      dsimp only
      cases hp : h[b]? with
      | none => exact le_rfl
      | some p =>
        dsimp only
        unfold insertObj
        split
        · exact le_rfl
        · split
          · exact le_rfl
          · split
            · exact le_rfl
            · split
              · exact le_rfl
              · split <;> simp
    | sequential => simp
    | normalize => simp
    | shift s => simp
    | shiftSeries l => simp

/-! ### Properties -/

/-- **C218** all histories: whatever is called on whatever collection, in whatever order and with whatever arguments, and however many calls raise: every collection the user holds has samples, is valid and
has no negative integer time values. -/
theorem C218_valid (h : Heap V) (hg : ∀ o ∈ h, GoodObj o) (calls : List (Nat × Call V)) : ∀ o ∈ run h calls, GoodObj o := by
  induction calls generalizing h with
  | nil => exact hg
  | cons s l ih => exact ih _ (step_good hg s.1 s.2)

/-- **C218** all histories: a collection changes only by a method that works in place on it, or when it is the argument of `insert_ts`. In particular the returned collections of `initial_states`, `loc`, ...
do not change when the collection they were taken from is changed, and the other way round. -/
theorem C218_frame_partial (h : Heap V) (calls : List (Nat × Call V)) {x : Nat} (hx : x < h.length) (hn : ∀ s ∈ calls, ¬ Touches x s) : (run h calls)[x]? = h[x]? := by
  induction calls generalizing h with
  | nil => rfl
  | cons s l ih =>
    have h1 := step_frame h s hx (hn s List.mem_cons_self)
    rw [← h1]
    exact ih _ (lt_of_lt_of_le hx (step_length h s)) (fun t ht => hn t (List.mem_cons_of_mem _ ht))

/-- Non-vacuity: a good collection with two time series; after taking the initial states and a shift in place, all three hold. -/
def heapEx : Heap Nat := [⟨.int, [⟨0, 0, 1⟩, ⟨0, 1, 2⟩, ⟨1, 0, 3⟩, ⟨1, 1, 4⟩]⟩]

theorem heapEx_good : ∀ o ∈ heapEx, GoodObj o := by
  intro o ho
  obtain rfl := List.mem_singleton.1 ho
  exact ⟨by simp, (valid_iff _).2 ⟨by decide, by unfold Before; decide +kernel⟩, by intro _ r hr; revert r; decide⟩

example : (run heapEx [(0, .query (.initial 1)), (0, .shift 3)]).map (·.rows) = [[⟨0, 3, 1⟩, ⟨0, 4, 2⟩, ⟨1, 3, 3⟩, ⟨1, 4, 4⟩], [⟨0, 0, 1⟩, ⟨1, 0, 3⟩]] := by decide +kernel

/-- **C218** the returned collections of a query and of `insert_ts` are new objects. -/
theorem C218_new (h : Heap V) (a : Nat) (call : Call V) (hc : (∃ q, call = .query q) ∨ ∃ b t, call = .insert b t) {l : List Nat} (hl : (step h a call).2 = some l) :
    ∀ x ∈ l, h.length ≤ x ∧ x < (step h a call).1.length := by
  unfold step at hl ⊢
  cases ho : h[a]? with
  | none => rw [ho] at hl; cases hl
  | some o =>
    rw [ho] at hl
    rcases hc with ⟨q, rfl⟩ | ⟨b, t, rfl⟩
    · dsimp only at hl ⊢
      cases hq : query o q with
      | none => rw [hq] at hl; cases hl
      | some r =>
        rw [hq] at hl
        cases hl
        intro x hx
        obtain ⟨i, hi, rfl⟩ := List.mem_map.1 hx
        have := List.mem_range.1 hi
        simp only [List.length_append, List.length_map]
        omega
    · dsimp only at hl ⊢
      cases hp : h[b]? with
      | none => rw [hp] at hl; cases hl
      | some p =>
        rw [hp] at hl
        dsimp only at hl ⊢
        unfold insertObj at hl ⊢
        split at hl
        · cases hl
        · rename_i h1
          split at hl
          · cases hl
          · rename_i h2
            split at hl
            · cases hl
            · rename_i h3
              rw [if_neg h1, if_neg h2, if_neg h3]
              split at hl
              · cases hl
              · rename_i d hd
                split at hl
                · cases hl
                · rename_i e he
                  cases hl
                  intro x hx
                  obtain rfl := List.mem_singleton.1 hx
                  simp

/-- **C218** `a.insert_ts(b)` for two different collections: the returned collection is a new object with the rows of `a` and the samples of `b` under an ID that `a` does not have (the given one), and `a` stays. -/
theorem C218_insert {h : Heap V} {a b : Nat} (hab : a ≠ b) {o p : Obj V} (ho : h[a]? = some o) (hp : h[b]? = some p) (tsId : Option Int) {l : List Nat} (hl : (step h a (.insert b tsId)).2 = some l) :
    ∃ i : Nat, ¬ HasId o.rows i ∧ (∀ k, tsId = some k → (i : Int) = k) ∧ o.kind = p.kind ∧ l = [h.length] ∧ (step h a (.insert b tsId)).1[a]? = some o ∧
      (step h a (.insert b tsId)).1[h.length]? = some ⟨o.kind, o.rows ++ p.rows.map (fun r => ⟨i, r.time, r.val⟩)⟩ := by
  have ha : a < h.length := (List.getElem?_eq_some_iff.1 ho).1
  unfold step at hl ⊢
  rw [ho] at hl ⊢
  dsimp only at hl ⊢
  rw [hp] at hl ⊢
  dsimp only at hl ⊢
  unfold insertObj at hl ⊢
  by_cases h1 : o.kind ≠ p.kind
  · rw [if_pos h1] at hl; cases hl
  rw [if_neg h1] at hl ⊢
  by_cases h2 : (ids o.rows).any (fun j => (j : Int) == insertId o.rows tsId) = true
  · rw [if_pos h2] at hl; cases hl
  rw [if_neg h2] at hl ⊢
  by_cases h3 : insertId o.rows tsId < 0
  · rw [if_pos h3] at hl; cases hl
  rw [if_neg h3] at hl ⊢
  cases h4 : build (p.rows.map (fun r => ({ r with id := (insertId o.rows tsId).toNat } : Row Int V))) with
  | error e => rw [h4] at hl; cases hl
  | ok d =>
    rw [h4] at hl
    dsimp only at hl ⊢
    rw [if_neg hab] at hl ⊢
    cases h5 : build (o.rows ++ d) with
    | error e => rw [h5] at hl; cases hl
    | ok c =>
      rw [h5] at hl
      dsimp only at hl ⊢
      cases hl
      have ed := (build_ok_iff.1 h4).1
      have ec := (build_ok_iff.1 h5).1
      refine ⟨(insertId o.rows tsId).toNat, ?_, ?_, by simpa using h1, rfl, ?_, ?_⟩
      · intro hi
        apply h2
        rw [List.any_eq_true]
        exact ⟨_, mem_ids.2 hi, by simp only [beq_iff_eq]; omega⟩
      · rintro k rfl
        simp only [insertId, Option.getD_some] at h3 ⊢
        omega
      · rw [List.getElem?_append_left (by simpa using ha), List.getElem?_set_ne (Ne.symm hab), ho]
      · rw [List.getElem?_append_right (by simp)]
        simp [← ec, ← ed]

/-- Non-vacuity: a second collection is inserted with the ID 7. -/
example : (step (heapEx ++ [⟨.int, [⟨0, 5, 8⟩]⟩]) 0 (.insert 1 (some 7))).2 = some [2] ∧
    ((step (heapEx ++ [⟨.int, [⟨0, 5, 8⟩]⟩]) 0 (.insert 1 (some 7))).1.map (·.rows))[2]? = some [⟨0, 0, 1⟩, ⟨0, 1, 2⟩, ⟨1, 0, 3⟩, ⟨1, 1, 4⟩, ⟨7, 5, 8⟩] := by decide +kernel

/-- **C218** is violated: `shift_time_by_delta` returns the collection itself. If `Y = X.tsc.shift_time_by_delta(s)` and a further shift of `Y` is accepted, then `X` is shifted by both. -/
theorem C218_alias_violated (h : Heap V) (hg : ∀ o ∈ h, GoodObj o) {a : Nat} {o : Obj V} (ho : h[a]? = some o) {s t : Int} {y : Nat} (hs : (step h a (.shift s)).2 = some [y])
    {z : Nat} (ht : (step (step h a (.shift s)).1 y (.shift t)).2 = some [z]) :
    y = a ∧ z = a ∧ ((run h [(a, .shift s), (y, .shift t)])[a]?).map (fun o => o.rows) = some (o.rows.map (fun r => ⟨r.id, r.time + (s + t), r.val⟩)) := by
  have one : ∀ (h : Heap V), (∀ o ∈ h, GoodObj o) → ∀ {o : Obj V}, h[a]? = some o → ∀ {s : Int} {y : Nat}, (step h a (.shift s)).2 = some [y] →
      y = a ∧ (step h a (.shift s)).1[a]? = some ⟨o.kind, movedTime s o.rows⟩ := by
    intro h hg o ho s y hs
    have go := hg o (List.mem_of_getElem? ho)
    have ha : a < h.length := (List.getElem?_eq_some_iff.1 ho).1
    unfold step at hs ⊢
    rw [ho] at hs ⊢
    dsimp only at hs ⊢
    by_cases hok : (inPlace o (.shift s)).1 = true
    · rw [if_pos hok] at hs
      cases hs
      refine ⟨rfl, ?_⟩
      simp only [inPlace] at hok ⊢
      rw [List.getElem?_set_self ha]
      cases hsh : (shiftTime o.kind o.rows s).1 with
      | error e => rw [hsh] at hok; cases hok
      | ok d =>
        obtain ⟨rfl, -⟩ := (C119_shift_partial go.nonempty go.valid o.kind go.nonneg s).2 d hsh
        by_cases h0 : s = 0
        · subst h0
          have : movedTime 0 o.rows = o.rows := by simp [movedTime]
          simp [shiftTime, this]
        · rw [(C119_argument_violated go.nonempty go.valid o.kind go.nonneg h0 hsh).1]
    · rw [if_neg hok] at hs
      cases hs
  obtain ⟨rfl, h1⟩ := one h hg ho hs
  obtain ⟨rfl, h2⟩ := one _ (step_good hg y _) h1 ht
  refine ⟨rfl, rfl, ?_⟩
  change ((step (step h z (.shift s)).1 z (.shift t)).1[z]?).map _ = _
  rw [h2]
  simp [movedTime, add_assoc]

/-- Non-vacuity: two shifts of the example. -/
example : (step heapEx 0 (.shift 3)).2 = some [0] ∧ (step (step heapEx 0 (.shift 3)).1 0 (.shift 4)).2 = some [0] := by decide +kernel

/-- **C218** is violated: `X.insert_ts(X)` always raises; if the time values of `X` increase from row to row (a single time series), then `X` has the ID of the new time series afterwards, although the call
raised. -/
theorem C218_self_violated (h : Heap V) (hg : ∀ o ∈ h, GoodObj o) {a : Nat} {o : Obj V} (ho : h[a]? = some o) (tsId : Option Int) :
    (step h a (.insert a tsId)).2 = none ∧
    (o.rows.Pairwise (fun r q => r.time < q.time) → ∀ i : Nat, (tsId = some (i : Int) ∨ (tsId = none ∧ i = (ids o.rows).foldl max 0 + 1)) → ¬ HasId o.rows i →
      ((step h a (.insert a tsId)).1[a]?).map (fun o => o.rows) = some (o.rows.map (fun r => ⟨i, r.time, r.val⟩))) := by
  have go := hg o (List.mem_of_getElem? ho)
  have ha : a < h.length := (List.getElem?_eq_some_iff.1 ho).1
  have hdup : ∀ d : List (Row Int V), d ≠ [] → ∀ e, build (d ++ d) ≠ .ok e := by
    intro d hd e he
    obtain ⟨-, -, hv⟩ := build_ok_iff.1 he
    have := nodup_keys_of_pairwise _ ((valid_iff _).1 hv).2
    rw [List.map_append, List.nodup_append'] at this
    obtain ⟨r, t, rfl⟩ := List.ne_nil_iff_exists_cons.1 hd
    exact this.2.2 List.mem_cons_self List.mem_cons_self
  constructor
  · unfold step
    rw [ho]
    dsimp only
    rw [ho]
    dsimp only
    unfold insertObj
    split
    · rfl
    · split
      · rfl
      · split
        · rfl
        · split
          · rfl
          · rename_i d hd
            obtain ⟨rfl, hne, -⟩ := build_ok_iff.1 hd
            rw [if_pos rfl]
            split
            · rfl
            · rename_i e he
              exact absurd he (hdup _ hne e)
  · intro hp i hi hni
    have hid : insertId o.rows tsId = (i : Int) := by
      rcases hi with rfl | ⟨rfl, rfl⟩
      · rfl
      · simp [insertId]
    have hv : Valid (o.rows.map (fun r => ({ r with id := i } : Row Int V))) := by
      rw [valid_single (i := i) (by intro r hr; obtain ⟨q, -, rfl⟩ := List.mem_map.1 hr; rfl), List.pairwise_map]
      exact hp
    have hne : o.rows.map (fun r => ({ r with id := i } : Row Int V)) ≠ [] := by simpa using go.nonempty
    unfold step
    rw [ho]
    dsimp only
    rw [ho]
    dsimp only
    unfold insertObj
    rw [hid, if_neg (by simp), if_neg, if_neg (by omega), Int.toNat_natCast, build_ok_of_valid hv hne]
    · dsimp only
      rw [if_pos rfl]
      split
      · rw [List.getElem?_set_self ha]; rfl
      · rename_i e he
        exact absurd he (hdup _ hne e)
    · intro hany
      obtain ⟨j, hj, e⟩ := List.any_eq_true.1 hany
      have : j = i := by simpa using e
      exact hni (this ▸ mem_ids.1 hj)

/-- Non-vacuity: one time series with ID 0 has ID 1 after the refused call. -/
example : (step ([⟨.int, [⟨0, 0, 1⟩, ⟨0, 1, 2⟩]⟩] : Heap Nat) 0 (.insert 0 none)).1.map (·.rows) = [[⟨1, 0, 1⟩, ⟨1, 1, 2⟩]] := by decide +kernel

/-- **C218** is violated: `normalize_time` may raise after it has changed the time values of the collection (the intervals `10¹²` and `10¹² + 1` count as equal, the assertion fails after the index was assigned). -/
theorem C218_refused_violated : ∃ (h : Heap Nat), (∀ o ∈ h, GoodObj o) ∧ (step h 0 .normalize).2 = none ∧ (step h 0 .normalize).1.map (·.rows) ≠ h.map (·.rows) := by
  refine ⟨[⟨.int, [⟨0, 0, 0⟩, ⟨0, 1000000000000, 0⟩, ⟨1, 999999999999, 0⟩, ⟨1, 2000000000000, 0⟩]⟩], ?_, by decide +kernel, by decide +kernel⟩
  intro o ho
  obtain rfl := List.mem_singleton.1 ho
  exact ⟨by simp, (valid_iff _).2 ⟨by decide, by unfold Before; decide +kernel⟩, by intro _ r hr; revert r; decide⟩

/-! ### C219: shifts per time series -/

/-- Specification: every time series is moved by its own amount. -/
def movedSeries (v : Nat → Int) (c : List (Row Int V)) : List (Row Int V) := c.map (fun r => ⟨r.id, r.time + v r.id, r.val⟩)

theorem movedSeries_valid {c : List (Row Int V)} (hv : Valid c) (v : Nat → Int) : Valid (movedSeries v c) := by
  refine ⟨by simpa [movedSeries, Function.comp_def] using hv.contiguous, fun i j hij hj h => ?_⟩
  simp only [movedSeries, List.getElem_map] at h ⊢
  have := hv.increasing i j hij (by simpa [movedSeries] using hj) h
  rw [h]; omega

theorem movedSeries_ids (v : Nat → Int) (c : List (Row Int V)) : ids (movedSeries v c) = ids c := by
  simp [ids, movedSeries, Function.comp_def]

theorem shiftSeries_times {c : List (Row Int V)} (hc : c ≠ []) (hv : Valid c) (ha : IdsAscending c) (v : Nat → Int) :
    List.zipWith (fun (r : Row Int V) (s : Int) => ({ r with time := r.time + s } : Row Int V)) c (Edmd.repeatSteps ((ids c).map v) (nTimesteps c)) = movedSeries v c := by
  rw [← newIds_eq_ids ha, Edmd.repeatSteps_eq hc (Or.inl ha)]
  conv => lhs; arg 2; rw [← hv.eq_flatMap]
  rw [Edmd.zipWith_flatMap _ _ _ _ (by intro i _; simp)]
  unfold movedSeries
  rw [← Edmd.flatMap_ids_map hv (fun r => (⟨r.id, r.time + v r.id, r.val⟩ : Row Int V))]
  apply List.flatMap_congr
  intro i hi
  apply List.ext_getElem
  · simp
  · intro j h1 h2
    have hj : j < (series c i).length := by simpa using h2
    have hid : (series c i)[j].id = i := (mem_series.1 (List.getElem_mem hj)).2
    simp [hid]

/-- **C219** (part) `shift_time_per_time_series` with one shift value per time series, for IDs in ascending order: accepted exactly if no integer time value becomes negative; every time series is moved by its own value
and nothing else changes. -/
theorem C219_shift_partial {c : List (Row Int V)} (hc : c ≠ []) (hv : Valid c) (ha : IdsAscending c) (k : TimeKind) (hk : k = .int → ∀ r ∈ c, 0 ≤ r.time) (v : Nat → Int) :
    ((shiftSeries k c ((ids c).map (fun i => (i, v i)))).1 = .ok (movedSeries v c) ↔ (k = .int → ∀ r ∈ c, 0 ≤ r.time + v r.id)) ∧
    (∀ d, (shiftSeries k c ((ids c).map (fun i => (i, v i)))).1 = .ok d → d = movedSeries v c ∧ Valid d) := by
  have h1 : ((ids c).map (fun i => (i, v i))).map (·.1) = ids c := by simp [Function.comp_def]
  have h2 : ((ids c).map (fun i => (i, v i))).map (·.2) = (ids c).map v := by simp [Function.comp_def]
  have hm := movedSeries_valid hv v
  have hne : movedSeries v c ≠ [] := by simpa [movedSeries] using hc
  have hneg : (movedSeries v c).any (fun r => decide (r.time < 0)) = true ↔ ¬ ∀ r ∈ c, 0 ≤ r.time + v r.id := by simp [movedSeries]
  unfold shiftSeries
  rw [h1, if_neg (by simp), h2, shiftSeries_times hc hv ha v]
  by_cases h0 : ((ids c).map (fun i => (i, v i))).all (fun p => p.2 == 0) = true
  · rw [if_pos h0]
    have h0' : ∀ r ∈ c, v r.id = 0 := by
      intro r hr
      simpa using List.all_eq_true.1 h0 (r.id, v r.id) (List.mem_map.2 ⟨r.id, mem_ids.2 ⟨r, hr, rfl⟩, rfl⟩)
    have e : movedSeries v c = c := by
      unfold movedSeries
      conv => rhs; rw [← List.map_id c]
      apply List.map_congr_left
      intro r hr
      simp [h0' r hr]
    rw [e]
    refine ⟨⟨fun _ hki r hr => by rw [h0' r hr]; simpa using hk hki r hr, fun _ => rfl⟩, ?_⟩
    intro d hd
    cases hd
    exact ⟨rfl, hv⟩
  · rw [if_neg h0]
    unfold buildInt
    by_cases h3 : k = .int ∧ (movedSeries v c).any (fun r => decide (r.time < 0)) = true
    · rw [if_pos h3]
      refine ⟨⟨fun h => (nomatch h), fun h => absurd (h h3.1) (hneg.1 h3.2)⟩, fun d hd => (nomatch hd)⟩
    · rw [if_neg h3, build_ok_of_valid hm hne]
      refine ⟨⟨fun _ hki => ?_, fun _ => rfl⟩, fun d hd => by cases hd; exact ⟨rfl, hm⟩⟩
      by_contra h4
      exact h3 ⟨hki, hneg.2 h4⟩

/-- **C219** (part) shifting back with the negative values restores the collection. -/
theorem C219_roundtrip_partial {c d : List (Row Int V)} (hc : c ≠ []) (hv : Valid c) (ha : IdsAscending c) (k : TimeKind) (hk : k = .int → ∀ r ∈ c, 0 ≤ r.time) (v : Nat → Int)
    (h : (shiftSeries k c ((ids c).map (fun i => (i, v i)))).1 = .ok d) : (shiftSeries k d ((ids d).map (fun i => (i, -v i)))).1 = .ok c := by
  obtain ⟨p1, p2⟩ := C219_shift_partial hc hv ha k hk v
  obtain ⟨rfl, hvd⟩ := p2 d h
  have hid : (movedSeries v c).map (·.id) = c.map (·.id) := by simp [movedSeries, Function.comp_def]
  have had : IdsAscending (movedSeries v c) := by unfold IdsAscending; rw [hid]; exact ha
  have hkd : k = .int → ∀ r ∈ movedSeries v c, 0 ≤ r.time := by
    intro hki r hr
    obtain ⟨q, hq, rfl⟩ := List.mem_map.1 hr
    exact p1.1 h hki q hq
  have hback : movedSeries (fun i => -v i) (movedSeries v c) = c := by
    simp only [movedSeries, List.map_map]
    conv => rhs; rw [← List.map_id c]
    apply List.map_congr_left
    intro r hr
    simp
  have := (C219_shift_partial (by simpa [movedSeries] using hc) hvd had k hkd (fun i => -v i)).1
  rw [hback] at this
  refine this.2 (fun hki r hr => ?_)
  obtain ⟨q, hq, rfl⟩ := List.mem_map.1 hr
  have := hk hki q hq
  simp only
  omega

/-- Non-vacuity: two time series of different lengths, moved by 5 and 0. -/
example : (shiftSeries .int ([⟨0, 0, 1⟩, ⟨0, 1, 2⟩, ⟨0, 2, 2⟩, ⟨3, 0, 3⟩, ⟨3, 1, 4⟩] : List (Row Int Nat)) [(0, 5), (3, 0)]).1 = .ok [⟨0, 5, 1⟩, ⟨0, 6, 2⟩, ⟨0, 7, 2⟩, ⟨3, 0, 3⟩, ⟨3, 1, 4⟩] := by
  decide +kernel

/-- **C219** shift values for other IDs than those of the collection are refused, and the collection stays. -/
theorem C219_rejects (k : TimeKind) (c : List (Row Int V)) (shifts : List (Nat × Int)) (h : shifts.map (·.1) ≠ ids c) :
    (shiftSeries k c shifts).1 = .error .incompatible ∧ (shiftSeries k c shifts).2 = c := by
  unfold shiftSeries
  rw [if_pos h]
  exact ⟨rfl, rfl⟩

/-- Non-vacuity: a shift value for one of two time series. -/
example : ([(0, 5)] : List (Nat × Int)).map (·.1) ≠ ids ([⟨0, 0, 1⟩, ⟨3, 0, 3⟩] : List (Row Int Nat)) := by decide +kernel

/-- **C219** is violated: if the time series are not stored in the order of their IDs, the shift values are given to the wrong time series (here 1 is to be moved by 5, 0 is moved instead), without an error. -/
theorem C219_order_violated : ∃ (c d : List (Row Int Nat)) (v : Nat → Int), Valid c ∧ (∀ r ∈ c, 0 ≤ r.time) ∧
    (shiftSeries .int c ((ids c).map (fun i => (i, v i)))).1 = .ok d ∧ v 0 = 0 ∧ v 1 = 5 ∧ content d 1 = content c 1 ∧ content d 0 = (content c 0).map (fun p => (p.1 + 5, p.2)) := by
  refine ⟨[⟨1, 0, 1⟩, ⟨1, 1, 2⟩, ⟨0, 0, 3⟩, ⟨0, 1, 4⟩], [⟨1, 0, 1⟩, ⟨1, 1, 2⟩, ⟨0, 5, 3⟩, ⟨0, 6, 4⟩], fun i => if i = 1 then 5 else 0, ?_, by decide, by decide +kernel, by decide, by decide, by decide +kernel, by decide +kernel⟩
  rw [valid_iff]; exact ⟨by decide, by unfold Before; decide +kernel⟩

/-- **C219** is violated: the time series with different lengths in descending order get a mixture of both shift values, so that one time series is no longer regularly sampled. -/
theorem C219_mixture_violated : ∃ (c d : List (Row Int Nat)) (v : Nat → Int), Valid c ∧ (∀ i, HasId c i → ∀ p ∈ consecutive (timesOf c i), p.2 - p.1 = 1) ∧
    (shiftSeries .int c ((ids c).map (fun i => (i, v i)))).1 = .ok d ∧ ∃ i, ∃ p ∈ consecutive (timesOf d i), p.2 - p.1 ≠ 1 := by
  refine ⟨[⟨1, 0, 1⟩, ⟨1, 1, 2⟩, ⟨1, 2, 2⟩, ⟨0, 0, 3⟩, ⟨0, 1, 4⟩], [⟨1, 0, 1⟩, ⟨1, 1, 2⟩, ⟨1, 7, 2⟩, ⟨0, 5, 3⟩, ⟨0, 6, 4⟩], fun i => if i = 1 then 5 else 0, ?_, ?_, by decide +kernel, 1, (1, 7), by decide +kernel, by decide⟩
  · rw [valid_iff]; exact ⟨by decide, by unfold Before; decide +kernel⟩
  · rintro i ⟨r, hr, rfl⟩
    revert r
    decide +kernel

/-- **C219** is violated: the method changes the collection it is called on. -/
theorem C219_argument_violated {c d : List (Row Int V)} (k : TimeKind) (shifts : List (Nat × Int)) (h : (shiftSeries k c shifts).1 = .ok d) : (shiftSeries k c shifts).2 = d := by
  unfold shiftSeries at h ⊢
  by_cases h1 : shifts.map (·.1) ≠ ids c
  · rw [if_pos h1] at h; cases h
  · rw [if_neg h1] at h ⊢
    by_cases h2 : shifts.all (fun p => p.2 == 0) = true
    · rw [if_pos h2] at h ⊢; cases h; rfl
    · rw [if_neg h2] at h ⊢
      split
      · rename_i e he; rw [he] at h; cases h; rfl
      · rename_i e he; rw [he] at h; cases h

end Verif.Tsc
