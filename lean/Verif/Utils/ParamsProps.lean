import Verif.Utils.Params
import Verif.Dyn.Spectral
import Mathlib.Tactic.NormNum

/-!
# Parameters of estimators (C199)
-/

namespace Verif.Utils

open Verif.Dyn

/-! ## Helpers -/

/-- The value does not depend on the parameters. -/
def constSrc : Src → Bool
  | .expr (.const _) => true
  | .solver (.const ty) (.const mode) ctl aff => (initSolver ty mode ctl aff).isOk
  | _ => false

/-- The constructor stores its parameters and nothing else depends on them. -/
def isPlain (c : Cls) : Bool :=
  decide c.names.Nodup && decide (c.assigns.map (·.1)).Nodup && !c.kwargs && decide (c.check = none) &&
  c.names.all (fun n => c.assigns.contains (n, .expr (.param n))) &&
  c.assigns.all (fun x => decide (x.2 = .expr (.param x.1)) && c.names.contains x.1 || constSrc x.2 && !c.names.contains x.1)

theorem constSrc_eval {s : Src} (h : constSrc s = true) (p p' rest rest') : ∃ v, s.eval p rest = .ok v ∧ s.eval p' rest' = .ok v := by
  cases s with
  | kwargs => cases h
  | object args => cases h
  | expr e =>
    cases e with
    | const a => exact ⟨_, rfl, rfl⟩
    | param n => cases h
    | ifTrue n a b => cases h
  | solver ty mode ctl aff =>
    cases ty with
    | param n => cases h
    | ifTrue n a b => cases h
    | const ty =>
      cases mode with
      | param n => cases h
      | ifTrue n a b => cases h
      | const mode =>
        simp only [constSrc] at h
        simp only [Src.eval, Expr.eval]
        cases h' : initSolver ty mode ctl aff with
        | error e => rw [h'] at h; cases h
        | ok v => exact ⟨v, rfl, rfl⟩

theorem lookup_setAttr (a : Attrs) (n m : String) (v : PVal) : (setAttr a n v).lookup m = if m = n then some v else a.lookup m := by
  unfold setAttr
  by_cases h : m = n
  · simp [h]
  · rw [List.lookup_cons, beq_eq_false_iff_ne.2 h, if_neg h]
    dsimp only
    induction a with
    | nil => rfl
    | cons x l ih =>
      by_cases hx : x.1 = n
      · rw [List.filter_cons_of_neg (by simp [hx]), ih, List.lookup_cons, beq_eq_false_iff_ne.2 (by rw [hx]; exact h)]
      · rw [List.filter_cons_of_pos (by simp [hx]), List.lookup_cons, List.lookup_cons, ih]

theorem runAssigns_ok (p : String → Atom) (rest) : ∀ (l : List (String × Src)) (a : Attrs), (l.map (·.1)).Nodup →
    (∀ x ∈ l, ∃ v, x.2.eval p rest = .ok v) → ∃ b, runAssigns p rest l a = .ok b ∧
      (∀ n, n ∉ l.map (·.1) → b.lookup n = a.lookup n) ∧ ∀ x ∈ l, ∃ v, x.2.eval p rest = .ok v ∧ b.lookup x.1 = some v
  | [], a, _, _ => ⟨a, rfl, fun _ _ => rfl, fun _ hx => nomatch hx⟩
  | (n, s) :: l, a, hn, he => by
    obtain ⟨v, hv⟩ := he (n, s) (by simp)
    rw [List.map_cons, List.nodup_cons] at hn
    obtain ⟨b, hb, h1, h2⟩ := runAssigns_ok p rest l (setAttr a n v) hn.2 (fun x hx => he x (by simp [hx]))
    refine ⟨b, by simp only [runAssigns, hv]; exact hb, fun m hm => ?_, fun x hx => ?_⟩
    · rw [List.map_cons, List.mem_cons, not_or] at hm
      rw [h1 m hm.2, lookup_setAttr, if_neg hm.1]
    · rcases List.mem_cons.1 hx with rfl | hx
      · exact ⟨v, hv, by rw [h1 _ hn.1, lookup_setAttr, if_pos rfl]⟩
      · exact h2 x hx

/-- The attributes other than the parameters. -/
def otherAttr (c : Cls) (n : String) : Option PVal :=
  match c.assigns.lookup n with
  | none => none
  | some s => match s.eval (fun _ => .none) [] with | .ok v => some v | .error _ => none

/-- The object holds the parameters `val`. -/
def Holds (c : Cls) (val : String → Atom) (a : Attrs) : Prop :=
  ∀ n, a.lookup n = if n ∈ c.names then some (.atom (val n)) else otherAttr c n

theorem isPlain_iff (c : Cls) : isPlain c = true ↔ c.names.Nodup ∧ (c.assigns.map (·.1)).Nodup ∧ c.kwargs = false ∧ c.check = none ∧
    (∀ n ∈ c.names, (n, Src.expr (.param n)) ∈ c.assigns) ∧
    ∀ x ∈ c.assigns, x.2 = .expr (.param x.1) ∧ x.1 ∈ c.names ∨ constSrc x.2 = true ∧ x.1 ∉ c.names := by
  simp [isPlain, and_assoc]

theorem lookup_of_mem {V : Type} : ∀ {l : List (String × V)} {n v}, (l.map (·.1)).Nodup → (n, v) ∈ l → l.lookup n = some v
  | (m, w) :: l, n, v, hn, h => by
    rw [List.map_cons, List.nodup_cons] at hn
    rcases List.mem_cons.1 h with h | h
    · cases h; simp
    · have : n ≠ m := fun e => hn.1 (e ▸ List.mem_map_of_mem (f := (·.1)) h)
      rw [List.lookup_cons, beq_eq_false_iff_ne.2 this]
      exact lookup_of_mem hn.2 h

theorem lookup_none_iff {V : Type} (l : List (String × V)) (n : String) : l.lookup n = none ↔ n ∉ l.map (·.1) := by
  induction l with
  | nil => simp
  | cons x l ih =>
    by_cases h : n = x.1
    · simp [h]
    · rw [List.lookup_cons, beq_eq_false_iff_ne.2 h, List.map_cons, List.mem_cons, not_or]
      exact ⟨fun h' => ⟨h, ih.1 h'⟩, fun h' => ih.2 h'.2⟩

theorem construct_plain {c : Cls} (hc : isPlain c = true) (g : List (String × Atom)) :
    ((∃ a, construct c g = .ok a) ↔ (∀ x ∈ g, x.1 ∈ c.names) ∧ ∀ s ∈ c.sig, s.2 = none → s.1 ∈ g.map (·.1)) ∧
    ∀ a, construct c g = .ok a → Holds c (argOf c g) a := by
  obtain ⟨-, hn, hk, hch, hp, ha⟩ := (isPlain_iff c).1 hc
  obtain ⟨b, hb, h1, h2⟩ := runAssigns_ok (argOf c g) (g.filter (fun g => !c.names.contains g.1)) c.assigns [] hn (fun x hx => by
    rcases ha x hx with ⟨h, -⟩ | ⟨h, -⟩
    · rw [h]; exact ⟨_, rfl⟩
    · obtain ⟨v, hv, -⟩ := constSrc_eval h (argOf c g) (argOf c g) (g.filter (fun g => !c.names.contains g.1)) []
      exact ⟨v, hv⟩)
  have hold : Holds c (argOf c g) b := by
    intro n
    by_cases hin : n ∈ c.names
    · rw [if_pos hin]
      obtain ⟨v, hv, hl⟩ := h2 _ (hp n hin)
      rw [hl]
      simp only [Src.eval, Expr.eval] at hv
      cases hv; rfl
    · rw [if_neg hin]
      unfold otherAttr
      cases hl : c.assigns.lookup n with
      | none => rw [h1 n ((lookup_none_iff _ _).1 hl)]; rfl
      | some s =>
        have hmem : (n, s) ∈ c.assigns := by
          have : n ∈ c.assigns.map (·.1) := by
            by_contra h
            rw [(lookup_none_iff _ _).2 h] at hl; cases hl
          obtain ⟨y, hy, hyn⟩ := List.mem_map.1 this
          have := lookup_of_mem (n := n) (v := y.2) hn (by rw [← hyn]; exact hy)
          rw [hl] at this
          cases this; rw [← hyn]; exact hy
        obtain ⟨v, hv, hl'⟩ := h2 _ hmem
        rcases ha _ hmem with ⟨-, h⟩ | ⟨h, -⟩
        · exact absurd h hin
        · obtain ⟨w, hw, hw'⟩ := constSrc_eval h (argOf c g) (fun _ => .none) (g.filter (fun g => !c.names.contains g.1)) []
          rw [hl']
          dsimp only at hw' ⊢
          rw [hw']
          rw [hv] at hw; cases hw; rfl
  have hcon : construct c g = if ∀ x ∈ g, x.1 ∈ c.names then
      if ∀ s ∈ c.sig, s.2 = none → s.1 ∈ g.map (·.1) then .ok b else .error .type else .error .type := by
    unfold construct
    have e1 : (!c.kwargs && !(g.filter (fun g => !c.names.contains g.1)).isEmpty) = true ↔ ¬ ∀ x ∈ g, x.1 ∈ c.names := by
      rw [hk]
      simp [List.isEmpty_eq_false_iff, List.filter_eq_nil_iff]
    have e2 : c.sig.any (fun s => s.2.isNone && (g.lookup s.1).isNone) = true ↔ ¬ ∀ s ∈ c.sig, s.2 = none → s.1 ∈ g.map (·.1) := by
      rw [List.any_eq_true]
      push Not
      constructor
      · rintro ⟨s, hs, h⟩
        rw [Bool.and_eq_true, Option.isNone_iff_eq_none, Option.isNone_iff_eq_none, lookup_none_iff] at h
        exact ⟨s, hs, h⟩
      · rintro ⟨s, hs, h⟩
        refine ⟨s, hs, ?_⟩
        rw [Bool.and_eq_true, Option.isNone_iff_eq_none, Option.isNone_iff_eq_none, lookup_none_iff]
        exact h
    dsimp only
    by_cases h1 : ∀ x ∈ g, x.1 ∈ c.names
    · rw [if_neg (fun h => e1.1 h h1), if_pos h1]
      by_cases h2 : ∀ s ∈ c.sig, s.2 = none → s.1 ∈ g.map (·.1)
      · rw [if_neg (fun h => e2.1 h h2), if_pos h2, hch]
        exact hb
      · rw [if_pos (e2.2 h2), if_neg h2]
    · rw [if_pos (e1.2 h1), if_neg h1]
  rw [hcon]
  by_cases h1 : ∀ x ∈ g, x.1 ∈ c.names
  · by_cases h2 : ∀ s ∈ c.sig, s.2 = none → s.1 ∈ g.map (·.1)
    · rw [if_pos h1, if_pos h2]
      exact ⟨⟨fun _ => ⟨h1, h2⟩, fun _ => ⟨b, rfl⟩⟩, fun a h => by cases h; exact hold⟩
    · rw [if_pos h1, if_neg h2]
      exact ⟨⟨fun ⟨a, h⟩ => (nomatch h), fun h => absurd h.2 h2⟩, fun a h => by cases h⟩
  · rw [if_neg h1]
    exact ⟨⟨fun ⟨a, h⟩ => (nomatch h), fun h => absurd h.1 h1⟩, fun a h => by cases h⟩

theorem getParamsFrom_holds {c : Cls} {val a} (h : Holds c val a) : ∀ (l : List String), (∀ n ∈ l, n ∈ c.names) →
    getParamsFrom a l = .ok (l.map (fun n => (n, .atom (val n))))
  | [], _ => rfl
  | n :: l, hl => by
    have := h n
    rw [if_pos (hl n (by simp))] at this
    simp only [getParamsFrom, this, getParamsFrom_holds h l (fun m hm => hl m (by simp [hm])), List.map_cons]

theorem getParams_holds {c : Cls} {val a} (h : Holds c val a) : getParams c a = .ok (c.names.map (fun n => (n, .atom (val n)))) :=
  getParamsFrom_holds h _ (fun _ h => h)

theorem holds_setAttr {c : Cls} {val a} (h : Holds c val a) {n v} (hn : n ∈ c.names) :
    Holds c (fun m => if m = n then v else val m) (setAttr a n (.atom v)) := by
  intro m
  rw [lookup_setAttr]
  by_cases hm : m = n
  · subst hm; simp [hn]
  · simp only [if_neg hm]; exact h m

theorem setLoop_holds {c : Cls} : ∀ (q : List (String × Atom)) {val a}, Holds c val a →
    ((∃ b, setLoop c.names q a = .ok b) ↔ ∀ x ∈ q, x.1 ∈ c.names) ∧
    ∀ b, setLoop c.names q a = .ok b → ∃ val', Holds c val' b ∧ ((q.map (·.1)).Nodup → ∀ n, val' n = (q.lookup n).getD (val n))
  | [], val, a, h => ⟨by simp [setLoop], fun b hb => by simp only [setLoop] at hb; cases hb; exact ⟨val, h, fun _ n => by simp⟩⟩
  | (n, v) :: q, val, a, h => by
    by_cases hn : n ∈ c.names
    · have e : setLoop c.names ((n, v) :: q) a = setLoop c.names q (setAttr a n (.atom v)) := by
        simp [setLoop, hn]
      rw [e]
      obtain ⟨h1, h2⟩ := setLoop_holds q (holds_setAttr h (v := v) hn)
      refine ⟨by rw [h1]; simp [hn], fun b hb => ?_⟩
      obtain ⟨val', h3, h4⟩ := h2 b hb
      refine ⟨val', h3, fun hnd m => ?_⟩
      rw [List.map_cons, List.nodup_cons] at hnd
      rw [h4 hnd.2, List.lookup_cons]
      by_cases hm : m = n
      · subst hm
        rw [(lookup_none_iff q m).2 hnd.1]
        simp
      · rw [beq_eq_false_iff_ne.2 hm, if_neg hm]
    · have e : setLoop c.names ((n, v) :: q) a = .error .value := by
        simp [setLoop, hn]
      rw [e]
      exact ⟨⟨fun ⟨b, hb⟩ => (nomatch hb), fun hq => absurd (hq (n, v) (by simp)) hn⟩, fun b hb => by cases hb⟩

theorem setParams_holds {c : Cls} (q : List (String × Atom)) {val a} (h : Holds c val a) :
    ((∃ b, setParams c a q = .ok b) ↔ ∀ x ∈ q, x.1 ∈ c.names) ∧
    ∀ b, setParams c a q = .ok b → ∃ val', Holds c val' b ∧ ((q.map (·.1)).Nodup → ∀ n, val' n = (q.lookup n).getD (val n)) := by
  have e : setParams c a q = setLoop c.names q a := by
    unfold setParams
    cases q with
    | nil => rfl
    | cons x q => rw [getParams_holds h]; rfl
  rw [e]
  exact setLoop_holds q h

theorem setAll_holds {c : Cls} : ∀ (qs : List (List (String × Atom))) {val a b}, Holds c val a → setAll c qs a = .ok b → ∃ val', Holds c val' b
  | [], val, a, b, h, hb => by simp only [setAll] at hb; cases hb; exact ⟨val, h⟩
  | q :: qs, val, a, b, h, hb => by
    simp only [setAll] at hb
    cases hq : setParams c a q with
    | error e => rw [hq] at hb; cases hb
    | ok a' =>
      rw [hq] at hb
      obtain ⟨v, hv, -⟩ := (setParams_holds q h).2 a' hq
      exact setAll_holds qs hv hb

theorem atomsOf_map (l : List String) (val : String → Atom) : atomsOf (l.map (fun n => (n, .atom (val n)))) = l.map (fun n => (n, val n)) := by
  induction l with
  | nil => rfl
  | cons n l ih =>
    unfold atomsOf at ih ⊢
    rw [List.map_cons, List.filterMap_cons, ih]
    rfl

theorem lookup_map_names (l : List String) (val : String → Atom) {n} (hn : n ∈ l) : (l.map (fun n => (n, val n))).lookup n = some (val n) := by
  induction l with
  | nil => cases hn
  | cons m l ih =>
    rw [List.map_cons, List.lookup_cons]
    by_cases h : n = m
    · simp [h]
    · rw [beq_eq_false_iff_ne.2 h]
      exact ih (by simpa [h] using hn)

theorem clone_holds {c : Cls} (hc : isPlain c = true) {val a} (h : Holds c val a) : ∃ b, cloneObj c a = .ok b ∧ ∀ n, b.lookup n = a.lookup n := by
  obtain ⟨h1, h2⟩ := construct_plain hc (c.names.map (fun n => (n, val n)))
  obtain ⟨b, hb⟩ := h1.2 ⟨by simp, fun s hs _ => by
    rw [List.map_map]
    exact List.mem_map.2 ⟨s.1, List.mem_map_of_mem (f := (·.1)) hs, rfl⟩⟩
  have hold := h2 b hb
  have hval : ∀ n ∈ c.names, argOf c (c.names.map (fun n => (n, val n))) n = val n := fun n hn => by
    unfold argOf
    rw [lookup_map_names _ _ hn]
  have hsame : ∀ n, b.lookup n = a.lookup n := fun n => by
    rw [hold n, h n]
    by_cases hn : n ∈ c.names
    · rw [if_pos hn, if_pos hn, hval n hn]
    · rw [if_neg hn, if_neg hn]
  refine ⟨b, ?_, hsame⟩
  simp only [cloneObj, getParams_holds h, atomsOf_map, hb, getParams_holds hold]
  rw [if_pos]
  exact List.map_congr_left (fun n hn => by rw [hval n hn])

/-- The constructors of the estimators in the list only store their parameters. -/
theorem plainEstimators_plain : ∀ c ∈ plainEstimators, isPlain c = true := by decide +kernel

/-! ## The property -/

/-- **C199** (part): for each of the estimators in `plainEstimators` (`DiffusionMaps`, …, `OnlineDMD`) a call of the constructor with keyword
arguments succeeds if and only if every keyword is a parameter and every parameter without default is given; `get_params` then returns every
parameter, with the given value and otherwise its default. -/
theorem C199_construct_partial {c : Cls} (hc : c ∈ plainEstimators) (g : List (String × Atom)) :
    ((∃ a, construct c g = .ok a) ↔ (∀ x ∈ g, x.1 ∈ c.names) ∧ ∀ s ∈ c.sig, s.2 = none → s.1 ∈ g.map (·.1)) ∧
    ∀ a, construct c g = .ok a → ∃ ps, getParams c a = .ok ps ∧ ps.map (·.1) = c.sig.map (·.1) ∧
      (∀ n v, g.lookup n = some v → ps.lookup n = some (.atom v)) ∧
      ∀ n d, (n, some d) ∈ c.sig → g.lookup n = none → ps.lookup n = some (.atom d) := by
  have hp := plainEstimators_plain c hc
  obtain ⟨h1, h2⟩ := construct_plain hp g
  refine ⟨h1, fun a ha => ⟨_, getParams_holds (h2 a ha), by rw [List.map_map]; exact List.map_id _, fun n v hv => ?_, fun n d hd hv => ?_⟩⟩
  · have hn : n ∈ c.names := by
      have : n ∈ g.map (·.1) := by
        by_contra h
        rw [(lookup_none_iff _ _).2 h] at hv; cases hv
      obtain ⟨x, hx, rfl⟩ := List.mem_map.1 this
      exact (h1.1 ⟨a, ha⟩).1 x hx
    refine lookup_of_mem (by rw [List.map_map]; simpa [Function.comp_def] using ((isPlain_iff c).1 hp).1) (List.mem_map.2 ⟨n, hn, ?_⟩)
    unfold argOf
    rw [hv]
  · have hn : n ∈ c.names := List.mem_map_of_mem (f := (·.1)) hd
    refine lookup_of_mem (by rw [List.map_map]; simpa [Function.comp_def] using ((isPlain_iff c).1 hp).1) (List.mem_map.2 ⟨n, hn, ?_⟩)
    unfold argOf
    rw [hv, lookup_of_mem ((isPlain_iff c).1 hp).1 hd]
    rfl

/-- **C199** (part): `set_params` on a constructed estimator succeeds if and only if all names are parameters, and then leaves the object that the
constructor returns for the changed parameters — every attribute, also those that no parameter names, is the same. -/
theorem C199_set_params_partial {c : Cls} (hc : c ∈ plainEstimators) {g q : List (String × Atom)} (hq : (q.map (·.1)).Nodup) {a : Attrs}
    (ha : construct c g = .ok a) :
    ((∃ a', setParams c a q = .ok a') ↔ ∀ x ∈ q, x.1 ∈ c.names) ∧
    ∀ a', setParams c a q = .ok a' → ∃ b, construct c (q ++ g) = .ok b ∧ ∀ n, a'.lookup n = b.lookup n := by
  have hp := plainEstimators_plain c hc
  have hold := (construct_plain hp g).2 a ha
  have hg := (construct_plain hp g).1.1 ⟨a, ha⟩
  obtain ⟨h1, h2⟩ := setParams_holds q hold
  refine ⟨h1, fun a' ha' => ?_⟩
  obtain ⟨val', h3, h4⟩ := h2 a' ha'
  have hqn := h1.1 ⟨a', ha'⟩
  obtain ⟨b, hb⟩ := (construct_plain hp (q ++ g)).1.2 ⟨fun x hx => (List.mem_append.1 hx).elim (hqn x) (hg.1 x), fun s hs h => by
    rw [List.map_append, List.mem_append]; exact Or.inr (hg.2 s hs h)⟩
  refine ⟨b, hb, fun n => ?_⟩
  rw [h3 n, (construct_plain hp (q ++ g)).2 b hb n]
  by_cases hn : n ∈ c.names
  · rw [if_pos hn, if_pos hn, h4 hq]
    unfold argOf
    rw [List.lookup_append]
    cases q.lookup n with
    | none => rfl
    | some v => rfl
  · rw [if_neg hn, if_neg hn]

/-- **C199** (part): after any calls of `set_params`, `clone` succeeds and returns an object with the same attributes. -/
theorem C199_clone_partial {c : Cls} (hc : c ∈ plainEstimators) {g : List (String × Atom)} {qs : List (List (String × Atom))} {a a' : Attrs}
    (ha : construct c g = .ok a) (h : setAll c qs a = .ok a') : ∃ b, cloneObj c a' = .ok b ∧ ∀ n, b.lookup n = a'.lookup n := by
  have hp := plainEstimators_plain c hc
  obtain ⟨val, hv⟩ := setAll_holds qs ((construct_plain hp g).2 a ha) h
  exact clone_holds hp hv

/-- A concrete case: `DiffusionMaps(n_eigenpairs=5)`, `set_params(alpha=0)`, `clone`. -/
example : (match construct diffusionMaps [("n_eigenpairs", .int 5)] with
    | .ok a => match setParams diffusionMaps a [("alpha", .int 0)] with
      | .ok b => match cloneObj diffusionMaps b with
        | .ok d => (d.lookup "alpha", d.lookup "n_eigenpairs", d.lookup "time_exponent")
        | .error _ => (none, none, none)
      | .error _ => (none, none, none)
    | .error _ => (none, none, none)) = (some (.atom (.int 0)), some (.atom (.int 5)), some (.atom (.int 0))) := by decide +kernel

/-- The attribute after `cls(**g)` and `set_params(**q)`. -/
def attrAfter (c : Cls) (g q : List (String × Atom)) (n : String) : Option PVal :=
  match construct c g with
  | .ok a => match setParams c a q with
    | .ok b => b.lookup n
    | .error _ => none
  | .error _ => none

/-- **C199 is violated** (system mode): `set_params(sys_mode=…)` is accepted by `DMDStandard`, `gDMDFull`, `DMDControl` and `PretrainedDMD` and changes
`sys_mode`, but the solver stays the one of the old mode; the constructor with the same parameters chooses another one. -/
theorem C199_sys_mode_violated :
    ∀ x ∈ [(dmdStandard, ([] : List (String × Atom)), Strategy.flowmapMatrix, Strategy.flowmapSpectral),
      (gdmdFull, [], .differentialMatrix, .differentialSpectral),
      (dmdControlCls, [], .flowmapMatrixControlled, .flowmapSpectralControlled),
      (pretrainedDmd, [("sys_type", .str "flowmap")], .flowmapMatrix, .flowmapSpectral)],
      attrAfter x.1 (("sys_mode", .str "matrix") :: x.2.1) [("sys_mode", .str "spectral")] "sys_mode" = some (.atom (.str "spectral")) ∧
      attrAfter x.1 (("sys_mode", .str "matrix") :: x.2.1) [("sys_mode", .str "spectral")] "_evolve_system_states" = some (.solver x.2.2.1) ∧
      attrAfter x.1 (("sys_mode", .str "spectral") :: x.2.1) [] "_evolve_system_states" = some (.solver x.2.2.2) := by
  decide +kernel

/-- The states that a discrete solver returns for the spectral components handed to it: `sys_matrix` are the right eigenvectors `Ψ`, the initial
conditions are the spectral states `b` (dynsystem.py 978-990; the two solvers 155-237). -/
noncomputable def evolveSpectralWith {ι : Type} [Fintype ι] [DecidableEq ι] (s : Strategy) (Ψ : Matrix ι ι ℂ) (ev : ι → ℂ) (bs : List (ι → ℂ))
    (times : List Int) (dt : Int) : Option (List (List (ι → ℝ))) :=
  match s with
  | .flowmapSpectral => some (flowmapSpectral Ψ ev bs times dt)
  | .flowmapMatrix => some ((flowmapMatrix Ψ bs times dt).map (fun l => l.map reV))
  | _ => none

/-- **C199 is violated** (consequence for predictions): for the system `x ↦ 2 x` with eigenvector `1` the solver that a `DMDStandard(sys_mode="matrix")` keeps
after `set_params(sys_mode="spectral")` predicts the constant `1, 1, 1` from `1`, where a `DMDStandard(sys_mode="spectral")` predicts `1, 2, 4`. -/
theorem C199_prediction_violated :
    evolveSpectralWith .flowmapMatrix (1 : Matrix (Fin 1) (Fin 1) ℂ) (fun _ => 2) [fun _ => 1] [0, 1, 2] 1 = some [[fun _ => 1, fun _ => 1, fun _ => 1]] ∧
    evolveSpectralWith .flowmapSpectral (1 : Matrix (Fin 1) (Fin 1) ℂ) (fun _ => 2) [fun _ => 1] [0, 1, 2] 1 = some [[fun _ => 1, fun _ => 2, fun _ => 4]] := by
  constructor
  · simp [evolveSpectralWith, flowmapMatrix]
    funext i; simp [reV]
  · simp [evolveSpectralWith, flowmapSpectral, stepCount]
    norm_num
    refine ⟨?_, ?_, ?_⟩ <;> (funext i; simp [reV])

/-- **C199 is violated** (generator): `set_params(approx_generator=True)` on a `DMDStandard` changes neither `sys_type` nor the solver, so that the
eigenvalues of the generator are used as those of the flow map; `set_params(residual_filter=…)` after `sys_mode="matrix"` is accepted although the
constructor rejects the pair. -/
theorem C199_generator_violated (q : Rat) :
    (attrAfter dmdStandard [] [("approx_generator", .bool true)] "approx_generator" = some (.atom (.bool true)) ∧
     attrAfter dmdStandard [] [("approx_generator", .bool true)] "sys_type" = some (.atom (.str "flowmap")) ∧
     attrAfter dmdStandard [] [("approx_generator", .bool true)] "_evolve_system_states" = some (.solver .flowmapSpectral) ∧
     attrAfter dmdStandard [("approx_generator", .bool true)] [] "_evolve_system_states" = some (.solver .differentialSpectral)) ∧
    attrAfter dmdStandard [("sys_mode", .str "matrix")] [("residual_filter", .num q)] "residual_filter" = some (.atom (.num q)) ∧
    construct dmdStandard [("sys_mode", .str "matrix"), ("residual_filter", .num q)] = .error .value := by
  refine ⟨by decide +kernel, rfl, rfl⟩

/-- **C199 is violated** (unknown parameters): `DMDControl` accepts every keyword and ignores those that are not parameters. -/
theorem C199_kwargs_violated (n : String) (v : Atom) (hn : n ∉ dmdControlCls.names) :
    construct dmdControlCls [(n, v)] = construct dmdControlCls [] ∧ ∃ a, construct dmdControlCls [] = .ok a := by
  refine ⟨?_, _, rfl⟩
  have h1 : n ≠ "sys_mode" := fun h => hn (by simp [h, Cls.names, dmdControlCls])
  have h2 : n ≠ "rcond" := fun h => hn (by simp [h, Cls.names, dmdControlCls])
  have e1 : argOf dmdControlCls [(n, v)] "sys_mode" = .str "matrix" := by
    unfold argOf
    rw [List.lookup_cons, beq_eq_false_iff_ne.2 h1.symm]; rfl
  have e2 : argOf dmdControlCls [(n, v)] "rcond" = .none := by
    unfold argOf
    rw [List.lookup_cons, beq_eq_false_iff_ne.2 h2.symm]; rfl
  have key : ∀ p rest, p "sys_mode" = Atom.str "matrix" → p "rcond" = Atom.none →
      runAssigns p rest dmdControlCls.assigns [] = construct dmdControlCls [] := by
    intro p rest hp hr
    simp only [dmdControlCls, linearInit, keep, List.map_cons, List.map_nil, List.cons_append, List.nil_append, runAssigns, Src.eval, Expr.eval, hp, hr]
    rfl
  have e3 : construct dmdControlCls [(n, v)] = runAssigns (argOf dmdControlCls [(n, v)]) ([(n, v)].filter (fun g => !dmdControlCls.names.contains g.1))
      dmdControlCls.assigns [] := rfl
  rw [e3]
  exact key _ _ e1 e2

/-- **C199 is violated** (clone): the additional parameters of a `PyDMDWrapper` are lost in its clone. -/
theorem C199_clone_violated : ∃ a b, construct pyDmdWrapper [("method", .str "hodmd"), ("d", .int 3)] = .ok a ∧ cloneObj pyDmdWrapper a = .ok b ∧
    a.lookup "init_params" = some (.dict [("d", .int 3)]) ∧ b.lookup "init_params" = some (.dict []) :=
  ⟨_, _, rfl, rfl, by decide +kernel, by decide +kernel⟩

/-- **C199 is violated** (unstored parameter): whatever the parameters, `get_params`, `clone` and `set_params` raise an `AttributeError` for a
`DiffusionMapsVariable`. -/
theorem C199_variable_violated (g : List (String × Atom)) (a : Attrs) (ha : construct diffusionMapsVariable g = .ok a) :
    getParams diffusionMapsVariable a = .error .attribute ∧ cloneObj diffusionMapsVariable a = .error .attribute ∧
    ∀ q, q ≠ [] → setParams diffusionMapsVariable a q = .error .attribute := by
  have hget : getParams diffusionMapsVariable a = .error .attribute := by
    unfold construct at ha
    dsimp only at ha
    split at ha
    · cases ha
    · split at ha
      · cases ha
      · split at ha
        · cases ha
        · simp only [diffusionMapsVariable, keep, List.map_cons, List.map_nil, List.cons_append, List.nil_append, runAssigns, Src.eval] at ha
          cases ha
          rfl
  refine ⟨hget, by simp only [cloneObj, hget], fun q hq => ?_⟩
  unfold setParams
  rw [if_neg (by simpa using hq), hget]

/-- A `DiffusionMapsVariable` can be constructed. -/
example : ∃ a, construct diffusionMapsVariable [] = .ok a := ⟨_, rfl⟩

/-- **C199** (part, EDMD): `clone` of an `EDMD` gives an object with the same steps if and only if the steps still are `dict_steps` followed by the step
`dmd`; so it is after construction and after any replacement of the model by its step name. -/
theorem C199_edmd_partial (e : EdmdObj) :
    ((∃ m, edmdClone e = some m ∧ m.steps = e.steps) ↔ ∃ d, e.steps = e.dictSteps ++ [("dmd", d)]) ∧
    ∀ (dict : List (String × Nat)) (m : Nat), "dmd" ∉ dict.map (·.1) → edmdClone (edmdInit dict m) = some (edmdInit dict m) ∧
      ∀ m', edmdSet (edmdInit dict m) (.step "dmd" m') = .ok (edmdInit dict m') := by
  constructor
  · constructor
    · rintro ⟨m, hm, hs⟩
      unfold edmdClone at hm
      obtain ⟨s, -, rfl⟩ := Option.map_eq_some_iff.1 hm
      exact ⟨s.2, hs.symm⟩
    · rintro ⟨d, hd⟩
      refine ⟨edmdInit e.dictSteps d, ?_, hd.symm⟩
      unfold edmdClone
      rw [hd, List.getLast?_append]
      rfl
  · intro dict m hdict
    constructor
    · simp [edmdClone, edmdInit]
    · intro m'
      unfold edmdSet edmdInit
      have : dict.map (fun s => if s.1 = "dmd" then ("dmd", m') else s) = dict := by
        rw [List.map_congr_left (g := id) (fun s hs => if_neg (fun h : s.1 = "dmd" => hdict (h ▸ List.mem_map_of_mem (f := (·.1)) hs)))]
        exact List.map_id _
      simp [this]

/-- **C199 is violated** (EDMD): `set_params(dict_steps=…)` does not change the steps that `fit` runs, `set_params(dmd_model=…)` raises an
`AttributeError`, and after `set_params(<name of a step>=…)` the clone has the old transformer. -/
theorem C199_edmd_violated (n : String) (hn : n ≠ "dmd") (t t' m m' : Nat) (ht : t ≠ t') :
    (∃ e, edmdSet (edmdInit [(n, t)] m) (.dictSteps [(n, t')]) = .ok e ∧ e.steps = [(n, t), ("dmd", m)] ∧ (edmdInit [(n, t')] m).steps ≠ e.steps) ∧
    edmdSet (edmdInit [(n, t)] m) (.dmdModel m') = .error .attribute ∧
    ∃ e k, edmdSet (edmdInit [(n, t)] m) (.step n t') = .ok e ∧ e.steps = [(n, t'), ("dmd", m)] ∧ edmdClone e = some k ∧ k.steps = [(n, t), ("dmd", m)] := by
  refine ⟨⟨_, rfl, rfl, ?_⟩, rfl, ⟨[(n, t)], [(n, t'), ("dmd", m)]⟩, ⟨[(n, t)], [(n, t), ("dmd", m)]⟩, ?_, rfl, rfl, rfl⟩
  · simp [edmdInit, Ne.symm ht]
  · simp [edmdSet, edmdInit, Ne.symm hn]

end Verif.Utils
