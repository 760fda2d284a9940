import Verif.Tsc.FloatIndex
import Verif.Tsc.IndexProps
import Mathlib.Order.WithBot
import Mathlib.Algebra.Order.Ring.Rat
/-!
# C255: which floating point time values are accepted

The documentation of `TSCDataFrame` promises non-negative and finite time values.
-/

namespace Verif.Tsc

open Verif.Utils

variable {V : Type}

/-! ## Specification -/

/-- Specification: a time value that is a number or infinity, as a floating point number. -/
def toFl : WithTop ℚ → Fl
  | some q => .fin q
  | none => .posInf

/-- Specification: rows with such time values. -/
def withFl (c : List (Row (WithTop ℚ) V)) : List (Row Fl V) := c.map (fun r => ⟨r.id, toFl r.time, r.val⟩)

/-! ## Helper lemmas -/

theorem toFl_inj {a b : WithTop ℚ} (h : toFl a = toFl b) : a = b := by
  cases a <;> cases b <;> simp [toFl] at h ⊢
  exact h

theorem flDiff_toFl (a b : WithTop ℚ) (h : a ≠ b) : (flDiff (toFl a) (toFl b)).le (.fin 0) = decide (b ≤ a) := by
  cases a with
  | top => cases b with
    | top => exact absurd rfl h
    | coe b => simp [toFl, flDiff, Fl.le, Fl.lt]
  | coe a => cases b with
    | top => simp [toFl, flDiff, Fl.le, Fl.lt]
    | coe b =>
      have hne : b ≠ a := fun e => h (by rw [e])
      have e : (flDiff (toFl (a : WithTop ℚ)) (toFl (b : WithTop ℚ))) = .fin (b - a) := rfl
      rw [e, Bool.eq_iff_iff, decide_eq_true_eq, WithTop.coe_le_coe]
      simp only [Fl.le, Fl.lt, Bool.or_eq_true, decide_eq_true_eq, Bool.and_eq_true, Fl.fin.injEq, ne_eq]
      constructor
      · rintro (h | ⟨h, -⟩)
        · exact (sub_neg.1 h).le
        · exact (sub_eq_zero.1 h).le
      · intro h
        exact Or.inl (sub_neg.2 (lt_of_le_of_ne h hne))

theorem flNotSorted_withFl (c : List (Row (WithTop ℚ) V)) (hd : (c.map (·.key)).Nodup) : flNotSorted (withFl c) = construct.notSorted c := by
  match c with
  | [] => rfl
  | [a] => rfl
  | a :: b :: l =>
    have ih := flNotSorted_withFl (b :: l) (List.nodup_cons.1 hd).2
    simp only [withFl, List.map_cons] at ih ⊢
    unfold flNotSorted construct.notSorted
    simp only [ih]
    by_cases hid : a.id = b.id
    · have hne : a.time ≠ b.time := by
        intro e
        simp only [List.map_cons, List.nodup_cons, List.mem_cons, not_or] at hd
        exact hd.1.1 (by simp [Row.key, hid, e])
      rw [flDiff_toFl _ _ hne]
    · rw [beq_eq_false_iff_ne.2 hid, Bool.false_and, Bool.false_and]

theorem nodup_withFl (c : List (Row (WithTop ℚ) V)) : ((withFl c).map (·.key)).Nodup ↔ (c.map (·.key)).Nodup := by
  have e : (withFl c).map (·.key) = (c.map (·.key)).map (fun k => ⟨k.id, toFl k.time⟩) := by simp [withFl, Row.key]
  rw [e, List.nodup_map_iff]
  intro a b h
  obtain ⟨i, s⟩ := a
  obtain ⟨j, t⟩ := b
  injection h with h1 h2
  have h2' : s = t := toFl_inj h2
  subst h2'
  have h1' : i = j := h1
  rw [h1']

theorem lt_zero_toFl (a : WithTop ℚ) : (toFl a).lt (.fin 0) = false ↔ 0 ≤ a := by
  cases a with
  | top => simp [toFl, Fl.lt]
  | coe a =>
    have e : toFl (a : WithTop ℚ) = .fin a := rfl
    rw [e]
    simp only [Fl.lt, decide_eq_false_iff_not, not_lt]
    exact WithTop.coe_le_coe.symm

theorem constructFloat_ok_iff (c c' : List (Row Fl V)) : constructFloat c = .ok c' ↔
    (c.map (·.key)).Nodup ∧ (∀ r ∈ c, r.time.lt (.fin 0) = false) ∧ c ≠ [] ∧ (newIds (c.map (·.id))).Nodup ∧ flNotSorted c = false ∧ c = c' := by
  unfold constructFloat
  repeat rw [ite_error_ok]
  simp [anyDuplicated]

/-! ## Property theorems -/

/-- **C255 (what holds).** Without nan, rows are accepted if and only if they form a valid collection in the order of the numbers with infinity, and no time value is negative. -/
theorem C255_accepted_partial (c : List (Row (WithTop ℚ) V)) : constructFloat (withFl c) = .ok (withFl c) ↔ c ≠ [] ∧ Valid c ∧ ∀ r ∈ c, 0 ≤ r.time := by
  rw [constructFloat_ok_iff, nodup_withFl]
  have e1 : (withFl c).map (·.id) = c.map (·.id) := by simp [withFl]
  have e2 : (∀ r ∈ withFl c, r.time.lt (.fin 0) = false) ↔ ∀ r ∈ c, 0 ≤ r.time := by
    simp only [withFl, List.forall_mem_map, lt_zero_toFl]
  have e3 : withFl c ≠ [] ↔ c ≠ [] := by simp [withFl]
  rw [e1, e2, e3]
  have hv := (C01_typed c).1
  have hk : construct c = .ok c ↔ (c.map (·.key)).Nodup ∧ c ≠ [] ∧ (newIds (c.map (·.id))).Nodup ∧ construct.notSorted c = false := by
    unfold construct
    repeat rw [ite_error_ok]
    simp [anyDuplicated]
  constructor
  · rintro ⟨h1, h2, h3, h4, h5, -⟩
    rw [flNotSorted_withFl c h1] at h5
    obtain ⟨h, h'⟩ := hv.1 (hk.2 ⟨h1, h3, h4, h5⟩)
    exact ⟨h, h', h2⟩
  · rintro ⟨h1, h2, h3⟩
    obtain ⟨k1, k2, k3, k4⟩ := hk.1 (hv.2 ⟨h1, h2⟩)
    exact ⟨k1, h3, k2, k3, by rw [flNotSorted_withFl c k1]; exact k4, rfl⟩

/-- non-vacuity: two series, the first one has an infinite time value. -/
example : constructFloat (withFl [⟨4, ((0 : ℚ) : WithTop ℚ), ()⟩, ⟨4, ((1/2 : ℚ) : WithTop ℚ), ()⟩, ⟨4, ⊤, ()⟩, ⟨1, ((3 : ℚ) : WithTop ℚ), ()⟩]) =
    .ok (withFl [⟨4, ((0 : ℚ) : WithTop ℚ), ()⟩, ⟨4, ((1/2 : ℚ) : WithTop ℚ), ()⟩, ⟨4, ⊤, ()⟩, ⟨1, ((3 : ℚ) : WithTop ℚ), ()⟩]) := by
  rw [constructFloat_ok_iff]
  decide +kernel

/-- An infinite time value can only be the last one of its series. -/
theorem C255_infinite_last {c : List (Row (WithTop ℚ) V)} (h : constructFloat (withFl c) = .ok (withFl c)) {l m : List (Row (WithTop ℚ) V)} {r : Row (WithTop ℚ) V} (hc : c = l ++ r :: m)
    (hr : r.time = ⊤) : ∀ x ∈ m, x.id ≠ r.id := by
  obtain ⟨-, hv, -⟩ := (C255_accepted_partial c).1 h
  have hp := ((valid_iff c).1 hv).2
  rw [hc, List.pairwise_append, List.pairwise_cons] at hp
  intro x hx hid
  have := hp.2.1.1 x hx hid.symm
  rw [hr] at this
  exact not_top_lt this

/-- **C255 is violated by infinity:** every valid collection with floating point time values can be extended by a row at an infinite time after its last row, and the constructor accepts it. -/
theorem C255_infinite_violated (c : List (Row ℚ V)) (x : Row ℚ V) (v : V) (hv : Valid (c ++ [x])) (h0 : ∀ r ∈ c ++ [x], 0 ≤ r.time) :
    ∃ d, constructFloat ((c ++ [x]).map (fun r => ⟨r.id, .fin r.time, r.val⟩) ++ [⟨x.id, .posInf, v⟩]) = .ok d ∧ ∃ r ∈ d, ∀ q, r.time ≠ .fin q := by
  set e : List (Row (WithTop ℚ) V) := (c ++ [x]).map (fun r => ⟨r.id, (r.time : WithTop ℚ), r.val⟩) ++ [⟨x.id, ⊤, v⟩] with he
  have hw : (c ++ [x]).map (fun r => (⟨r.id, .fin r.time, r.val⟩ : Row Fl V)) ++ [⟨x.id, .posInf, v⟩] = withFl e := by
    rw [he]
    unfold withFl
    conv_rhs => rw [List.map_append, List.map_map]
    rfl
  rw [hw]
  refine ⟨_, (C255_accepted_partial e).2 ⟨by simp [he], ?_, ?_⟩, ⟨x.id, .posInf, v⟩, by rw [← hw]; simp, nofun⟩
  · rw [valid_iff] at hv ⊢
    constructor
    · have e1 : e.map (·.id) = c.map (·.id) ++ [x.id, x.id] := by simp [he]
      have e2 : newIds (c.map (·.id) ++ [x.id, x.id]) = newIds (c.map (·.id) ++ [x.id]) := by
        induction c.map (·.id) with
        | nil => simp [newIds]
        | cons a l ih =>
          cases l with
          | nil => simp [newIds]
          | cons b l => simp only [List.cons_append] at ih ⊢; unfold newIds; rw [ih]
      rw [e1, e2]
      simpa using hv.1
    · rw [he, List.pairwise_append]
      refine ⟨?_, List.pairwise_singleton _ _, ?_⟩
      · rw [List.pairwise_map]
        exact hv.2.imp (fun {a b} h hid => WithTop.coe_lt_coe.2 (h hid))
      · intro a ha b hb _
        obtain ⟨a', -, rfl⟩ := List.mem_map.1 ha
        obtain rfl := List.mem_singleton.1 hb
        exact WithTop.coe_lt_top _
  · intro r hr
    rw [he, List.mem_append] at hr
    rcases hr with hr | hr
    · obtain ⟨a, ha, rfl⟩ := List.mem_map.1 hr
      exact WithTop.coe_le_coe.2 (h0 a ha)
    · obtain rfl := List.mem_singleton.1 hr
      exact le_top

theorem newIds_replicate (i n : Nat) : (newIds (List.replicate n i)).Nodup := by
  induction n with
  | zero => simp [newIds]
  | succ n ih =>
    cases n with
    | zero => simp [newIds]
    | succ n => simpa [List.replicate_succ, newIds] using ih

theorem flNotSorted_append_nan (i : Nat) (v : V) : ∀ (a b : List (Row Fl V)), flNotSorted (a ++ ⟨i, .nan, v⟩ :: b) = (flNotSorted a || flNotSorted b) := by
  have hr : ∀ t, flDiff t .nan = .nan := by intro t; cases t <;> rfl
  intro a b
  induction a with
  | nil =>
    cases b with
    | nil => rfl
    | cons y b => simp [flNotSorted, flDiff, Fl.le, Fl.lt]
  | cons x a ih =>
    cases a with
    | nil => simpa [flNotSorted, hr, Fl.le, Fl.lt] using ih
    | cons y a =>
      simp only [List.cons_append] at ih ⊢
      conv_lhs => unfold flNotSorted
      rw [show flNotSorted (x :: y :: a) = ((x.id == y.id && (flDiff x.time y.time).le (.fin 0)) || flNotSorted (y :: a)) from rfl, ih, Bool.or_assoc]

/-- **C255 is violated by nan:** any two sorted series of time values which have no value in common can be put together with one nan between them, whatever their order: the constructor accepts it
as one time series. -/
theorem C255_nan_violated (i : Nat) (a b : List ℚ) (ha : a.Pairwise (· < ·)) (hb : b.Pairwise (· < ·)) (h0 : ∀ t ∈ a ++ b, 0 ≤ t) (hab : ∀ t ∈ a, t ∉ b) :
    constructFloat ((a.map Fl.fin ++ Fl.nan :: b.map Fl.fin).map (fun t => (⟨i, t, ()⟩ : Row Fl Unit))) = .ok ((a.map Fl.fin ++ Fl.nan :: b.map Fl.fin).map (fun t => ⟨i, t, ()⟩)) := by
  have hs : ∀ l : List ℚ, l.Pairwise (· < ·) → flNotSorted ((l.map Fl.fin).map (fun t => (⟨i, t, ()⟩ : Row Fl Unit))) = false := by
    intro l hl
    have e : (l.map Fl.fin).map (fun t => (⟨i, t, ()⟩ : Row Fl Unit)) = withFl (l.map (fun t : ℚ => ⟨i, (t : WithTop ℚ), ()⟩)) := by
      simp only [withFl, List.map_map]; rfl
    have hp : (l.map (fun t : ℚ => (⟨i, (t : WithTop ℚ), ()⟩ : Row (WithTop ℚ) Unit))).Pairwise Before := by
      rw [List.pairwise_map]
      exact hl.imp (fun {s t} h => show i = i → ((s : ℚ) : WithTop ℚ) < ((t : ℚ) : WithTop ℚ) from fun _ => WithTop.coe_lt_coe.2 h)
    rw [e, flNotSorted_withFl _ (nodup_keys_of_pairwise _ hp)]
    refine (sorted_iff_pairwise _ ?_).2 hp
    rw [contiguous_iff_nodup, List.map_map]
    rw [show ((·.id) ∘ fun t : ℚ => (⟨i, (t : WithTop ℚ), ()⟩ : Row (WithTop ℚ) Unit)) = fun _ => i from rfl, List.map_const']
    exact newIds_replicate i _
  rw [constructFloat_ok_iff]
  refine ⟨?_, ?_, by simp, ?_, ?_, rfl⟩
  · have e : ((a.map Fl.fin ++ Fl.nan :: b.map Fl.fin).map (fun t => (⟨i, t, ()⟩ : Row Fl Unit))).map (·.key) = (a.map Fl.fin ++ Fl.nan :: b.map Fl.fin).map (fun t => ⟨i, t⟩) := by
      rw [List.map_map]; rfl
    rw [e]
    refine List.Nodup.map (fun s t h => by simpa using h) ?_
    rw [List.nodup_append, List.nodup_cons]
    have hinj : Function.Injective Fl.fin := fun s t h => by simpa using h
    have hna : a.Nodup := ha.imp (fun h => ne_of_lt h)
    have hnb : b.Nodup := hb.imp (fun h => ne_of_lt h)
    refine ⟨hna.map hinj, ⟨by simp, hnb.map hinj⟩, ?_⟩
    intro x hx y hy
    obtain ⟨s, hs', rfl⟩ := List.mem_map.1 hx
    rcases List.mem_cons.1 hy with rfl | hy
    · nofun
    · obtain ⟨t, ht, rfl⟩ := List.mem_map.1 hy
      intro e
      exact hab s hs' (hinj e ▸ ht)
  · intro r hr
    obtain ⟨t, ht, rfl⟩ := List.mem_map.1 hr
    have key : ∀ q : ℚ, 0 ≤ q → (Fl.fin q).lt (.fin 0) = false := fun q hq => by simpa [Fl.lt] using hq
    rcases List.mem_append.1 ht with ht | ht
    · obtain ⟨q, hq, rfl⟩ := List.mem_map.1 ht
      exact key q (h0 q (List.mem_append_left _ hq))
    · rcases List.mem_cons.1 ht with rfl | ht
      · rfl
      · obtain ⟨q, hq, rfl⟩ := List.mem_map.1 ht
        exact key q (h0 q (List.mem_append_right _ hq))
  · rw [List.map_map, show ((·.id) ∘ fun t => (⟨i, t, ()⟩ : Row Fl Unit)) = fun _ => i from rfl, List.map_const']
    exact newIds_replicate i _
  · rw [List.map_append, List.map_cons, flNotSorted_append_nan, hs a ha, hs b hb]
    rfl

/-- non-vacuity: time values `5, 7, nan, 0, 6` are accepted. -/
example : constructFloat ([Fl.fin 5, .fin 7, .nan, .fin 0, .fin 6].map (fun t => (⟨3, t, ()⟩ : Row Fl Unit))) = .ok ([Fl.fin 5, .fin 7, .nan, .fin 0, .fin 6].map (fun t => ⟨3, t, ()⟩)) := by
  rw [constructFloat_ok_iff]
  decide +kernel

/-- Negative infinity is refused. -/
theorem C255_negative {c d : List (Row Fl V)} (h : constructFloat c = .ok d) : ∀ r ∈ c, r.time ≠ .negInf := by
  intro r hr e
  have := ((constructFloat_ok_iff c d).1 h).2.1 r hr
  rw [e] at this
  simp [Fl.lt] at this

end Verif.Tsc
