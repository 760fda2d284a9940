import Verif.Mpc.Exact
import Verif.Mpc.ControlProps
import Verif.Edmd.ControlDelayProps
/-! # Property C192: with an exact model, Koopman MPC solves the control problem of the real (nonlinear) system -/

namespace Verif.Mpc

open Verif.Tsc Verif.Np Verif.Edmd Verif.Dict Verif.Takens Matrix

variable {N n nq nu : Nat}

/-! ## Specification -/

/-- The tracking cost of the system itself: `y w` are the controlled quantities of a window of samples, `steered F w u i` is the window after `i` steps of the system with the inputs `u`. -/
noncomputable def plantCost (F : List (List ℝ) → (Fin nu → ℝ) → List ℝ) (y : List (List ℝ) → Fin nq → ℝ) (horizon : Nat) (running terminal : Fin nq → ℝ) (input : Fin nu → ℝ) (w : List (List ℝ))
    (ref : Nat → Fin nq → ℝ) (u : Nat → Fin nu → ℝ) : ℝ :=
  ∑ i ∈ Finset.range horizon, (∑ r, (if i + 1 < horizon then running r else terminal r) * (y (steered F w u (i + 1)) r - ref i r) ^ 2 + ∑ c, input c * u i c ^ 2)

/-- All inputs and all future controlled quantities of the system itself stay within the bounds. -/
def PlantWithin (F : List (List ℝ) → (Fin nu → ℝ) → List ℝ) (y : List (List ℝ) → Fin nq → ℝ) (horizon : Nat) (stateBounds inputBounds : Option (List (ℝ × ℝ))) (w : List (List ℝ))
    (u : Nat → Fin nu → ℝ) : Prop :=
  (∀ b ∈ stateBounds, ∀ i < horizon, ∀ r : Fin nq, (b.getD r 0).1 ≤ y (steered F w u (i + 1)) r ∧ y (steered F w u (i + 1)) r ≤ (b.getD r 0).2) ∧
  (∀ b ∈ inputBounds, ∀ i < horizon, ∀ c : Fin nu, (b.getD c 0).1 ≤ u i c ∧ u i c ≤ (b.getD c 0).2)

/-- The quantities with the names `qois` of the dictionary `φ` with the feature names `cols`. -/
noncomputable def quantities (φ : List (List ℝ) → List ℝ) (cols qois : List String) (w : List (List ℝ)) (r : Fin qois.length) : ℝ := (φ w).getD (cols.idxOf qois[r]) 0

/-- One series of `m` samples that ends at `t0`. -/
def IsWindow (m : Nat) (t0 : Int) (V : Takens.Frame ℝ) : Prop := V.rows.length = m ∧ (∃ i, ∀ r ∈ V.rows, r.id = i) ∧ (V.rows.map (·.time)).getLast? = some t0

/-! ## Helpers -/

theorem trajectory_steered {S : Set (List (List ℝ))} {F : List (List ℝ) → (Fin nu → ℝ) → List ℝ} {φ : List (List ℝ) → List ℝ} {A₀ : Matrix (Fin N) (Fin N) ℝ} {E₀ : Matrix (Fin N) (Fin nu) ℝ}
    {B₀ : Matrix (Fin N) (Fin n) ℝ} (h : ClosedControl S F φ A₀ E₀ B₀) {w : List (List ℝ)} (hw : w ∈ S) (u : Nat → Fin nu → ℝ) (i : Nat) :
    steered F w u i ∈ S ∧ trajectory A₀ E₀ (toVec N (φ w)) u i = toVec N (φ (steered F w u i)) := by
  induction i with
  | zero => exact ⟨hw, rfl⟩
  | succ i ih => exact ⟨h.stays _ ih.1 _, by rw [trajectory, ih.2, steered, h.step _ ih.1]⟩

section helpers

variable {S : Set (List (List ℝ))} {F : List (List ℝ) → (Fin nu → ℝ) → List ℝ} {φ : List (List ℝ) → List ℝ} {A₀ : Matrix (Fin N) (Fin N) ℝ} {E₀ : Matrix (Fin N) (Fin nu) ℝ}
    {B₀ : Matrix (Fin N) (Fin n) ℝ}

theorem cost_plant (h : ClosedControl S F φ A₀ E₀ B₀) {C : Matrix (Fin nq) (Fin N) ℝ} {y : List (List ℝ) → Fin nq → ℝ} (hy : ∀ w ∈ S, C *ᵥ toVec N (φ w) = y w) {w : List (List ℝ)} (hw : w ∈ S)
    (horizon : Nat) (wr wt : Fin nq → ℝ) (wu : Fin nu → ℝ) (ref : Nat → Fin nq → ℝ) (u : Nat → Fin nu → ℝ) :
    trackingCost A₀ E₀ C horizon wr wt wu (toVec N (φ w)) ref u = plantCost F y horizon wr wt wu w ref u := by
  unfold trackingCost plantCost
  refine Finset.sum_congr rfl fun i _ => ?_
  rw [(trajectory_steered h hw u (i + 1)).2, hy _ (trajectory_steered h hw u (i + 1)).1]

theorem within_plant (h : ClosedControl S F φ A₀ E₀ B₀) {C : Matrix (Fin nq) (Fin N) ℝ} {y : List (List ℝ) → Fin nq → ℝ} (hy : ∀ w ∈ S, C *ᵥ toVec N (φ w) = y w) {w : List (List ℝ)} (hw : w ∈ S)
    (horizon : Nat) (sb ib : Option (List (ℝ × ℝ))) (u : Nat → Fin nu → ℝ) :
    WithinBounds A₀ E₀ C horizon sb ib (toVec N (φ w)) u ↔ PlantWithin F y horizon sb ib w u := by
  unfold WithinBounds PlantWithin
  refine and_congr ?_ Iff.rfl
  refine forall₂_congr fun b _ => forall₂_congr fun i _ => ?_
  rw [(trajectory_steered h hw u (i + 1)).2, hy _ (trajectory_steered h hw u (i + 1)).1]

end helpers

/-- The selection matrix reads the quantities of the dictionary. -/
theorem quantities_eq {cols qois : List String} (hn : cols.Nodup) (hsub : qois.Sublist cols) {C : Matrix (Fin qois.length) (Fin cols.length) ℝ} (hC : kmpcC cols qois = some C)
    (φ : List (List ℝ) → List ℝ) (w : List (List ℝ)) : C *ᵥ toVec cols.length (φ w) = quantities φ cols qois w := by
  funext r
  exact (C87_selection_iff cols qois hn C hC (fun q hq => hsub.subset hq)).2 hsub _ r

/-- The lifted state of a window. -/
theorem window_lift {d : Int} {m : Nat} (hm : 1 ≤ m) {φ : List (List ℝ) → List ℝ} {colsIn cols : List String} {T : Transformer ℝ} (hT : Causal d m colsIn cols φ T) {V : Takens.Frame ℝ} (hV : Good d V)
    (hc : V.cols = colsIn) {t0 : Int} (hw : IsWindow m t0 V) : ∃ D z, T V = .ok D ∧ D.rows = [z] ∧ z.time = t0 ∧ z.val = φ (V.rows.map (·.val)) ∧ ∀ r ∈ V.rows, z.id = r.id := by
  obtain ⟨hlen, ⟨i, hi⟩, ht⟩ := hw
  have hser : series V.rows i = V.rows := List.filter_eq_self.2 (fun r hr => by simp [hi r hr])
  have hids : ∀ j, HasId V.rows j → j = i := by rintro j ⟨r, hr, rfl⟩; exact hi r hr
  have hHas : HasId V.rows i := by
    obtain ⟨r, hr⟩ := List.exists_mem_of_ne_nil _ hV.ne
    exact ⟨r, hr, hi r hr⟩
  have hVl : ∀ j, HasId V.rows j → (series V.rows j).length = m := by
    intro j hj
    rw [hids j hj, hser, hlen]
  obtain ⟨D, hD, hDg, -, hDi, hcon⟩ := hT V hV hc (fun j hj => (hVl j hj).ge)
  obtain ⟨hnd, hrows⟩ := dict_ic hm hV hDi hcon hVl
  have hall : ∀ r ∈ D.rows, r.id = i := fun r hr => hids _ (hrows r hr).1
  have hone : ∃ z, D.rows = [z] := by
    cases hr : D.rows with
    | nil => exact absurd hr hDg.ne
    | cons z l =>
      cases l with
      | nil => exact ⟨z, rfl⟩
      | cons z' l =>
        rw [hr] at hnd hall
        have h1 := hall z (by simp)
        have h2 := hall z' (by simp)
        simp [h1, h2] at hnd
  obtain ⟨z, hz⟩ := hone
  obtain ⟨h1, h2, h3⟩ := hrows z (by rw [hz]; simp)
  have hzi : z.id = i := hids _ h1
  refine ⟨D, z, hD, hz, ?_, ?_, fun r hr => by rw [hzi, hi r hr]⟩
  · rw [hzi, timesOf, hser, ht] at h2
    exact Option.some.inj h2
  · rw [h3, hzi, content, hser, List.map_map]
    rfl

theorem controlDict_ok {k : Kmpc (Fin N) nq nu} {T : Transformer ℝ} {dt : Int} {V D : Takens.Frame ℝ} {z : Row Int (List ℝ)} (hT : T V = .ok D) (hz : D.rows = [z]) {ref : List (Int × (Fin nq → ℝ))}
    {out : List (Int × (Fin nu → ℝ))} : IsControlDict k T dt V ref (.ok out) ↔ IsControlSequence k dt z.time (toVec N z.val) ref (.ok out) := by
  unfold IsControlDict
  rw [hT]
  simp only [hz]
  constructor
  · rintro ⟨o, ho, he⟩
    cases o with
    | error e => simp [Except.mapError] at he
    | ok o =>
      simp only [Except.mapError, Except.ok.injEq] at he
      rw [he]; exact ho
  · intro h
    exact ⟨_, h, rfl⟩

/-! ## C192 -/

section

variable {k : TimeKind} {d : Int} {m : Nat} {φ : List (List ℝ) → List ℝ} {cols qois : List String} {T : Transformer ℝ} {X D : Takens.Frame ℝ} {U : List (Row Int (Fin nu → ℝ))}
  {S : Set (List (List ℝ))} {F : List (List ℝ) → (Fin nu → ℝ) → List ℝ} {A₀ : Matrix (Fin cols.length) (Fin cols.length) ℝ} {E₀ : Matrix (Fin cols.length) (Fin nu) ℝ}
  {B₀ : Matrix (Fin cols.length) (Fin n) ℝ} {A : Matrix (Fin cols.length) (Fin cols.length) ℝ} {E : Matrix (Fin cols.length) (Fin nu) ℝ} {B : Matrix (Fin cols.length) (Fin n) ℝ}

/-- The model was fitted to data of the system: all series of `X` follow the controlled recurrence `F` with memory of `m` samples, the dictionary `φ` is closed under it, and the lifted samples with their inputs
span the space. -/
structure FittedTo (k : TimeKind) (d : Int) (m : Nat) (φ : List (List ℝ) → List ℝ) (cols : List String) (T : Transformer ℝ) (X D : Takens.Frame ℝ) (U : List (Row Int (Fin nu → ℝ))) (S : Set (List (List ℝ)))
    (F : List (List ℝ) → (Fin nu → ℝ) → List ℝ) (A₀ : Matrix (Fin cols.length) (Fin cols.length) ℝ) (E₀ : Matrix (Fin cols.length) (Fin nu) ℝ) (B₀ : Matrix (Fin cols.length) (Fin n) ℝ)
    (A : Matrix (Fin cols.length) (Fin cols.length) ℝ) (E : Matrix (Fin cols.length) (Fin nu) ℝ) (B : Matrix (Fin cols.length) (Fin n) ℝ) : Prop where
  pos : 1 ≤ m
  good : Good d X
  long : MinLength (m + 1) X
  dict : Causal d m X.cols cols φ T
  lifted : T X = .ok D
  order : IdsAscending D.rows ∨ EqualLengths D.rows
  input : Valid U
  closed : ClosedControl S F φ A₀ E₀ B₀
  follows : ∀ i, FollowsControl m S F X U i
  span : Submodule.span ℝ {z : Fin cols.length ⊕ Fin nu → ℝ | ∃ i q, q + m < (content X.rows i).length ∧ ∃ r ∈ U, r.id = i ∧ r.time = ((content X.rows i).map (·.1)).getD (q + m - 1) 0 ∧
      z = Sum.elim (toVec cols.length (φ ((((content X.rows i).map (·.2)).drop q).take m))) r.val} = ⊤
  fits : FitsDictControl k m X D U A E B

/-- **C192 (true part).** Let the EDMD model be fitted to data of a controlled system, possibly nonlinear and with memory, under which the dictionary is closed.  From every window of samples in `S`, the control
sequence of `control_sequence_horizon` keeps the inputs and the controlled quantities of the *system itself* within the bounds, and no admissible input sequence has a smaller tracking cost for the system itself.
The quantities are given in the order of the dictionary, and the terminal weights are not all zero. -/
theorem C192_optimal_partial (hfit : FittedTo k d m φ cols T X D U S F A₀ E₀ B₀ A E B) (hn : cols.Nodup) (hsub : qois.Sublist cols) (c : Kmpc (Fin cols.length) qois.length nu) (hA : c.A = A) (hB : c.B = E)
    (hC : kmpcC cols qois = some c.C) (hh : 2 ≤ c.horizon) (hb : BoundsShape c) {wr wt : Fin qois.length → ℝ} {wu : Fin nu → ℝ} (hr : CostIs c.running wr) (ht : CostIs c.terminal wt)
    (hu : CostIs c.input wu) (h0 : ∃ r, wt r ≠ 0) (dt t0 : Int) {V : Takens.Frame ℝ} (hV : Good d V) (hVc : V.cols = X.cols) (hw : IsWindow m t0 V) (hS : V.rows.map (·.val) ∈ S)
    (ref : List (Int × (Fin qois.length → ℝ))) (out : List (Int × (Fin nu → ℝ))) (h : IsControlDict c T dt V ref (.ok out)) :
    out.map (·.1) = t0 :: (ref.map (·.1)).dropLast ∧
      PlantWithin F (quantities φ cols qois) c.horizon c.stateBounds c.inputBounds (V.rows.map (·.val)) (inputAt out) ∧
      ∀ u, PlantWithin F (quantities φ cols qois) c.horizon c.stateBounds c.inputBounds (V.rows.map (·.val)) u →
        plantCost F (quantities φ cols qois) c.horizon wr wt wu (V.rows.map (·.val)) (fun i => (ref.getD i (0, fun _ => 0)).2) (inputAt out) ≤
        plantCost F (quantities φ cols qois) c.horizon wr wt wu (V.rows.map (·.val)) (fun i => (ref.getD i (0, fun _ => 0)).2) u := by
  obtain ⟨rfl, rfl, rfl⟩ := C191_recovery_partial hfit.pos hfit.good hfit.long hfit.dict hfit.lifted hfit.order hfit.input hfit.closed hfit.follows hfit.span hfit.fits
  obtain ⟨Z, z, hZ, hz, rfl, hzv, -⟩ := window_lift hfit.pos hfit.dict hV hVc hw
  have h1 := (controlDict_ok hZ hz).1 h
  obtain ⟨e1, e2, e3⟩ := C39_optimal_partial c hh hb hr ht hu h0 dt z.time _ ref out h1
  have hy : ∀ w ∈ S, c.C *ᵥ toVec cols.length (φ w) = quantities φ cols qois w := fun w _ => quantities_eq hn hsub hC φ w
  have hcl := hfit.closed
  rw [← hA, ← hB] at hcl
  rw [hzv] at e2 e3
  refine ⟨e1, (within_plant hcl hy hS _ _ _ _).1 e2, fun u hu' => ?_⟩
  have := e3 u ((within_plant hcl hy hS _ _ _ _).2 hu')
  rwa [cost_plant hcl hy hS, cost_plant hcl hy hS] at this

/-- **C192 (existence and uniqueness).** With positive input weights exactly one sequence is returned whenever some input sequence is admissible for the system itself, and an exception is raised otherwise. -/
theorem C192_exists (hfit : FittedTo k d m φ cols T X D U S F A₀ E₀ B₀ A E B) (hn : cols.Nodup) (hsub : qois.Sublist cols) (c : Kmpc (Fin cols.length) qois.length nu) (hA : c.A = A) (hB : c.B = E)
    (hC : kmpcC cols qois = some c.C) (hh : 2 ≤ c.horizon) (hb : BoundsShape c) {wr wt : Fin qois.length → ℝ} {wu : Fin nu → ℝ} (hr : CostIs c.running wr) (ht : CostIs c.terminal wt)
    (hu : CostIs c.input wu) (h0 : ∃ r, wt r ≠ 0) (hpos : ∀ j, 0 < wu j) (dt t0 : Int) {V : Takens.Frame ℝ} (hV : Good d V) (hVc : V.cols = X.cols) (hw : IsWindow m t0 V) (hS : V.rows.map (·.val) ∈ S)
    (ref : List (Int × (Fin qois.length → ℝ))) (hhead : (ref.map (·.1)).head? = some (t0 + dt)) (hl : ref.length = c.horizon) :
    (∃! out, IsControlDict c T dt V ref (.ok out)) ↔ ∃ u, PlantWithin F (quantities φ cols qois) c.horizon c.stateBounds c.inputBounds (V.rows.map (·.val)) u := by
  constructor
  · rintro ⟨out, h, -⟩
    exact ⟨_, (C192_optimal_partial hfit hn hsub c hA hB hC hh hb hr ht hu h0 dt t0 hV hVc hw hS ref out h).2.1⟩
  · rintro ⟨u, hu'⟩
    obtain ⟨rfl, rfl, rfl⟩ := C191_recovery_partial hfit.pos hfit.good hfit.long hfit.dict hfit.lifted hfit.order hfit.input hfit.closed hfit.follows hfit.span hfit.fits
    obtain ⟨Z, z, hZ, hz, rfl, hzv, -⟩ := window_lift hfit.pos hfit.dict hV hVc hw
    have hy : ∀ w ∈ S, c.C *ᵥ toVec cols.length (φ w) = quantities φ cols qois w := fun w _ => quantities_eq hn hsub hC φ w
    have hcl := hfit.closed
    rw [← hA, ← hB] at hcl
    obtain ⟨out, ho⟩ := C39_exists c hh hb hr ht hu h0 hpos dt z.time (toVec cols.length z.val) ref hhead hl ⟨u, by rw [hzv]; exact (within_plant hcl hy hS _ _ _ _).2 hu'⟩
    refine ⟨out, (controlDict_ok hZ hz).2 ho, fun out' h' => ?_⟩
    exact C39_unique c hh hb hr ht hu h0 hpos dt z.time _ ref _ _ ((controlDict_ok hZ hz).1 h') ho

theorem plantCost_nonneg {y : List (List ℝ) → Fin nq → ℝ} {horizon : Nat} {wr wt : Fin nq → ℝ} {wu : Fin nu → ℝ} (hr : ∀ r, 0 ≤ wr r) (ht : ∀ r, 0 ≤ wt r) (hu : ∀ j, 0 ≤ wu j) (w : List (List ℝ))
    (ref : Nat → Fin nq → ℝ) (u : Nat → Fin nu → ℝ) : ∀ i ∈ Finset.range horizon,
      0 ≤ ∑ r, (if i + 1 < horizon then wr r else wt r) * (y (steered F w u (i + 1)) r - ref i r) ^ 2 + ∑ c, wu c * u i c ^ 2 := by
  intro i _
  refine add_nonneg (Finset.sum_nonneg fun r _ => mul_nonneg ?_ (sq_nonneg _)) (Finset.sum_nonneg fun j _ => mul_nonneg (hu j) (sq_nonneg _))
  split
  · exact hr r
  · exact ht r

/-- **C192 (exact tracking).** Without input cost and with positive weights, a reference that the system itself can follow within the bounds is followed exactly, by every returned sequence. -/
theorem C192_tracks (hfit : FittedTo k d m φ cols T X D U S F A₀ E₀ B₀ A E B) (hn : cols.Nodup) (hsub : qois.Sublist cols) (c : Kmpc (Fin cols.length) qois.length nu) (hA : c.A = A) (hB : c.B = E)
    (hC : kmpcC cols qois = some c.C) (hh : 2 ≤ c.horizon) (hb : BoundsShape c) {wr wt : Fin qois.length → ℝ} (hr : CostIs c.running wr) (ht : CostIs c.terminal wt)
    (hu : CostIs c.input (fun _ : Fin nu => 0)) (hwr : ∀ r, 0 < wr r) (hwt : ∀ r, 0 < wt r) (hq : qois ≠ []) (dt t0 : Int) {V : Takens.Frame ℝ} (hV : Good d V) (hVc : V.cols = X.cols)
    (hw : IsWindow m t0 V) (hS : V.rows.map (·.val) ∈ S) (ref : List (Int × (Fin qois.length → ℝ))) (out : List (Int × (Fin nu → ℝ))) (h : IsControlDict c T dt V ref (.ok out))
    (hreach : ∃ u, PlantWithin F (quantities φ cols qois) c.horizon c.stateBounds c.inputBounds (V.rows.map (·.val)) u ∧
      ∀ i < c.horizon, quantities φ cols qois (steered F (V.rows.map (·.val)) u (i + 1)) = (ref.getD i (0, fun _ => 0)).2) :
    ∀ i < c.horizon, quantities φ cols qois (steered F (V.rows.map (·.val)) (inputAt out) (i + 1)) = (ref.getD i (0, fun _ => 0)).2 := by
  have hlen : 0 < qois.length := List.length_pos_iff.2 hq
  obtain ⟨-, -, hopt⟩ := C192_optimal_partial hfit hn hsub c hA hB hC hh hb hr ht hu ⟨⟨0, hlen⟩, (hwt _).ne'⟩ dt t0 hV hVc hw hS ref out h
  obtain ⟨u, hu1, hu2⟩ := hreach
  have hle := hopt u hu1
  have hz : plantCost F (quantities φ cols qois) c.horizon wr wt (fun _ => 0) (V.rows.map (·.val)) (fun i => (ref.getD i (0, fun _ => 0)).2) u = 0 := by
    unfold plantCost
    refine Finset.sum_eq_zero fun i hi => ?_
    have := hu2 i (Finset.mem_range.1 hi)
    simp [this]
  rw [hz] at hle
  have hnn := plantCost_nonneg (F := F) (y := quantities φ cols qois) (horizon := c.horizon) (wu := fun _ : Fin nu => 0) (fun r => (hwr r).le) (fun r => (hwt r).le) (fun _ => le_rfl) (V.rows.map (·.val))
    (fun i => (ref.getD i (0, fun _ => 0)).2) (inputAt out)
  have hall := (Finset.sum_eq_zero_iff_of_nonneg hnn).1 (le_antisymm hle (Finset.sum_nonneg hnn))
  intro i hi
  have h1 := hall i (Finset.mem_range.2 hi)
  simp only [zero_mul, Finset.sum_const_zero, add_zero] at h1
  funext r
  have h2 := (Finset.sum_eq_zero_iff_of_nonneg (fun r _ => mul_nonneg (by split; exact (hwr r).le; exact (hwt r).le) (sq_nonneg _))).1 h1 r (Finset.mem_univ r)
  have h3 : (if i + 1 < c.horizon then wr r else wt r) ≠ 0 := by
    split
    · exact (hwr r).ne'
    · exact (hwt r).ne'
  have h4 := (mul_eq_zero.1 h2).resolve_left h3
  exact sub_eq_zero.1 (pow_eq_zero_iff (two_ne_zero)|>.1 h4)

end

/-! ## Example: a nonlinear system with a slow manifold -/

/-- `x' = 2 x`, `y' = y + x² + u`. -/
def exPlant (w : List (List ℝ)) (u : Fin 1 → ℝ) : List ℝ :=
  [2 * (w.headD []).getD 0 0, (w.headD []).getD 1 0 + (w.headD []).getD 0 0 ^ 2 + u 0]

/-- The dictionary `(x, y, x²)`. -/
def exSquare (_ : Takens.Frame ℝ) (v : List ℝ) : List ℝ := [v.getD 0 0, v.getD 1 0, v.getD 0 0 ^ 2]

def exPlantX : Takens.Frame ℝ := ⟨["x", "y"], [⟨0, 0, [1, 0]⟩, ⟨0, 1, [2, 1]⟩, ⟨0, 2, [4, 6]⟩, ⟨0, 3, [8, 22]⟩, ⟨0, 4, [16, 86]⟩]⟩

def exPlantU : List (Row Int (Fin 1 → ℝ)) := [⟨0, 0, ![0]⟩, ⟨0, 1, ![1]⟩, ⟨0, 2, ![0]⟩, ⟨0, 3, ![0]⟩]

def exPlantD : Takens.Frame ℝ := ⟨["x", "y", "x^2"], mapVal (exSquare exPlantX) exPlantX.rows⟩

def exPlantT : Transformer ℝ := rowTransform (exSquare exPlantX) ["x", "y"] ["x", "y", "x^2"]

theorem exPlant_good : Good 1 exPlantX := by
  refine ⟨by simp [exPlantX], ?_, ?_, ?_, by norm_num⟩
  · exact (valid_iff _).2 ⟨by decide +kernel, by simp [Before, exPlantX]⟩
  · unfold Rect; decide +kernel
  · intro i
    by_cases h0 : i = 0
    · subst h0; decide +kernel
    · have : timesOf exPlantX.rows i = [] := by simp [timesOf, series, exPlantX, Ne.symm h0]
      simp [this, consecutive]

theorem exPlant_causal : Causal 1 1 exPlantX.cols ["x", "y", "x^2"] (fun w => exSquare exPlantX (w.headD [])) exPlantT :=
  row_formula exSquare (fun _ => ["x", "y", "x^2"]) (fun _ _ _ => rfl) 1 exPlantX (by decide)

theorem exPlant_lifted : exPlantT exPlantX = .ok exPlantD := by
  have := rowTransform_ok (g := exSquare exPlantX) exPlant_good (cols := ["x", "y"]) rfl (out := ["x", "y", "x^2"]) (by decide)
  exact this

theorem exPlant_content : content exPlantX.rows 0 = [(0, [1, 0]), (1, [2, 1]), (2, [4, 6]), (3, [8, 22]), (4, [16, 86])] := by simp [content, series, exPlantX]

theorem exPlant_other {i : Nat} (h : i ≠ 0) : content exPlantX.rows i = [] := by simp [content, series, exPlantX, Ne.symm h]

theorem exPlant_closed : ClosedControl (Windows 1 2) exPlant (fun w => exSquare exPlantX (w.headD [])) (!![2, 0, 0; 0, 1, 1; 0, 0, 4] : Matrix (Fin 3) (Fin 3) ℝ)
    (!![0; 1; 0] : Matrix (Fin 3) (Fin 1) ℝ) (!![1, 0; 0, 1; 0, 0] : Matrix (Fin 3) (Fin 2) ℝ) := by
  refine ⟨?_, ?_, ?_⟩
  · rintro w ⟨h1, h2⟩ u
    obtain ⟨v, rfl⟩ := List.length_eq_one_iff.1 h1
    exact ⟨by simp [steer], by simp [steer, exPlant]⟩
  · rintro w ⟨h1, h2⟩ u
    obtain ⟨v, rfl⟩ := List.length_eq_one_iff.1 h1
    funext j
    fin_cases j <;> simp [steer, exPlant, exSquare, toVec, Matrix.mulVec, dotProduct, Fin.sum_univ_three] <;> ring
  · rintro w ⟨h1, h2⟩
    obtain ⟨v, rfl⟩ := List.length_eq_one_iff.1 h1
    funext j
    fin_cases j <;> simp [exSquare, toVec, Matrix.vecMul, dotProduct, Fin.sum_univ_three]

theorem exPlant_follows (i : Nat) : FollowsControl 1 (Windows 1 2) exPlant exPlantX exPlantU i := by
  by_cases hi : i = 0
  · subst hi
    refine ⟨?_, ?_⟩
    · intro q hq
      exact good_windows exPlant_good rfl 1 0 q hq
    · intro q hq r hr hri hrt
      rw [exPlant_content] at hq hrt ⊢
      simp only [List.length_cons, List.length_nil] at hq
      have hq' : q = 0 ∨ q = 1 ∨ q = 2 ∨ q = 3 := by omega
      simp only [exPlantU, List.mem_cons, List.not_mem_nil, or_false] at hr
      rcases hq' with rfl | rfl | rfl | rfl <;> rcases hr with rfl | rfl | rfl | rfl <;> simp at hri hrt <;> simp [exPlant] <;> norm_num
  · refine ⟨fun q hq => ?_, fun q hq => ?_⟩ <;> rw [exPlant_other hi] at hq <;> simp at hq

theorem exPlant_span : Submodule.span ℝ {z : Fin 3 ⊕ Fin 1 → ℝ | ∃ i q, q + 1 < (content exPlantX.rows i).length ∧ ∃ r ∈ exPlantU, r.id = i ∧
    r.time = ((content exPlantX.rows i).map (·.1)).getD (q + 1 - 1) 0 ∧
    z = Sum.elim (toVec 3 (exSquare exPlantX (((((content exPlantX.rows i).map (·.2)).drop q).take 1).headD []))) r.val} = ⊤ := by
  rw [eq_top_iff]
  intro z _
  set S := {z : Fin 3 ⊕ Fin 1 → ℝ | ∃ i q, q + 1 < (content exPlantX.rows i).length ∧ ∃ r ∈ exPlantU, r.id = i ∧
    r.time = ((content exPlantX.rows i).map (·.1)).getD (q + 1 - 1) 0 ∧
    z = Sum.elim (toVec 3 (exSquare exPlantX (((((content exPlantX.rows i).map (·.2)).drop q).take 1).headD []))) r.val} with hS
  have m0 : Sum.elim ![1, 0, 1] ![0] ∈ Submodule.span ℝ S := by
    refine Submodule.subset_span ⟨0, 0, by rw [exPlant_content]; decide, ⟨0, 0, ![0]⟩, by simp [exPlantU], rfl, by rw [exPlant_content]; rfl, ?_⟩
    rw [exPlant_content]
    funext p
    rcases p with j | j <;> fin_cases j <;> simp [toVec, exSquare]
  have m1 : Sum.elim ![2, 1, 4] ![1] ∈ Submodule.span ℝ S := by
    refine Submodule.subset_span ⟨0, 1, by rw [exPlant_content]; decide, ⟨0, 1, ![1]⟩, by simp [exPlantU], rfl, by rw [exPlant_content]; rfl, ?_⟩
    rw [exPlant_content]
    funext p
    rcases p with j | j <;> fin_cases j <;> simp [toVec, exSquare]
    norm_num
  have m2 : Sum.elim ![4, 6, 16] ![0] ∈ Submodule.span ℝ S := by
    refine Submodule.subset_span ⟨0, 2, by rw [exPlant_content]; decide, ⟨0, 2, ![0]⟩, by simp [exPlantU], rfl, by rw [exPlant_content]; rfl, ?_⟩
    rw [exPlant_content]
    funext p
    rcases p with j | j <;> fin_cases j <;> simp [toVec, exSquare]
    norm_num
  have m3 : Sum.elim ![8, 22, 64] ![0] ∈ Submodule.span ℝ S := by
    refine Submodule.subset_span ⟨0, 3, by rw [exPlant_content]; decide, ⟨0, 3, ![0]⟩, by simp [exPlantU], rfl, by rw [exPlant_content]; rfl, ?_⟩
    rw [exPlant_content]
    funext p
    rcases p with j | j <;> fin_cases j <;> simp [toVec, exSquare]
    norm_num
  set a := z (Sum.inl 0) - 2 * z (Sum.inr 0) with ha
  set b := z (Sum.inl 1) - z (Sum.inr 0) with hb
  set c := z (Sum.inl 2) - 4 * z (Sum.inr 0) with hc
  set p3 := (c - a - 2 * b) / 12 with hp3
  set p2 := (b - 22 * p3) / 6 with hp2
  have : z = (a - 4 * p2 - 8 * p3) • Sum.elim ![1, 0, 1] ![0] + z (Sum.inr 0) • Sum.elim ![2, 1, 4] ![1] + p2 • Sum.elim ![4, 6, 16] ![0] + p3 • Sum.elim ![8, 22, 64] ![0] := by
    funext p
    rcases p with j | j <;> fin_cases j <;> simp [hp2, hp3, ha, hb, hc] <;> ring
  rw [this]
  exact add_mem (add_mem (add_mem (Submodule.smul_mem _ _ m0) (Submodule.smul_mem _ _ m1)) (Submodule.smul_mem _ _ m2)) (Submodule.smul_mem _ _ m3)

theorem exPlant_long : MinLength (1 + 1) exPlantX := by
  rintro i ⟨r, hr, rfl⟩
  simp only [exPlantX, List.mem_cons, List.not_mem_nil, or_false] at hr
  rcases hr with rfl | rfl | rfl | rfl | rfl <;> decide +kernel

theorem exPlant_matches : Verif.Dmd.controlIndexMatches (mapVal (toVec 3) exPlantD.rows) (alignControl 1 exPlantD.rows exPlantU) := by
  obtain ⟨r, hr, hk⟩ := ok_of_any (e := dropLastN (mapVal (toVec 3) exPlantD.rows) 1) (P := fun r => decide (r.map (·.key) = (alignControl 1 exPlantD.rows exPlantU).map (·.key))) (by decide +kernel)
  exact ⟨r, hr, by simpa using hk⟩

/-- non-vacuity of `C192_optimal_partial`, `C192_exists` and `C192_tracks`: a model is fitted to five samples of the nonlinear system, and a controller for `y` with bounds on `y` and the input exists and returns a
sequence for a reference. -/
example : ∃ (A : Matrix (Fin 3) (Fin 3) ℝ) (E : Matrix (Fin 3) (Fin 1) ℝ) (B : Matrix (Fin 3) (Fin 2) ℝ),
    FittedTo .int 1 1 (fun w => exSquare exPlantX (w.headD [])) ["x", "y", "x^2"] exPlantT exPlantX exPlantD exPlantU (Windows 1 2) exPlant !![2, 0, 0; 0, 1, 1; 0, 0, 4] !![0; 1; 0]
      !![1, 0; 0, 1; 0, 0] A E B ∧
    ∃ c : Kmpc (Fin 3) 1 1, c.A = A ∧ c.B = E ∧ kmpcC ["x", "y", "x^2"] ["y"] = some c.C ∧ c.horizon = 2 ∧ c.stateBounds = some [(-5, 5)] ∧ c.inputBounds = some [(-20, 20)] ∧
      ∃ out, IsControlDict c exPlantT 1 ⟨["x", "y"], [⟨7, 3, [1, 1]⟩]⟩ [(4, fun _ => 0), (5, fun _ => 1)] (.ok out) := by
  obtain ⟨A, E, B, hfit⟩ := fits_of_matches (N := 3) (n := 2) le_rfl exPlant_good exPlant_long exPlant_causal exPlant_lifted exPlant_matches
  have hF : FittedTo .int 1 1 (fun w => exSquare exPlantX (w.headD [])) ["x", "y", "x^2"] exPlantT exPlantX exPlantD exPlantU (Windows 1 2) exPlant !![2, 0, 0; 0, 1, 1; 0, 0, 4] !![0; 1; 0]
      !![1, 0; 0, 1; 0, 0] A E B :=
    ⟨le_rfl, exPlant_good, exPlant_long, exPlant_causal, exPlant_lifted, Or.inl (by unfold IdsAscending; decide +kernel), (valid_iff _).2 ⟨by decide +kernel, by simp [Before, exPlantU]⟩, exPlant_closed,
      exPlant_follows, exPlant_span, hfit⟩
  refine ⟨A, E, B, hF, ?_⟩
  obtain ⟨C, hC⟩ : ∃ C, kmpcC ["x", "y", "x^2"] ["y"] = some C := ⟨_, rfl⟩
  set c : Kmpc (Fin 3) 1 1 := ⟨2, A, E, C, some [(-5, 5)], some [(-20, 20)], .number 1, .number 1, .number 1⟩ with hc
  have hone : ∀ m : Nat, CostIs (.number 1) (fun _ : Fin m => 1) := fun m => ⟨fun _ => zero_le_one, Or.inl ⟨1, zero_le_one, rfl, fun _ => rfl⟩⟩
  refine ⟨c, rfl, rfl, hC, rfl, rfl, rfl, ?_⟩
  have hV : Good 1 (⟨["x", "y"], [⟨7, 3, [1, 1]⟩]⟩ : Takens.Frame ℝ) := by
    refine ⟨by simp, (valid_iff _).2 ⟨by decide +kernel, by simp [Before]⟩, by unfold Rect; decide +kernel, ?_, by norm_num⟩
    intro i
    by_cases h0 : i = 7
    · subst h0; decide +kernel
    · have : timesOf ([⟨7, 3, [1, 1]⟩] : List (Row Int (List ℝ))) i = [] := by simp [timesOf, series, Ne.symm h0]
      simp [this, consecutive]
  have h := (C192_exists (qois := ["y"]) hF (by decide) (by decide) c rfl rfl hC le_rfl ⟨by simp [hc], by simp [hc]⟩ (hone _) (hone _) (hone _) ⟨0, one_ne_zero⟩ (fun _ => one_pos) 1 3 hV rfl
    ⟨rfl, ⟨7, by simp⟩, rfl⟩ ⟨rfl, by simp⟩ [(4, fun _ => 0), (5, fun _ => 1)] rfl rfl).2 ?_
  · obtain ⟨out, ho, -⟩ := h
    exact ⟨out, ho⟩
  · refine ⟨fun i _ => if i = 0 then -2 else -4, ?_, ?_⟩
    · intro b hb i hi r
      simp only [hc, Option.mem_def, Option.some.injEq] at hb
      subst hb
      have hi : i = 0 ∨ i = 1 := by have : i < 2 := hi; omega
      have hr : r = (0 : Fin 1) := Subsingleton.elim (α := Fin 1) _ _
      subst hr
      have hidx : List.idxOf "y" ["x", "y", "x^2"] = 1 := by decide
      rcases hi with rfl | rfl <;> simp [quantities, steered, steer, exPlant, exSquare, hidx] <;> norm_num
    · intro b hb i hi j
      simp only [hc, Option.mem_def, Option.some.injEq] at hb
      subst hb
      have hj : j = 0 := Subsingleton.elim _ _
      subst hj
      by_cases h0 : i = 0 <;> simp [h0] <;> norm_num

end Verif.Mpc
