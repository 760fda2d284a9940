import Verif.Mpc.LoopExact
import Verif.Mpc.ExactProps
import Verif.Mpc.ClosedLoopProps
/-! # Property C193: with an exact model, the closed loop of Koopman MPC and the real system is receding-horizon optimal control of the real system -/

namespace Verif.Mpc

open Verif.Tsc Verif.Np Verif.Edmd Verif.Dict Verif.Takens Matrix

variable {S₀ : Type} {N n nq nu : Nat}

/-! ## Specification -/

/-- The system `f` with its measurements realises the recurrence `F` on windows of measured samples in `S`: `Rel s w` says that the state `s` is consistent with the last measured samples `w`; then the system does not
terminate, the next measured sample is `F w u`, and the next state is consistent with the next window. -/
def Realises (S : Set (List (List ℝ))) (F : List (List ℝ) → (Fin nu → ℝ) → List ℝ) (f : S₀ → (Fin nu → ℝ) → Int → Int → Option S₀) (measure : S₀ × Option (Fin nu → ℝ) → Fin n → ℝ)
    (Rel : S₀ → List (List ℝ) → Prop) : Prop :=
  ∀ s w u t t', w ∈ S → Rel s w → ∃ s', f s u t t' = some s' ∧ List.ofFn (measure (s', some u)) = F w u ∧ Rel s' (steer F w u)

/-- The reference from sample `k` on; after its end its last sample is held. -/
def heldRef (ref : List (Fin nq → ℝ)) (k i : Nat) : Fin nq → ℝ := ref.getD (min (k + i) (ref.length - 1)) 0

/-- The last `m` measured samples after `k` steps. -/
def measuredWindow (measure : S₀ × Option (Fin nu → ℝ) → Fin n → ℝ) (m : Nat) (Xic : List (Fin n → ℝ)) (tr : List ((Fin nu → ℝ) × S₀)) (k : Nat) : List (List ℝ) :=
  (lastN m (Xic ++ (tr.take k).map (fun p => measure (p.2, some p.1)))).map List.ofFn

/-- The input `v` is the first one of an admissible input sequence with the smallest cost for the system itself from the window `w` on. -/
def IsFirstOptimal (F : List (List ℝ) → (Fin nu → ℝ) → List ℝ) (y : List (List ℝ) → Fin nq → ℝ) (horizon : Nat) (stateBounds inputBounds : Option (List (ℝ × ℝ))) (running terminal : Fin nq → ℝ)
    (input : Fin nu → ℝ) (ref : Nat → Fin nq → ℝ) (w : List (List ℝ)) (v : Fin nu → ℝ) : Prop :=
  ∃ u : Nat → Fin nu → ℝ, u 0 = v ∧ PlantWithin F y horizon stateBounds inputBounds w u ∧
    ∀ u', PlantWithin F y horizon stateBounds inputBounds w u' → plantCost F y horizon running terminal input w ref u ≤ plantCost F y horizon running terminal input w ref u'

/-! ## Helpers -/

theorem lastN_append {α : Type} {m : Nat} (hm : 1 ≤ m) {l : List α} (hl : m ≤ l.length) (x : α) : lastN m (l ++ [x]) = (lastN m l).tail ++ [x] := by
  unfold lastN
  rw [List.tail_drop, List.length_append, List.length_singleton, List.drop_append_of_le_length (by omega)]
  congr 2
  omega

theorem measuredWindow_succ {measure : S₀ × Option (Fin nu → ℝ) → Fin n → ℝ} {m : Nat} (hm : 1 ≤ m) {Xic : List (Fin n → ℝ)} (hl : m ≤ Xic.length) {tr : List ((Fin nu → ℝ) × S₀)} {k : Nat}
    {p : (Fin nu → ℝ) × S₀} (hp : tr[k]? = some p) : measuredWindow measure m Xic tr (k + 1) = (measuredWindow measure m Xic tr k).tail ++ [List.ofFn (measure (p.2, some p.1))] := by
  unfold measuredWindow
  have : tr.take (k + 1) = tr.take k ++ [p] := by rw [List.take_add_one, hp]; rfl
  rw [this, List.map_append, ← List.append_assoc, List.map_singleton, lastN_append hm (by simp; omega)]
  simp

theorem plantCost_congr {F : List (List ℝ) → (Fin nu → ℝ) → List ℝ} {y : List (List ℝ) → Fin nq → ℝ} {horizon : Nat} {wr wt : Fin nq → ℝ} {wu : Fin nu → ℝ} {w : List (List ℝ)}
    {ref ref' : Nat → Fin nq → ℝ} (h : ∀ i < horizon, ref i = ref' i) (u : Nat → Fin nu → ℝ) : plantCost F y horizon wr wt wu w ref u = plantCost F y horizon wr wt wu w ref' u := by
  unfold plantCost
  refine Finset.sum_congr rfl fun i hi => ?_
  rw [h i (Finset.mem_range.1 hi)]

theorem endsAt_good {cols : List String} (hcols : cols.length = n) {X : List (Row Int (Fin n → ℝ))} {t d : Int} (hd : 0 < d) (hb : d < 3 * 10 ^ 11) (hX : EndsAt X t d) (hne : X ≠ []) :
    Good d (⟨cols, mapVal List.ofFn X⟩ : Takens.Frame ℝ) := by
  have hv : Valid (mapVal (τ := Int) List.ofFn X) := by
    rw [valid_single (i := 0)]
    · have := (valid_single hX.ids).1 (hX.valid hd)
      unfold mapVal
      rw [List.pairwise_map]
      exact this
    · intro r hr
      obtain ⟨x, hx, rfl⟩ := List.mem_map.1 hr
      exact hX.ids x hx
  refine ⟨by simpa [mapVal] using hne, hv, ?_, ?_, hb⟩
  · intro r hr
    obtain ⟨x, -, rfl⟩ := List.mem_map.1 hr
    simp [hcols]
  · intro i p hp
    have hser : timesOf (mapVal (τ := Int) List.ofFn X) i = if i = 0 then X.map (·.time) else [] := by
      unfold timesOf series mapVal
      by_cases hi : i = 0
      · subst hi
        rw [List.filter_eq_self.2]
        · simp
        · intro r hr
          obtain ⟨x, hx, rfl⟩ := List.mem_map.1 hr
          simp [hX.ids x hx]
      · rw [if_neg hi, List.filter_eq_nil_iff.2]
        · rfl
        · intro r hr
          obtain ⟨x, hx, rfl⟩ := List.mem_map.1 hr
          simp [hX.ids x hx, Ne.symm hi]
    rw [hser] at hp
    split at hp
    · obtain ⟨j, h1, h2⟩ := mem_consecutive_iff.1 hp
      rw [List.getElem?_map] at h1 h2
      obtain ⟨r1, hr1, e1⟩ := Option.map_eq_some_iff.1 h1
      obtain ⟨r2, hr2, e2⟩ := Option.map_eq_some_iff.1 h2
      rw [← e1, ← e2, (hX _ _ hr1).2, (hX _ _ hr2).2]
      push_cast
      ring
    · simp [consecutive] at hp

/-- Zero cost means exact tracking. -/
theorem plantCost_zero {F : List (List ℝ) → (Fin nu → ℝ) → List ℝ} {y : List (List ℝ) → Fin nq → ℝ} {horizon : Nat} {wr wt : Fin nq → ℝ} (hwr : ∀ r, 0 < wr r) (hwt : ∀ r, 0 < wt r) {w : List (List ℝ)}
    {ref : Nat → Fin nq → ℝ} {u : Nat → Fin nu → ℝ} : plantCost F y horizon wr wt (fun _ => 0) w ref u ≤ 0 ↔ ∀ i < horizon, y (steered F w u (i + 1)) = ref i := by
  have hnn := plantCost_nonneg (F := F) (y := y) (horizon := horizon) (wu := fun _ : Fin nu => 0) (fun r => (hwr r).le) (fun r => (hwt r).le) (fun _ => le_rfl) w ref u
  constructor
  · intro hle
    have hall := (Finset.sum_eq_zero_iff_of_nonneg hnn).1 (le_antisymm hle (Finset.sum_nonneg hnn))
    intro i hi
    have h1 := hall i (Finset.mem_range.2 hi)
    simp only [zero_mul, Finset.sum_const_zero, add_zero] at h1
    funext r
    have h2 := (Finset.sum_eq_zero_iff_of_nonneg (fun r _ => mul_nonneg (by split; exact (hwr r).le; exact (hwt r).le) (sq_nonneg _))).1 h1 r (Finset.mem_univ r)
    have h3 : (if i + 1 < horizon then wr r else wt r) ≠ 0 := by
      split
      · exact (hwr r).ne'
      · exact (hwt r).ne'
    exact sub_eq_zero.1 (pow_eq_zero_iff (two_ne_zero)|>.1 ((mul_eq_zero.1 h2).resolve_left h3))
  · intro h
    refine le_of_eq (Finset.sum_eq_zero fun i hi => ?_)
    have := h i (Finset.mem_range.1 hi)
    simp [this]

theorem tracks_step {F : List (List ℝ) → (Fin nu → ℝ) → List ℝ} {y : List (List ℝ) → Fin nq → ℝ} {horizon : Nat} {sb ib : Option (List (ℝ × ℝ))} {wr wt : Fin nq → ℝ} (hwr : ∀ r, 0 < wr r)
    (hwt : ∀ r, 0 < wt r) (hh : 2 ≤ horizon) {ref : List (Fin nq → ℝ)} {j : Nat} {w w' : List (List ℝ)} {v : Fin nu → ℝ}
    (h : w' = steer F w v ∧ IsFirstOptimal F y horizon sb ib wr wt (fun _ => 0) (heldRef ref j) w v) (hj : j < ref.length)
    (hreach : ∃ u, PlantWithin F y horizon sb ib w u ∧ ∀ i < horizon, y (steered F w u (i + 1)) = heldRef ref j i) : y w' = ref.getD j 0 := by
  obtain ⟨rfl, u, rfl, -, hopt⟩ := h
  obtain ⟨u', h1, h2⟩ := hreach
  have := (plantCost_zero hwr hwt).1 ((hopt u' h1).trans ((plantCost_zero hwr hwt).2 h2)) 0 (by omega)
  rw [steered, steered] at this
  rw [this, heldRef]
  congr 1
  omega

section loop

variable {k : TimeKind} {d : Int} {m : Nat} {φ : List (List ℝ) → List ℝ} {cols qois : List String} {T : Transformer ℝ} {X D : Takens.Frame ℝ} {U : List (Row Int (Fin nu → ℝ))}
  {S : Set (List (List ℝ))} {F : List (List ℝ) → (Fin nu → ℝ) → List ℝ} {A₀ : Matrix (Fin cols.length) (Fin cols.length) ℝ} {E₀ : Matrix (Fin cols.length) (Fin nu) ℝ}
  {B₀ : Matrix (Fin cols.length) (Fin n) ℝ} {A : Matrix (Fin cols.length) (Fin cols.length) ℝ} {E : Matrix (Fin cols.length) (Fin nu) ℝ} {B : Matrix (Fin cols.length) (Fin n) ℝ}
  {solve : (Fin cols.length → ℝ) → List (Fin qois.length → ℝ) → Option (List (Fin nu → ℝ))} {eval : List (Row Int S₀) → List (Row Int (Fin nu → ℝ)) → List Int → Except SysErr (List (Row Int S₀))}
  {measure : S₀ × Option (Fin nu → ℝ) → Fin n → ℝ} {plain : S₀ → Fin n → ℝ} {f : S₀ → (Fin nu → ℝ) → Int → Int → Option S₀} {Rel : S₀ → List (List ℝ) → Prop}
  {sysIc : List (Row Int S₀)} {Xic : List (Row Int (Fin n → ℝ))} {ref : List (Row Int (Fin qois.length → ℝ))} {t0 : Int} {s0 : S₀}

/-- **C193 (lifting).** The dictionary of the fitted model maps every window of `m` regular samples to one lifted state at the time of the last sample, as `LoopSetting` asks for. -/
theorem C193_lifts (hm : 1 ≤ m) {colsIn : List String} (hT : Causal d m colsIn cols φ T) (hn : colsIn.length = n) (hd : 0 < d) (hb : d < 3 * 10 ^ 11) (c : Kmpc (Fin cols.length) qois.length nu) :
    LiftsTo (kmpcLoop c T colsIn m d solve eval measure plain) (fun w => toVec cols.length (φ (w.map List.ofFn))) := by
  intro X t hlen hX
  change X.length = m at hlen
  have hX : EndsAt X t d := hX
  have hne : X ≠ [] := by rintro rfl; simp at hlen; omega
  have hg := endsAt_good hn hd hb hX hne
  have hids : ∀ r ∈ mapVal (τ := Int) List.ofFn X, r.id = 0 := by
    intro r hr
    obtain ⟨x, hx, rfl⟩ := List.mem_map.1 hr
    exact hX.ids x hx
  obtain ⟨Z, z, hZ, hz, hzt, hzv, hzi⟩ := window_lift (t0 := t) hm hT hg rfl ⟨by simp [mapVal, hlen], ⟨0, hids⟩, by
    simp only [mapVal, List.map_map, List.getLast?_map]
    obtain ⟨r, hr⟩ : ∃ r, X.getLast? = some r := by rw [← Option.isSome_iff_exists, List.getLast?_isSome]; exact hne
    rw [hr]
    rw [List.getLast?_eq_getElem?] at hr
    have := (hX _ _ hr).2
    simp only [Option.map_some, Function.comp_apply, this, Option.some.injEq]
    have : 1 ≤ X.length := by omega
    push_cast [this]
    ring⟩
  have hz0 : z.id = 0 := by
    obtain ⟨r, hr⟩ := List.exists_mem_of_ne_nil _ hg.ne
    rw [hzi r hr, hids r hr]
  change (match T ⟨colsIn, mapVal List.ofFn X⟩ with | .ok D => mapVal (toVec cols.length) D.rows | .error _ => []) = _
  rw [hZ]
  simp only [hz, mapVal, List.map_cons, List.map_nil, hz0, hzt, hzv, List.map_map]
  rfl

/-- One control input of the closed loop. -/
theorem controlAt_optimal (hfit : FittedTo k d m φ cols T X D U S F A₀ E₀ B₀ A E B) (hn : cols.Nodup) (hsub : qois.Sublist cols) (c : Kmpc (Fin cols.length) qois.length nu) (hA : c.A = A) (hB : c.B = E)
    (hC : kmpcC cols qois = some c.C) (hh : 2 ≤ c.horizon) (hb : BoundsShape c) {wr wt : Fin qois.length → ℝ} {wu : Fin nu → ℝ} (hr : CostIs c.running wr) (ht : CostIs c.terminal wt)
    (hu : CostIs c.input wu) (h0 : ∃ r, wt r ≠ 0) (hsolve : IsQpSolver c d solve) {Xic : List (Fin n → ℝ)} {ref : List (Fin qois.length → ℝ)} {tr : List ((Fin nu → ℝ) × S₀)} {j : Nat} {v : Fin nu → ℝ}
    (hv : IsControlAt (kmpcLoop c T X.cols m d solve eval measure plain) (fun w => toVec cols.length (φ (w.map List.ofFn))) Xic ref tr j v)
    (hS : measuredWindow measure m Xic tr j ∈ S) :
    IsFirstOptimal F (quantities φ cols qois) c.horizon c.stateBounds c.inputBounds wr wt wu (heldRef ref j) (measuredWindow measure m Xic tr j) v := by
  obtain ⟨rfl, rfl, rfl⟩ := C191_recovery_partial hfit.pos hfit.good hfit.long hfit.dict hfit.lifted hfit.order hfit.input hfit.closed hfit.follows hfit.span hfit.fits
  obtain ⟨r, us, ⟨hrl, hrv⟩, hs, hv⟩ := hv
  have hrl : r.length = c.horizon := hrl
  obtain ⟨out, ho, rfl⟩ := hsolve _ _ _ hrl hs
  obtain ⟨e1, e2, e3⟩ := C39_optimal_partial c hh hb hr ht hu h0 d 0 _ _ out ho
  have hy : ∀ w ∈ S, c.C *ᵥ toVec cols.length (φ w) = quantities φ cols qois w := fun w _ => quantities_eq hn hsub hC φ w
  have hcl := hfit.closed
  rw [← hA, ← hB] at hcl
  have href : ∀ i < c.horizon, ((r.mapIdx (fun j v => (((j : Int) + 1) * d, v))).getD i (0, fun _ => 0)).2 = heldRef ref j i := by
    intro i hi
    have := hrv i hi
    have hget : r[i]? = some r[i] := List.getElem?_eq_getElem (by omega)
    rw [hget] at this
    unfold heldRef
    rw [List.getD_eq_getElem?_getD, List.getElem?_mapIdx, hget, List.getD_eq_getElem?_getD, ← this]
    rfl
  refine ⟨inputAt out, ?_, (within_plant hcl hy hS _ _ _ _).1 e2, fun u hu' => ?_⟩
  · cases out with
    | nil => simp at hv
    | cons o l => simpa [inputAt] using hv
  · have h3 := e3 u ((within_plant hcl hy hS _ _ _ _).2 hu')
    have h4 := cost_plant hcl hy hS c.horizon wr wt wu (fun i => ((r.mapIdx (fun j v => (((j : Int) + 1) * d, v))).getD i (0, fun _ => 0)).2)
    rw [plantCost_congr (fun i hi => (href i hi).symm), plantCost_congr (fun i hi => (href i hi).symm) u, ← h4, ← h4]
    exact h3

/-- The measured windows of a closed loop. -/
theorem closedLoop_windows (hfit : FittedTo k d m φ cols T X D U S F A₀ E₀ B₀ A E B) {c : Kmpc (Fin cols.length) qois.length nu} {lz : List (Fin n → ℝ) → Fin cols.length → ℝ} {Xic : List (Fin n → ℝ)}
    {ref : List (Fin qois.length → ℝ)} {tr : List ((Fin nu → ℝ) × S₀)} (hlen : m ≤ Xic.length) (hreal : Realises S F f measure Rel)
    (hS : (lastN m Xic).map List.ofFn ∈ S) (hR : Rel s0 ((lastN m Xic).map List.ofFn))
    (h : IsClosedLoop (kmpcLoop c T X.cols m d solve eval measure plain) lz f t0 s0 Xic ref tr) (j : Nat) (hj : j ≤ tr.length) :
    measuredWindow measure m Xic tr j ∈ S ∧ Rel (stateBefore s0 tr j) (measuredWindow measure m Xic tr j) ∧
      ∀ p, tr[j]? = some p → measuredWindow measure m Xic tr (j + 1) = steer F (measuredWindow measure m Xic tr j) p.1 := by
  have key : ∀ j, measuredWindow measure m Xic tr j ∈ S → Rel (stateBefore s0 tr j) (measuredWindow measure m Xic tr j) → ∀ p, tr[j]? = some p →
      measuredWindow measure m Xic tr (j + 1) = steer F (measuredWindow measure m Xic tr j) p.1 ∧ Rel p.2 (steer F (measuredWindow measure m Xic tr j) p.1) := by
    intro j h1 h2 p hp
    obtain ⟨-, hf⟩ := h j p hp
    obtain ⟨s', e1, e2, e3⟩ := hreal _ _ p.1 (t0 + j * d) (t0 + (j + 1) * d) h1 h2
    have hs : s' = p.2 := Option.some.inj (e1.symm.trans hf)
    subst hs
    exact ⟨by rw [measuredWindow_succ hfit.pos hlen hp, e2]; rfl, e3⟩
  have main : ∀ j ≤ tr.length, measuredWindow measure m Xic tr j ∈ S ∧ Rel (stateBefore s0 tr j) (measuredWindow measure m Xic tr j) := by
    intro j
    induction j with
    | zero =>
      intro _
      have : measuredWindow measure m Xic tr 0 = (lastN m Xic).map List.ofFn := by simp [measuredWindow]
      rw [this]
      exact ⟨hS, by simpa [stateBefore] using hR⟩
    | succ j ih =>
      intro hj
      obtain ⟨h1, h2⟩ := ih (by omega)
      have hp : tr[j]? = some tr[j] := List.getElem?_eq_getElem (by omega)
      obtain ⟨e1, e2⟩ := key j h1 h2 _ hp
      have e3 : stateBefore s0 tr (j + 1) = tr[j].2 := by
        unfold stateBefore
        rw [List.take_add_one, hp, Option.toList_some, List.map_append, List.map_singleton, List.getLastD_eq_getLast?, List.getLast?_concat]
        rfl
      rw [e1, e3]
      exact ⟨hfit.closed.stays _ h1 _, e2⟩
  obtain ⟨h1, h2⟩ := main j hj
  exact ⟨h1, h2, fun p hp => (key j h1 h2 p hp).1⟩

/-- **C193 (true part).** Let the EDMD model be fitted to data of a controlled system, possibly nonlinear and with memory, under which the dictionary is closed.  `control_system_reference` with `augment_control`
runs to the last but one sample of the reference.  Before every step the applied input is the first one of an input sequence that is admissible for the *system itself* over the horizon and that has the smallest
tracking cost of all admissible ones; the next measured sample is that of the system. -/
theorem C193_receding_partial (hfit : FittedTo k d m φ cols T X D U S F A₀ E₀ B₀ A E B) (hn : cols.Nodup) (hsub : qois.Sublist cols) (c : Kmpc (Fin cols.length) qois.length nu) (hA : c.A = A) (hB : c.B = E)
    (hC : kmpcC cols qois = some c.C) (hb : BoundsShape c) {wr wt : Fin qois.length → ℝ} {wu : Fin nu → ℝ} (hr : CostIs c.running wr) (ht : CostIs c.terminal wt)
    (hu : CostIs c.input wu) (h0 : ∃ r, wt r ≠ 0) (hsolve : IsQpSolver c d solve)
    (h : LoopSetting (kmpcLoop c T X.cols m d solve eval measure plain) (fun w => toVec cols.length (φ (w.map List.ofFn))) f sysIc Xic ref t0 s0) (hreal : Realises S F f measure Rel)
    (hS : (lastN m (Xic.map (·.val))).map List.ofFn ∈ S) (hR : Rel s0 ((lastN m (Xic.map (·.val))).map List.ofFn)) :
    ∃ tr : List ((Fin nu → ℝ) × S₀), (kmpcLoop c T X.cols m d solve eval measure plain).control true sysIc ref Xic =
        .ok (sysIc ++ tr.mapIdx (fun j p => ⟨0, t0 + (j + 1) * d, p.2⟩), tr.mapIdx (fun j p => ⟨0, t0 + j * d, p.1⟩)) ∧
      tr.length = ref.length - 1 ∧
      ∀ j p, tr[j]? = some p → measuredWindow measure m (Xic.map (·.val)) tr (j + 1) = steer F (measuredWindow measure m (Xic.map (·.val)) tr j) p.1 ∧
        IsFirstOptimal F (quantities φ cols qois) c.horizon c.stateBounds c.inputBounds wr wt wu (heldRef (ref.map (·.val)) j) (measuredWindow measure m (Xic.map (·.val)) tr j) p.1 := by
  obtain ⟨tr, e1, e2, e3⟩ := C154_closed_loop_partial h
  have hlen : m ≤ (Xic.map (·.val)).length := by rw [List.length_map]; exact h.modelLength
  have hwin := closedLoop_windows hfit hlen hreal hS hR e2
  refine ⟨tr, e1, ?_, ?_⟩
  · rcases e3 with e3 | ⟨-, v, -, hf⟩
    · exact e3
    · obtain ⟨h1, h2, -⟩ := hwin tr.length le_rfl
      obtain ⟨s', hs', -⟩ := hreal _ _ v (t0 + tr.length * d) (t0 + (tr.length + 1) * d) h1 h2
      exact absurd (hs'.symm.trans hf) (by simp)
  · intro j p hp
    have hj := (List.getElem?_eq_some_iff.1 hp).1
    obtain ⟨h1, h2, h3⟩ := hwin j hj.le
    exact ⟨h3 p hp, controlAt_optimal hfit hn hsub c hA hB hC h.horizon hb hr ht hu h0 hsolve (e2 j p hp).1 h1⟩

/-- **C193 (exact tracking).** Without input cost and with positive weights, the closed loop follows the reference exactly in every step, if in every step the system itself can follow the reference over the next
horizon within the bounds from every window whose quantities agree with the reference so far. -/
theorem C193_tracks (hfit : FittedTo k d m φ cols T X D U S F A₀ E₀ B₀ A E B) (hn : cols.Nodup) (hsub : qois.Sublist cols) (c : Kmpc (Fin cols.length) qois.length nu) (hA : c.A = A) (hB : c.B = E)
    (hC : kmpcC cols qois = some c.C) (hb : BoundsShape c) {wr wt : Fin qois.length → ℝ} (hr : CostIs c.running wr) (ht : CostIs c.terminal wt)
    (hu : CostIs c.input (fun _ : Fin nu => 0)) (hwr : ∀ r, 0 < wr r) (hwt : ∀ r, 0 < wt r) (hq : qois ≠ []) (hsolve : IsQpSolver c d solve)
    (h : LoopSetting (kmpcLoop c T X.cols m d solve eval measure plain) (fun w => toVec cols.length (φ (w.map List.ofFn))) f sysIc Xic ref t0 s0) (hreal : Realises S F f measure Rel)
    (hS : (lastN m (Xic.map (·.val))).map List.ofFn ∈ S) (hR : Rel s0 ((lastN m (Xic.map (·.val))).map List.ofFn))
    (hreach : ∀ j w, j + 1 < ref.length → w ∈ S → (j = 0 → w = (lastN m (Xic.map (·.val))).map List.ofFn) → (∀ i, j = i + 1 → quantities φ cols qois w = (ref.map (·.val)).getD i 0) →
      ∃ u, PlantWithin F (quantities φ cols qois) c.horizon c.stateBounds c.inputBounds w u ∧
        ∀ i < c.horizon, quantities φ cols qois (steered F w u (i + 1)) = heldRef (ref.map (·.val)) j i) :
    ∃ tr : List ((Fin nu → ℝ) × S₀), (kmpcLoop c T X.cols m d solve eval measure plain).control true sysIc ref Xic =
        .ok (sysIc ++ tr.mapIdx (fun j p => ⟨0, t0 + (j + 1) * d, p.2⟩), tr.mapIdx (fun j p => ⟨0, t0 + j * d, p.1⟩)) ∧
      tr.length = ref.length - 1 ∧
      ∀ j, j + 1 < ref.length → quantities φ cols qois (measuredWindow measure m (Xic.map (·.val)) tr (j + 1)) = (ref.map (·.val)).getD j 0 := by
  have hlen : 0 < qois.length := List.length_pos_iff.2 hq
  obtain ⟨tr, e1, e2, e3⟩ := C193_receding_partial hfit hn hsub c hA hB hC hb hr ht hu ⟨⟨0, hlen⟩, (hwt _).ne'⟩ hsolve h hreal hS hR
  refine ⟨tr, e1, e2, ?_⟩
  have hS' : ∀ j ≤ tr.length, measuredWindow measure m (Xic.map (·.val)) tr j ∈ S := by
    intro j
    induction j with
    | zero => intro _; simpa [measuredWindow] using hS
    | succ j ih =>
      intro hj
      rw [(e3 j tr[j] (List.getElem?_eq_getElem (by omega))).1]
      exact hfit.closed.stays _ (ih (by omega)) _
  intro j
  induction j with
  | zero =>
    intro hj
    exact tracks_step hwr hwt h.horizon (e3 0 tr[0] (List.getElem?_eq_getElem (by omega))) (by simp; omega)
      (hreach 0 _ hj (hS' 0 (by omega)) (fun _ => by simp [measuredWindow]) (fun i hi => by omega))
  | succ j ih =>
    intro hj
    exact tracks_step hwr hwt h.horizon (e3 (j + 1) tr[j + 1] (List.getElem?_eq_getElem (by omega))) (by simp; omega)
      (hreach (j + 1) _ hj (hS' (j + 1) (by omega)) (fun hc => by omega) (fun i hi => by
        have : i = j := by omega
        subst this
        exact ih (by omega)))

end loop

/-! ## Example: the closed loop of a nonlinear system -/

/-- The system of `exPlant` with its state. -/
def exLoopStep (s : Fin 2 → ℝ) (u : Fin 1 → ℝ) : Fin 2 → ℝ := ![2 * s 0, s 1 + s 0 ^ 2 + u 0]

def exLoopEval (s : List (Row Int (Fin 2 → ℝ))) (u : List (Row Int (Fin 1 → ℝ))) (t : List Int) : Except SysErr (List (Row Int (Fin 2 → ℝ))) :=
  match s, u, t with
  | [s], [u], [_, t'] => .ok [s, ⟨s.id, t', exLoopStep s.val u.val⟩]
  | _, _, _ => .error .other

/-- Inputs that bring `y` to the reference in each of two steps. -/
def exLoopSolve (z : Fin 3 → ℝ) (r : List (Fin 1 → ℝ)) : Option (List (Fin 1 → ℝ)) :=
  match r with
  | [r0, r1] => some [fun _ => r0 0 - z 1 - z 2, fun _ => r1 0 - r0 0 - 4 * z 2]
  | _ => none

theorem exLoop_c {C : Matrix (Fin 1) (Fin 3) ℝ} (hC : kmpcC ["x", "y", "x^2"] ["y"] = some C) (z : Fin 3 → ℝ) : C *ᵥ z = fun _ => z 1 := by
  funext r
  have hr : r = (0 : Fin 1) := Subsingleton.elim (α := Fin 1) _ _
  subst hr
  have := (C87_selection_iff ["x", "y", "x^2"] ["y"] (by decide) C hC (by decide)).2 (by decide) z 0
  exact this

theorem exLoop_solver {C : Matrix (Fin 1) (Fin 3) ℝ} (hC : kmpcC ["x", "y", "x^2"] ["y"] = some C) :
    IsQpSolver (⟨2, !![2, 0, 0; 0, 1, 1; 0, 0, 4], !![0; 1; 0], C, none, none, .number 1, .number 1, .number 0⟩ : Kmpc (Fin 3) 1 1) 1 exLoopSolve := by
  set c : Kmpc (Fin 3) 1 1 := ⟨2, !![2, 0, 0; 0, 1, 1; 0, 0, 4], !![0; 1; 0], C, none, none, .number 1, .number 1, .number 0⟩ with hc
  intro z r us hr hs
  obtain ⟨r0, r1, rfl⟩ := List.length_eq_two.1 hr
  simp only [exLoopSolve, Option.some.injEq] at hs
  have h1 : CostIs (.number 1) (fun _ : Fin 1 => 1) := ⟨fun _ => zero_le_one, Or.inl ⟨1, zero_le_one, rfl, fun _ => rfl⟩⟩
  have h0 : CostIs (.number 0) (fun _ : Fin 1 => 0) := ⟨fun _ => le_rfl, Or.inl ⟨0, le_rfl, rfl, fun _ => rfl⟩⟩
  set u : Nat → Fin 1 → ℝ := fun i _ => if i = 0 then r0 0 - z 1 - z 2 else r1 0 - r0 0 - 4 * z 2 with hu
  set ref : List (Int × (Fin 1 → ℝ)) := [(1, r0), (2, r1)] with href
  obtain ⟨s, hs', q, hq⟩ := C39_objective_partial c le_rfl ⟨by simp [hc], by simp [hc]⟩ h1 h1 h0 ⟨0, one_ne_zero⟩ z (fun i => (ref.getD i (0, fun _ => 0)).2)
  have hy1 : (C *ᵥ trajectory c.A c.B z u 1) = r0 := by
    rw [exLoop_c hC]
    funext i
    have hi : i = 0 := Subsingleton.elim _ _
    subst hi
    simp [hc, trajectory, Matrix.mulVec, dotProduct, Fin.sum_univ_three, hu]
  have hy2 : (C *ᵥ trajectory c.A c.B z u 2) = r1 := by
    rw [exLoop_c hC]
    funext i
    have hi : i = 0 := Subsingleton.elim _ _
    subst hi
    simp [hc, trajectory, Matrix.mulVec, dotProduct, Fin.sum_univ_three, hu]
  have hzero : trackingCost c.A c.B c.C c.horizon (fun _ => 1) (fun _ => 1) (fun _ => 0) z (fun i => (ref.getD i (0, fun _ => 0)).2) u = 0 := by
    change trackingCost c.A c.B C 2 _ _ _ z _ u = 0
    unfold trackingCost
    simp only [Finset.sum_range_succ, Finset.range_zero, Finset.sum_empty, zero_add, hy1, hy2, href]
    simp
  refine ⟨List.zip [0, 1] us, (isControl_ok hs').2 ⟨rfl, rfl, fun p => u p.1 p.2, ⟨(C40_feasible_partial c s hs' z _ u).2 ⟨by simp [hc], by simp [hc]⟩, ?_⟩, ?_⟩, ?_⟩
  · intro U' _
    set u' : Nat → Fin 1 → ℝ := fun i j => if h : i < 2 then U' (⟨i, h⟩, j) else 0 with hu'
    have hU : U' = fun p : Fin c.horizon × Fin 1 => u' p.1 p.2 := by
      funext p
      have : (p.1 : Nat) < 2 := p.1.2
      rw [hu']
      simp only [this, dite_true]
    rw [hU]
    refine (hq u).trans_le (le_trans ?_ (hq u').symm.le)
    rw [hzero]
    have : 0 ≤ trackingCost c.A c.B c.C c.horizon (fun _ => 1) (fun _ => 1) (fun _ => 0) z (fun i => (ref.getD i (0, fun _ => 0)).2) u' := by
      unfold trackingCost
      refine Finset.sum_nonneg fun i _ => add_nonneg (Finset.sum_nonneg fun r _ => ?_) (by simp)
      rw [ite_self, one_mul]
      exact sq_nonneg _
    linarith
  · rw [← hs]
    rfl
  · rw [← hs]
    rfl

theorem exLoop_setting (c : Kmpc (Fin 3) 1 1) (hh : c.horizon = 2) : LoopSetting (kmpcLoop c exPlantT ["x", "y"] 1 1 exLoopSolve exLoopEval (fun p => p.1) id)
    (fun w => toVec 3 (exSquare exPlantX ((w.map List.ofFn).headD []))) (fun s u _ _ => some (exLoopStep s u)) [⟨0, 0, ![1, 0]⟩] [⟨0, 0, ![1, 0]⟩]
    [⟨3, 1, fun _ => 3⟩, ⟨3, 2, fun _ => 5⟩, ⟨3, 3, fun _ => -1⟩, ⟨3, 4, fun _ => 7⟩] 0 ![1, 0] where
  horizon := hh.ge
  dt := Int.one_pos
  nIc := le_rfl
  lift := C193_lifts (cols := ["x", "y", "x^2"]) (qois := ["y"]) le_rfl exPlant_causal rfl Int.one_pos (by norm_num) c
  solve := by
    intro z r hr
    obtain ⟨a, b, rfl⟩ := List.length_eq_two.1 (hr.trans hh)
    exact ⟨_, rfl, hh.symm⟩
  system := by
    intro s w t t' _ _
    rfl
  start := le_refl _
  sysValid := (valid_iff _).2 ⟨by decide +kernel, by simp [Before]⟩
  sysIds := by simp
  sysLast := rfl
  model := by
    intro j r hr
    have : j = 0 := by have := (List.getElem?_eq_some_iff.1 hr).1; simpa using this
    subst this
    simp at hr
    subst hr
    exact ⟨rfl, rfl⟩
  modelLength := le_refl _
  refIds := ⟨3, by simp⟩
  refTimes := ⟨by simp, by simp [consecutive, kmpcLoop]⟩
  refStart := rfl

theorem exLoop_realises : Realises (n := 2) (Windows 1 2) exPlant (fun s u _ _ => some (exLoopStep s u)) (fun p => p.1) (fun s w => w = [List.ofFn s]) := by
  rintro s w u t t' - rfl
  refine ⟨_, rfl, ?_, ?_⟩
  · simp [exLoopStep, exPlant]
  · simp [exLoopStep, exPlant, steer]

/-- non-vacuity of `C193_receding_partial` and `C193_tracks`: the closed loop of the nonlinear system of `exPlant`, with the model fitted to five samples, follows the reference 3, 5, -1 of `y`. -/
example : ∃ (c : Kmpc (Fin 3) 1 1) (tr : List ((Fin 1 → ℝ) × (Fin 2 → ℝ))), (kmpcLoop (n := 2) c exPlantT ["x", "y"] 1 1 exLoopSolve exLoopEval (fun p => p.1) id).control true [⟨0, 0, ![1, 0]⟩]
      [⟨3, 1, fun _ => 3⟩, ⟨3, 2, fun _ => 5⟩, ⟨3, 3, fun _ => -1⟩, ⟨3, 4, fun _ => 7⟩] [⟨0, 0, ![1, 0]⟩] =
        .ok ([⟨0, 0, ![1, 0]⟩] ++ tr.mapIdx (fun j p => ⟨0, 0 + (j + 1) * 1, p.2⟩), tr.mapIdx (fun j p => ⟨0, 0 + j * 1, p.1⟩)) ∧ tr.length = 3 ∧
      quantities (fun w => exSquare exPlantX (w.headD [])) ["x", "y", "x^2"] ["y"] (measuredWindow (fun p => p.1) 1 [![1, 0]] tr 2) = fun _ => 5 := by
  obtain ⟨A, E, B, hfit⟩ := fits_of_matches (N := 3) (n := 2) le_rfl exPlant_good exPlant_long exPlant_causal exPlant_lifted exPlant_matches
  have hF : FittedTo .int 1 1 (fun w => exSquare exPlantX (w.headD [])) ["x", "y", "x^2"] exPlantT exPlantX exPlantD exPlantU (Windows 1 2) exPlant !![2, 0, 0; 0, 1, 1; 0, 0, 4] !![0; 1; 0]
      !![1, 0; 0, 1; 0, 0] A E B :=
    ⟨le_rfl, exPlant_good, exPlant_long, exPlant_causal, exPlant_lifted, Or.inl (by unfold IdsAscending; decide +kernel), (valid_iff _).2 ⟨by decide +kernel, by simp [Before, exPlantU]⟩, exPlant_closed,
      exPlant_follows, exPlant_span, hfit⟩
  obtain ⟨C, hC⟩ : ∃ C, kmpcC ["x", "y", "x^2"] ["y"] = some C := ⟨_, rfl⟩
  obtain ⟨eA, eE, -⟩ := C191_recovery_partial hF.pos hF.good hF.long hF.dict hF.lifted hF.order hF.input hF.closed hF.follows hF.span hF.fits
  set c : Kmpc (Fin 3) 1 1 := ⟨2, !![2, 0, 0; 0, 1, 1; 0, 0, 4], !![0; 1; 0], C, none, none, .number 1, .number 1, .number 0⟩ with hc
  have h1 : CostIs (.number 1) (fun _ : Fin 1 => 1) := ⟨fun _ => zero_le_one, Or.inl ⟨1, zero_le_one, rfl, fun _ => rfl⟩⟩
  have h0 : CostIs (.number 0) (fun _ : Fin 1 => 0) := ⟨fun _ => le_rfl, Or.inl ⟨0, le_rfl, rfl, fun _ => rfl⟩⟩
  obtain ⟨tr, e1, e2, e3⟩ := C193_tracks (qois := ["y"]) hF (by decide) (by decide) c eA.symm eE.symm hC ⟨by simp [hc], by simp [hc]⟩ h1 h1 h0 (fun _ => one_pos) (fun _ => one_pos) (by simp) (exLoop_solver hC)
    (exLoop_setting c rfl) exLoop_realises ⟨rfl, by simp [lastN]⟩ (by simp [lastN]) (by
    rintro j w - ⟨hw, -⟩ - -
    obtain ⟨v, rfl⟩ := List.length_eq_one_iff.1 hw
    set ref : List (Fin 1 → ℝ) := [fun _ => 3, fun _ => 5, fun _ => -1, fun _ => 7] with href
    refine ⟨fun i _ => if i = 0 then heldRef ref j 0 0 - v.getD 1 0 - v.getD 0 0 ^ 2 else heldRef ref j 1 0 - heldRef ref j 0 0 - 4 * v.getD 0 0 ^ 2, ⟨by simp [hc], by simp [hc]⟩, ?_⟩
    intro i hi
    have hi : i = 0 ∨ i = 1 := by have : i < 2 := hi; omega
    funext r
    have hr : r = (0 : Fin 1) := Subsingleton.elim (α := Fin 1) _ _
    subst hr
    have hidx : List.idxOf "y" ["x", "y", "x^2"] = 1 := by decide
    rcases hi with rfl | rfl <;> simp [quantities, steered, steer, exPlant, exSquare, hidx] <;> ring_nf <;> rfl)
  exact ⟨c, tr, e1, e2, e3 1 (by simp)⟩

end Verif.Mpc
