import Verif.Dyn.Evolve
import Verif.Dyn.LinearProps
import Verif.Dyn.SystemProps
import Verif.Tsc.CollProps
/-!
# `evolve_system` (C185)
-/

namespace Verif.Dyn

open Verif.Tsc Verif.Np Matrix

variable {R ι κ : Type} [CommRing R] [Fintype ι] [DecidableEq ι] [Fintype κ]

/-- **C185 (without control).** The evolution of a flow map system from any positive number of initial conditions to distinct multiples of the sampling interval, in any order, returns a collection of exactly the
given IDs (default: 0, 1, ...), in which the series of each initial condition `x` holds at the time `k dt` the state `M^k x`, in the order of time: the initial condition is the state at time zero. `M` is the system matrix of the model, or the one that overwrites it in the call. -/
theorem C185_flowmap (A M : Matrix ι ι R) (over : Option (Matrix ι ι R)) (hM : over = some M ∨ over = none ∧ M = A) {dt : Int} (hdt : 0 < dt) (ics : List (ι → R)) (hne : ics ≠ []) (ks : List Nat) (hks : ks ≠ []) (hnd : ks.Nodup) (ids : Option (List Nat))
    (hids : ∀ l, ids = some l → l.length = ics.length ∧ l.Nodup) :
    ∃ c, evolveFlowmap A over dt ics (timesAt 0 dt ks) ids = .ok c ∧ Valid c ∧ IdsAscending c ∧ (∀ i, HasId c i ↔ i ∈ ids.getD (List.range ics.length)) ∧
      ∀ n (hn : n < ics.length) i, (ids.getD (List.range ics.length))[n]? = some i →
        (content c i).Perm (ks.map (fun (k : Nat) => ((k : Int) * dt, (M ^ k) *ᵥ ics[n]))) ∧ ((content c i).map (·.1)).Pairwise (· < ·) := by
  have hov : over.getD A = M := by rcases hM with h | ⟨h, rfl⟩ <;> simp [h]
  have hlen : (timesAt 0 dt ks).length = ks.length := by simp [timesAt]
  have hmap : ∀ x : ι → R, (timesAt 0 dt ks).map (fun t => (M ^ stepCount dt t) *ᵥ x) = ks.map (fun k => (M ^ k) *ᵥ x) := by
    intro x
    rw [timesAt, List.map_map]
    apply List.map_congr_left
    intro k _
    simp [stepCount_mul hdt]
  obtain ⟨c, h1, h2, h3, h4, h5⟩ := C02_from_tensor (timesAt 0 dt ks).length (flowmapMatrix M ics (timesAt 0 dt ks) dt) ids (timesAt 0 dt ks)
    (by rw [hlen]; exact List.length_pos_of_ne_nil hks) (by simpa [flowmapMatrix] using hne) (by
      intro s hs
      obtain ⟨x, -, rfl⟩ := List.mem_map.1 hs
      simp) rfl (by
      rw [timesAt]
      refine hnd.map ?_
      intro a b hab
      have : (a : Int) * dt = b * dt := by simpa using hab
      exact_mod_cast mul_right_cancel₀ hdt.ne' this) (by simpa [flowmapMatrix] using hids)
  have hfl : (flowmapMatrix M ics (timesAt 0 dt ks) dt).length = ics.length := by simp [flowmapMatrix]
  refine ⟨c, by rw [evolveFlowmap, hov]; exact h1, h2, h3, by rw [hfl] at h4; exact h4, ?_⟩
  intro n hn i hi
  rw [← hfl] at hi hn
  obtain ⟨hl, he⟩ := List.getElem?_eq_some_iff.1 hi
  obtain ⟨h6, h7, -⟩ := h5 n hn hl
  rw [he] at h6 h7
  refine ⟨?_, h7⟩
  refine h6.trans ?_
  simp only [flowmapMatrix, List.getElem_map, hmap]
  unfold timesAt
  rw [List.zip_map']
  simp only [zero_add]
  exact List.Perm.refl _

/-- **C185 (with control).** For increasing time values and, for every initial condition, one control input fewer than time values, the evolution with control returns a collection of exactly the given IDs (default:
0, 1, ...); the series of the `n`-th initial condition `x` starts at the first time value with `x` and follows `x_{k+1} = A x_k + B u_k` with its own control inputs `u`. -/
theorem C185_controlled (A : Matrix ι ι R) (B : Matrix ι κ R) (ics : List (ι → R)) (hne : ics ≠ []) (times : List Int) (ht : times.Pairwise (· < ·)) (m : Nat) (hm : times.length = m + 1)
    (us : List (List (κ → R))) (hus : us.length = ics.length) (hu : ∀ u ∈ us, u.length = m) (ids : Option (List Nat)) (hids : ∀ l, ids = some l → l.length = ics.length ∧ l.Nodup) :
    ∃ c, evolveFlowmapControlled A B us ics times ids = .ok c ∧ Valid c ∧ IdsAscending c ∧ (∀ i, HasId c i ↔ i ∈ ids.getD (List.range ics.length)) ∧
      ∀ n (hn : n < ics.length) (hn' : n < us.length) i, (ids.getD (List.range ics.length))[n]? = some i →
        ∃ x : Nat → ι → R, content c i = times.zip ((List.range (m + 1)).map x) ∧ x 0 = ics[n] ∧ ∀ k (hk : k < us[n].length), x (k + 1) = A *ᵥ x k + B *ᵥ us[n][k] := by
  have hd : (diffs times).length = m := by rw [length_diffs]; omega
  have hfl : (flowmapMatrixControlled A B ics us times).length = ics.length := by simp [flowmapMatrixControlled, hus]
  have hrow : ∀ n (hn : n < (flowmapMatrixControlled A B ics us times).length) (h1 : n < ics.length) (h2 : n < us.length),
      (flowmapMatrixControlled A B ics us times)[n] = (List.range (m + 1)).map (driven A B ics[n] (fun k => us[n].getD k 0)) := by
    intro n hn h1 h2
    simp only [flowmapMatrixControlled, List.getElem_zipWith]
    rw [controlledLoop_driven _ _ _ _ _ (by rw [hd]; exact hu _ (List.getElem_mem h2)), hd]
  obtain ⟨c, h1, h2, h3, h4, h5⟩ := C02_from_tensor times.length (flowmapMatrixControlled A B ics us times) ids times (by omega)
    (by intro h; rw [h] at hfl; exact hne (List.length_eq_zero_iff.1 hfl.symm)) (by
      intro s hs
      obtain ⟨n, hn, rfl⟩ := List.getElem_of_mem hs
      rw [hrow n hn (by omega) (by omega)]
      simp [hm]) rfl (ht.imp (fun h => by omega)) (by rw [hfl]; exact hids)
  refine ⟨c, h1, h2, h3, by rw [hfl] at h4; exact h4, ?_⟩
  intro n hn hn' i hi
  have hnf : n < (flowmapMatrixControlled A B ics us times).length := by omega
  rw [← hfl] at hi
  obtain ⟨hl, he⟩ := List.getElem?_eq_some_iff.1 hi
  obtain ⟨-, -, h6⟩ := h5 n hnf hl
  rw [he, hrow n hnf hn hn'] at h6
  refine ⟨_, h6 ht, by simp [driven], ?_⟩
  intro k hk
  simp only [driven]
  have h0 : k + 1 - 1 - k = 0 := by omega
  have h1 : A *ᵥ ((A ^ k) *ᵥ ics[n]) = (A ^ (k + 1)) *ᵥ ics[n] := by rw [Matrix.mulVec_mulVec, ← pow_succ']
  have h2 : A *ᵥ (∑ l ∈ Finset.range k, (A ^ (k - 1 - l)) *ᵥ (B *ᵥ us[n].getD l 0)) = ∑ l ∈ Finset.range k, (A ^ (k + 1 - 1 - l)) *ᵥ (B *ᵥ us[n].getD l 0) := by
    rw [Matrix.mulVec_sum]
    apply Finset.sum_congr rfl
    intro l hl
    have hl : l < k := by simpa using hl
    have h3 : k + 1 - 1 - l = (k - 1 - l) + 1 := by omega
    rw [h3, pow_succ', ← Matrix.mulVec_mulVec]
  have h4 : us[n].getD k 0 = us[n][k] := by rw [List.getD_eq_getElem?_getD, List.getElem?_eq_getElem hk, Option.getD_some]
  rw [Finset.sum_range_succ, Matrix.mulVec_add, h1, h2, h0, pow_zero, one_mulVec, add_assoc, h4]

/-- **C185 (zero control; true part).** If the control has no effect and the time values are `0, dt, ..., n dt`, the controlled system evolves like the system without control. Missing: other time values, see
`C185_start_violated` and `C185_order_violated`. -/
theorem C185_zero_partial (A : Matrix ι ι R) (B : Matrix ι κ R) {dt : Int} (hdt : 0 < dt) (ics : List (ι → R)) (n : Nat) (us : List (List (κ → R))) (hus : us.length = ics.length)
    (hu : ∀ u ∈ us, u.length = n ∧ ∀ v ∈ u, B *ᵥ v = 0) (ids : Option (List Nat)) :
    evolveFlowmapControlled A B us ics (timesAt 0 dt (List.range (n + 1))) ids = evolveFlowmap A none dt ics (timesAt 0 dt (List.range (n + 1))) ids := by
  unfold evolveFlowmapControlled evolveFlowmap evolveSystem
  congr 1
  unfold flowmapMatrixControlled flowmapMatrix
  apply List.ext_getElem
  · simp [hus]
  intro j h1 h2
  simp only [List.getElem_zipWith, List.getElem_map, Option.getD_none]
  have hj : j < us.length := by simp at h1; omega
  obtain ⟨hul, huv⟩ := hu _ (List.getElem_mem hj)
  have hd : (diffs (timesAt 0 dt (List.range (n + 1)))).length = n := by rw [length_diffs]; simp [timesAt]
  rw [controlledLoop_driven _ _ _ _ _ (by rw [hul, hd]), hd]
  conv_rhs => unfold timesAt
  rw [List.map_map]
  apply List.map_congr_left
  intro k hk
  have hk : k < n + 1 := by simpa using hk
  simp only [Function.comp_apply, zero_add, stepCount_mul hdt, driven]
  rw [Finset.sum_eq_zero, add_zero]
  intro l hl
  have hl : l < k := by simpa using hl
  rw [huv _ (by rw [List.getD_eq_getElem?_getD, List.getElem?_eq_getElem (by omega)]; exact List.getElem_mem _), mulVec_zero]

/-- One series of two samples, given in either order. -/
theorem fromTensor_two {W : Type} {t s : Int} (hts : t < s) (a b : W) :
    fromTensor 2 [[a, b]] none [t, s] = .ok [⟨0, t, a⟩, ⟨0, s, b⟩] ∧ fromTensor 2 [[a, b]] none [s, t] = .ok [⟨0, t, b⟩, ⟨0, s, a⟩] := by
  have key : ∀ (x y : Int) (u v : W), x ≠ y → ∃ c, fromTensor 2 [[u, v]] none [x, y] = .ok c ∧ c = (content c 0).map (fun p => ⟨0, p.1, p.2⟩) ∧
      (content c 0).Perm [(x, u), (y, v)] ∧ ((content c 0).map (·.1)).Pairwise (· < ·) := by
    intro x y u v hxy
    obtain ⟨c, h1, h2, h3, h4, h5⟩ := C02_from_tensor 2 [[u, v]] none [x, y] (by decide) (by simp) (by simp) rfl (by simpa using hxy) (by simp)
    refine ⟨c, h1, ?_, (h5 0 (by simp) (by simp)).1, (h5 0 (by simp) (by simp)).2.1⟩
    have hs : series c 0 = c := List.filter_eq_self.2 (fun r hr => by
      have := (h4 r.id).1 ⟨r, hr, rfl⟩
      simpa using this)
    unfold content
    rw [hs, List.map_map]
    conv_lhs => rw [← List.map_id c]
    apply List.map_congr_left
    intro r hr
    have := (h4 r.id).1 ⟨r, hr, rfl⟩
    cases r
    simp_all
  have uniq : ∀ (l : List (Int × W)) (u v : W), l.Perm [(t, u), (s, v)] → (l.map (·.1)).Pairwise (· < ·) → l = [(t, u), (s, v)] := by
    intro l u v hp hs
    refine hp.eq_of_pairwise (le := fun a b => a.1 < b.1) (fun _ _ _ _ h1 h2 => absurd h1 (lt_asymm h2)) (List.pairwise_map.1 hs) (by simpa using hts)
  constructor
  · obtain ⟨c, h1, h2, h3, h4⟩ := key t s a b hts.ne
    rw [h1, h2, uniq _ _ _ h3 h4]
    rfl
  · obtain ⟨c, h1, h2, h3, h4⟩ := key s t a b hts.ne'
    rw [h1, h2, uniq _ _ _ (h3.trans (List.Perm.swap _ _ _)) h4]
    rfl

/-- **C185 (first time value; violated).** For a system with control the initial condition is the state at the first time value, for one without control the state at time zero: with the time values `dt, 2 dt` and
a control without effect the states are `x, A x` with and `A x, A² x` without control. -/
theorem C185_start_violated (A : Matrix ι ι R) (B : Matrix ι κ R) {dt : Int} (hdt : 0 < dt) (x : ι → R) (u : κ → R) (hu : B *ᵥ u = 0) :
    evolveFlowmapControlled A B [[u]] [x] [dt, 2 * dt] none = .ok [⟨0, dt, x⟩, ⟨0, 2 * dt, A *ᵥ x⟩] ∧
    evolveFlowmap A none dt [x] [dt, 2 * dt] none = .ok [⟨0, dt, A *ᵥ x⟩, ⟨0, 2 * dt, (A * A) *ᵥ x⟩] := by
  have s1 : stepCount dt dt = 1 := by simpa using stepCount_mul hdt 1
  have s2 : stepCount dt (2 * dt) = 2 := by simpa using stepCount_mul hdt 2
  constructor
  · unfold evolveFlowmapControlled evolveSystem
    simp only [flowmapMatrixControlled, diffs, consecutive, List.map_cons, List.map_nil, List.zipWith_cons_cons, List.zipWith_nil_left, controlledLoop, List.length_cons, List.length_nil, hu, add_zero]
    exact (fromTensor_two (by omega) _ _).1
  · unfold evolveFlowmap evolveSystem
    simp only [flowmapMatrix, List.map_cons, List.map_nil, Option.getD_none, s1, s2, pow_one, pow_two, List.length_cons, List.length_nil]
    exact (fromTensor_two (by omega) _ _).1

/-- **C185 (order of the time values; violated).** Time values in descending order: without control every state carries its own time value, with control (and no effect of it) the state after one step is returned at
time 0 and the initial state at time `dt`. -/
theorem C185_order_violated (A : Matrix ι ι R) (B : Matrix ι κ R) {dt : Int} (hdt : 0 < dt) (x : ι → R) (u : κ → R) (hu : B *ᵥ u = 0) :
    evolveFlowmap A none dt [x] [dt, 0] none = .ok [⟨0, 0, x⟩, ⟨0, dt, A *ᵥ x⟩] ∧
    evolveFlowmapControlled A B [[u]] [x] [dt, 0] none = .ok [⟨0, 0, A *ᵥ x⟩, ⟨0, dt, x⟩] := by
  have s1 : stepCount dt dt = 1 := by simpa using stepCount_mul hdt 1
  have s0 : stepCount dt 0 = 0 := by simpa using stepCount_mul hdt 0
  constructor
  · unfold evolveFlowmap evolveSystem
    simp only [flowmapMatrix, List.map_cons, List.map_nil, Option.getD_none, s1, s0, pow_one, pow_zero, one_mulVec, List.length_cons, List.length_nil]
    exact (fromTensor_two hdt _ _).2
  · unfold evolveFlowmapControlled evolveSystem
    simp only [flowmapMatrixControlled, diffs, consecutive, List.map_cons, List.map_nil, List.zipWith_cons_cons, List.zipWith_nil_left, controlledLoop, List.length_cons, List.length_nil, hu, add_zero]
    exact (fromTensor_two hdt _ _).2

/-- The hypotheses can be met: two initial conditions with the IDs 7 and 3, three time values. -/
example : ∃ c, evolveFlowmap (!![0, -1; 1, 0] : Matrix (Fin 2) (Fin 2) Int) none 5 [![1, 0], ![0, 1]] (timesAt 0 5 [4, 0, 1]) (some [7, 3]) = .ok c ∧ Valid c :=
  let ⟨c, h1, h2, _⟩ := C185_flowmap (!![0, -1; 1, 0] : Matrix (Fin 2) (Fin 2) Int) _ none (.inr ⟨rfl, rfl⟩) (dt := 5) (by decide) [![1, 0], ![0, 1]] (by simp) [4, 0, 1] (by simp) (by decide) (some [7, 3]) (by simp)
  ⟨c, h1, h2⟩

/-- Two initial conditions, three time values, different controls. -/
example : ∃ c, evolveFlowmapControlled (!![0, -1; 1, 0] : Matrix (Fin 2) (Fin 2) Int) (!![1; 2] : Matrix (Fin 2) (Fin 1) Int) [[![1], ![0]], [![3], ![4]]] [![1, 0], ![0, 1]] [0, 5, 7] none = .ok c ∧ Valid c :=
  let ⟨c, h1, h2, _⟩ := C185_controlled (!![0, -1; 1, 0] : Matrix (Fin 2) (Fin 2) Int) (!![1; 2] : Matrix (Fin 2) (Fin 1) Int) [![1, 0], ![0, 1]] (by simp) [0, 5, 7] (by decide) 2 rfl
    [[![1], ![0]], [![3], ![4]]] rfl (by simp) none (by simp)
  ⟨c, h1, h2⟩

example (B : Matrix (Fin 2) (Fin 1) Int) : ∀ u ∈ [[(0 : Fin 1 → Int), 0]], u.length = 2 ∧ ∀ v ∈ u, B *ᵥ v = 0 := by simp

end Verif.Dyn
