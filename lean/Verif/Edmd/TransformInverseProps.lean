import Verif.Edmd.TransformInverse
import Verif.Edmd.DictionaryProps
import Verif.Edmd.ClosedProps
import Mathlib.Analysis.SpecialFunctions.Log.Basic
/-! # Property C201: EDMD that maps back with the inverse transformers -/

namespace Verif.Edmd

open Verif.Tsc Verif.Np Verif.Dyn Verif.Lin Verif.Dict Verif.Takens Verif.Dmd Matrix

/-! ## Specification -/

/-- A transformer without memory: the map of the samples, a map back, and the labels of the result. -/
structure Stage where
  map : List ℝ → List ℝ
  back : List ℝ → List ℝ
  out : List String

/-- The fitted dictionary made of such transformers, for data with the labels `cols`. -/
def pipe : List String → List Stage → Pipe
  | _, [] => []
  | cols, s :: ss => (rowTransform s.map cols s.out, rowTransform s.back s.out cols) :: pipe s.out ss

/-- The dictionary of one sample. -/
def dictOf (ss : List Stage) (v : List ℝ) : List ℝ := ss.foldl (fun w s => s.map w) v

/-- The labels of the dictionary. -/
def labelsOf (cols : List String) (ss : List Stage) : List String := ss.foldl (fun _ s => s.out) cols

/-- Every transformer is undone by its inverse on the way of the sample `v` through the dictionary. -/
def Undone : List Stage → List ℝ → Prop
  | [], _ => True
  | s :: ss, v => s.back (s.map v) = v ∧ Undone ss (s.map v)

/-! ## Lemmas -/

theorem runSteps_append {α : Type} (as bs : List (Transformer α)) (X : Takens.Frame α) : runSteps (as ++ bs) X = match runSteps as X with
    | .error e => .error e
    | .ok Y => runSteps bs Y := by
  induction as generalizing X with
  | nil => rfl
  | cons a as ih =>
    simp only [List.cons_append, runSteps]
    cases a X with
    | error e => rfl
    | ok Y => exact ih Y

theorem rowTransform_valid {g : List ℝ → List ℝ} {cols out : List String} {rows : List (Row Int (List ℝ))} (hne : rows ≠ []) (hv : Valid rows) (hn : out.Nodup) :
    rowTransform g cols out ⟨cols, rows⟩ = .ok ⟨out, mapVal g rows⟩ := by
  have hb := build_ok_of_valid (mapVal_valid.2 hv : Valid (mapVal g rows)) (mapVal_ne_nil.2 hne)
  unfold mapVal at hb
  unfold rowTransform
  rw [if_neg (by simp), if_neg (by simpa using hn), hb]
  rfl

theorem run_pipe : ∀ (ss : List Stage) {cols : List String} {rows : List (Row Int (List ℝ))} (_ : rows ≠ []) (_ : Valid rows) (_ : ∀ s ∈ ss, s.out.Nodup),
    runSteps ((pipe cols ss).map (·.1)) ⟨cols, rows⟩ = .ok ⟨labelsOf cols ss, mapVal (dictOf ss) rows⟩
  | [], cols, rows, _, _, _ => by
    have : (fun v => dictOf [] v) = id := rfl
    simp only [pipe, List.map_nil, runSteps, labelsOf, List.foldl_nil]
    congr 2
    exact (List.map_id _).symm
  | s :: ss, cols, rows, hne, hv, hn => by
    simp only [pipe, List.map_cons, runSteps, rowTransform_valid (g := s.map) (cols := cols) hne hv (hn s (by simp))]
    rw [run_pipe ss (mapVal_ne_nil.2 hne) (mapVal_valid.2 hv) (fun t ht => hn t (by simp [ht])), mapVal_mapVal]
    rfl

theorem run_back : ∀ (ss : List Stage) {cols : List String} {rows : List (Row Int (List ℝ))} (_ : rows ≠ []) (_ : Valid rows) (_ : cols.Nodup) (_ : ∀ s ∈ ss, s.out.Nodup)
    (_ : ∀ r ∈ rows, Undone ss r.val), inverseSteps (pipe cols ss) ⟨labelsOf cols ss, mapVal (dictOf ss) rows⟩ = .ok ⟨cols, rows⟩
  | [], cols, rows, _, _, _, _, _ => by
    simp only [inverseSteps, pipe, List.reverse_nil, List.map_nil, runSteps, labelsOf, List.foldl_nil]
    congr 2
    exact List.map_id _
  | s :: ss, cols, rows, hne, hv, hc, hn, hu => by
    have ih := run_back ss (cols := s.out) (rows := mapVal s.map rows) (mapVal_ne_nil.2 hne) (mapVal_valid.2 hv) (hn s (by simp)) (fun t ht => hn t (by simp [ht])) (by
      intro r hr
      obtain ⟨x, hx, rfl⟩ := List.mem_map.1 hr
      exact (hu x hx).2)
    rw [mapVal_mapVal] at ih
    unfold inverseSteps at ih ⊢
    rw [pipe, List.reverse_cons, List.map_append, runSteps_append]
    have h1 : labelsOf cols (s :: ss) = labelsOf s.out ss := rfl
    have h2 : mapVal (dictOf (s :: ss)) rows = mapVal (fun v => dictOf ss (s.map v)) rows := rfl
    rw [h1, h2]
    simp only [Function.comp_def] at ih
    rw [ih]
    simp only [List.map_cons, List.map_nil, runSteps]
    rw [rowTransform_valid (mapVal_ne_nil.2 hne) (mapVal_valid.2 hv) hc, mapVal_mapVal]
    have h3 : mapVal (s.back ∘ s.map) rows = rows := by
      unfold mapVal
      conv_rhs => rw [← List.map_id rows]
      apply List.map_congr_left
      intro r hr
      simp [(hu r hr).1]
    rw [h3]

/-! ## Property theorems -/

/-- **C201 (round trip).** If every transformer is undone by its `inverse_transform`, then `inverse_transform` of the dictionary of a collection is the collection, for any number of transformers.  The states
are not attached (`include_id_state=False`, or the dictionary has the labels of the states). -/
theorem C201_round_trip_partial (ss : List Stage) {X : Takens.Frame ℝ} (hne : X.rows ≠ []) (hv : Valid X.rows) (hc : X.cols.Nodup) (hn : ∀ s ∈ ss, s.out.Nodup) (hu : ∀ r ∈ X.rows, Undone ss r.val)
    (includeId pres : Bool) (hid : includeId = false ∨ pres = true) : ∃ D, Dict.transform ⟨(pipe X.cols ss).map (·.1), X.cols, 1, pres⟩ includeId X = .ok D ∧ inverseSteps (pipe X.cols ss) D = .ok X := by
  refine ⟨⟨labelsOf X.cols ss, mapVal (dictOf ss) X.rows⟩, ?_, run_back ss hne hv hc hn hu⟩
  have h1 : runSteps ((pipe X.cols ss).map (·.1)) X = .ok ⟨labelsOf X.cols ss, mapVal (dictOf ss) X.rows⟩ := run_pipe ss hne hv hn
  simp only [Dict.transform, h1, withState]
  rcases hid with rfl | rfl <;> simp

/-- **C201 (prediction).** A system `F` that stays in `S`, and a dictionary that makes it linear (`dictOf (F x) = K₀ dictOf x`) and can be undone.  `K` is a system matrix fitted to dictionary data of the system which
span the dictionary space.  Then the model predicts, for all initial conditions in `S` and any number of steps, exactly the states of the system, also if no linear map gives the states from the
dictionary. -/
theorem C201_prediction_partial {N nu : Nat} {k : TimeKind} (ss : List Stage) (cols : List String) (hcn : cols.Nodup) (hn : ∀ s ∈ ss, s.out.Nodup) {S : Set (List ℝ)} {F : List ℝ → List ℝ}
    (hF : ∀ v ∈ S, F v ∈ S) (hN : ∀ v ∈ S, (dictOf ss v).length = N) (hu : ∀ v ∈ S, Undone ss v)
    {K₀ : Matrix (Fin N) (Fin N) ℝ} (hlin : ∀ v ∈ S, toVec N (dictOf ss (F v)) = K₀ *ᵥ toVec N (dictOf ss v))
    {c : List (Row Int (List ℝ))} (hc : c ≠ []) (hv : Valid c) (hs : IdsAscending c ∨ EqualLengths c) (h2 : ∀ i, HasId c i → 2 ≤ (series c i).length) (hcS : ∀ r ∈ c, r.val ∈ S)
    (hcF : ∀ p ∈ snapshotPairs c, p.2 = F p.1) (hspan : Submodule.span ℝ {z | ∃ p ∈ snapshotPairs c, toVec N (dictOf ss p.1) = z} = ⊤)
    {K : Matrix (Fin N) (Fin N) ℝ} (hK : Fits k (mapVal (fun v => toVec N (dictOf ss v)) c) none K)
    (includeId pres : Bool) (hid : includeId = false ∨ pres = true) (dt t0 : Int) (hdt : 0 < dt) (X : List (Row Int (List ℝ))) (hX : X ≠ []) (hnd : (X.map (·.id)).Nodup) (hXv : Valid X) (hXS : ∀ r ∈ X, r.val ∈ S)
    (ks : List Nat) (hks : (0 :: ks).Pairwise (· < ·)) (names : List String) (hnames : ∀ c ∈ names, c ∈ cols) (U : Option (List (Row Int (Fin nu → ℝ)))) :
    ∃ Y, predictInverse (pipe cols ss) includeId pres (.auto K) dt ⟨cols, X⟩ U (timesAt t0 dt (0 :: ks)) names = .ok Y ∧ Y.cols = names ∧ Valid Y.rows ∧ (∀ i, HasId Y.rows i ↔ HasId X i) ∧
      ∀ r ∈ X, content Y.rows r.id = (0 :: ks).map (fun (s : Nat) => (t0 + s * dt, names.map (fun c => (F^[s] r.val).getD (cols.idxOf c) 0))) := by
  have hKK : K = K₀ := by
    refine C30_recovery_partial (mapVal_ne_nil.2 hc) (mapVal_valid.2 hv) (by rwa [mapVal_idsAscending, mapVal_equalLengths]) ?_ none (by simp) K₀ ?_ ?_ hK
    · intro i hi
      rw [mapVal_series]
      simpa [mapVal] using h2 i (mapVal_hasId.1 hi)
    · rw [mapVal_snapshotPairs]
      intro p hp
      obtain ⟨q, hq, rfl⟩ := List.mem_map.1 hp
      obtain ⟨r, hr, hrq⟩ := fst_mem_of_snapshotPairs hq
      simp only [hcF q hq]
      exact hlin _ (by rw [← hrq]; exact hcS r hr)
    · rw [← hspan, mapVal_snapshotPairs]
      congr 1
      ext z
      simp
  subst hKK
  have hit : ∀ (s : Nat), ∀ v ∈ S, F^[s] v ∈ S ∧ (K ^ s) *ᵥ toVec N (dictOf ss v) = toVec N (dictOf ss (F^[s] v)) := by
    intro s
    induction s with
    | zero => intro v hv; simp [hv]
    | succ s ih =>
      intro v hv
      obtain ⟨h3, h4⟩ := ih (F v) (hF v hv)
      refine ⟨h3, ?_⟩
      rw [Function.iterate_succ_apply, pow_succ, ← Matrix.mulVec_mulVec, ← hlin v hv]
      exact h4
  have htr : Dict.transform ⟨(pipe cols ss).map (·.1), cols, 1, pres⟩ includeId ⟨cols, X⟩ = .ok ⟨labelsOf cols ss, mapVal (dictOf ss) X⟩ := by
    have h1 := run_pipe ss (cols := cols) hX hXv hn
    simp only [Dict.transform, h1, withState]
    rcases hid with rfl | rfl <;> simp
  obtain ⟨P, hP, hPv, -, hPi, hPc⟩ := C26_flowmap K dt t0 hdt (mapVal (toVec N) (mapVal (dictOf ss) X)) (mapVal_ne_nil.2 (mapVal_ne_nil.2 hX)) (by rw [mapVal_ids, mapVal_ids]; exact hnd) ks hks
  -- the true states with the index of the prediction
  let orbit : Row Int (Fin N → ℝ) → List ℝ := fun r => ((X.find? (fun x => x.id == r.id)).map (fun x => F^[((r.time - t0) / dt).toNat] x.val)).getD []
  have hfind : ∀ x ∈ X, X.find? (fun y => y.id == x.id) = some x := by
    intro x hx
    clear hPc hPi hP htr hXv hXS hX
    induction X with
    | nil => simp at hx
    | cons y ys ih =>
      rw [List.map_cons, List.nodup_cons] at hnd
      rcases List.mem_cons.1 hx with rfl | h
      · simp
      · have hne : y.id ≠ x.id := fun he => hnd.1 (by rw [he]; exact List.mem_map.2 ⟨x, h, rfl⟩)
        rw [List.find?_cons_of_neg (by simpa using hne)]
        exact ih hnd.2 h
  have hPr : ∀ r ∈ P, ∃ x ∈ X, ∃ s : Nat, s ∈ 0 :: ks ∧ r.id = x.id ∧ r.time = t0 + s * dt ∧ r.val = toVec N (dictOf ss (F^[s] x.val)) ∧ orbit r = F^[s] x.val := by
    intro r hr
    obtain ⟨y, hy, hyi⟩ := (hPi r.id).1 ⟨r, hr, rfl⟩
    obtain ⟨y', hy', rfl⟩ := List.mem_map.1 hy
    obtain ⟨x, hx, rfl⟩ := List.mem_map.1 hy'
    have hmem : (r.time, r.val) ∈ content P r.id := List.mem_map.2 ⟨r, mem_series.2 ⟨hr, rfl⟩, rfl⟩
    have hxi : r.id = x.id := hyi.symm
    have := hPc _ hy
    simp only at this
    rw [hxi, this] at hmem
    obtain ⟨s, hs, he⟩ := List.mem_map.1 hmem
    simp only [Prod.mk.injEq] at he
    refine ⟨x, hx, s, hs, hxi, he.1.symm, ?_, ?_⟩
    · rw [← he.2]; exact (hit s x.val (hXS x hx)).2
    · simp only [orbit, hxi, hfind x hx, Option.map_some, Option.getD_some, ← he.1]
      congr 1
      rw [show t0 + (s : Int) * dt - t0 = (s : Int) * dt by ring, Int.mul_ediv_cancel _ (by omega)]
      simp
  let Z : List (Row Int (List ℝ)) := P.map (fun r => ⟨r.id, r.time, orbit r⟩)
  have hZ : mapVal List.ofFn P = mapVal (dictOf ss) Z := by
    unfold mapVal
    rw [List.map_map]
    apply List.map_congr_left
    intro r hr
    obtain ⟨x, hx, s, hs, h5, h6, h7, h8⟩ := hPr r hr
    simp only [Function.comp]
    rw [h7, h8]
    congr 1
    have hl := hN _ (hit s x.val (hXS x hx)).1
    apply List.ext_getElem
    · simp [hl]
    · intro j h9 h10
      simp [toVec, h10]
  have hZk : mapVal (fun _ => ()) Z = mapVal (fun _ => ()) P := by
    unfold mapVal
    simp [Z, List.map_map, Function.comp_def]
  have hZv : Valid Z := by
    have : Valid (mapVal (fun _ => ()) Z) := by rw [hZk]; exact mapVal_valid.2 hPv
    exact mapVal_valid.1 this
  have hPne : P ≠ [] := by
    rintro rfl
    cases X with
    | nil => exact hX rfl
    | cons x xs =>
      obtain ⟨r, hr, -⟩ := (hPi x.id).2 (mapVal_hasId.2 (mapVal_hasId.2 ⟨x, by simp, rfl⟩))
      simp at hr
  have hZne : Z ≠ [] := by simpa [Z] using hPne
  have hback := run_back ss (cols := cols) hZne hZv hcn hn (by
    intro r hr
    obtain ⟨p, hp, rfl⟩ := List.mem_map.1 hr
    obtain ⟨x, hx, s, hs, -, -, -, h8⟩ := hPr p hp
    simp only [h8]
    exact hu _ (hit s x.val (hXS x hx)).1)
  refine ⟨⟨names, mapVal (selectCols cols names) Z⟩, ?_, rfl, mapVal_valid.2 hZv, ?_, ?_⟩
  · simp only [predictInverse, htr, finalPredict, hP]
    rw [hZ, hback]
    simp only [takeColumns]
    rw [if_pos (by simpa using hnames)]
  · intro i
    rw [mapVal_hasId, ← mapVal_hasId (f := fun _ => ()), hZk, mapVal_hasId, hPi, mapVal_hasId, mapVal_hasId]
  · intro x hx
    have h5 := hPc ⟨x.id, x.time, toVec N (dictOf ss x.val)⟩ (List.mem_map.2 ⟨⟨x.id, x.time, dictOf ss x.val⟩, List.mem_map.2 ⟨x, hx, rfl⟩, rfl⟩)
    simp only at h5
    have h6 : content (mapVal (selectCols cols names) Z) x.id = (content P x.id).map (fun p => (p.1, names.map (fun c => (F^[((p.1 - t0) / dt).toNat] x.val).getD (cols.idxOf c) 0))) := by
      rw [mapVal_content]
      unfold content series
      simp only [Z, List.filter_map, List.map_map]
      apply List.map_congr_left
      intro r hr
      have hri : r.id = x.id := by simpa using (List.mem_filter.1 hr).2
      simp only [Function.comp, orbit, hri, hfind x hx, Option.map_some, Option.getD_some]
      rfl
    rw [h6, h5, List.map_map]
    apply List.map_congr_left
    intro s hs
    simp only [Function.comp]
    rw [show t0 + (s : Int) * dt - t0 = (s : Int) * dt by ring, Int.mul_ediv_cancel _ (by omega)]
    simp

/-- **C201 fails for attached states:** with `include_id_state=True`, the default, and a dictionary whose labels are not the labels of the states, the original states are attached to the dictionary, and fitting is
possible.  But every prediction fails, because the last transformer is asked to undo a frame which still has the columns of the attached states. -/
theorem C201_attached_violated {N nu : Nat} (ss : List Stage) (hss : ss ≠ []) (hn : ∀ s ∈ ss, s.out.Nodup) {X : Takens.Frame ℝ} (hne : X.rows ≠ []) (hv : Valid X.rows) (hc : X.cols ≠ [])
    (hdis : (X.cols ++ labelsOf X.cols ss).Nodup) :
    (∃ D, Dict.transform ⟨(pipe X.cols ss).map (·.1), X.cols, 1, preserves none X.cols (labelsOf X.cols ss)⟩ true X = .ok D ∧ D.cols = X.cols ++ labelsOf X.cols ss) ∧
      ∀ (m : Final N nu) (dt : Int) (U : Option (List (Row Int (Fin nu → ℝ)))) (times : List Int) (names : List String) (Y : Takens.Frame ℝ),
        predictInverse (pipe X.cols ss) true (preserves none X.cols (labelsOf X.cols ss)) m dt X U times names ≠ .ok Y := by
  have h1 : runSteps ((pipe X.cols ss).map (·.1)) X = .ok ⟨labelsOf X.cols ss, mapVal (dictOf ss) X.rows⟩ := run_pipe ss hne hv hn
  have hp : preserves none X.cols (labelsOf X.cols ss) = false := by
    cases hX : X.cols with
    | nil => exact absurd hX hc
    | cons a as =>
      rw [hX] at hdis
      have : a ∉ labelsOf (a :: as) ss := by
        rw [List.cons_append, List.nodup_cons] at hdis
        exact fun h => hdis.1 (List.mem_append.2 (Or.inr h))
      simp [preserves, this]
  have h2 : ∃ D, Dict.transform ⟨(pipe X.cols ss).map (·.1), X.cols, 1, false⟩ true X = .ok D ∧ D.cols = X.cols ++ labelsOf X.cols ss := by
    simp only [Dict.transform, h1, withState, Bool.not_false, Bool.and_self, if_true, attach]
    rw [if_neg (by simpa using hdis)]
    have hb := build_ok_of_valid (c := (mapVal (dictOf ss) X.rows).map (fun r => (⟨r.id, r.time, ((X.rows.find? (fun x => decide (x.key = r.key))).map (·.val)).getD [] ++ r.val⟩ : Row Int (List ℝ)))) (by
      have h3 : Valid (mapVal (fun _ => ()) X.rows) := mapVal_valid.2 hv
      refine (mapVal_valid (f := fun _ => ())).1 ?_
      convert h3 using 1
      simp [mapVal, List.map_map, Function.comp_def]) (by simpa [mapVal] using hne)
    rw [hb]
    exact ⟨_, rfl, rfl⟩
  rw [hp]
  refine ⟨h2, ?_⟩
  obtain ⟨D, hD, hDc⟩ := h2
  intro m dt U times names Y hY
  simp only [predictInverse, hD] at hY
  cases hf : finalPredict m dt (mapVal (toVec N) D.rows) none times with
  | error e => rw [hf] at hY; simp at hY
  | ok P =>
    rw [hf] at hY
    have hlast : ∀ (ss : List Stage) (cols : List String), ss ≠ [] → ∃ T g out, (pipe cols ss).reverse.map (·.2) = rowTransform g (labelsOf cols ss) out :: T := by
      intro ss
      induction ss with
      | nil => intro _ h; exact absurd rfl h
      | cons s ss ih =>
        intro cols _
        rw [pipe, List.reverse_cons, List.map_append]
        by_cases h0 : ss = []
        · subst h0; exact ⟨[], s.back, cols, rfl⟩
        · obtain ⟨T, g, out, h⟩ := ih s.out h0
          rw [h]
          exact ⟨_, g, out, rfl⟩
    obtain ⟨T, g, out, h⟩ := hlast ss X.cols hss
    have hcols : X.cols ++ labelsOf X.cols ss ≠ labelsOf X.cols ss := by
      intro he
      have := congrArg List.length he
      rw [List.length_append] at this
      exact hc (List.eq_nil_of_length_eq_zero (by omega))
    simp only [inverseSteps, h, runSteps, rowTransform, hDc] at hY
    rw [if_pos hcols] at hY
    simp at hY

/-- **C201 fails for controlled systems:** the control input is not handed to the DMD model.  A model with control can be fitted, and predicts its dictionary if it is given the control input, but `predict` fails for
every control input. -/
theorem C201_control_violated {N nu : Nat} (A : Matrix (Fin N) (Fin N) ℝ) (B : Matrix (Fin N) (Fin nu) ℝ) :
    (∀ (Ts : Pipe) (includeId pres : Bool) (dt : Int) (X : Takens.Frame ℝ) (U : Option (List (Row Int (Fin nu → ℝ)))) (times : List Int) (names : List String) (Y : Takens.Frame ℝ),
      predictInverse Ts includeId pres (.controlled A B) dt X U times names ≠ .ok Y) ∧
    ∀ (dt t : Int) (x : Fin N → ℝ) (u : Fin nu → ℝ), ∃ P, finalPredict (.controlled A B) dt [⟨0, t, x⟩] (some [⟨0, t, u⟩]) [t, t + 1] = .ok P ∧ content P 0 = [(t, x), (t + 1, A *ᵥ x + B *ᵥ u)] := by
  constructor
  · intro Ts includeId pres dt X U times names Y h
    simp only [predictInverse, finalPredict] at h
    split at h <;> simp at h
  · intro dt t x u
    obtain ⟨P, hP, -, -, hc⟩ := C28_controlled A B [⟨0, t, x⟩] [⟨0, t, u⟩] (by simp) rfl (by rw [valid_iff]; exact ⟨by simp [newIds], by simp⟩) (by simp [IdsAscending]) rfl t (by simp) rfl 1 (by
      rintro i ⟨r, hr, rfl⟩
      simp only [List.mem_singleton] at hr
      subst hr
      rfl) t [t + 1] (by simp) rfl
    refine ⟨P, by simp only [finalPredict, hP], ?_⟩
    rw [hc ⟨0, t, x⟩ (by simp)]
    have hvals : vals ([⟨0, t, u⟩] : List (Row Int (Fin nu → ℝ))) 0 = [u] := rfl
    simp [hvals, driven, List.range_succ, Finset.sum_range_one]

/-- The logarithm of a feature as a transformer. -/
noncomputable def logStage : Stage := ⟨fun v => v.map Real.log, fun v => v.map Real.exp, ["log x"]⟩

/-- non-vacuity of `C201_prediction_partial`: the system `x ↦ x²` on the positive numbers is linear in the logarithm; no linear map gives `x` from `log x`. -/
example : ∃ (S : Set (List ℝ)) (F : List ℝ → List ℝ) (K₀ : Matrix (Fin 1) (Fin 1) ℝ) (c : List (Row Int (List ℝ))), (∀ v ∈ S, F v ∈ S) ∧ (∀ v ∈ S, (dictOf [logStage] v).length = 1) ∧
    (∀ v ∈ S, Undone [logStage] v) ∧ (∀ v ∈ S, toVec 1 (dictOf [logStage] (F v)) = K₀ *ᵥ toVec 1 (dictOf [logStage] v)) ∧ c ≠ [] ∧ Valid c ∧ IdsAscending c ∧ (∀ i, HasId c i → 2 ≤ (series c i).length) ∧
    (∀ r ∈ c, r.val ∈ S) ∧ (∀ p ∈ snapshotPairs c, p.2 = F p.1) ∧ Submodule.span ℝ {z | ∃ p ∈ snapshotPairs c, toVec 1 (dictOf [logStage] p.1) = z} = ⊤ ∧
    (∃ K, Fits .int (mapVal (fun v => toVec 1 (dictOf [logStage] v)) c) none K) ∧ ¬ ∃ B : Matrix (Fin 1) (Fin 1) ℝ, ∀ v ∈ S, toVec 1 (dictOf [logStage] v) ᵥ* B = toVec 1 v := by
  have hv : Valid ([⟨0, 0, [Real.exp 1]⟩, ⟨0, 1, [Real.exp 1 ^ 2]⟩] : List (Row Int (List ℝ))) := by
    rw [valid_iff]; exact ⟨by decide, by unfold Before; simp⟩
  have hp : snapshotPairs ([⟨0, 0, [Real.exp 1]⟩, ⟨0, 1, [Real.exp 1 ^ 2]⟩] : List (Row Int (List ℝ))) = [([Real.exp 1], [Real.exp 1 ^ 2])] := rfl
  have h2 : ∀ i, HasId ([⟨0, 0, [Real.exp 1]⟩, ⟨0, 1, [Real.exp 1 ^ 2]⟩] : List (Row Int (List ℝ))) i → 2 ≤ (series ([⟨0, 0, [Real.exp 1]⟩, ⟨0, 1, [Real.exp 1 ^ 2]⟩] : List (Row Int (List ℝ))) i).length := by
    rintro i ⟨r, hr, rfl⟩
    simp only [List.mem_cons, List.not_mem_nil, or_false] at hr
    rcases hr with rfl | rfl <;> simp [series]
  refine ⟨{v | ∃ x : ℝ, 0 < x ∧ v = [x]}, fun v => v.map (· ^ 2), !![2], [⟨0, 0, [Real.exp 1]⟩, ⟨0, 1, [Real.exp 1 ^ 2]⟩], ?_, ?_, ?_, ?_, by simp, hv, ?_, h2, ?_, ?_, ?_, ?_, ?_⟩
  · rintro v ⟨x, hx, rfl⟩; exact ⟨x ^ 2, by positivity, rfl⟩
  · rintro v ⟨x, hx, rfl⟩; rfl
  · rintro v ⟨x, hx, rfl⟩; simp [Undone, logStage, Real.exp_log hx]
  · rintro v ⟨x, hx, rfl⟩
    funext i
    fin_cases i
    simp [dictOf, logStage, toVec, Matrix.mulVec, dotProduct]
  · unfold IdsAscending; simp
  · intro r hr
    simp only [List.mem_cons, List.not_mem_nil, or_false] at hr
    rcases hr with rfl | rfl
    · exact ⟨_, Real.exp_pos 1, rfl⟩
    · exact ⟨_, by positivity, rfl⟩
  · rw [hp]; simp
  · rw [hp, eq_top_iff]
    intro z _
    have hz : z = z 0 • toVec 1 (dictOf [logStage] [Real.exp 1]) := by
      funext i
      fin_cases i
      simp [dictOf, logStage, toVec]
    rw [hz]
    exact Submodule.smul_mem _ _ (Submodule.subset_span ⟨([Real.exp 1], [Real.exp 1 ^ 2]), List.mem_singleton.2 rfl, rfl⟩)
  · refine C30_exists (by simp [mapVal]) ?_ (by rw [mapVal_isConstDeltaTime, ← mapVal_isConstDeltaTime .int (fun _ => ())]; decide +kernel)
    intro i hi
    rw [mapVal_series]
    simpa [mapVal] using h2 i (mapVal_hasId.1 hi)
  · rintro ⟨B, hB⟩
    have := congrFun (hB [1] ⟨1, one_pos, rfl⟩) 0
    simp [dictOf, logStage, toVec, Matrix.vecMul, dotProduct] at this

/-- non-vacuity of `C201_round_trip_partial` and `C201_attached_violated` -/
example : Valid ([⟨4, 0, [2]⟩, ⟨4, 1, [3]⟩] : List (Row Int (List ℝ))) ∧ (∀ s ∈ [logStage], s.out.Nodup) ∧ (∀ r ∈ ([⟨4, 0, [2]⟩, ⟨4, 1, [3]⟩] : List (Row Int (List ℝ))), Undone [logStage] r.val) ∧
    (["x"] ++ labelsOf ["x"] [logStage]).Nodup := by
  refine ⟨by rw [valid_iff]; exact ⟨by decide, by unfold Before; simp⟩, by simp [logStage], ?_, by simp [labelsOf, logStage]⟩
  intro r hr
  simp only [List.mem_cons, List.not_mem_nil, or_false] at hr
  rcases hr with rfl | rfl <;> simp [Undone, logStage, Real.exp_log]

end Verif.Edmd
