import Verif.Dyn.Linear
import Verif.Tsc.CollProps
import Mathlib.LinearAlgebra.Matrix.NonsingularInverse
/-! Helper lemmas about the prediction frame and the controlled recursion. -/

namespace Verif.Dyn

open Verif.Tsc Verif.Np Matrix

theorem Row.shift_valid {V : Type} {c : List (Row Int V)} (hv : Valid c) (s : Int) :
    Valid (c.map (fun r => ({ r with time := r.time + s } : Row Int V))) := by
  refine ⟨?_, ?_⟩
  · have := hv.contiguous; simpa [List.map_map, Function.comp_def] using this
  · intro i j hij hj h
    have hj' : j < c.length := by simpa using hj
    have := hv.increasing i j hij hj' (by simpa using h)
    simp only [List.getElem_map]; omega

theorem Row.shift_content {V : Type} (c : List (Row Int V)) (s : Int) (i : Nat) :
    content (c.map (fun r => ({ r with time := r.time + s } : Row Int V))) i = (content c i).map (fun p => (p.1 + s, p.2)) := by
  unfold content series
  rw [List.filter_map]
  simp only [List.map_map, Function.comp_def]

theorem hasId_shift {V : Type} (c : List (Row Int V)) (s : Int) (i : Nat) :
    HasId (c.map (fun r => ({ r with time := r.time + s } : Row Int V))) i ↔ HasId c i := by
  simp [HasId]

theorem min?_of_pairwise {l : List Int} (h : l.Pairwise (· < ·)) : l.min? = l.head? := by
  cases l with
  | nil => rfl
  | cons a l =>
    rw [List.min?_eq_some_iff.2]
    · rfl
    · refine ⟨by simp, ?_⟩
      intro b hb
      rcases List.mem_cons.1 hb with rfl | hb
      · exact le_refl _
      · exact le_of_lt ((List.pairwise_cons.1 h).1 b hb)

theorem evolveFrame_ok {V W : Type} (X : List (Row Int V)) (t0 : Int) (ts : List Int) (solve : List V → List Int → List (List W))
    (hX : X ≠ []) (hnd : (X.map (·.id)).Nodup) (hts : (t0 :: ts).Pairwise (· < ·))
    (hlen : (solve (X.map (·.val)) ((t0 :: ts).map (· - t0))).length = X.length)
    (hrow : ∀ s ∈ solve (X.map (·.val)) ((t0 :: ts).map (· - t0)), s.length = (t0 :: ts).length) :
    ∃ d, evolveFrame X (t0 :: ts) solve = .ok d ∧ Valid d ∧ IdsAscending d ∧ (∀ i, HasId d i ↔ HasId X i) ∧
      ∀ k (hk : k < X.length), content d X[k].id =
        (t0 :: ts).zip ((solve (X.map (·.val)) ((t0 :: ts).map (· - t0)))[k]'(by rw [hlen]; exact hk)) := by
  set times := t0 :: ts with htimes
  set norm := times.map (· - t0) with hnorm
  set tensor := solve (X.map (·.val)) norm with htensor
  have hnormlt : norm.Pairwise (· < ·) := by
    rw [hnorm, List.pairwise_map]; exact hts.imp (fun h => by omega)
  have htn : tensor ≠ [] := by
    intro h; apply hX; apply List.eq_nil_of_length_eq_zero; rw [← hlen, h]; rfl
  obtain ⟨c, hc, hcv, hcasc, hcid, hccont⟩ := C02_from_tensor times.length tensor (some (X.map (·.id))) norm (by simp [htimes]) htn
    hrow (by simp [hnorm]) (hnormlt.imp (fun h => ne_of_lt h)) (by intro l hl; cases hl; exact ⟨by simp [hlen], hnd⟩)
  have hcont : ∀ k (hk : k < X.length), content c X[k].id = norm.zip (tensor[k]'(by rw [hlen]; exact hk)) := by
    intro k hk
    have := (hccont k (by rw [hlen]; exact hk) (by simpa using hk)).2.2 hnormlt
    simpa using this
  have hcid' : ∀ i, HasId c i ↔ HasId X i := by
    intro i; rw [hcid i]; simp [HasId]
  have hcne : c ≠ [] := by
    obtain ⟨x, X', rfl⟩ := List.ne_nil_iff_exists_cons.1 hX
    obtain ⟨r, hr, _⟩ := (hcid' x.id).2 ⟨x, by simp, rfl⟩
    exact List.ne_nil_of_mem hr
  have htv : timeValues c = norm := by
    rw [timeValues, ← unique_of_pairwise hnormlt]
    apply unique_congr
    intro t
    constructor
    · intro ht
      obtain ⟨r, hr, rfl⟩ := List.mem_map.1 ht
      obtain ⟨x, hx, hxr⟩ := (hcid' r.id).1 ⟨r, hr, rfl⟩
      obtain ⟨k, hk, rfl⟩ := List.getElem_of_mem hx
      have hmem : (r.time, r.val) ∈ content c X[k].id := by
        rw [hxr]; exact List.mem_map.2 ⟨r, mem_series.2 ⟨hr, rfl⟩, rfl⟩
      rw [hcont k hk] at hmem
      exact (List.of_mem_zip hmem).1
    · intro ht
      obtain ⟨j, hj, rfl⟩ := List.getElem_of_mem ht
      have h0 : 0 < X.length := List.length_pos_iff.2 hX
      have hl : (tensor[0]'(by rw [hlen]; exact h0)).length = norm.length := by
        rw [hrow _ (List.getElem_mem _)]; simp [hnorm]
      have hmem : (norm[j], (tensor[0]'(by rw [hlen]; exact h0))[j]'(by rw [hl]; exact hj)) ∈ content c X[0].id := by
        rw [hcont 0 h0]
        have : j < (norm.zip (tensor[0]'(by rw [hlen]; exact h0))).length := by rw [List.length_zip, hl]; simpa using hj
        have h2 := List.getElem_mem this
        rwa [List.getElem_zip] at h2
      obtain ⟨r, hr, hre⟩ := List.mem_map.1 hmem
      exact List.mem_map.2 ⟨r, (mem_series.1 hr).1, by simpa using congrArg Prod.fst hre⟩
  have hset : setTimeLevels c times = c.map (fun r => ({ r with time := r.time + t0 } : Row Int W)) := by
    unfold setTimeLevels
    apply List.map_congr_left
    intro r hr
    have hm : r.time ∈ norm := by rw [← htv, timeValues, mem_unique]; exact List.mem_map.2 ⟨r, hr, rfl⟩
    obtain ⟨j, hj, hje⟩ := List.getElem_of_mem hm
    have hj' : j < times.length := by simpa [hnorm] using hj
    have hidx : norm.idxOf r.time = j := by
      rw [← hje]; exact List.Nodup.idxOf_getElem (hnormlt.imp (fun h => ne_of_lt h)) j hj
    rw [htv, hidx, List.getD_eq_getElem?_getD, List.getElem?_eq_getElem hj']
    have : times[j] = r.time + t0 := by rw [← hje]; simp [hnorm]
    simp [this]
  refine ⟨c.map (fun r => { r with time := r.time + t0 }), ?_, Row.shift_valid hcv t0, ?_, ?_, ?_⟩
  · unfold evolveFrame
    rw [if_neg (not_not.2 ((length_unique_eq_iff _).2 hnd)), min?_of_pairwise hts]
    simp only [htimes, List.head?_cons]
    rw [← htimes, ← hnorm, ← htensor, hc]
    simp only [htv]
    rw [if_neg (by simp [hnorm, Function.comp_def]), hset, build_ok_of_valid (Row.shift_valid hcv t0) (by simpa using hcne)]
  · unfold IdsAscending at hcasc ⊢
    simpa [List.map_map, Function.comp_def] using hcasc
  · intro i; rw [hasId_shift, hcid']
  · intro k hk
    rw [Row.shift_content, hcont k hk]
    generalize tensor[k] = l
    rw [hnorm, List.zip_map_left, List.map_map]
    conv_rhs => rw [← List.map_id (times.zip l)]
    apply List.map_congr_left
    intro p _
    simp [Prod.map]

variable {R ι κ : Type} [CommRing R] [Fintype ι] [DecidableEq ι] [Fintype κ]

theorem length_controlledLoop (A : Matrix ι ι R) (B : Matrix ι κ R) (x : ι → R) (ds : List Int) (us : List (κ → R))
    (h : us.length = ds.length) : (controlledLoop A B x ds us).length = ds.length + 1 := by
  induction ds generalizing x us with
  | nil => cases us <;> simp [controlledLoop]
  | cons d ds ih =>
    cases us with
    | nil => simp at h
    | cons u us => simp [controlledLoop, ih _ us (by simpa using h)]

theorem length_diffs (l : List Int) : (diffs l).length = l.length - 1 := by
  induction l with
  | nil => rfl
  | cons a l ih =>
    cases l with
    | nil => rfl
    | cons b l => simp only [diffs, consecutive, List.map_cons, List.length_cons] at ih ⊢; omega

theorem flatten_blocks {α : Type} (k : Nat) (bs : List (List α)) (h : ∀ b ∈ bs, b.length = k) : blocks k bs.length bs.flatten = bs := by
  induction bs with
  | nil => rfl
  | cons b bs ih =>
    have hb : b.length = k := h b (by simp)
    simp only [List.length_cons, blocks, List.flatten_cons]
    rw [List.take_append_of_le_length (by omega), List.take_of_length_le (by omega), List.drop_append_of_le_length (by omega),
      List.drop_of_length_le (by omega), List.nil_append, ih (fun b' hb' => h b' (by simp [hb']))]

end Verif.Dyn
