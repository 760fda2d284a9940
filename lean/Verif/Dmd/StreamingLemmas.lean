import Verif.Dmd.Streaming
import Verif.Dmd.StandardProps
import Mathlib.LinearAlgebra.Span.Basic
import Mathlib.Tactic.FieldSimp
/-!
# Lemmas about the streaming updates
-/

namespace Verif.Dmd

open Verif.Tsc Verif.Lin Matrix

variable {ι : Type} [Fintype ι]

/-- An orthonormal list of vectors -/
def Ortho (Q : List (ι → ℝ)) : Prop := Q.Pairwise (fun a b => a ⬝ᵥ b = 0) ∧ ∀ q ∈ Q, q ⬝ᵥ q = 1

/-- The vectors which can be written with the basis -/
def spanOf (Q : List (ι → ℝ)) : Submodule ℝ (ι → ℝ) := Submodule.span ℝ {v | v ∈ Q}

theorem project_nil (e : ι → ℝ) : project [] e = 0 := rfl

theorem project_cons (a : ι → ℝ) (Q : List (ι → ℝ)) (e : ι → ℝ) : project (a :: Q) e = (a ⬝ᵥ e) • a + project Q e := by simp [project]

theorem dot_project_zero {Q : List (ι → ℝ)} {a : ι → ℝ} (h : ∀ q ∈ Q, a ⬝ᵥ q = 0) (e : ι → ℝ) : a ⬝ᵥ project Q e = 0 := by
  induction Q with
  | nil => simp [project_nil]
  | cons b Q ih =>
    rw [project_cons, dotProduct_add, dotProduct_smul, h b (by simp), ih (fun q hq => h q (by simp [hq]))]
    simp

theorem dot_project {Q : List (ι → ℝ)} (hQ : Ortho Q) (e : ι → ℝ) : ∀ q ∈ Q, q ⬝ᵥ project Q e = q ⬝ᵥ e := by
  obtain ⟨hp, hn⟩ := hQ
  induction Q with
  | nil => simp
  | cons a Q ih =>
    rw [List.pairwise_cons] at hp
    intro q hq
    rw [project_cons, dotProduct_add, dotProduct_smul]
    rcases List.mem_cons.1 hq with rfl | hq'
    · rw [hn _ (by simp), dot_project_zero hp.1]; simp
    · rw [dotProduct_comm q a, hp.1 q hq', ih hp.2 (fun x hx => hn x (by simp [hx])) q hq']; simp

theorem project_mem (Q : List (ι → ℝ)) (e : ι → ℝ) : project Q e ∈ spanOf Q := by
  unfold project spanOf
  apply list_sum_mem
  intro x hx
  obtain ⟨q, hq, rfl⟩ := List.mem_map.1 hx
  exact Submodule.smul_mem _ _ (Submodule.subset_span hq)

theorem project_add (Q : List (ι → ℝ)) (x y : ι → ℝ) : project Q (x + y) = project Q x + project Q y := by
  induction Q with
  | nil => simp [project_nil]
  | cons a Q ih => rw [project_cons, project_cons, project_cons, ih, dotProduct_add, add_smul]; abel

theorem project_smul (Q : List (ι → ℝ)) (c : ℝ) (x : ι → ℝ) : project Q (c • x) = c • project Q x := by
  induction Q with
  | nil => simp [project_nil]
  | cons a Q ih => rw [project_cons, project_cons, ih, dotProduct_smul, smul_add, smul_smul]; rfl

theorem project_eq_zero {Q : List (ι → ℝ)} {e : ι → ℝ} (h : ∀ q ∈ Q, q ⬝ᵥ e = 0) : project Q e = 0 := by
  induction Q with
  | nil => rfl
  | cons a Q ih => rw [project_cons, h a (by simp), ih (fun q hq => h q (by simp [hq]))]; simp

theorem project_basis {Q : List (ι → ℝ)} (hQ : Ortho Q) : ∀ q ∈ Q, project Q q = q := by
  obtain ⟨hp, hn⟩ := hQ
  induction Q with
  | nil => simp
  | cons a Q ih =>
    rw [List.pairwise_cons] at hp
    intro q hq
    rw [project_cons]
    rcases List.mem_cons.1 hq with rfl | hq'
    · rw [hn _ (by simp), project_eq_zero (fun b hb => by rw [dotProduct_comm]; exact hp.1 b hb)]; simp
    · rw [hp.1 q hq', ih hp.2 (fun x hx => hn x (by simp [hx])) q hq']; simp

theorem project_of_mem {Q : List (ι → ℝ)} (hQ : Ortho Q) {x : ι → ℝ} (hx : x ∈ spanOf Q) : project Q x = x := by
  unfold spanOf at hx
  induction hx using Submodule.span_induction with
  | mem x h => exact project_basis hQ x h
  | zero => exact project_eq_zero (by simp)
  | add x y _ _ ihx ihy => rw [project_add, ihx, ihy]
  | smul c x _ ih => rw [project_smul, ih]

theorem gramSchmidt_zero {Q : List (ι → ℝ)} {e : ι → ℝ} (h : project Q e = 0) : ∀ n, gramSchmidt Q n e = e
  | 0 => rfl
  | n + 1 => by rw [gramSchmidt, h, sub_zero, gramSchmidt_zero h n]

theorem gramSchmidt_eq {Q : List (ι → ℝ)} (hQ : Ortho Q) (e : ι → ℝ) (n : Nat) (hn : 0 < n) : gramSchmidt Q n e = e - project Q e := by
  obtain ⟨m, rfl⟩ := Nat.exists_eq_succ_of_ne_zero hn.ne'
  rw [gramSchmidt]
  apply gramSchmidt_zero
  apply project_eq_zero
  intro q hq
  rw [dotProduct_sub, dot_project hQ e q hq, sub_self]

theorem norm2_sq (v : ι → ℝ) : norm2 v ^ 2 = v ⬝ᵥ v := Real.sq_sqrt (Finset.sum_nonneg (fun i _ => mul_self_nonneg (v i)))

theorem norm2_eq_zero {v : ι → ℝ} : norm2 v = 0 ↔ v = 0 := by
  rw [← pow_eq_zero_iff (n := 2) (by norm_num), norm2_sq, dotProduct_self_eq_zero]

theorem norm2_nonneg (v : ι → ℝ) : 0 ≤ norm2 v := Real.sqrt_nonneg _

theorem unit_dot {e : ι → ℝ} (h : e ≠ 0) : ((norm2 e)⁻¹ • e) ⬝ᵥ ((norm2 e)⁻¹ • e) = 1 := by
  have := norm2_eq_zero.not.2 h
  rw [smul_dotProduct, dotProduct_smul, ← norm2_sq]
  simp only [smul_eq_mul]
  field_simp

/-- Appending a normalised residual keeps the list orthonormal. -/
theorem ortho_append {Q : List (ι → ℝ)} (hQ : Ortho Q) (x : ι → ℝ) (h : x - project Q x ≠ 0) :
    Ortho (Q ++ [(norm2 (x - project Q x))⁻¹ • (x - project Q x)]) := by
  constructor
  · rw [List.pairwise_append]
    refine ⟨hQ.1, by simp, ?_⟩
    intro a ha b hb
    rw [List.mem_singleton.1 hb, dotProduct_smul, dotProduct_sub, dot_project hQ x a ha]; simp
  · intro q hq
    rcases List.mem_append.1 hq with hq | hq
    · exact hQ.2 q hq
    · rw [List.mem_singleton.1 hq]; exact unit_dot h

omit [Fintype ι] in
theorem spanOf_mono {Q : List (ι → ℝ)} (l : List (ι → ℝ)) : spanOf Q ≤ spanOf (Q ++ l) :=
  Submodule.span_mono (fun _ hv => List.mem_append_left l hv)

theorem mem_append_span {Q : List (ι → ℝ)} (x : ι → ℝ) :
    x ∈ spanOf (Q ++ [(norm2 (x - project Q x))⁻¹ • (x - project Q x)]) := by
  by_cases h : x - project Q x = 0
  · rw [sub_eq_zero] at h
    rw [h]
    exact spanOf_mono _ (project_mem Q x)
  · have h1 : project Q x ∈ spanOf (Q ++ [(norm2 (x - project Q x))⁻¹ • (x - project Q x)]) := spanOf_mono _ (project_mem Q x)
    have h2 : (norm2 (x - project Q x)) • ((norm2 (x - project Q x))⁻¹ • (x - project Q x)) ∈
        spanOf (Q ++ [(norm2 (x - project Q x))⁻¹ • (x - project Q x)]) := Submodule.smul_mem _ _ (Submodule.subset_span (by simp))
    rw [smul_smul, mul_inv_cancel₀ (norm2_eq_zero.not.2 h), one_smul] at h2
    have := Submodule.add_mem _ h1 h2
    rwa [add_sub_cancel] at this

/-- A vector orthogonal to the basis is orthogonal to its span. -/
theorem dot_span_zero {Q : List (ι → ℝ)} {a : ι → ℝ} (h : ∀ q ∈ Q, q ⬝ᵥ a = 0) {x : ι → ℝ} (hx : x ∈ spanOf Q) : a ⬝ᵥ x = 0 := by
  unfold spanOf at hx
  induction hx using Submodule.span_induction with
  | mem x hx => rw [dotProduct_comm]; exact h x hx
  | zero => simp
  | add x y _ _ ihx ihy => rw [dotProduct_add, ihx, ihy, add_zero]
  | smul c x _ ih => rw [dotProduct_smul, ih, smul_zero]

theorem residual_dot {Q : List (ι → ℝ)} (hQ : Ortho Q) (x : ι → ℝ) (q : ι → ℝ) (hq : q ∈ Q) :
    q ⬝ᵥ ((norm2 (x - project Q x))⁻¹ • (x - project Q x)) = 0 := by
  rw [dotProduct_smul, dotProduct_sub, dot_project hQ x q hq]; simp

/-! ### The invariant without compression -/

/-- `Σ (a·x) (b·x)` over the pairs -/
def corr (ps : List ((ι → ℝ) × (ι → ℝ))) (f g : (ι → ℝ) × (ι → ℝ) → ι → ℝ) (a b : ι → ℝ) : ℝ := (ps.map (fun p => (a ⬝ᵥ f p) * (b ⬝ᵥ g p))).sum

/-- What the state stores after the pairs `ps` -/
structure StreamInv (s : Streaming ι) (ps : List ((ι → ℝ) × (ι → ℝ))) : Prop where
  ox : Ortho s.Qx
  oy : Ortho s.Qy
  sx : ∀ p ∈ ps, p.1 ∈ spanOf s.Qx
  sy : ∀ p ∈ ps, p.2 ∈ spanOf s.Qy
  bx : ∀ q ∈ s.Qx, q ∈ spanOf (ps.map Prod.fst)
  gx : ∀ i j, s.Gx i j = corr ps Prod.fst Prod.fst (s.Qx.getD i 0) (s.Qx.getD j 0)
  gy : ∀ i j, s.Gy i j = corr ps Prod.snd Prod.snd (s.Qy.getD i 0) (s.Qy.getD j 0)
  a : ∀ i j, s.A i j = corr ps Prod.snd Prod.fst (s.Qy.getD i 0) (s.Qx.getD j 0)

theorem corr_append (ps qs : List ((ι → ℝ) × (ι → ℝ))) (f g a b) : corr (ps ++ qs) f g a b = corr ps f g a b + corr qs f g a b := by simp [corr]

theorem corr_left {ps : List ((ι → ℝ) × (ι → ℝ))} {f g} {a b : ι → ℝ} (h : ∀ p ∈ ps, a ⬝ᵥ f p = 0) : corr ps f g a b = 0 := by
  unfold corr
  apply List.sum_eq_zero
  intro x hx
  obtain ⟨p, hp, rfl⟩ := List.mem_map.1 hx
  simp [h p hp]

theorem corr_right {ps : List ((ι → ℝ) × (ι → ℝ))} {f g} {a b : ι → ℝ} (h : ∀ p ∈ ps, b ⬝ᵥ g p = 0) : corr ps f g a b = 0 := by
  unfold corr
  apply List.sum_eq_zero
  intro x hx
  obtain ⟨p, hp, rfl⟩ := List.mem_map.1 hx
  simp [h p hp]

omit [Fintype ι] in
theorem getD_append_lt (Q : List (ι → ℝ)) (q : ι → ℝ) {i : Nat} (h : i < Q.length) : (Q ++ [q]).getD i 0 = Q.getD i 0 := by
  rw [List.getD_eq_getElem?_getD, List.getElem?_append_left h, ← List.getD_eq_getElem?_getD]

/-- For an index past the old end, the new basis vector is orthogonal to everything in the old span. -/
theorem getD_append_ge {Q : List (ι → ℝ)} {q : ι → ℝ} (hq : ∀ p ∈ Q, p ⬝ᵥ q = 0) {i : Nat} (h : ¬ i < Q.length) {x : ι → ℝ} (hx : x ∈ spanOf Q) :
    (Q ++ [q]).getD i 0 ⬝ᵥ x = 0 := by
  rw [List.getD_eq_getElem?_getD, List.getElem?_append_right (not_lt.1 h)]
  rcases Nat.eq_zero_or_pos (i - Q.length) with h0 | h0
  · rw [h0]; exact dot_span_zero hq hx
  · rw [List.getElem?_eq_none (by simp; omega)]; simp

theorem pad_corr {ps : List ((ι → ℝ) × (ι → ℝ))} {f g} {Q R : List (ι → ℝ)} {q r : ι → ℝ} (hq : ∀ p ∈ Q, p ⬝ᵥ q = 0) (hr : ∀ p ∈ R, p ⬝ᵥ r = 0)
    (hf : ∀ p ∈ ps, f p ∈ spanOf Q) (hg : ∀ p ∈ ps, g p ∈ spanOf R) {G : Nat → Nat → ℝ}
    (hG : ∀ i j, G i j = corr ps f g (Q.getD i 0) (R.getD j 0)) (i j : Nat) :
    pad Q.length R.length G i j = corr ps f g ((Q ++ [q]).getD i 0) ((R ++ [r]).getD j 0) := by
  unfold pad
  by_cases hi : i < Q.length
  · by_cases hj : j < R.length
    · rw [if_pos ⟨hi, hj⟩, hG, getD_append_lt _ _ hi, getD_append_lt _ _ hj]
    · rw [if_neg (by simp [hj]), corr_right (fun p hp => getD_append_ge hr hj (hg p hp))]
  · rw [if_neg (by simp [hi]), corr_left (fun p hp => getD_append_ge hq hi (hf p hp))]

theorem pad_corr_left {ps : List ((ι → ℝ) × (ι → ℝ))} {f g} {Q R : List (ι → ℝ)} {q : ι → ℝ} (hq : ∀ p ∈ Q, p ⬝ᵥ q = 0)
    (hf : ∀ p ∈ ps, f p ∈ spanOf Q) {G : Nat → Nat → ℝ}
    (hG : ∀ i j, G i j = corr ps f g (Q.getD i 0) (R.getD j 0)) (i j : Nat) :
    pad Q.length R.length G i j = corr ps f g ((Q ++ [q]).getD i 0) (R.getD j 0) := by
  unfold pad
  by_cases hj : j < R.length
  · by_cases hi : i < Q.length
    · rw [if_pos ⟨hi, hj⟩, hG, getD_append_lt _ _ hi]
    · rw [if_neg (by simp [hi]), corr_left (fun p hp => getD_append_ge hq hi (hf p hp))]
  · rw [if_neg (by simp [hj]), corr_right]
    intro p _
    rw [List.getD_eq_getElem?_getD, List.getElem?_eq_none (not_lt.1 hj)]; simp

theorem pad_corr_right {ps : List ((ι → ℝ) × (ι → ℝ))} {f g} {Q R : List (ι → ℝ)} {r : ι → ℝ} (hr : ∀ p ∈ R, p ⬝ᵥ r = 0)
    (hg : ∀ p ∈ ps, g p ∈ spanOf R) {G : Nat → Nat → ℝ}
    (hG : ∀ i j, G i j = corr ps f g (Q.getD i 0) (R.getD j 0)) (i j : Nat) :
    pad Q.length R.length G i j = corr ps f g (Q.getD i 0) ((R ++ [r]).getD j 0) := by
  unfold pad
  by_cases hi : i < Q.length
  · by_cases hj : j < R.length
    · rw [if_pos ⟨hi, hj⟩, hG, getD_append_lt _ _ hj]
    · rw [if_neg (by simp [hj]), corr_right (fun p hp => getD_append_ge hr hj (hg p hp))]
  · rw [if_neg (by simp [hi]), corr_left]
    intro p _
    rw [List.getD_eq_getElem?_getD, List.getElem?_eq_none (not_lt.1 hi)]; simp

/-- With tolerance zero the basis grows exactly if the vector is not yet in its span. -/
theorem grow_iff {Q : List (ι → ℝ)} (x : ι → ℝ) : norm2 (x - project Q x) / norm2 x > 0 ↔ x - project Q x ≠ 0 := by
  constructor
  · intro h h0
    rw [h0, norm2_eq_zero.2 rfl] at h
    simp at h
  · intro h
    have hx : x ≠ 0 := by
      rintro rfl
      exact h (by rw [project_eq_zero (by simp)]; simp)
    have h1 := lt_of_le_of_ne (norm2_nonneg _) (Ne.symm (norm2_eq_zero.not.2 h))
    have h2 := lt_of_le_of_ne (norm2_nonneg _) (Ne.symm (norm2_eq_zero.not.2 hx))
    positivity

/-- The invariant in the middle of an update: the bases already contain the new pair, the sums do not. -/
theorem increaseX_inv {s : Streaming ι} {ps : List ((ι → ℝ) × (ι → ℝ))} (h : StreamInv s ps) (x : ι → ℝ) (n : Nat) (hn : 0 < n) :
    let s' := increaseX 0 s (gramSchmidt s.Qx n x) (norm2 x)
    (Ortho s'.Qx ∧ x ∈ spanOf s'.Qx ∧ spanOf s.Qx ≤ spanOf s'.Qx ∧ (∀ q ∈ s'.Qx, q ∈ spanOf (ps.map Prod.fst ++ [x])) ∧ s'.Qy = s.Qy ∧ s'.Gy = s.Gy) ∧
      (∀ i j, s'.Gx i j = corr ps Prod.fst Prod.fst (s'.Qx.getD i 0) (s'.Qx.getD j 0)) ∧
      (∀ i j, s'.A i j = corr ps Prod.snd Prod.fst (s.Qy.getD i 0) (s'.Qx.getD j 0)) := by
  rw [gramSchmidt_eq h.ox x n hn]
  intro s'
  have hb : ∀ q ∈ s.Qx, q ∈ spanOf (ps.map Prod.fst ++ [x]) := fun q hq => spanOf_mono _ (h.bx q hq)
  by_cases hg : x - project s.Qx x = 0
  · have e : s' = s := by
      simp only [s', increaseX]
      rw [if_neg (by rw [grow_iff]; simpa using hg)]
    rw [e]
    refine ⟨⟨h.ox, ?_, le_rfl, hb, rfl, rfl⟩, h.gx, h.a⟩
    rw [sub_eq_zero] at hg
    rw [hg]; exact project_mem _ _
  · have e : s' = { s with Qx := s.Qx ++ [(norm2 (x - project s.Qx x))⁻¹ • (x - project s.Qx x)]
                           Gx := pad s.Qx.length s.Qx.length s.Gx, A := pad s.Qy.length s.Qx.length s.A } := by
      simp only [s', increaseX]
      rw [if_pos (by rw [grow_iff]; exact hg)]
    rw [e]
    refine ⟨⟨ortho_append h.ox x hg, mem_append_span x, spanOf_mono _, ?_, rfl, rfl⟩, ?_, ?_⟩
    · intro q hq
      rcases List.mem_append.1 hq with hq | hq
      · exact hb q hq
      · rw [List.mem_singleton.1 hq]
        refine Submodule.smul_mem _ _ (Submodule.sub_mem _ (Submodule.subset_span (by simp)) ?_)
        have : spanOf s.Qx ≤ spanOf (ps.map Prod.fst ++ [x]) := Submodule.span_le.2 hb
        exact this (project_mem _ _)
    · exact fun i j => pad_corr (residual_dot h.ox x) (residual_dot h.ox x) h.sx h.sx h.gx i j
    · exact fun i j => pad_corr_right (residual_dot h.ox x) h.sx h.a i j

theorem increaseY_inv {s : Streaming ι} {ps : List ((ι → ℝ) × (ι → ℝ))} (oy : Ortho s.Qy) (sy : ∀ p ∈ ps, p.2 ∈ spanOf s.Qy)
    (gy : ∀ i j, s.Gy i j = corr ps Prod.snd Prod.snd (s.Qy.getD i 0) (s.Qy.getD j 0))
    (a : ∀ i j, s.A i j = corr ps Prod.snd Prod.fst (s.Qy.getD i 0) (s.Qx.getD j 0)) (y : ι → ℝ) (n : Nat) (hn : 0 < n) :
    let s' := increaseY 0 s (gramSchmidt s.Qy n y) (norm2 y)
    (Ortho s'.Qy ∧ y ∈ spanOf s'.Qy ∧ spanOf s.Qy ≤ spanOf s'.Qy ∧ s'.Qx = s.Qx ∧ s'.Gx = s.Gx) ∧
      (∀ i j, s'.Gy i j = corr ps Prod.snd Prod.snd (s'.Qy.getD i 0) (s'.Qy.getD j 0)) ∧
      (∀ i j, s'.A i j = corr ps Prod.snd Prod.fst (s'.Qy.getD i 0) (s.Qx.getD j 0)) := by
  rw [gramSchmidt_eq oy y n hn]
  intro s'
  by_cases hg : y - project s.Qy y = 0
  · have e : s' = s := by
      simp only [s', increaseY]
      rw [if_neg (by rw [grow_iff]; simpa using hg)]
    rw [e]
    refine ⟨⟨oy, ?_, le_rfl, rfl, rfl⟩, gy, a⟩
    rw [sub_eq_zero] at hg
    rw [hg]; exact project_mem _ _
  · have e : s' = { s with Qy := s.Qy ++ [(norm2 (y - project s.Qy y))⁻¹ • (y - project s.Qy y)]
                           Gy := pad s.Qy.length s.Qy.length s.Gy, A := pad s.Qy.length s.Qx.length s.A } := by
      simp only [s', increaseY]
      rw [if_pos (by rw [grow_iff]; exact hg)]
    rw [e]
    refine ⟨⟨ortho_append oy y hg, mem_append_span y, spanOf_mono _, rfl, rfl⟩, ?_, ?_⟩
    · exact fun i j => pad_corr (residual_dot oy y) (residual_dot oy y) sy sy gy i j
    · exact fun i j => pad_corr_left (residual_dot oy y) sy a i j

theorem corr_single (p : (ι → ℝ) × (ι → ℝ)) (f g a b) : corr [p] f g a b = (a ⬝ᵥ f p) * (b ⬝ᵥ g p) := by simp [corr]

theorem update_inv {s s' : Streaming ι} {ps : List ((ι → ℝ) × (ι → ℝ))} (h : StreamInv s ps) {p} {n : Nat} (hn : 0 < n)
    (hu : StreamUpdate none n 0 s p s') : StreamInv s' (ps ++ [p]) := by
  obtain ⟨s₂, hp, rfl⟩ := hu
  have hp' : s₂ = increase n 0 s p := hp
  obtain ⟨⟨x1, x2, x3, x4, x5, x6⟩, x7, x8⟩ := increaseX_inv h p.1 n hn
  unfold increase at hp'
  generalize increaseX 0 s (gramSchmidt s.Qx n p.1) (norm2 p.1) = t at *
  have hy := increaseY_inv (s := t) (ps := ps) (by rw [x5]; exact h.oy) (by rw [x5]; exact h.sy) (by rw [x5, x6]; exact h.gy)
    (by rw [x5]; exact x8) p.2 n hn
  rw [x5] at hy
  obtain ⟨⟨y1, y2, y3, y4, y5⟩, y6, y7⟩ := hy
  rw [← hp'] at *
  clear hp' hp
  refine ⟨?_, y1, ?_, ?_, ?_, ?_, ?_, ?_⟩
  · simp only [updateSys]; rw [y4]; exact x1
  · simp only [updateSys]; rw [y4]
    intro q hq
    rcases List.mem_append.1 hq with hq | hq
    · exact x3 (h.sx q hq)
    · rw [List.mem_singleton.1 hq]; exact x2
  · simp only [updateSys]
    intro q hq
    rcases List.mem_append.1 hq with hq | hq
    · exact y3 (h.sy q hq)
    · rw [List.mem_singleton.1 hq]; exact y2
  · simp only [updateSys]; rw [y4]
    simpa using x4
  · intro i j
    simp only [updateSys]; rw [corr_append, corr_single, y5, x7, y4]
  · intro i j
    simp only [updateSys]; rw [corr_append, corr_single, y6]
  · intro i j
    simp only [updateSys]; rw [corr_append, corr_single, y7, y4]

theorem init_inv {p : (ι → ℝ) × (ι → ℝ)} (h1 : p.1 ≠ 0) (h2 : p.2 ≠ 0) : StreamInv (streamInit p) [p] := by
  have n1 := norm2_eq_zero.not.2 h1
  have n2 := norm2_eq_zero.not.2 h2
  have hm : ∀ v : ι → ℝ, v ≠ 0 → v ∈ spanOf [(norm2 v)⁻¹ • v] := by
    intro v hv
    have : (norm2 v) • ((norm2 v)⁻¹ • v) ∈ spanOf [(norm2 v)⁻¹ • v] := Submodule.smul_mem _ _ (Submodule.subset_span (by simp))
    rwa [smul_smul, mul_inv_cancel₀ (norm2_eq_zero.not.2 hv), one_smul] at this
  have d : ∀ v : ι → ℝ, v ≠ 0 → ((norm2 v)⁻¹ • v) ⬝ᵥ v = norm2 v := by
    intro v hv
    rw [smul_dotProduct, ← norm2_sq]
    simp only [smul_eq_mul]
    have := norm2_eq_zero.not.2 hv
    field_simp
  refine ⟨⟨by simp [streamInit], ?_⟩, ⟨by simp [streamInit], ?_⟩, ?_, ?_, ?_, ?_, ?_, ?_⟩
  · intro q hq
    rw [List.mem_singleton.1 hq]; exact unit_dot h1
  · intro q hq
    rw [List.mem_singleton.1 hq]; exact unit_dot h2
  · intro q hq
    rw [List.mem_singleton.1 hq]; exact hm _ h1
  · intro q hq
    rw [List.mem_singleton.1 hq]; exact hm _ h2
  · intro q hq
    rw [List.mem_singleton.1 hq]; exact Submodule.smul_mem _ _ (Submodule.subset_span (by simp))
  all_goals
    intro i j
    rw [corr_single]
    rcases i with _ | i <;> rcases j with _ | j <;> simp [streamInit, d _ h1, d _ h2, sq, mul_comm]

theorem run_inv {s s' : Streaming ι} {ps : List ((ι → ℝ) × (ι → ℝ))} (h : StreamInv s ps) {qs} {n : Nat} (hn : 0 < n)
    (hu : StreamRun none n 0 s qs s') : StreamInv s' (ps ++ qs) := by
  induction hu generalizing ps with
  | nil => simpa using h
  | cons h1 _ ih =>
    have := ih (update_inv h hn h1)
    simpa using this

end Verif.Dmd
