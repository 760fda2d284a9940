import Verif.Dmd.Filter
import Verif.Dmd.ReducedProps
import Mathlib.Data.List.Perm.Basic
/-!
# C167, C168: the residual filter
-/

namespace Verif.Dmd

open Verif.Lin Verif.Dyn Matrix

variable {α : Type} {quant : List (WithTop ℝ) → ℝ → WithTop ℝ}

theorem mergeSort_le_sorted {β : Type} (f : β → WithTop ℝ) (l : List β) : (l.mergeSort (fun x y => decide (f x ≤ f y))).Pairwise (fun x y => f x ≤ f y) := by
  have := List.pairwise_mergeSort (le := fun x y => decide (f x ≤ f y)) (fun a b c hab hbc => by simpa using le_trans (by simpa using hab) (by simpa using hbc))
    (fun a b => by simpa using le_total (f a) (f b)) l
  simpa using this

theorem removePollution_spec {a : FilterArg} {cs out : List (α × WithTop ℝ)} (h : removePollution quant a cs = .ok out) :
    ∃ f b, normFilter a = .ok f ∧ filterBound quant f (cs.map (·.2)) = .ok b ∧ (∃ c ∈ cs, c.2 < ⊤) ∧ (∃ c ∈ cs, c.2 ≤ b) ∧
      out = if f.sort then (cs.filter (fun c => decide (c.2 ≤ b))).mergeSort (fun x y => decide (x.2 ≤ y.2)) else cs.filter (fun c => decide (c.2 ≤ b)) := by
  unfold removePollution at h
  cases hf : normFilter a with
  | error e => rw [hf] at h; cases h
  | ok f =>
    rw [hf] at h
    simp only at h
    cases hb : filterBound quant f (cs.map (·.2)) with
    | error e => rw [hb] at h; cases h
    | ok b =>
      rw [hb] at h
      simp only at h
      by_cases h1 : cs.filter (fun c => decide (c.2 < ⊤)) = []
      · rw [if_pos h1] at h; cases h
      rw [if_neg h1] at h
      by_cases h2 : cs.filter (fun c => decide (c.2 ≤ b)) = []
      · rw [if_pos h2] at h; cases h
      rw [if_neg h2] at h
      simp only [Except.ok.injEq] at h
      refine ⟨f, b, rfl, hb, ?_, ?_, h.symm⟩
      · obtain ⟨c, hc⟩ := List.exists_mem_of_ne_nil _ h1
        rw [List.mem_filter] at hc
        exact ⟨c, hc.1, of_decide_eq_true hc.2⟩
      · obtain ⟨c, hc⟩ := List.exists_mem_of_ne_nil _ h2
        rw [List.mem_filter] at hc
        exact ⟨c, hc.1, of_decide_eq_true hc.2⟩

theorem removePollution_ok {a : FilterArg} {f : FilterDict} {b : WithTop ℝ} {cs : List (α × WithTop ℝ)} (hf : normFilter a = .ok f) (hb : filterBound quant f (cs.map (·.2)) = .ok b)
    (h1 : ∃ c ∈ cs, c.2 < ⊤) (h2 : ∃ c ∈ cs, c.2 ≤ b) : removePollution quant a cs =
      .ok (if f.sort then (cs.filter (fun c => decide (c.2 ≤ b))).mergeSort (fun x y => decide (x.2 ≤ y.2)) else cs.filter (fun c => decide (c.2 ≤ b))) := by
  unfold removePollution
  rw [hf]
  simp only
  rw [hb]
  simp only
  obtain ⟨c, hc, hl⟩ := h1
  obtain ⟨d, hd, hl2⟩ := h2
  rw [if_neg, if_neg]
  · exact List.ne_nil_of_mem (List.mem_filter.2 ⟨hd, decide_eq_true hl2⟩)
  · exact List.ne_nil_of_mem (List.mem_filter.2 ⟨hc, decide_eq_true hl⟩)

/-! ### Property theorems -/

/-- **C167 (what is kept).** Whatever the options: the result consists of components of the input, each as often as before and with its own eigenvalue and eigenvectors; at least one is kept, every kept component has a
smaller residual than every removed one; with `sort` the residuals ascend, without it the order is unchanged. -/
theorem C167_kept [DecidableEq α] {a : FilterArg} {cs out : List (α × WithTop ℝ)} (h : removePollution quant a cs = .ok out) :
    ∃ removed, cs.Perm (out ++ removed) ∧ out ≠ [] ∧ (∀ x ∈ out, ∀ y ∈ removed, x.2 < y.2) ∧
      ∀ f, normFilter a = .ok f → (f.sort = true → out.Pairwise (fun x y => x.2 ≤ y.2)) ∧ (f.sort = false → out.Sublist cs) := by
  obtain ⟨f, b, hf, hb, h1, ⟨d, hd, hdb⟩, rfl⟩ := removePollution_spec h
  have hp : (if f.sort then (cs.filter (fun c => decide (c.2 ≤ b))).mergeSort (fun x y => decide (x.2 ≤ y.2)) else cs.filter (fun c => decide (c.2 ≤ b))).Perm
      (cs.filter (fun c => decide (c.2 ≤ b))) := by
    split
    · exact List.mergeSort_perm _ _
    · exact List.Perm.refl _
  refine ⟨cs.filter (fun c => !decide (c.2 ≤ b)), ?_, ?_, ?_, ?_⟩
  · refine (List.filter_append_perm (fun c => decide (c.2 ≤ b)) cs).symm.trans ?_
    exact (hp.symm.append_right _)
  · intro he
    rw [he] at hp
    have := hp.symm.eq_nil
    exact List.ne_nil_of_mem (List.mem_filter.2 ⟨hd, decide_eq_true hdb⟩) this
  · intro x hx y hy
    have hx := List.mem_filter.1 (hp.subset hx)
    have hy := List.mem_filter.1 hy
    have e1 : x.2 ≤ b := of_decide_eq_true hx.2
    have e2 : ¬ y.2 ≤ b := by simpa using hy.2
    exact lt_of_le_of_lt e1 (not_le.1 e2)
  · intro f' hf'
    rw [hf] at hf'
    cases hf'
    constructor
    · intro hs
      rw [if_pos hs]
      exact mergeSort_le_sorted (fun x : α × WithTop ℝ => x.2) _
    · intro hs
      rw [if_neg (by simp [hs])]
      exact List.filter_sublist

/-- **C167 (threshold)** (partial: for thresholds other than zero): the components with a residual up to the threshold are kept, in their order. The call raises iff all residuals are infinite or nothing would be kept. -/
theorem C167_threshold_partial {t : ℝ} (ht : t ≠ 0) (cs out : List (α × WithTop ℝ)) :
    removePollution quant (.number t) cs = .ok out ↔ out = cs.filter (fun c => decide (c.2 ≤ (t : WithTop ℝ))) ∧ out ≠ [] := by
  have hb : filterBound quant ⟨some t, none, none, false⟩ (cs.map (·.2)) = .ok (t : WithTop ℝ) := by
    simp [filterBound, given, ht]
  constructor
  · intro h
    obtain ⟨f, b, hf, hb', h1, ⟨d, hd, hdb⟩, rfl⟩ := removePollution_spec h
    simp only [normFilter, Except.ok.injEq] at hf
    subst hf
    rw [hb] at hb'
    cases hb'
    refine ⟨rfl, ?_⟩
    exact List.ne_nil_of_mem (List.mem_filter.2 ⟨hd, decide_eq_true hdb⟩)
  · rintro ⟨rfl, hne⟩
    obtain ⟨d, hd⟩ := List.exists_mem_of_ne_nil _ hne
    rw [List.mem_filter] at hd
    have hdt := of_decide_eq_true hd.2
    exact removePollution_ok rfl hb ⟨d, hd.1, lt_of_le_of_lt hdt (WithTop.coe_lt_top t)⟩ ⟨d, hd.1, hdt⟩

example : removePollution (α := Nat) quant (.number (1 / 2)) [(0, 0), (1, 1), (2, ⊤), (3, ((1 / 4 : ℝ) : WithTop ℝ))] = .ok [(0, 0), (3, ((1 / 4 : ℝ) : WithTop ℝ))] := by
  have c1 : ¬ (1 : WithTop ℝ) ≤ ((1 / 2 : ℝ) : WithTop ℝ) := by
    rw [← WithTop.coe_one, WithTop.coe_le_coe]; norm_num
  have c0 : (0 : WithTop ℝ) ≤ ((1 / 2 : ℝ) : WithTop ℝ) := by
    rw [← WithTop.coe_zero, WithTop.coe_le_coe]; norm_num
  have c4 : ((1 / 4 : ℝ) : WithTop ℝ) ≤ ((1 / 2 : ℝ) : WithTop ℝ) := by
    rw [WithTop.coe_le_coe]; norm_num
  have ct : ¬ (⊤ : WithTop ℝ) ≤ ((1 / 2 : ℝ) : WithTop ℝ) := not_le.2 (WithTop.coe_lt_top _)
  rw [C167_threshold_partial (by norm_num)]
  refine ⟨?_, by simp⟩
  simp only [List.filter_cons, List.filter_nil, decide_eq_true c0, decide_eq_true c4, decide_eq_false c1, decide_eq_false ct]
  simp

/-- **C167, violated (threshold zero).** With the threshold zero the filter raises, whatever the residuals, also if all components have the residual zero. -/
theorem C167_zero_violated (cs : List (α × WithTop ℝ)) : removePollution quant (.number 0) cs = .error .wrongKeys := by
  simp [removePollution, normFilter, filterBound, given]

theorem count_le_kth {l : List (WithTop ℝ)} (hl : l.Pairwise (· ≤ ·)) {k : Nat} (hk : k < l.length) : k + 1 ≤ (l.filter (fun r => decide (r ≤ l[k]))).length := by
  have hsub : (l.take (k + 1)).Sublist (l.filter (fun r => decide (r ≤ l[k]))) := by
    have h := (List.take_sublist (k + 1) l).filter (fun r => decide (r ≤ l[k]))
    rwa [List.filter_eq_self.2] at h
    intro r hr
    obtain ⟨j, hj, rfl⟩ := List.getElem_of_mem hr
    rw [List.length_take] at hj
    rw [List.getElem_take]
    apply decide_eq_true
    rcases Nat.lt_or_ge j k with h | h
    · exact List.pairwise_iff_getElem.1 hl j k (by omega) hk h
    · have : j = k := by omega
      subst this
      exact le_rfl
  have := hsub.length_le
  rw [List.length_take] at this
  omega

theorem count_kth_strict {l : List (WithTop ℝ)} (hl : l.Pairwise (· < ·)) {k : Nat} (hk : k < l.length) : (l.filter (fun r => decide (r ≤ l[k]))).length = k + 1 := by
  refine le_antisymm ?_ (count_le_kth (hl.imp le_of_lt) hk)
  have hsplit : l.filter (fun r => decide (r ≤ l[k])) = (l.take (k + 1)).filter (fun r => decide (r ≤ l[k])) ++ (l.drop (k + 1)).filter (fun r => decide (r ≤ l[k])) := by
    rw [← List.filter_append, List.take_append_drop]
  have h0 : (l.drop (k + 1)).filter (fun r => decide (r ≤ l[k])) = [] := by
    rw [List.filter_eq_nil_iff]
    intro r hr
    obtain ⟨j, hj, rfl⟩ := List.getElem_of_mem hr
    rw [List.length_drop] at hj
    rw [List.getElem_drop]
    simp only [decide_eq_true_eq, not_le]
    exact List.pairwise_iff_getElem.1 hl k (k + 1 + j) hk (by omega) (by omega)
  rw [hsplit, h0, List.append_nil]
  refine List.length_filter_le _ _ |>.trans ?_
  rw [List.length_take]
  omega

theorem keep_count {n : Nat} (hn : 0 < n) {cs out : List (α × WithTop ℝ)} {srt : Bool} (h : removePollution quant (.dict ⟨none, none, some n, srt⟩) cs = .ok out) :
    n ≤ cs.length ∧ ∃ hk : n - 1 < ((cs.map (·.2)).mergeSort (fun a b => decide (a ≤ b))).length,
      out.length = (((cs.map (·.2)).mergeSort (fun a b => decide (a ≤ b))).filter (fun r => decide (r ≤ ((cs.map (·.2)).mergeSort (fun a b => decide (a ≤ b)))[n - 1]))).length := by
  obtain ⟨f, b, hf, hb, _, _, rfl⟩ := removePollution_spec h
  simp only [normFilter, Except.ok.injEq] at hf
  subst hf
  have hb' : kthSmallest (cs.map (·.2)) ((n : Int) - 1) = .ok b := by
    have : n ≠ 0 := by omega
    simpa [filterBound, given, this] using hb
  unfold kthSmallest at hb'
  simp only at hb'
  rw [if_neg (by omega : ¬ (n : Int) - 1 < 0), if_neg (by omega : ¬ (n : Int) - 1 < 0), show ((n : Int) - 1).toNat = n - 1 by omega] at hb'
  cases hg : ((cs.map (·.2)).mergeSort (fun a b => decide (a ≤ b)))[n - 1]? with
  | none => rw [hg] at hb'; cases hb'
  | some x =>
    rw [hg] at hb'
    simp only [Except.ok.injEq] at hb'
    subst hb'
    obtain ⟨hk, he⟩ := List.getElem?_eq_some_iff.1 hg
    refine ⟨?_, hk, ?_⟩
    · have := (List.mergeSort_perm (cs.map (·.2)) (fun a b => decide (a ≤ b))).length_eq
      rw [List.length_map] at this
      omega
    · rw [he]
      have e1 : ∀ s : Bool, (if s then (cs.filter (fun c => decide (c.2 ≤ x))).mergeSort (fun x y => decide (x.2 ≤ y.2)) else cs.filter (fun c => decide (c.2 ≤ x))).length =
          (cs.filter (fun c => decide (c.2 ≤ x))).length := by
        intro s
        cases s
        · rfl
        · exact (List.mergeSort_perm _ _).length_eq
      rw [e1]
      have e2 := ((List.mergeSort_perm (cs.map (·.2)) (fun a b => decide (a ≤ b))).filter (fun r => decide (r ≤ x))).length_eq
      rw [e2, List.filter_map, List.length_map]
      rfl

/-- **C167 (`keep_n`)** (partial: for different residuals): at least `n` components are kept, and exactly `n` if no two residuals are equal. (By `C167_kept` they are those with the smallest residuals.) -/
theorem C167_keep_partial {n : Nat} (hn : 0 < n) {cs out : List (α × WithTop ℝ)} {srt : Bool} (h : removePollution quant (.dict ⟨none, none, some n, srt⟩) cs = .ok out) :
    n ≤ out.length ∧ ((cs.map (·.2)).Nodup → out.length = n) := by
  obtain ⟨hle, hk, he⟩ := keep_count hn h
  have hs := mergeSort_le_sorted (fun x : WithTop ℝ => x) (cs.map (·.2))
  rw [he]
  constructor
  · have := count_le_kth hs hk
    omega
  · intro hnd
    have hnd' := (List.mergeSort_perm (cs.map (·.2)) (fun a b => decide (a ≤ b))).nodup_iff.2 hnd
    have hs' : ((cs.map (·.2)).mergeSort (fun a b => decide (a ≤ b))).Pairwise (· < ·) := by
      have := hs.and hnd'
      exact this.imp (fun hab => lt_of_le_of_ne hab.1 hab.2)
    rw [count_kth_strict hs' hk]
    omega

/-- non-vacuity: three components with different residuals, one infinite; the two best are kept, sorted -/
example : ∃ out, removePollution (α := Nat) quant (.dict ⟨none, none, some 2, true⟩) [(7, 1), (8, ⊤), (9, 0)] = .ok out ∧ ([(7, 1), (8, ⊤), (9, 0)].map (fun c : Nat × WithTop ℝ => c.2)).Nodup := by
  have c0 : (0 : WithTop ℝ) ≠ ⊤ := WithTop.coe_ne_top (a := (0 : ℝ))
  have c1 : (1 : WithTop ℝ) ≠ ⊤ := WithTop.coe_ne_top (a := (1 : ℝ))
  have c10 : (1 : WithTop ℝ) ≠ 0 := by
    intro h
    exact one_ne_zero (WithTop.coe_injective (α := ℝ) h)
  have hk : ∃ b, filterBound quant ⟨none, none, some 2, true⟩ (([(7, 1), (8, ⊤), (9, 0)] : List (Nat × WithTop ℝ)).map (·.2)) = .ok b ∧ b ∈ ([(7, 1), (8, ⊤), (9, 0)] : List (Nat × WithTop ℝ)).map (·.2) := by
    have hlen : (([1, ⊤, 0] : List (WithTop ℝ)).mergeSort (fun a b => decide (a ≤ b))).length = 3 := (List.mergeSort_perm _ _).length_eq
    refine ⟨(([1, ⊤, 0] : List (WithTop ℝ)).mergeSort (fun a b => decide (a ≤ b)))[1], ?_, ?_⟩
    · simp only [filterBound, given, kthSmallest, List.map_cons, List.map_nil]
      rw [if_neg (by decide)]
      change (if (1 : Int) < 0 then _ else match (([1, ⊤, 0] : List (WithTop ℝ)).mergeSort (fun a b => decide (a ≤ b)))[1]? with | none => _ | some x => _) = _
      rw [if_neg (by decide), List.getElem?_eq_getElem (by rw [hlen]; decide)]
    · exact (List.mergeSort_perm _ _).subset (List.getElem_mem _)
  obtain ⟨b, hb, hm⟩ := hk
  obtain ⟨c, hc, rfl⟩ := List.mem_map.1 hm
  refine ⟨_, removePollution_ok (f := ⟨none, none, some 2, true⟩) rfl hb ⟨(7, 1), by simp, lt_top_iff_ne_top.2 c1⟩ ⟨c, hc, le_rfl⟩, ?_⟩
  simp [c0.symm, c1, c10]

/-- **C167, violated (`keep_n`).** Components of equal residual, like those of complex conjugate eigenvalues: one is asked for, two are kept. -/
theorem C167_keep_violated (r : ℝ) : removePollution (α := ℂ) quant (.dict ⟨none, none, some 1, false⟩) [(Complex.I, r), (-Complex.I, r)] = .ok [(Complex.I, (r : WithTop ℝ)), (-Complex.I, (r : WithTop ℝ))] := by
  have hb : filterBound quant ⟨none, none, some 1, false⟩ (([(Complex.I, r), (-Complex.I, r)] : List (ℂ × WithTop ℝ)).map (·.2)) = .ok (r : WithTop ℝ) := by
    simp [filterBound, given, kthSmallest, List.mergeSort, List.MergeSort.Internal.splitInTwo]
  rw [removePollution_ok (f := ⟨none, none, some 1, false⟩) rfl hb ⟨_, List.mem_cons_self, WithTop.coe_lt_top r⟩ ⟨_, List.mem_cons_self, le_rfl⟩]
  simp

/-- **C167 (history).** The parameter that a fit leaves behind gives the same result in the next fit, so fitting again does not change which components are kept. -/
theorem C167_refit (a : FilterArg) (cs : List (α × WithTop ℝ)) (m : Nat) : removePollution quant (filterAfter^[m] a) cs = removePollution quant a cs := by
  have h : ∀ b, normFilter (filterAfter b) = normFilter b := by
    intro b; cases b <;> rfl
  have h2 : ∀ m, normFilter (filterAfter^[m] a) = normFilter a := by
    intro m
    induction m with
    | zero => rfl
    | succ m ih => rw [Function.iterate_succ_apply', h, ih]
  unfold removePollution
  rw [h2]

/-- **C167, violated (parameters).** `fit` replaces a numeric parameter `residual_filter` by a dictionary. -/
theorem C167_parameter_violated (t : ℝ) : filterAfter (.number t) ≠ .number t := by
  intro h; cases h

variable {ι : Type} [Fintype ι]

theorem form_gram_plain [DecidableEq ι] {m : Nat} (X Y : Matrix (Fin m) ι ℝ) (v : ι → ℂ) :
    star v ⬝ᵥ toCM (Xᵀ * Y) *ᵥ v = ∑ k, star (toC (X k) ⬝ᵥ v) * (toC (Y k) ⬝ᵥ v) := by
  have := form_gram 1 X Y v
  simpa [gram] using this

/-- **C168 (what the reduced model measures).** With a rank the numerator of the squared residual is `Σ |φ(y) - conj(λ) φ(x)|²` for the observable `φ` with the given coefficients. -/
theorem C168_reduced_measures [DecidableEq ι] (ps : List ((ι → ℝ) × (ι → ℝ))) (ev : ℂ) (v : ι → ℂ) :
    (residualReduced ps ev v).1 = (ps.map (fun p => Complex.normSq (toC p.2 ⬝ᵥ v - star ev * (toC p.1 ⬝ᵥ v)))).sum := by
  have hT : ∀ X Y : Matrix (Fin ps.length) ι ℝ, (toCM (Xᵀ * Y))ᵀ = toCM (Yᵀ * X) := by
    intro X Y
    have : (Xᵀ * Y)ᵀ = Yᵀ * X := by rw [Matrix.transpose_mul, Matrix.transpose_transpose]
    rw [← this]; rfl
  unfold residualReduced residualParts
  simp only [hT]
  rw [Matrix.add_mulVec, Matrix.sub_mulVec, Matrix.sub_mulVec, dotProduct_add, dotProduct_sub, dotProduct_sub]
  simp only [Matrix.smul_mulVec, dotProduct_smul, form_gram_plain, smul_eq_mul]
  rw [← Fin.sum_univ_fun_getElem ps (fun p => Complex.normSq (toC p.2 ⬝ᵥ v - star ev * (toC p.1 ⬝ᵥ v)))]
  rw [← Complex.ofReal_re (∑ _, _)]
  congr 1
  rw [Complex.ofReal_sum]
  rw [Finset.mul_sum, Finset.mul_sum, Finset.mul_sum, ← Finset.sum_sub_distrib, ← Finset.sum_sub_distrib, ← Finset.sum_add_distrib]
  refine Finset.sum_congr rfl (fun k _ => ?_)
  change star (toC ps[k.1].2 ⬝ᵥ v) * (toC ps[k.1].2 ⬝ᵥ v) - ev * (star (toC ps[k.1].1 ⬝ᵥ v) * (toC ps[k.1].2 ⬝ᵥ v)) - star ev * (star (toC ps[k.1].2 ⬝ᵥ v) * (toC ps[k.1].1 ⬝ᵥ v))
    + (Complex.normSq ev : ℂ) * (star (toC ps[k.1].1 ⬝ᵥ v) * (toC ps[k.1].1 ⬝ᵥ v)) = _
  simp only [Complex.normSq_eq_conj_mul_self, map_sub, map_mul, RCLike.star_def, Complex.conj_conj]
  ring

/-- A right eigenvector of a real normal matrix is a left eigenvector for the conjugate eigenvalue. -/
theorem normal_left [DecidableEq ι] {A : Matrix ι ι ℝ} (hA : A * Aᵀ = Aᵀ * A) {ev : ℂ} {v : ι → ℂ} (hv : toCM A *ᵥ v = ev • v) : v ᵥ* toCM A = star ev • v := by
  let M : Matrix ι ι ℂ := toCM A - ev • 1
  have hAH : (toCM A)ᴴ = toCM Aᵀ := by
    ext i j; simp [toCM, Matrix.conjTranspose_apply]
  have hcomm : toCM A * toCM Aᵀ = toCM Aᵀ * toCM A := by rw [← toCM_mul, ← toCM_mul, hA]
  have hMH : Mᴴ = toCM Aᵀ - star ev • 1 := by
    simp only [M, Matrix.conjTranspose_sub, hAH, Matrix.conjTranspose_smul, Matrix.conjTranspose_one]
  have hnormal : M * Mᴴ = Mᴴ * M := by
    rw [hMH]
    simp only [M, Matrix.sub_mul, Matrix.mul_sub, hcomm, Matrix.smul_mul, Matrix.mul_smul, Matrix.one_mul, Matrix.mul_one, smul_sub]
    rw [smul_comm ev (star ev)]
    abel
  have hMv : M *ᵥ v = 0 := by
    simp only [M, Matrix.sub_mulVec, hv, Matrix.smul_mulVec, Matrix.one_mulVec, sub_self]
  have hz : Mᴴ *ᵥ v = 0 := by
    have h0 : star (Mᴴ *ᵥ v) ⬝ᵥ (Mᴴ *ᵥ v) = 0 := by
      rw [Matrix.star_mulVec, Matrix.conjTranspose_conjTranspose, ← Matrix.dotProduct_mulVec, Matrix.mulVec_mulVec, hnormal, ← Matrix.mulVec_mulVec, hMv, Matrix.mulVec_zero, dotProduct_zero]
    generalize Mᴴ *ᵥ v = w at h0 ⊢
    have h1 : ∑ i, Complex.normSq (w i) = 0 := by
      have : ((∑ i, Complex.normSq (w i) : ℝ) : ℂ) = 0 := by
        rw [← h0, Complex.ofReal_sum]
        exact Finset.sum_congr rfl (fun i _ => Complex.normSq_eq_conj_mul_self)
      exact_mod_cast this
    funext i
    have := (Finset.sum_eq_zero_iff_of_nonneg (fun i _ => Complex.normSq_nonneg _)).1 h1 i (Finset.mem_univ i)
    exact Complex.normSq_eq_zero.1 this
  rw [hMH, Matrix.sub_mulVec, Matrix.smul_mulVec, Matrix.one_mulVec, sub_eq_zero] at hz
  rw [← hz]
  have : toCM Aᵀ = (toCM A)ᵀ := rfl
  rw [this, Matrix.mulVec_transpose]

theorem dot_left [DecidableEq ι] {A : Matrix ι ι ℝ} {ev : ℂ} {v : ι → ℂ} (h : v ᵥ* toCM A = ev • v) (x : ι → ℝ) : toC (A *ᵥ x) ⬝ᵥ v = ev * (toC x ⬝ᵥ v) := by
  have : toC (A *ᵥ x) = toCM A *ᵥ toC x := (toCM_mulVec A x).symm
  rw [this, dotProduct_comm, Matrix.dotProduct_mulVec, h, smul_dotProduct, smul_eq_mul, dotProduct_comm]

/-- **C168** (partial: with a rank, and for normal system matrices): exact data of `x' = A x` with a normal matrix `A`: all true modes have the residual zero in the reduced model, so no threshold removes them. -/
theorem C168_reduced_partial [DecidableEq ι] {A : Matrix ι ι ℝ} (hA : A * Aᵀ = Aᵀ * A) {ev : ℂ} {v : ι → ℂ} (hv : toCM A *ᵥ v = ev • v) (ps : List ((ι → ℝ) × (ι → ℝ)))
    (hps : ∀ p ∈ ps, p.2 = A *ᵥ p.1) : (residualReduced ps ev v).1 = 0 := by
  rw [C168_reduced_measures]
  apply List.sum_eq_zero
  intro x hx
  obtain ⟨p, hp, rfl⟩ := List.mem_map.1 hx
  rw [hps p hp, dot_left (normal_left hA hv), sub_self, Complex.normSq_zero]

/-- **C168, violated.** The same data and modes in the full model: the squared residual is `4 Im(λ)²`, so true oscillations are removed by any threshold below twice the imaginary part of their eigenvalue. -/
theorem C168_full_violated [DecidableEq ι] {A : Matrix ι ι ℝ} (hA : A * Aᵀ = Aᵀ * A) {ev : ℂ} {v : ι → ℂ} (hv : toCM A *ᵥ v = ev • v) (n : Nat) (ps : List ((ι → ℝ) × (ι → ℝ)))
    (hps : ∀ p ∈ ps, p.2 = A *ᵥ p.1) : (residualOf n ps ev v).1 = 4 * ev.im ^ 2 * (residualOf n ps ev v).2 := by
  rw [C79_measures]
  have h2 : (residualOf n ps ev v).2 = (1 / (n : ℝ)) * (ps.map (fun p => Complex.normSq (toC p.1 ⬝ᵥ v))).sum := by
    unfold residualOf residualParts
    simp only [form_gram]
    rw [← Fin.sum_univ_fun_getElem ps (fun p => Complex.normSq (toC p.1 ⬝ᵥ v)), ← Complex.ofReal_re ((1 / (n : ℝ)) * _)]
    congr 1
    rw [Complex.ofReal_mul, Complex.ofReal_sum]
    congr 1
    refine Finset.sum_congr rfl (fun k _ => ?_)
    rw [Complex.normSq_eq_conj_mul_self]
    rfl
  rw [h2]
  unfold violation
  rw [mul_left_comm]
  congr 1
  rw [← List.sum_map_mul_left]
  congr 1
  apply List.map_congr_left
  intro p hp
  rw [hps p hp, dot_left (normal_left hA hv), ← sub_mul, Complex.normSq_mul]
  congr 1
  have : star ev - ev = -(2 * ev.im : ℝ) * Complex.I := by
    apply Complex.ext
    · simp
    · simp; ring
  rw [this, Complex.normSq_mul, Complex.normSq_I, Complex.normSq_neg, Complex.normSq_ofReal]
  ring

/-- non-vacuity and size of the effect: the rotation by 90°, its eigenvalue `i` with the mode `(1, -i)`: residual 0 in the reduced model; in the full model the squared residual is 4. -/
example : ∃ (A : Matrix (Fin 2) (Fin 2) ℝ) (v : Fin 2 → ℂ) (ps : List ((Fin 2 → ℝ) × (Fin 2 → ℝ))), A * Aᵀ = Aᵀ * A ∧ toCM A *ᵥ v = Complex.I • v ∧ v ≠ 0 ∧ (∀ p ∈ ps, p.2 = A *ᵥ p.1) ∧
    (residualOf 1 ps Complex.I v).2 = 2 ∧ (residualOf 1 ps Complex.I v).1 = 8 := by
  have hA : (!![0, -1; 1, 0] : Matrix (Fin 2) (Fin 2) ℝ) * (!![0, -1; 1, 0] : Matrix (Fin 2) (Fin 2) ℝ)ᵀ = (!![0, -1; 1, 0] : Matrix (Fin 2) (Fin 2) ℝ)ᵀ * !![0, -1; 1, 0] := by
    ext i j; fin_cases i <;> fin_cases j <;> simp [Matrix.mul_apply, Fin.sum_univ_two]
  have hv : toCM (!![0, -1; 1, 0] : Matrix (Fin 2) (Fin 2) ℝ) *ᵥ (![1, -Complex.I] : Fin 2 → ℂ) = Complex.I • ![1, -Complex.I] := by
    funext i; fin_cases i <;> simp [toCM, Matrix.mulVec, dotProduct]
  have hps : ∀ p ∈ [((![1, 0] : Fin 2 → ℝ), (![0, 1] : Fin 2 → ℝ)), (![0, 1], ![-1, 0])], p.2 = (!![0, -1; 1, 0] : Matrix (Fin 2) (Fin 2) ℝ) *ᵥ p.1 := by
    intro p hp
    simp only [List.mem_cons, List.not_mem_nil, or_false] at hp
    rcases hp with rfl | rfl <;> funext i <;> fin_cases i <;> simp
  have h2 : (residualOf 1 [((![1, 0] : Fin 2 → ℝ), (![0, 1] : Fin 2 → ℝ)), (![0, 1], ![-1, 0])] Complex.I ![1, -Complex.I]).2 = 2 := by
    unfold residualOf residualParts
    simp only [form_gram]
    simp [startM, toC, dotProduct, Fin.sum_univ_two]
    norm_num
  refine ⟨!![0, -1; 1, 0], ![1, -Complex.I], _, hA, hv, ?_, hps, h2, ?_⟩
  · intro h; have := congrFun h 0; simp at this
  · rw [C168_full_violated hA hv 1 _ hps, h2]
    simp
    norm_num

end Verif.Dmd
