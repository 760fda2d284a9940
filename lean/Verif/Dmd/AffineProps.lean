import Verif.Dmd.Affine
import Verif.Dmd.ControlProps
import Verif.Dmd.GeneratorProps
import Verif.Tsc.DerivativeProps
/-!
# C166: the Koopman generator with control input (`gDMDAffine`), and the samples of both generator models
-/

namespace Verif.Dmd

open Verif.Tsc Verif.Np Verif.Lin Verif.Dyn Matrix

variable {n q : Nat}

/-! ### Specification -/

/-- The right hand side of the control affine system `x' = A x + Σ_j u_j B_j x`, where `B_j` has the entries `T i k j`. -/
def drift (A : Matrix (Fin n) (Fin n) ℝ) (T : Fin n → Fin n → Fin q → ℝ) (x : Fin n → ℝ) (u : Fin q → ℝ) : Fin n → ℝ :=
  fun i => ∑ k, A i k * x k + ∑ j, u j * ∑ k, T i k j * x k

/-- The summed squared error of the modelled derivatives. -/
def driftError (ps : List ((Fin n → ℝ) × (Fin q → ℝ) × (Fin n → ℝ))) (A : Matrix (Fin n) (Fin n) ℝ) (T : Fin n → Fin n → Fin q → ℝ) : ℝ :=
  (ps.map (fun p => ∑ i, (p.2.2 i - drift A T p.1 p.2.1 i) ^ 2)).sum

/-- The monomials `x_k` and `u_j x_k` of a sample. -/
def monomials (x : Fin n → ℝ) (u : Fin q → ℝ) : Fin n ⊕ (Fin q × Fin n) → ℝ := Sum.elim x (fun e => u e.1 * x e.2)

/-- Sample `k` of the regression is the `k`-th derivative with the state and the control input of the same series and time. -/
def Aligned (c : List (Row Int (Fin n → ℝ))) (u : List (Row Int (Fin q → ℝ))) (d : List (Row Int (Fin n → ℝ))) (ps : List ((Fin n → ℝ) × (Fin q → ℝ) × (Fin n → ℝ))) : Prop :=
  ps.length = d.length ∧ ∀ (k : Nat) (r : Row Int (Fin n → ℝ)), d[k]? = some r → ∃ x ∈ c, ∃ v ∈ u, x.key = r.key ∧ v.key = r.key ∧ ps[k]? = some (x.val, v.val, r.val)

/-! ### Lemmas -/

theorem drift_lift (A : Matrix (Fin n) (Fin n) ℝ) (B : Matrix (Fin n) (Fin (q * n)) ℝ) (x : Fin n → ℝ) (u : Fin q → ℝ) :
    hcat A B *ᵥ affineLift x u = drift A (controlTensor B) x u := by
  unfold affineLift
  rw [hcat_mulVec]
  funext i
  unfold drift
  simp only [Pi.add_apply, Matrix.mulVec, dotProduct]
  congr 1
  rw [← Equiv.sum_comp (finProdFinEquiv (m := q) (n := n)), Fintype.sum_prod_type]
  refine Finset.sum_congr rfl (fun j _ => ?_)
  rw [Finset.mul_sum]
  refine Finset.sum_congr rfl (fun k _ => ?_)
  simp only [controlTensor, kronRow, Equiv.symm_apply_apply]
  ring

theorem driftError_lift (ps : List ((Fin n → ℝ) × (Fin q → ℝ) × (Fin n → ℝ))) (A : Matrix (Fin n) (Fin n) ℝ) (B : Matrix (Fin n) (Fin (q * n)) ℝ) :
    totalError (List.replicate (ps.map (fun p => (affineLift p.1 p.2.1, p.2.2))).length 1) (ps.map (fun p => (affineLift p.1 p.2.1, p.2.2))) (hcat A B) =
      driftError ps A (controlTensor B) := by
  unfold totalError driftError
  induction ps with
  | nil => rfl
  | cons p ps ih =>
    simp only [List.map_cons, List.length_cons, List.replicate_succ, List.zip_cons_cons, List.sum_cons]
    rw [ih]
    congr 1
    unfold stepError
    rw [drift_lift, one_mul]

/-- The matrix with the given tensor. -/
def untensor (T : Fin n → Fin n → Fin q → ℝ) : Matrix (Fin n) (Fin (q * n)) ℝ := Matrix.of (fun i e => T i (finProdFinEquiv.symm e).2 (finProdFinEquiv.symm e).1)

theorem tensor_untensor (T : Fin n → Fin n → Fin q → ℝ) : controlTensor (untensor T) = T := by
  funext i k j
  simp only [controlTensor, untensor, Matrix.of_apply, Equiv.symm_apply_apply]

theorem untensor_tensor (B : Matrix (Fin n) (Fin (q * n)) ℝ) : untensor (controlTensor B) = B := by
  ext i e
  simp only [controlTensor, untensor, Matrix.of_apply, Prod.mk.eta, Equiv.apply_symm_apply]

theorem sublist_flatMap {α β : Type} (f g : α → List β) : ∀ l : List α, (∀ a ∈ l, (f a).Sublist (g a)) → (l.flatMap f).Sublist (l.flatMap g)
  | [], _ => by simp
  | a :: l, h => by
    rw [List.flatMap_cons, List.flatMap_cons]
    exact (h a List.mem_cons_self).append (sublist_flatMap f g l (fun b hb => h b (List.mem_cons_of_mem _ hb)))

theorem series_keys {V : Type} (c : List (Row Int V)) (i : Nat) : (series c i).map (·.key) = (timesOf c i).map (fun t => (⟨i, t⟩ : Key Int)) := by
  unfold timesOf
  rw [List.map_map]
  apply List.map_congr_left
  intro r hr
  have := (mem_series.1 hr).2
  simp [Row.key, this]

theorem derivative_ids {ι : Type} {c d : List (Row Int (ι → ℝ))} {scheme : Scheme} {st : Stencil} {o : Nat} {shift : Bool}
    (hd : timeDerivative scheme st o shift c = .ok d) : newIds (d.map (·.id)) = ids c := by
  obtain ⟨h, -, hd⟩ := derivative_spacing hd
  exact ((C125_frame_list _ _).2 d hd).2.1

theorem derivative_keys {ι : Type} {c d : List (Row Int (ι → ℝ))} (hc : c ≠ []) (hv : Valid c) (hasc : IdsAscending c) {scheme : Scheme} {st : Stencil}
    {o : Nat} {shift : Bool} (hd : timeDerivative scheme st o shift c = .ok d) : (d.map (·.key)).Sublist (c.map (·.key)) := by
  obtain ⟨hvd, hids, _⟩ := (C128_accepts hc hv scheme st o shift).2 d hd
  have e1 := hvd.eq_flatMap
  have e2 := hv.eq_flatMap
  rw [derivative_ids hd] at e1
  rw [newIds_eq_ids hasc] at e2
  have k1 : d.map (·.key) = (ids c).flatMap (fun i => (series d i).map (·.key)) := by conv_lhs => rw [← e1, List.map_flatMap]
  have k2 : c.map (·.key) = (ids c).flatMap (fun i => (series c i).map (·.key)) := by conv_lhs => rw [← e2, List.map_flatMap]
  rw [k1, k2]
  apply sublist_flatMap
  intro i hi
  rw [series_keys, series_keys]
  apply List.Sublist.map
  have hl := C128_labels hc hv hd i (mem_ids.1 hi)
  by_cases hs : scheme = .backward ∨ shift = false
  · obtain ⟨f, l, e, _, _⟩ := hl.1 hs
    rw [e]
    exact (List.sublist_append_right f _).trans (List.sublist_append_left _ _)
  · push Not at hs
    obtain ⟨f, e, _⟩ := hl.2 ⟨hs.1, by simpa using hs.2⟩
    rw [e]
    exact List.sublist_append_right f _

theorem find_key {V : Type} {c : List (Row Int V)} {r : Row Int V} (h : r.key ∈ c.map (·.key)) : ∃ x ∈ c, x.key = r.key ∧ c.find? (fun x => decide (x.key = r.key)) = some x := by
  cases hf : c.find? (fun x => decide (x.key = r.key)) with
  | none =>
    rw [List.find?_eq_none] at hf
    obtain ⟨x, hx, e⟩ := List.mem_map.1 h
    exact absurd (decide_eq_true e) (hf x hx)
  | some x => exact ⟨x, List.mem_of_find?_eq_some hf, by simpa using List.find?_some hf, rfl⟩

theorem filterMap_total {α β : Type} (f : α → Option β) : ∀ l : List α, (∀ a ∈ l, (f a).isSome) → (l.filterMap f).length = l.length ∧ ∀ (k : Nat) (a : α), l[k]? = some a → (l.filterMap f)[k]? = f a
  | [], _ => by simp
  | a :: l, h => by
    obtain ⟨b, hb⟩ := Option.isSome_iff_exists.1 (h a List.mem_cons_self)
    have ih := filterMap_total f l (fun x hx => h x (List.mem_cons_of_mem _ hx))
    rw [List.filterMap_cons_some hb]
    refine ⟨by simp [ih.1], ?_⟩
    intro k x hx
    cases k with
    | zero => simp at hx; subst hx; simp [hb]
    | succ k => simp at hx; simpa using ih.2 k x hx

theorem select_keys {V : Type} (c : List (Row Int V)) (ts : List Int) : (selectTimeValues c ts).map (·.key) = (c.map (·.key)).filter (fun k => decide (k.time ∈ ts)) := by
  unfold selectTimeValues
  rw [List.filter_map]
  rfl

theorem deriv_select {ι : Type} {c d : List (Row Int (ι → ℝ))} (hs : (d.map (·.key)).Sublist (c.map (·.key))) :
    (d.map (·.key)).Sublist ((selectTimeValues c (timeValues d)).map (·.key)) := by
  rw [select_keys]
  have := hs.filter (fun k : Key Int => decide (k.time ∈ timeValues d))
  rwa [List.filter_eq_self.2] at this
  intro k hk
  obtain ⟨r, hr, rfl⟩ := List.mem_map.1 hk
  exact decide_eq_true ((mem_unique _ _).2 (List.mem_map.2 ⟨r, hr, rfl⟩))

/-! ### Property theorems -/

/-- **C166 (least squares).** The matrix and the tensor computed by `gDMDAffine` from samples `(x, u, x')` minimise the summed squared error of `x' = A x + Σ_j u_j B_j x`, and every minimiser is a
possible result. -/
theorem C166_least_squares {ps : List ((Fin n → ℝ) × (Fin q → ℝ) × (Fin n → ℝ))} (hps : ps ≠ []) (A : Matrix (Fin n) (Fin n) ℝ) (T : Fin n → Fin n → Fin q → ℝ) :
    IsAffine ps A T ↔ ∀ A' T', driftError ps A T ≤ driftError ps A' T' := by
  have hn : ps.length ≠ 0 := by simpa using hps
  unfold IsAffine
  constructor
  · rintro ⟨B, h, rfl⟩ A' T'
    rw [isControlMatrices_iff _ hn] at h
    have := h A' (untensor T')
    rwa [driftError_lift, driftError_lift, tensor_untensor] at this
  · intro h
    refine ⟨untensor T, ?_, (tensor_untensor T).symm⟩
    rw [isControlMatrices_iff _ hn]
    intro A' B'
    rw [driftError_lift, driftError_lift, tensor_untensor]
    exact h A' _

/-- **C166 (recovery).** If all derivatives are those of a control affine system `(A₀, T₀)` and the monomials `x_k`, `u_j x_k` of the samples span the whole space, the computed matrix and tensor are `A₀`
and `T₀`. -/
theorem C166_recovery {ps : List ((Fin n → ℝ) × (Fin q → ℝ) × (Fin n → ℝ))} {A A₀ : Matrix (Fin n) (Fin n) ℝ} {T T₀ : Fin n → Fin n → Fin q → ℝ} (h : IsAffine ps A T)
    (hx : ∀ p ∈ ps, p.2.2 = drift A₀ T₀ p.1 p.2.1) (hspan : Submodule.span ℝ {m | ∃ p ∈ ps, m = monomials p.1 p.2.1} = ⊤) : A = A₀ ∧ T = T₀ := by
  obtain ⟨B, h, rfl⟩ := h
  have hA : ∀ p ∈ ps.map (fun p => (affineLift p.1 p.2.1, p.2.2)), p.2 = hcat A₀ (untensor T₀) *ᵥ p.1 := by
    intro p' hp'
    obtain ⟨p, hp, rfl⟩ := List.mem_map.1 hp'
    rw [drift_lift, tensor_untensor]
    exact hx p hp
  let e : Fin n ⊕ (Fin q × Fin n) ≃ Fin n ⊕ Fin (q * n) := Equiv.sumCongr (Equiv.refl _) finProdFinEquiv
  let L : (Fin n ⊕ (Fin q × Fin n) → ℝ) ≃ₗ[ℝ] (Fin n ⊕ Fin (q * n) → ℝ) := LinearEquiv.funCongrLeft ℝ ℝ e.symm
  have hL : ∀ x u, L (monomials x u) = affineLift x u := by
    intro x u
    funext j
    rcases j with j | j <;> rfl
  have hsp : Submodule.span ℝ {x | ∃ p ∈ ps.map (fun p => (affineLift p.1 p.2.1, p.2.2)), p.1 = x} = ⊤ := by
    have h1 := congrArg (Submodule.map L.toLinearMap) hspan
    rw [Submodule.map_span, Submodule.map_top, LinearMap.range_eq_top.2 L.surjective] at h1
    rw [← h1]
    congr 1
    ext m
    constructor
    · rintro ⟨p', hp', rfl⟩
      obtain ⟨p, hp, rfl⟩ := List.mem_map.1 hp'
      exact ⟨_, ⟨p, hp, rfl⟩, hL _ _⟩
    · rintro ⟨_, ⟨p, hp, rfl⟩, rfl⟩
      exact ⟨_, List.mem_map.2 ⟨p, hp, rfl⟩, (hL _ _).symm⟩
  by_cases hps : ps = []
  · subst hps
    have hs : Subsingleton (Fin n ⊕ (Fin q × Fin n) → ℝ) := by
      rw [show {m : Fin n ⊕ (Fin q × Fin n) → ℝ | ∃ p ∈ ([] : List ((Fin n → ℝ) × (Fin q → ℝ) × (Fin n → ℝ))), m = monomials p.1 p.2.1} = ∅ by ext; simp, Submodule.span_empty] at hspan
      exact (Submodule.subsingleton_iff ℝ).1 (subsingleton_of_bot_eq_top hspan)
    have hn : IsEmpty (Fin n) := by
      refine ⟨fun i => ?_⟩
      have := congrFun (hs.elim (fun _ => 0) (fun _ => 1)) (Sum.inl i)
      norm_num at this
    exact ⟨by ext i; exact hn.elim i, by funext i; exact hn.elim i⟩
  have hn : ps.length ≠ 0 := by simpa using hps
  rw [isControlMatrices_iff _ hn] at h
  have hmin := h A₀ (untensor T₀)
  clear h hL hx hspan
  generalize ps.map (fun p => (affineLift p.1 p.2.1, p.2.2)) = ls at hmin hA hsp
  rw [totalError_eq _ _ (by simp), totalError_eq _ _ (by simp)] at hmin
  have heq := recovery_of_min ls (fun _ => 1) (fun _ => one_pos) (hcat A₀ (untensor T₀)) (hcat A B) hA hsp (by
    refine (le_of_eq ?_).trans (hmin.trans (le_of_eq ?_)) <;>
    · refine Finset.sum_congr rfl (fun k _ => ?_)
      simp [List.getD_eq_getElem?_getD])
  constructor
  · ext i j; exact congrFun (congrFun heq i) (Sum.inl j)
  · have : B = untensor T₀ := by ext i j; exact congrFun (congrFun heq i) (Sum.inr j)
    rw [this, tensor_untensor]

/-- **C166 (samples of `gDMDFull`).** The samples are, for every time derivative, the state of the same series and time together with the derivative. -/
theorem C166_full {c : List (Row Int (Fin n → ℝ))} (hc : c ≠ []) (hv : Valid c) (hasc : IdsAscending c) {scheme : Scheme} {st : Stencil} {shift : Bool}
    {ps : List ((Fin n → ℝ) × (Fin n → ℝ))} (h : generatorSamples scheme st shift c = .ok ps) :
    ∃ d, timeDerivative scheme st 1 shift c = .ok d ∧ ps.length = d.length ∧ ∀ (k : Nat) (r : Row Int (Fin n → ℝ)), d[k]? = some r → ∃ x ∈ c, x.key = r.key ∧ ps[k]? = some (x.val, r.val) := by
  unfold generatorSamples at h
  cases hd : timeDerivative scheme st 1 shift c with
  | error e => rw [hd] at h; cases h
  | ok d =>
    rw [hd] at h
    simp only [Except.ok.injEq] at h
    subst h
    refine ⟨d, rfl, ?_⟩
    have hk := (derivative_keys hc hv hasc hd).subset
    have hf : ∀ r ∈ d, ∃ x ∈ c, x.key = r.key ∧ c.find? (fun x => decide (x.key = r.key)) = some x := fun r hr => find_key (hk (List.mem_map.2 ⟨r, hr, rfl⟩))
    obtain ⟨h1, h2⟩ := filterMap_total (fun r : Row Int (Fin n → ℝ) => c.find? (fun x : Row Int (Fin n → ℝ) => decide (x.key = r.key))) d (fun r hr => by
      obtain ⟨x, _, _, e⟩ := hf r hr
      rw [e]; rfl)
    refine ⟨by simp [locKeys, h1], ?_⟩
    intro k r hr
    obtain ⟨x, hx, he, hfx⟩ := hf r (List.mem_of_getElem? hr)
    refine ⟨x, hx, he, ?_⟩
    rw [List.getElem?_zip_eq_some]
    have := h2 k r hr
    rw [hfx] at this
    constructor
    · rw [List.getElem?_map]
      unfold locKeys
      rw [this]; rfl
    · rw [List.getElem?_map, hr]; rfl

/-- **C166 (samples of `gDMDAffine`).** The fit gets past the choice of the samples iff every sample of `X` has a derivative of its own whenever some series has a derivative at its time; then the samples
are aligned. -/
theorem C166_affine {c : List (Row Int (Fin n → ℝ))} {u : List (Row Int (Fin q → ℝ))} (hc : c ≠ []) (hv : Valid c) (hasc : IdsAscending c)
    (hu : c.map (·.key) = u.map (·.key)) {scheme : Scheme} {st : Stencil} {d : List (Row Int (Fin n → ℝ))} (hd : timeDerivative scheme st 1 false c = .ok d) :
    ((∃ ps, affineSamples scheme st c u = .ok ps) ↔ ∀ r ∈ c, r.time ∈ d.map (·.time) → r.key ∈ d.map (·.key)) ∧ ∀ ps, affineSamples scheme st c u = .ok ps → Aligned c u d ps := by
  have hsub := deriv_select (derivative_keys hc hv hasc hd)
  have hu' : (selectTimeValues u (timeValues d)).map (·.key) = (selectTimeValues c (timeValues d)).map (·.key) := by rw [select_keys, select_keys, hu]
  have hul : (selectTimeValues u (timeValues d)).length = (selectTimeValues c (timeValues d)).length := by simpa using congrArg List.length hu'
  have hdef : affineSamples scheme st c u = if d.length ≠ (selectTimeValues c (timeValues d)).length then .error .shape
      else .ok (((selectTimeValues c (timeValues d)).map (·.val)).zip (((selectTimeValues u (timeValues d)).map (·.val)).zip (d.map (·.val)))) := by
    unfold affineSamples affineRows
    rw [if_neg (by simp [hu]), hd]
    simp [hul]
  rw [hdef]
  have hcnd : ((selectTimeValues c (timeValues d)).map (·.key)).Nodup := by
    rw [select_keys]
    exact (nodup_keys_of_pairwise c ((valid_iff c).1 hv).2).filter _
  constructor
  · rw [show (∃ ps, (if d.length ≠ (selectTimeValues c (timeValues d)).length then Except.error AffErr.shape
      else .ok (((selectTimeValues c (timeValues d)).map (·.val)).zip (((selectTimeValues u (timeValues d)).map (·.val)).zip (d.map (·.val))))) = Except.ok ps) ↔
        d.length = (selectTimeValues c (timeValues d)).length by
      constructor
      · rintro ⟨ps, h⟩
        by_contra hne
        rw [if_pos hne] at h
        cases h
      · intro h
        exact ⟨_, if_neg (by simpa using h)⟩]
    constructor
    · intro hl r hr ht
      have := hsub.eq_of_length (by simpa using hl)
      rw [this, select_keys, List.mem_filter]
      exact ⟨List.mem_map.2 ⟨r, hr, rfl⟩, decide_eq_true ((mem_unique _ _).2 ht)⟩
    · intro h
      refine le_antisymm (by simpa using hsub.length_le) ?_
      have hsub2 : ((selectTimeValues c (timeValues d)).map (·.key)) ⊆ d.map (·.key) := by
        intro k hk
        rw [select_keys, List.mem_filter] at hk
        obtain ⟨r, hr, rfl⟩ := List.mem_map.1 hk.1
        exact h r hr ((mem_unique _ _).1 (of_decide_eq_true hk.2))
      simpa using (hcnd.subperm hsub2).length_le
  · intro ps h
    by_cases hl : d.length = (selectTimeValues c (timeValues d)).length
    swap
    · rw [if_pos hl] at h; cases h
    rw [if_neg (by simpa using hl)] at h
    simp only [Except.ok.injEq] at h
    subst h
    have hk := hsub.eq_of_length (by simpa using hl)
    refine ⟨by simp [hul, hl], ?_⟩
    intro k r hr
    have hlt : k < d.length := (List.getElem?_eq_some_iff.1 hr).1
    have hxk := congrArg (fun l => l[k]?) hk
    have huk := congrArg (fun l => l[k]?) (hk.trans hu'.symm)
    simp only [List.getElem?_map, hr, Option.map_some] at hxk huk
    obtain ⟨x, hx, hxe⟩ := Option.map_eq_some_iff.1 hxk.symm
    obtain ⟨v, hv', hve⟩ := Option.map_eq_some_iff.1 huk.symm
    refine ⟨x, List.mem_of_mem_filter (List.mem_of_getElem? hx), v, List.mem_of_mem_filter (List.mem_of_getElem? hv'), hxe, hve, ?_⟩
    rw [List.getElem?_zip_eq_some, List.getElem?_zip_eq_some]
    refine ⟨by rw [List.getElem?_map, hx]; rfl, by rw [List.getElem?_map, hv']; rfl, by rw [List.getElem?_map, hr]; rfl⟩

/-- **C166** (partial: all series have the same time values): the fit gets past the choice of the samples for every collection that has derivatives. -/
theorem C166_affine_partial {c : List (Row Int (Fin n → ℝ))} {u : List (Row Int (Fin q → ℝ))} (hc : c ≠ []) (hv : Valid c) (hasc : IdsAscending c)
    (hu : c.map (·.key) = u.map (·.key)) {scheme : Scheme} {st : Stencil} {d : List (Row Int (Fin n → ℝ))} (hd : timeDerivative scheme st 1 false c = .ok d)
    (hsame : ∀ i j, HasId c i → HasId c j → timesOf c i = timesOf c j) : ∃ ps, affineSamples scheme st c u = .ok ps ∧ Aligned c u d ps := by
  obtain ⟨h1, h2⟩ := C166_affine hc hv hasc hu hd
  obtain ⟨ps, hps⟩ := h1.2 (by
    intro r hr ht
    obtain ⟨s, hs, hst⟩ := List.mem_map.1 ht
    obtain ⟨hvd, hids, _⟩ := (C128_accepts hc hv scheme st 1 false).2 d hd
    have hsi : HasId c s.id := (hids _).1 ⟨s, hs, rfl⟩
    have hri : HasId c r.id := ⟨r, hr, rfl⟩
    have heq : timesOf d s.id = timesOf d r.id := by
      obtain ⟨f1, l1, e1, a1, b1⟩ := (C128_labels hc hv hd s.id hsi).1 (Or.inr rfl)
      obtain ⟨f2, l2, e2, a2, b2⟩ := (C128_labels hc hv hd r.id hri).1 (Or.inr rfl)
      have e := hsame _ _ hsi hri
      rw [e1, e2, List.append_assoc, List.append_assoc] at e
      have e3 := (List.append_inj e (by omega)).2
      exact List.append_inj_left' e3 (by omega)
    have hmem : r.time ∈ timesOf d r.id := by
      rw [← heq, ← hst]
      exact List.mem_map.2 ⟨s, mem_series.2 ⟨hs, rfl⟩, rfl⟩
    obtain ⟨x, hx, hxt⟩ := List.mem_map.1 hmem
    obtain ⟨hx, hxi⟩ := mem_series.1 hx
    exact List.mem_map.2 ⟨x, hx, by simp [Row.key, hxi, hxt]⟩)
  exact ⟨ps, hps, h2 ps hps⟩

/-- Central differences of accuracy 2. -/
noncomputable def central2 : Stencil := [(-1, -(1 / 2)), (0, 0), (1, 1 / 2)]

theorem central2_reach : startSample central2 = 1 ∧ endSamples central2 = 1 := by
  constructor <;> simp [startSample, endSamples, central2] <;> rfl

/-- Two series of equal length and sampling interval; the second starts one step later. -/
def exLater : List (Row Int (Fin 1 → ℝ)) := [⟨0, 0, ![0]⟩, ⟨0, 1, ![1]⟩, ⟨0, 2, ![2]⟩, ⟨1, 1, ![0]⟩, ⟨1, 2, ![1]⟩, ⟨1, 3, ![2]⟩]

theorem exLater_valid : Valid exLater := by
  rw [valid_iff]; constructor
  · decide
  · unfold Before; decide

theorem exLater_ids {i : Nat} (h : HasId exLater i) : i = 0 ∨ i = 1 := by
  obtain ⟨r, hr, rfl⟩ := h
  simp only [exLater, List.mem_cons, List.not_mem_nil, or_false] at hr
  rcases hr with rfl | rfl | rfl | rfl | rfl | rfl <;> simp

theorem exLater_times : timesOf exLater 0 = [0, 1, 2] ∧ timesOf exLater 1 = [1, 2, 3] := ⟨rfl, rfl⟩

theorem exLater_moderate : ModerateSteps exLater := by
  intro i p hp
  by_cases hi : HasId exLater i
  · rcases exLater_ids hi with rfl | rfl
    · rw [exLater_times.1] at hp
      simp only [consecutive, List.mem_cons, List.not_mem_nil, or_false] at hp
      rcases hp with rfl | rfl <;> norm_num
    · rw [exLater_times.2] at hp
      simp only [consecutive, List.mem_cons, List.not_mem_nil, or_false] at hp
      rcases hp with rfl | rfl <;> norm_num
  · have : series exLater i = [] := by
      rw [List.eq_nil_iff_forall_not_mem]
      intro r hr
      exact hi ⟨r, (mem_series.1 hr).1, (mem_series.1 hr).2⟩
    rw [timesOf, this] at hp
    simp [consecutive] at hp

theorem exLater_deriv : ∃ d, timeDerivative .center central2 1 false exLater = .ok d := by
  rw [(C128_accepts (by simp [exLater]) exLater_valid _ _ _ _).1 (Or.inl exLater_moderate), central2_reach.1, central2_reach.2]
  constructor
  · refine ⟨1, fun i hi => ?_⟩
    rcases exLater_ids hi with rfl | rfl
    · rw [exLater_times.1]; exact ⟨by decide, by decide⟩
    · rw [exLater_times.2]; exact ⟨by decide, by decide⟩
  · intro i hi
    rcases exLater_ids hi with rfl | rfl <;> decide

/-- **C166, violated.** Two series with the same sampling interval, each long enough for central differences, and a control input with the index of `X`: the model cannot be fitted, since the second series
starts later. -/
theorem C166_affine_violated : ∃ (c u : List (Row Int (Fin 1 → ℝ))), Valid c ∧ IdsAscending c ∧ c.map (·.key) = u.map (·.key) ∧
    (∃ d, timeDerivative .center central2 1 false c = .ok d) ∧ (∃ ps, generatorSamples .center central2 false c = .ok ps) ∧ ∀ ps, affineSamples .center central2 c u ≠ .ok ps := by
  have hne : exLater ≠ [] := by simp [exLater]
  have hasc : IdsAscending exLater := by unfold IdsAscending; decide
  obtain ⟨d, hd⟩ := exLater_deriv
  refine ⟨exLater, exLater, exLater_valid, hasc, rfl, ⟨d, hd⟩, ?_, ?_⟩
  · unfold generatorSamples
    rw [hd]
    exact ⟨_, rfl⟩
  · intro ps hps
    have h := (C166_affine hne exLater_valid hasc rfl hd).1.1 ⟨ps, hps⟩
    have hvd := ((C128_accepts hne exLater_valid .center central2 1 false).2 d hd).1
    obtain ⟨f0, l0, e0, a0, b0⟩ := (C128_labels hne exLater_valid hd 0 ⟨_, List.mem_cons_self, rfl⟩).1 (Or.inr rfl)
    obtain ⟨f1, l1, e1, a1, b1⟩ := (C128_labels hne exLater_valid hd 1 ⟨⟨1, 1, ![0]⟩, by simp [exLater], rfl⟩).1 (Or.inr rfl)
    rw [central2_reach.1] at a0 a1
    rw [central2_reach.2] at b0 b1
    obtain ⟨x0, rfl⟩ := List.length_eq_one_iff.1 a0
    obtain ⟨y0, rfl⟩ := List.length_eq_one_iff.1 b0
    obtain ⟨x1, rfl⟩ := List.length_eq_one_iff.1 a1
    obtain ⟨y1, rfl⟩ := List.length_eq_one_iff.1 b1
    have t0 : timesOf d 0 = [1] := by
      have : ([0] : List Int) ++ ([1] ++ [2]) = [x0] ++ (timesOf d 0 ++ [y0]) := by rw [← List.append_assoc [x0], ← e0]; rfl
      exact (List.append_inj_left' (List.append_inj this rfl).2 rfl).symm
    have t1 : timesOf d 1 = [2] := by
      have : ([1] : List Int) ++ ([2] ++ [3]) = [x1] ++ (timesOf d 1 ++ [y1]) := by rw [← List.append_assoc [x1], ← e1]; rfl
      exact (List.append_inj_left' (List.append_inj this rfl).2 rfl).symm
    have hk := h ⟨0, 2, ![2]⟩ (by simp [exLater]) (by
      have : (2 : Int) ∈ timesOf d 1 := by rw [t1]; simp
      obtain ⟨r, hr, hrt⟩ := List.mem_map.1 this
      exact List.mem_map.2 ⟨r, (mem_series.1 hr).1, hrt⟩)
    obtain ⟨r, hr, he⟩ := List.mem_map.1 hk
    have hr0 : r.id = 0 := congrArg Key.id he
    have hrt : r.time = 2 := congrArg Key.time he
    have : (2 : Int) ∈ timesOf d 0 := List.mem_map.2 ⟨r, mem_series.2 ⟨hr, hr0⟩, hrt⟩
    rw [t0] at this
    simp at this

/-- non-vacuity of `C166_affine_partial`, `C166_full`: the first series alone. -/
example : ∃ (c : List (Row Int (Fin 1 → ℝ))), c ≠ [] ∧ Valid c ∧ ModerateSteps c ∧ IdsAscending c ∧ (∀ i j, HasId c i → HasId c j → timesOf c i = timesOf c j) ∧
    ∃ d, timeDerivative .center central2 1 false c = .ok d := by
  have hid : ∀ i, HasId (exLater.take 3) i → i = 0 := by
    rintro i ⟨r, hr, rfl⟩
    simp only [exLater, List.take_succ_cons, List.take_zero, List.mem_cons, List.not_mem_nil, or_false] at hr
    rcases hr with rfl | rfl | rfl <;> rfl
  have hv : Valid (exLater.take 3) := by
    rw [valid_iff]; constructor
    · decide
    · unfold Before; decide
  have hm : ModerateSteps (exLater.take 3) := by
    intro i p hp
    by_cases hi : HasId (exLater.take 3) i
    · obtain rfl := hid i hi
      rw [show timesOf (exLater.take 3) 0 = [0, 1, 2] from rfl] at hp
      simp only [consecutive, List.mem_cons, List.not_mem_nil, or_false] at hp
      rcases hp with rfl | rfl <;> norm_num
    · have : series (exLater.take 3) i = [] := by
        rw [List.eq_nil_iff_forall_not_mem]
        intro r hr
        exact hi ⟨r, (mem_series.1 hr).1, (mem_series.1 hr).2⟩
      rw [timesOf, this] at hp
      simp [consecutive] at hp
  refine ⟨exLater.take 3, by simp [exLater], hv, hm, by unfold IdsAscending; decide, ?_, ?_⟩
  · intro i j hi hj
    rw [hid i hi, hid j hj]
  · rw [(C128_accepts (by simp [exLater]) hv _ _ _ _).1 (Or.inl hm), central2_reach.1, central2_reach.2]
    constructor
    · refine ⟨1, fun i hi => ?_⟩
      obtain rfl := hid i hi
      exact ⟨by decide, by decide⟩
    · intro i hi
      obtain rfl := hid i hi
      decide

/-- non-vacuity of `C166_recovery`: samples of the scalar system `x' = 2 x + 3 u x`. -/
example : ∃ ps : List ((Fin 1 → ℝ) × (Fin 1 → ℝ) × (Fin 1 → ℝ)), (∀ p ∈ ps, p.2.2 = drift !![2] (fun _ _ _ => 3) p.1 p.2.1) ∧
    Submodule.span ℝ {m | ∃ p ∈ ps, m = monomials p.1 p.2.1} = ⊤ ∧ IsAffine ps !![2] (fun _ _ _ => 3) := by
  have hx : ∀ p ∈ [((![1] : Fin 1 → ℝ), (![0] : Fin 1 → ℝ), (![2] : Fin 1 → ℝ)), (![1], ![1], ![5])], p.2.2 = drift !![2] (fun _ _ _ => 3) p.1 p.2.1 := by
    intro p hp
    simp only [List.mem_cons, List.not_mem_nil, or_false] at hp
    rcases hp with rfl | rfl <;> funext i <;> fin_cases i <;> simp [drift] <;> norm_num
  refine ⟨[(![1], ![0], ![2]), (![1], ![1], ![5])], hx, ?_, ?_⟩
  · rw [Submodule.eq_top_iff']
    intro m
    have : m = (m (Sum.inl 0) - m (Sum.inr (0, 0))) • monomials ![1] ![0] + m (Sum.inr (0, 0)) • monomials ![1] ![1] := by
      funext j
      rcases j with j | ⟨j, k⟩
      · fin_cases j; simp [monomials]
      · fin_cases j; fin_cases k; simp [monomials]
    rw [this]
    refine Submodule.add_mem _ (Submodule.smul_mem _ _ (Submodule.subset_span ?_)) (Submodule.smul_mem _ _ (Submodule.subset_span ?_))
    · exact ⟨_, List.mem_cons_self, rfl⟩
    · exact ⟨_, List.mem_cons_of_mem _ List.mem_cons_self, rfl⟩
  · rw [C166_least_squares (by simp)]
    intro A' T'
    have hz : driftError [((![1] : Fin 1 → ℝ), (![0] : Fin 1 → ℝ), (![2] : Fin 1 → ℝ)), (![1], ![1], ![5])] !![2] (fun _ _ _ => 3) = 0 := by
      unfold driftError
      apply List.sum_eq_zero
      intro y hy
      obtain ⟨p, hp, rfl⟩ := List.mem_map.1 hy
      rw [hx p hp]
      simp
    rw [hz]
    unfold driftError
    apply List.sum_nonneg
    intro y hy
    obtain ⟨p, _, rfl⟩ := List.mem_map.1 hy
    exact Finset.sum_nonneg (fun _ _ => sq_nonneg _)

end Verif.Dmd
