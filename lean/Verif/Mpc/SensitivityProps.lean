import Verif.Mpc.KmpcProps
import Mathlib.Analysis.Real.Sqrt
/-!
# C239: small changes of the measured state or of the reference change the inputs of `KMPC` little

`datafold/appfold/mpc.py` 53-474.
-/

namespace Verif.Mpc

open Matrix

section sensitivity

variable {ν : Type} [Fintype ν] {nu nq : Nat}

/-- The deviation of the predicted quantities from the reference. -/
def deviation (A : Matrix ν ν ℝ) (B : Matrix ν (Fin nu) ℝ) (C : Matrix (Fin nq) ν ℝ) (z₀ : ν → ℝ) (ref : Nat → Fin nq → ℝ) (u : Nat → Fin nu → ℝ) (i : Nat) (r : Fin nq) : ℝ :=
  (C *ᵥ trajectory A B z₀ u (i + 1)) r - ref i r

theorem segment_trajectory (A : Matrix ν ν ℝ) (B : Matrix ν (Fin nu) ℝ) (z₀ : ν → ℝ) (u v : Nat → Fin nu → ℝ) (s : ℝ) (i : Nat) :
    trajectory A B z₀ (fun i => (1 - s) • u i + s • v i) i = (1 - s) • trajectory A B z₀ u i + s • trajectory A B z₀ v i := by
  induction i with
  | zero => rw [trajectory, trajectory, trajectory, ← add_smul]; simp
  | succ i ih =>
    rw [trajectory, ih]
    simp only [trajectory, mulVec_add, mulVec_smul, smul_add]
    abel

theorem segment_deviation (A : Matrix ν ν ℝ) (B : Matrix ν (Fin nu) ℝ) (C : Matrix (Fin nq) ν ℝ) (z₀ : ν → ℝ) (ref : Nat → Fin nq → ℝ) (u v : Nat → Fin nu → ℝ) (s : ℝ) (i : Nat) (r : Fin nq) :
    deviation A B C z₀ ref (fun i => (1 - s) • u i + s • v i) i r = (1 - s) * deviation A B C z₀ ref u i r + s * deviation A B C z₀ ref v i r := by
  unfold deviation
  rw [segment_trajectory, mulVec_add, mulVec_smul, mulVec_smul]
  simp only [Pi.add_apply, Pi.smul_apply, smul_eq_mul]
  ring

theorem segment_within {A : Matrix ν ν ℝ} {B : Matrix ν (Fin nu) ℝ} {C : Matrix (Fin nq) ν ℝ} {horizon : Nat} {sb ib : Option (List (ℝ × ℝ))} {z₀ : ν → ℝ} {u v : Nat → Fin nu → ℝ}
    (hu : WithinBounds A B C horizon sb ib z₀ u) (hv : WithinBounds A B C horizon sb ib z₀ v) {s : ℝ} (h0 : 0 ≤ s) (h1 : s ≤ 1) :
    WithinBounds A B C horizon sb ib z₀ (fun i => (1 - s) • u i + s • v i) := by
  have hc : ∀ a b lo hi : ℝ, lo ≤ a ∧ a ≤ hi → lo ≤ b ∧ b ≤ hi → lo ≤ (1 - s) * a + s * b ∧ (1 - s) * a + s * b ≤ hi := by
    intro a b lo hi ha hb
    constructor
    · nlinarith [mul_nonneg h0 (sub_nonneg.2 hb.1), mul_nonneg (sub_nonneg.2 h1) (sub_nonneg.2 ha.1)]
    · nlinarith [mul_nonneg h0 (sub_nonneg.2 hb.2), mul_nonneg (sub_nonneg.2 h1) (sub_nonneg.2 ha.2)]
  constructor
  · intro b hb i hi r
    rw [segment_trajectory, mulVec_add, mulVec_smul, mulVec_smul]
    simp only [Pi.add_apply, Pi.smul_apply, smul_eq_mul]
    exact hc _ _ _ _ (hu.1 b hb i hi r) (hv.1 b hb i hi r)
  · intro b hb i hi c
    simp only [Pi.add_apply, Pi.smul_apply, smul_eq_mul]
    exact hc _ _ _ _ (hu.2 b hb i hi c) (hv.2 b hb i hi c)

/-- The weighted squared distance of two input sequences and of what they predict. -/
def inputDistance (A : Matrix ν ν ℝ) (B : Matrix ν (Fin nu) ℝ) (C : Matrix (Fin nq) ν ℝ) (horizon : Nat) (wr wt : Fin nq → ℝ) (wu : Fin nu → ℝ) (z₀ : ν → ℝ) (ref : Nat → Fin nq → ℝ) (u v : Nat → Fin nu → ℝ) : ℝ :=
  ∑ i ∈ Finset.range horizon, (∑ r, (if i + 1 < horizon then wr r else wt r) * (deviation A B C z₀ ref u i r - deviation A B C z₀ ref v i r) ^ 2 + ∑ c, wu c * (u i c - v i c) ^ 2)

theorem segment_cost (A : Matrix ν ν ℝ) (B : Matrix ν (Fin nu) ℝ) (C : Matrix (Fin nq) ν ℝ) (horizon : Nat) (wr wt : Fin nq → ℝ) (wu : Fin nu → ℝ) (z₀ : ν → ℝ) (ref : Nat → Fin nq → ℝ) (u v : Nat → Fin nu → ℝ) (s : ℝ) :
    trackingCost A B C horizon wr wt wu z₀ ref (fun i => (1 - s) • u i + s • v i) =
      (1 - s) * trackingCost A B C horizon wr wt wu z₀ ref u + s * trackingCost A B C horizon wr wt wu z₀ ref v - s * (1 - s) * inputDistance A B C horizon wr wt wu z₀ ref u v := by
  unfold trackingCost inputDistance
  rw [Finset.mul_sum, Finset.mul_sum, Finset.mul_sum, ← Finset.sum_add_distrib, ← Finset.sum_sub_distrib]
  refine Finset.sum_congr rfl fun i _ => ?_
  have h1 := fun r => segment_deviation A B C z₀ ref u v s i r
  unfold deviation at h1
  simp only [h1, deviation]
  simp only [mul_add, Finset.mul_sum]
  have e : ∀ a b c d e f : ℝ, a + b + (c + d) - (e + f) = (a + c - e) + (b + d - f) := by intros; ring
  rw [e, ← Finset.sum_add_distrib, ← Finset.sum_sub_distrib, ← Finset.sum_add_distrib, ← Finset.sum_sub_distrib]
  congr 1
  · exact Finset.sum_congr rfl fun r _ => by ring
  · refine Finset.sum_congr rfl fun c _ => ?_
    simp only [Pi.add_apply, Pi.smul_apply, smul_eq_mul]
    ring

/-- Every admissible input sequence costs more than the best one by at least its distance. -/
theorem cost_gap {A : Matrix ν ν ℝ} {B : Matrix ν (Fin nu) ℝ} {C : Matrix (Fin nq) ν ℝ} {horizon : Nat} {wr wt : Fin nq → ℝ} {wu : Fin nu → ℝ} {sb ib : Option (List (ℝ × ℝ))} {z₀ : ν → ℝ} {ref : Nat → Fin nq → ℝ}
    {u v : Nat → Fin nu → ℝ} (hu : WithinBounds A B C horizon sb ib z₀ u) (hv : WithinBounds A B C horizon sb ib z₀ v)
    (hmin : ∀ x, WithinBounds A B C horizon sb ib z₀ x → trackingCost A B C horizon wr wt wu z₀ ref u ≤ trackingCost A B C horizon wr wt wu z₀ ref x) :
    inputDistance A B C horizon wr wt wu z₀ ref u v ≤ trackingCost A B C horizon wr wt wu z₀ ref v - trackingCost A B C horizon wr wt wu z₀ ref u := by
  set D := inputDistance A B C horizon wr wt wu z₀ ref u v
  set a := trackingCost A B C horizon wr wt wu z₀ ref u
  set b := trackingCost A B C horizon wr wt wu z₀ ref v
  have hs : ∀ s : ℝ, 0 < s → s ≤ 1 → (1 - s) * D ≤ b - a := by
    intro s h0 h1
    have h2 := hmin _ (segment_within hu hv h0.le h1)
    rw [segment_cost] at h2
    have h3 : 0 ≤ s * (b - a - (1 - s) * D) := by linarith
    have h4 := nonneg_of_mul_nonneg_right h3 h0
    linarith
  by_contra hc
  push Not at hc
  have hD : 0 < D := by
    have := hs 1 one_pos le_rfl
    linarith
  -- the part of the segment with `s D` half of the gap
  set s := min 1 ((D - (b - a)) / (2 * D)) with hsd
  have hs0 : 0 < s := lt_min one_pos (div_pos (by linarith) (by linarith))
  have h1 := hs s hs0 (min_le_left _ _)
  have h2 : s * D ≤ (D - (b - a)) / 2 := by
    calc s * D ≤ (D - (b - a)) / (2 * D) * D := mul_le_mul_of_nonneg_right (min_le_right _ _) hD.le
      _ = (D - (b - a)) / 2 := by field_simp
  linarith

/-- What two input sequences predict differs in the same way from every state. -/
theorem trajectory_difference (A : Matrix ν ν ℝ) (B : Matrix ν (Fin nu) ℝ) (y z : ν → ℝ) (u v : Nat → Fin nu → ℝ) (i : Nat) :
    trajectory A B y u i - trajectory A B y v i = trajectory A B z u i - trajectory A B z v i := by
  induction i with
  | zero => simp [trajectory]
  | succ i ih =>
    simp only [trajectory]
    have h1 : ∀ a b : ν → ℝ, A *ᵥ a + B *ᵥ u i - (A *ᵥ b + B *ᵥ v i) = A *ᵥ (a - b) + (B *ᵥ u i - B *ᵥ v i) := by
      intro a b
      rw [mulVec_sub]; abel
    rw [h1, h1, ih]

/-- What one input sequence predicts from two states differs by the free evolution of the difference. -/
theorem trajectory_free [DecidableEq ν] (A : Matrix ν ν ℝ) (B : Matrix ν (Fin nu) ℝ) (y z : ν → ℝ) (u : Nat → Fin nu → ℝ) (i : Nat) :
    trajectory A B y u i - trajectory A B z u i = (A ^ i) *ᵥ (y - z) := by
  induction i with
  | zero => simp [trajectory]
  | succ i ih =>
    simp only [trajectory]
    rw [pow_succ', ← mulVec_mulVec, ← ih, mulVec_sub]
    abel

/-- **C239.** Let the input weights be non-negative.  If `KMPC` is asked for the same bounds with two measured states and two references, then the weighted squares of the differences of the returned inputs
are at most a quarter of the weighted squares of what changes in the tracking error without any input: the free evolution of the difference of the states, minus the difference of the references.  (With state bounds the
admissible inputs depend on the state; then only the reference may differ.) -/
theorem C239_bound [DecidableEq ν] (k : Kmpc ν nq nu) (hh : 2 ≤ k.horizon) (hb : BoundsShape k) {wr wt : Fin nq → ℝ} {wu : Fin nu → ℝ} (hr : CostIs k.running wr)
    (ht : CostIs k.terminal wt) (hu : CostIs k.input wu) (h0 : ∃ r, wt r ≠ 0) (dt t₁ t₂ : Int) (z₁ z₂ : ν → ℝ) (hz : k.stateBounds = none ∨ z₁ = z₂) (ref₁ ref₂ : List (Int × (Fin nq → ℝ)))
    (out₁ out₂ : List (Int × (Fin nu → ℝ))) (h₁ : IsControlSequence k dt t₁ z₁ ref₁ (.ok out₁)) (h₂ : IsControlSequence k dt t₂ z₂ ref₂ (.ok out₂)) :
    ∑ i ∈ Finset.range k.horizon, ∑ c, wu c * (inputAt out₁ i c - inputAt out₂ i c) ^ 2 ≤
      1 / 4 * ∑ i ∈ Finset.range k.horizon, ∑ r, (if i + 1 < k.horizon then wr r else wt r) *
        ((k.C *ᵥ ((k.A ^ (i + 1)) *ᵥ (z₁ - z₂))) r - ((ref₁.getD i (0, fun _ => 0)).2 r - (ref₂.getD i (0, fun _ => 0)).2 r)) ^ 2 := by
  obtain ⟨-, w1, m1⟩ := C39_optimal_partial k hh hb hr ht hu h0 dt t₁ z₁ ref₁ out₁ h₁
  obtain ⟨-, w2, m2⟩ := C39_optimal_partial k hh hb hr ht hu h0 dt t₂ z₂ ref₂ out₂ h₂
  set u := inputAt out₁
  set v := inputAt out₂
  set r1 : Nat → Fin nq → ℝ := fun i => (ref₁.getD i (0, fun _ => 0)).2 with hr1
  set r2 : Nat → Fin nq → ℝ := fun i => (ref₂.getD i (0, fun _ => 0)).2 with hr2
  have hsw : ∀ (x : Nat → Fin nu → ℝ) (y z : ν → ℝ), (k.stateBounds = none ∨ y = z) → WithinBounds k.A k.B k.C k.horizon k.stateBounds k.inputBounds y x →
      WithinBounds k.A k.B k.C k.horizon k.stateBounds k.inputBounds z x := by
    rintro x y z (h | rfl) hw
    · exact ⟨by simp [h], hw.2⟩
    · exact hw
  have g1 := cost_gap w1 (hsw v z₂ z₁ (hz.imp_right Eq.symm) w2) m1
  have g2 := cost_gap w2 (hsw u z₁ z₂ hz w1) m2
  have hF : ∀ i r, deviation k.A k.B k.C z₂ r2 u i r - deviation k.A k.B k.C z₂ r2 v i r = deviation k.A k.B k.C z₁ r1 u i r - deviation k.A k.B k.C z₁ r1 v i r := by
    intro i r
    have := congrFun (congrArg (fun x => k.C *ᵥ x) (trajectory_difference k.A k.B z₂ z₁ u v (i + 1))) r
    simp only [mulVec_sub, Pi.sub_apply] at this
    unfold deviation
    linarith
  have hg : ∀ i r, deviation k.A k.B k.C z₁ r1 u i r - deviation k.A k.B k.C z₂ r2 u i r = (k.C *ᵥ ((k.A ^ (i + 1)) *ᵥ (z₁ - z₂))) r - (r1 i r - r2 i r) := by
    intro i r
    rw [← trajectory_free k.A k.B z₁ z₂ u (i + 1), mulVec_sub, Pi.sub_apply]
    unfold deviation
    ring
  have e0 : ∑ i ∈ Finset.range k.horizon, ∑ r, (if i + 1 < k.horizon then wr r else wt r) *
        ((k.C *ᵥ ((k.A ^ (i + 1)) *ᵥ (z₁ - z₂))) r - ((ref₁.getD i (0, fun _ => 0)).2 r - (ref₂.getD i (0, fun _ => 0)).2 r)) ^ 2 =
      ∑ i ∈ Finset.range k.horizon, ∑ r, (if i + 1 < k.horizon then wr r else wt r) * (deviation k.A k.B k.C z₁ r1 u i r - deviation k.A k.B k.C z₂ r2 u i r) ^ 2 :=
    Finset.sum_congr rfl fun i _ => Finset.sum_congr rfl fun r _ => by rw [hg i r]
  rw [e0]
  have hw : ∀ i r, 0 ≤ (if i + 1 < k.horizon then wr r else wt r) := by
    intro i r
    split
    · exact hr.1 r
    · exact ht.1 r
  unfold inputDistance trackingCost at g1 g2
  change _ ≤ ∑ i ∈ Finset.range k.horizon, (∑ r, (if i + 1 < k.horizon then wr r else wt r) * deviation k.A k.B k.C z₁ r1 v i r ^ 2 + ∑ c, wu c * v i c ^ 2) -
    ∑ i ∈ Finset.range k.horizon, (∑ r, (if i + 1 < k.horizon then wr r else wt r) * deviation k.A k.B k.C z₁ r1 u i r ^ 2 + ∑ c, wu c * u i c ^ 2) at g1
  change _ ≤ ∑ i ∈ Finset.range k.horizon, (∑ r, (if i + 1 < k.horizon then wr r else wt r) * deviation k.A k.B k.C z₂ r2 u i r ^ 2 + ∑ c, wu c * u i c ^ 2) -
    ∑ i ∈ Finset.range k.horizon, (∑ r, (if i + 1 < k.horizon then wr r else wt r) * deviation k.A k.B k.C z₂ r2 v i r ^ 2 + ∑ c, wu c * v i c ^ 2) at g2
  simp only [Finset.sum_add_distrib] at g1 g2
  have hd : ∑ i ∈ Finset.range k.horizon, ∑ c, wu c * (v i c - u i c) ^ 2 = ∑ i ∈ Finset.range k.horizon, ∑ c, wu c * (u i c - v i c) ^ 2 :=
    Finset.sum_congr rfl fun i _ => Finset.sum_congr rfl fun c _ => by ring
  have hkey : ∑ i ∈ Finset.range k.horizon, ∑ r, (if i + 1 < k.horizon then wr r else wt r) * deviation k.A k.B k.C z₁ r1 v i r ^ 2 -
      ∑ i ∈ Finset.range k.horizon, ∑ r, (if i + 1 < k.horizon then wr r else wt r) * deviation k.A k.B k.C z₁ r1 u i r ^ 2 +
      (∑ i ∈ Finset.range k.horizon, ∑ r, (if i + 1 < k.horizon then wr r else wt r) * deviation k.A k.B k.C z₂ r2 u i r ^ 2 -
      ∑ i ∈ Finset.range k.horizon, ∑ r, (if i + 1 < k.horizon then wr r else wt r) * deviation k.A k.B k.C z₂ r2 v i r ^ 2) ≤
      ∑ i ∈ Finset.range k.horizon, ∑ r, (if i + 1 < k.horizon then wr r else wt r) * (deviation k.A k.B k.C z₁ r1 u i r - deviation k.A k.B k.C z₁ r1 v i r) ^ 2 +
      ∑ i ∈ Finset.range k.horizon, ∑ r, (if i + 1 < k.horizon then wr r else wt r) * (deviation k.A k.B k.C z₂ r2 v i r - deviation k.A k.B k.C z₂ r2 u i r) ^ 2 +
      1 / 2 * ∑ i ∈ Finset.range k.horizon, ∑ r, (if i + 1 < k.horizon then wr r else wt r) * (deviation k.A k.B k.C z₁ r1 u i r - deviation k.A k.B k.C z₂ r2 u i r) ^ 2 := by
    rw [Finset.mul_sum]
    simp only [← Finset.sum_sub_distrib, ← Finset.sum_add_distrib, Finset.mul_sum]
    refine Finset.sum_le_sum fun i _ => Finset.sum_le_sum fun r _ => ?_
    have e1 := hF i r
    generalize deviation k.A k.B k.C z₁ r1 u i r = a at *
    generalize deviation k.A k.B k.C z₁ r1 v i r = b at *
    generalize deviation k.A k.B k.C z₂ r2 u i r = c at *
    have e2 : deviation k.A k.B k.C z₂ r2 v i r = c - (a - b) := by linarith
    rw [e2]
    have := mul_nonneg (hw i r) (sq_nonneg (2 * (a - b) + (a - c)))
    nlinarith
  linarith

/-- **C239 (Lipschitz).** With positive input weights there is a constant for the controller, such that measured states that differ by at most `δ` and references that differ by at most `ε` give inputs that differ by at most
the constant times `δ + ε`, in every step and every channel. -/
theorem C239_lipschitz [DecidableEq ν] (k : Kmpc ν nq nu) (hh : 2 ≤ k.horizon) (hb : BoundsShape k) {wr wt : Fin nq → ℝ} {wu : Fin nu → ℝ} (hr : CostIs k.running wr)
    (ht : CostIs k.terminal wt) (hu : CostIs k.input wu) (h0 : ∃ r, wt r ≠ 0) (hpos : ∀ c, 0 < wu c) :
    ∃ L : ℝ, 0 ≤ L ∧ ∀ (dt t₁ t₂ : Int) (z₁ z₂ : ν → ℝ) (ref₁ ref₂ : List (Int × (Fin nq → ℝ))) (out₁ out₂ : List (Int × (Fin nu → ℝ))) (δ ε : ℝ), 0 ≤ δ → 0 ≤ ε → (k.stateBounds = none ∨ z₁ = z₂) →
      IsControlSequence k dt t₁ z₁ ref₁ (.ok out₁) → IsControlSequence k dt t₂ z₂ ref₂ (.ok out₂) → (∀ x, |z₁ x - z₂ x| ≤ δ) →
      (∀ i < k.horizon, ∀ r, |(ref₁.getD i (0, fun _ => 0)).2 r - (ref₂.getD i (0, fun _ => 0)).2 r| ≤ ε) → ∀ i < k.horizon, ∀ c, |inputAt out₁ i c - inputAt out₂ i c| ≤ L * (δ + ε) := by
  have hw : ∀ i r, 0 ≤ (if i + 1 < k.horizon then wr r else wt r) := by
    intro i r
    split
    · exact hr.1 r
    · exact ht.1 r
  set K : Nat → Fin nq → ℝ := fun i r => ∑ x, |(k.C * k.A ^ (i + 1)) r x| with hK
  have hK0 : ∀ i r, 0 ≤ K i r := fun i r => Finset.sum_nonneg fun x _ => abs_nonneg _
  set M : ℝ := 1 / 4 * ∑ i ∈ Finset.range k.horizon, ∑ r, (if i + 1 < k.horizon then wr r else wt r) * (K i r + 1) ^ 2 with hM
  have hM0 : 0 ≤ M := mul_nonneg (by norm_num) (Finset.sum_nonneg fun i _ => Finset.sum_nonneg fun r _ => mul_nonneg (hw i r) (sq_nonneg _))
  have hS0 : 0 ≤ ∑ c, (wu c)⁻¹ := Finset.sum_nonneg fun c _ => (inv_pos.2 (hpos c)).le
  refine ⟨Real.sqrt (M * ∑ c, (wu c)⁻¹), Real.sqrt_nonneg _, ?_⟩
  intro dt t₁ t₂ z₁ z₂ ref₁ ref₂ out₁ out₂ δ ε hδ hε hz h₁ h₂ hzd hrd i hi c
  have h1 := C239_bound k hh hb hr ht hu h0 dt t₁ t₂ z₁ z₂ hz ref₁ ref₂ out₁ out₂ h₁ h₂
  have h2 : 1 / 4 * ∑ i ∈ Finset.range k.horizon, ∑ r, (if i + 1 < k.horizon then wr r else wt r) *
        ((k.C *ᵥ ((k.A ^ (i + 1)) *ᵥ (z₁ - z₂))) r - ((ref₁.getD i (0, fun _ => 0)).2 r - (ref₂.getD i (0, fun _ => 0)).2 r)) ^ 2 ≤ M * (δ + ε) ^ 2 := by
    rw [hM, mul_assoc, Finset.sum_mul]
    refine mul_le_mul_of_nonneg_left (Finset.sum_le_sum fun i hi => ?_) (by norm_num)
    rw [Finset.sum_mul]
    refine Finset.sum_le_sum fun r _ => ?_
    rw [mul_assoc]
    refine mul_le_mul_of_nonneg_left ?_ (hw i r)
    have h3 : |(k.C *ᵥ ((k.A ^ (i + 1)) *ᵥ (z₁ - z₂))) r| ≤ K i r * δ := by
      rw [mulVec_mulVec]
      simp only [mulVec, dotProduct, hK]
      rw [Finset.sum_mul]
      refine (Finset.abs_sum_le_sum_abs _ _).trans (Finset.sum_le_sum fun x _ => ?_)
      rw [abs_mul]
      exact mul_le_mul_of_nonneg_left (hzd x) (abs_nonneg _)
    have h4 := hrd i (Finset.mem_range.1 hi) r
    have h5 := abs_sub ((k.C *ᵥ ((k.A ^ (i + 1)) *ᵥ (z₁ - z₂))) r) ((ref₁.getD i (0, fun _ => 0)).2 r - (ref₂.getD i (0, fun _ => 0)).2 r)
    rw [← mul_pow, ← sq_abs]
    refine pow_le_pow_left₀ (abs_nonneg _) (h5.trans ?_) 2
    nlinarith [hK0 i r, mul_nonneg (hK0 i r) hε]
  have h3 : wu c * (inputAt out₁ i c - inputAt out₂ i c) ^ 2 ≤ M * (δ + ε) ^ 2 := by
    have a1 : wu c * (inputAt out₁ i c - inputAt out₂ i c) ^ 2 ≤ ∑ c, wu c * (inputAt out₁ i c - inputAt out₂ i c) ^ 2 :=
      Finset.single_le_sum (f := fun c => wu c * (inputAt out₁ i c - inputAt out₂ i c) ^ 2) (fun c _ => mul_nonneg (hpos c).le (sq_nonneg _)) (Finset.mem_univ c)
    have a2 := Finset.single_le_sum (f := fun i => ∑ c, wu c * (inputAt out₁ i c - inputAt out₂ i c) ^ 2) (fun i _ => Finset.sum_nonneg fun c _ => mul_nonneg (hpos c).le (sq_nonneg _)) (Finset.mem_range.2 hi)
    exact (a1.trans a2).trans (h1.trans h2)
  have h4 : (inputAt out₁ i c - inputAt out₂ i c) ^ 2 ≤ (M * ∑ c, (wu c)⁻¹) * (δ + ε) ^ 2 := by
    have b1 : (inputAt out₁ i c - inputAt out₂ i c) ^ 2 = (wu c)⁻¹ * (wu c * (inputAt out₁ i c - inputAt out₂ i c) ^ 2) := by rw [← mul_assoc, inv_mul_cancel₀ (hpos c).ne', one_mul]
    have b2 : (wu c)⁻¹ ≤ ∑ c, (wu c)⁻¹ := Finset.single_le_sum (f := fun c => (wu c)⁻¹) (fun c _ => (inv_pos.2 (hpos c)).le) (Finset.mem_univ c)
    rw [b1]
    calc _ ≤ (wu c)⁻¹ * (M * (δ + ε) ^ 2) := mul_le_mul_of_nonneg_left h3 (inv_pos.2 (hpos c)).le
      _ ≤ (∑ c, (wu c)⁻¹) * (M * (δ + ε) ^ 2) := mul_le_mul_of_nonneg_right b2 (mul_nonneg hM0 (sq_nonneg _))
      _ = _ := by ring
  refine abs_le_of_sq_le_sq ?_ (mul_nonneg (Real.sqrt_nonneg _) (add_nonneg hδ hε))
  rw [mul_pow, Real.sq_sqrt (mul_nonneg hM0 hS0)]
  exact h4

end sensitivity

/-- The hypotheses are met: the same controller (with state and input bounds) is asked with two different references; both questions have an answer. -/
example : ∃ out₁ out₂, IsControlSequence exK 2 0 (fun _ => 0) [(2, fun _ => 1), (4, fun _ => 1), (6, fun _ => 2)] (.ok out₁) ∧
    IsControlSequence exK 2 0 (fun _ => 0) [(2, fun _ => 1), (4, fun _ => 3), (6, fun _ => 2)] (.ok out₂) ∧ CostIs exK.running (fun _ : Fin 1 => 1) ∧ CostIs exK.terminal (fun _ : Fin 1 => 5) ∧
    CostIs exK.input (fun _ : Fin 1 => 1 / 10) := by
  have hr : CostIs exK.running (fun _ : Fin 1 => 1) := ⟨fun _ => zero_le_one, Or.inl ⟨1, zero_le_one, rfl, fun _ => rfl⟩⟩
  have ht : CostIs exK.terminal (fun _ : Fin 1 => 5) := ⟨fun _ => by norm_num, Or.inr (by simp [exK])⟩
  have hu : CostIs exK.input (fun _ : Fin 1 => 1 / 10) := ⟨fun _ => by norm_num, Or.inl ⟨1 / 10, by norm_num, rfl, fun _ => rfl⟩⟩
  have h : ∀ i, trajectory exK.A exK.B (fun _ => 0) (fun _ _ => 0) i = 0 := by
    intro i
    induction i with
    | zero => rfl
    | succ i ih =>
      rw [trajectory, ih, Matrix.mulVec_zero, zero_add]
      exact Matrix.mulVec_zero _
  have hw : WithinBounds exK.A exK.B exK.C exK.horizon exK.stateBounds exK.inputBounds (fun _ => 0) (fun _ _ => 0) := by
    constructor
    · intro b hb i _ r
      rw [h]
      simp only [exK, Option.mem_def, Option.some.injEq] at hb
      subst hb
      fin_cases r
      simp
    · intro b hb i _ r
      simp only [exK, Option.mem_def, Option.some.injEq] at hb
      subst hb
      fin_cases r
      simp
  have ex := fun ref h1 h2 => C39_exists exK (by simp [exK]) ⟨by simp [exK], by simp [exK]⟩ hr ht hu ⟨0, by norm_num⟩ (fun _ => by norm_num) 2 0 (fun _ => 0) ref h1 h2 ⟨fun _ _ => 0, hw⟩
  obtain ⟨o1, h1⟩ := ex [(2, fun _ => 1), (4, fun _ => 1), (6, fun _ => 2)] rfl rfl
  obtain ⟨o2, h2⟩ := ex [(2, fun _ => 1), (4, fun _ => 3), (6, fun _ => 2)] rfl rfl
  exact ⟨o1, o2, h1, h2, hr, ht, hu⟩

end Verif.Mpc
