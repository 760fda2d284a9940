import Verif.Dyn.LinearProps
/-!
# C73: controlled predictions at regularly spaced time values

The code ignores the spacing of the time values (`C73_violated`).  Here is the part that holds: time values that are spaced by the interval of the model.
-/
namespace Verif.Dyn

open Matrix Verif.Tsc

variable {ι κ R : Type} [Fintype ι] [DecidableEq ι] [Fintype κ] [CommRing R]

/-- **C73** (partial: the time values are spaced by the interval `dt` of the model; otherwise see `C73_violated`).  Every reported time is `t0 + k dt` with
the state after `k` steps, `A^k x + Σ_{j<k} A^(k-1-j) B u_j`, and every such time up to the length of the control input is reported. -/
theorem C73_regular_partial (A : Matrix ι ι R) (B : Matrix ι κ R) (X : List (Row Int (ι → R))) (U : List (Row Int (κ → R)))
    (hX : X ≠ []) (hXU : X.map (·.id) = ids U) (hUv : Valid U) (hUa : IdsAscending U) (hsame : isSameTimeValues U = true)
    (t0 dt : Int) (hdt : 0 < dt) (hXt : ∀ r ∈ X, r.time = t0) (hUt : (timeValues U).head? = some t0)
    (n : Nat) (hn : ∀ i, HasId U i → (vals U i).length = n) :
    ∃ d, predictControlled A B X U ((List.range (n + 1)).map (fun k : Nat => t0 + k * dt)) = .ok d ∧ (∀ i, HasId d i ↔ HasId X i) ∧
      ∀ r ∈ X, ∀ (t : Int) (v : ι → R), (t, v) ∈ content d r.id ↔
        ∃ k : Nat, k ≤ n ∧ t = t0 + k * dt ∧
          v = (A ^ k) *ᵥ r.val + ∑ j ∈ Finset.range k, (A ^ (k - 1 - j)) *ᵥ (B *ᵥ (vals U r.id).getD j 0) := by
  have hcons : (List.range (n + 1)).map (fun k : Nat => t0 + k * dt) = t0 :: (List.range n).map (fun k : Nat => t0 + (k + 1 : Nat) * dt) := by
    rw [List.range_succ_eq_map]
    simp [List.map_map, Function.comp_def]
  have hinc : ((List.range (n + 1)).map (fun k : Nat => t0 + k * dt)).Pairwise (· < ·) := by
    rw [List.pairwise_map]
    refine List.pairwise_lt_range.imp ?_
    intro a b hab
    have : (a : Int) < b := by exact_mod_cast hab
    nlinarith
  rw [hcons] at hinc
  obtain ⟨d, hd, -, hid, hc⟩ := C28_controlled A B X U hX hXU hUv hUa hsame t0 hXt hUt n hn t0 _ hinc (by simp)
  rw [← hcons] at hd
  refine ⟨d, hd, hid, ?_⟩
  intro r hr t v
  rw [hc r hr, ← hcons, List.zip_map', List.mem_map]
  constructor
  · rintro ⟨k, hk, h⟩
    have h := Prod.mk.inj h
    exact ⟨k, by simpa [Nat.lt_succ_iff] using hk, h.1.symm, by rw [← h.2]; rfl⟩
  · rintro ⟨k, hk, rfl, rfl⟩
    exact ⟨k, by simpa [Nat.lt_succ_iff] using hk, rfl⟩

/-- The hypotheses are met by two initial conditions with two control states each. -/
example : ∃ d, predictControlled (2 : Matrix (Fin 1) (Fin 1) Int) (1 : Matrix (Fin 1) (Fin 1) Int) [⟨0, 5, ![1]⟩, ⟨3, 5, ![2]⟩]
    [⟨0, 5, ![1]⟩, ⟨0, 7, ![0]⟩, ⟨3, 5, ![4]⟩, ⟨3, 7, ![1]⟩] ((List.range 3).map (fun k : Nat => (5 : Int) + k * 2)) = .ok d ∧
    (9, ![17]) ∈ content d 3 := by
  obtain ⟨d, hd, -, hc⟩ := C73_regular_partial (2 : Matrix (Fin 1) (Fin 1) Int) (1 : Matrix (Fin 1) (Fin 1) Int) [⟨0, 5, ![1]⟩, ⟨3, 5, ![2]⟩]
    [⟨0, 5, ![1]⟩, ⟨0, 7, ![0]⟩, ⟨3, 5, ![4]⟩, ⟨3, 7, ![1]⟩] (by simp) (by decide +kernel)
    (by rw [valid_iff]; exact ⟨by decide, by unfold Before; decide +kernel⟩) (by unfold IdsAscending; decide +kernel) (by decide +kernel)
    5 2 (by decide) (by decide +kernel) (by decide +kernel) 2
    (by intro i hi; have h := mem_ids.2 hi; clear hi; revert i; decide +kernel)
  refine ⟨d, hd, ?_⟩
  rw [hc ⟨3, 5, ![2]⟩ (by simp)]
  exact ⟨2, le_rfl, by norm_num, by decide +kernel⟩

end Verif.Dyn
