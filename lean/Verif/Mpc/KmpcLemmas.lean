import Verif.Mpc.Kmpc
import Mathlib.Tactic.Linarith
import Mathlib.Tactic.Ring
import Mathlib.Algebra.BigOperators.Fin
/-! # Lemmas about the matrices of `KMPC` -/

namespace Verif.Mpc

open Matrix

variable {ν : Type} [Fintype ν] {nq nu : Nat}

theorem iter_mul {κ : Type} [Fintype κ] [DecidableEq ν] (A : Matrix ν ν ℝ) (X : Matrix ν κ ℝ) (i : Nat) : (A * ·)^[i] X = A ^ i * X := by
  induction i with
  | zero => simp
  | succ i ih => rw [Function.iterate_succ_apply', ih, pow_succ', Matrix.mul_assoc]

theorem evolutionA_eq [DecidableEq ν] (C : Matrix (Fin nq) ν ℝ) (A : Matrix ν ν ℝ) (i : Nat) : evolutionA C A i = C * A ^ (i + 1) := by
  unfold evolutionA; rw [iter_mul, pow_succ]

theorem inner_loop (M : Nat → Nat → Matrix (Fin nq) (Fin nu) ℝ) (X : Matrix (Fin nq) (Fin nu) ℝ) (i t : Nat) :
    (List.range t).foldl (fun M k => writeBlock M (i + k) k X) M = fun j k => if j = i + k ∧ k < t then X else M j k := by
  induction t with
  | zero => funext j k; simp
  | succ t ih =>
    rw [List.range_succ, List.foldl_append, ih]
    funext j k
    simp only [List.foldl_cons, List.foldl_nil, writeBlock]
    by_cases h1 : j = i + t ∧ k = t
    · rw [if_pos h1, if_pos (by omega)]
    · rw [if_neg h1]
      by_cases h2 : j = i + k ∧ k < t
      · rw [if_pos h2, if_pos (by omega)]
      · rw [if_neg h2, if_neg (by omega)]

theorem outer_loop [DecidableEq ν] (C : Matrix (Fin nq) ν ℝ) (A : Matrix ν ν ℝ) (B : Matrix ν (Fin nu) ℝ) (horizon p : Nat) :
    (List.range p).foldl (fun (s : (Nat → Nat → Matrix (Fin nq) (Fin nu) ℝ) × Matrix ν (Fin nu) ℝ) i =>
      ((List.range (horizon - i)).foldl (fun M k => writeBlock M (i + k) k (C * s.2)) s.1, A * s.2)) (fun _ _ => 0, B) =
    (fun j k => if k ≤ j ∧ j < horizon ∧ j - k < p then C * (A ^ (j - k) * B) else 0, A ^ p * B) := by
  induction p with
  | zero => simp
  | succ p ih =>
    rw [List.range_succ, List.foldl_append, ih]
    simp only [List.foldl_cons, List.foldl_nil]
    refine Prod.ext ?_ ?_
    · simp only
      rw [inner_loop]
      funext j k
      by_cases h1 : j = p + k ∧ k < horizon - p
      · rw [if_pos h1, if_pos (by omega)]
        have : j - k = p := by omega
        rw [this]
      · rw [if_neg h1]
        by_cases h2 : k ≤ j ∧ j < horizon ∧ j - k < p
        · rw [if_pos h2, if_pos (by omega)]
        · rw [if_neg h2, if_neg (by omega)]
    · simp only
      rw [pow_succ', Matrix.mul_assoc]

theorem evolutionB_eq [DecidableEq ν] (C : Matrix (Fin nq) ν ℝ) (A : Matrix ν ν ℝ) (B : Matrix ν (Fin nu) ℝ) (horizon j k : Nat) :
    evolutionB C A B horizon j k = if k ≤ j ∧ j < horizon then C * (A ^ (j - k) * B) else 0 := by
  unfold evolutionB
  rw [outer_loop]
  simp only
  by_cases h : k ≤ j ∧ j < horizon
  · rw [if_pos h, if_pos (by omega)]
  · rw [if_neg h, if_neg (by omega)]

theorem tile_length {α : Type} (l : List α) (n : Nat) : (tile l n).length = n * l.length := by
  simp [tile, List.length_flatten]

theorem tile_succ {α : Type} (l : List α) (n : Nat) : tile l (n + 1) = l ++ tile l n := by
  simp [tile, List.replicate_succ]

theorem tile_getD {α : Type} (l : List α) (n i r : Nat) (d : α) (hi : i < n) (hr : r < l.length) : (tile l n).getD (i * l.length + r) d = l.getD r d := by
  induction n generalizing i with
  | zero => omega
  | succ n ih =>
    rw [tile_succ]
    cases i with
    | zero => simp [List.getD_eq_getElem?_getD, List.getElem?_append_left hr]
    | succ i =>
      have h := ih i (by omega)
      rw [List.getD_eq_getElem?_getD] at h ⊢
      rw [List.getElem?_append_right (by rw [Nat.succ_mul]; omega)]
      have : (i + 1) * l.length + r - l.length = i * l.length + r := by rw [Nat.succ_mul]; omega
      rw [this, h]

/-- Tracking cost as a sum, completion of the square. -/
theorem objective_sum {α κ : Type} [Fintype α] [Fintype κ] [DecidableEq α] [DecidableEq κ] (Ab : Matrix α ν ℝ) (Bb : Matrix α κ ℝ) (w : α → ℝ) (v : κ → ℝ)
    (z : ν → ℝ) (ref : α → ℝ) (U : κ → ℝ) :
    1 / 2 * (U ⬝ᵥ (((2 : ℝ) • (Bbᵀ * diagonal w)) * Bb + (2 : ℝ) • diagonal v) *ᵥ U) +
      ((((2 : ℝ) • (Bbᵀ * diagonal w)) * Ab) *ᵥ z - ((2 : ℝ) • (Bbᵀ * diagonal w)) *ᵥ ref) ⬝ᵥ U =
    ∑ p, w p * ((Ab *ᵥ z + Bb *ᵥ U) p - ref p) ^ 2 + ∑ c, v c * U c ^ 2 - ∑ p, w p * ((Ab *ᵥ z) p - ref p) ^ 2 := by
  have h1 : U ⬝ᵥ (((2 : ℝ) • (Bbᵀ * diagonal w)) * Bb) *ᵥ U = 2 * ∑ p, w p * (Bb *ᵥ U) p ^ 2 := by
    rw [Matrix.smul_mul, Matrix.smul_mulVec, dotProduct_smul, smul_eq_mul, Matrix.mul_assoc, ← Matrix.mulVec_mulVec, ← Matrix.mulVec_mulVec, dotProduct_mulVec,
      vecMul_transpose]
    congr 1
    simp only [dotProduct, mulVec_diagonal]
    exact Finset.sum_congr rfl fun p _ => by ring
  have h2 : U ⬝ᵥ ((2 : ℝ) • diagonal v) *ᵥ U = 2 * ∑ c, v c * U c ^ 2 := by
    rw [Matrix.smul_mulVec, dotProduct_smul, smul_eq_mul]
    congr 1
    simp only [dotProduct, mulVec_diagonal]
    exact Finset.sum_congr rfl fun p _ => by ring
  have h3 : ((((2 : ℝ) • (Bbᵀ * diagonal w)) * Ab) *ᵥ z - ((2 : ℝ) • (Bbᵀ * diagonal w)) *ᵥ ref) ⬝ᵥ U =
      2 * ∑ p, w p * ((Ab *ᵥ z) p - ref p) * (Bb *ᵥ U) p := by
    rw [← Matrix.mulVec_mulVec, ← Matrix.mulVec_sub, Matrix.smul_mulVec, smul_dotProduct, smul_eq_mul, dotProduct_comm, ← Matrix.mulVec_mulVec, dotProduct_mulVec,
      vecMul_transpose]
    congr 1
    simp only [dotProduct, mulVec_diagonal, Pi.sub_apply]
    exact Finset.sum_congr rfl fun p _ => by ring
  rw [Matrix.add_mulVec, dotProduct_add, h1, h2, h3]
  have h4 : ∑ p, w p * ((Ab *ᵥ z + Bb *ᵥ U) p - ref p) ^ 2 =
      ∑ p, w p * ((Ab *ᵥ z) p - ref p) ^ 2 + 2 * ∑ p, w p * ((Ab *ᵥ z) p - ref p) * (Bb *ᵥ U) p + ∑ p, w p * (Bb *ᵥ U) p ^ 2 := by
    rw [Finset.mul_sum, ← Finset.sum_add_distrib, ← Finset.sum_add_distrib]
    exact Finset.sum_congr rfl fun p _ => by rw [Pi.add_apply]; ring
  rw [h4]
  ring

end Verif.Mpc
