import Mathlib.Analysis.InnerProductSpace.PiL2
import Mathlib.Algebra.Order.Floor.Ring
import Verif.Utils.Mesh
import Verif.Tsc.IcProps
/-!
# Properties of `generate_2d_regular_mesh`, `is_symmetric_matrix` and `assert_equal_eigenvectors` (C198)
-/

namespace Verif.Utils
open scoped BigOperators

/-- Specification: the `i`-th of `n` equally spaced values from `a` to `b`. -/
noncomputable def gridValue (a b : ℝ) (n i : Nat) : ℝ := if n ≤ 1 then a else a + (b - a) * (i / (n - 1 : Nat))

theorem linspace_ok (a b : ℝ) (n : Nat) : linspace a b n = .ok ((List.range n).map (gridValue a b n)) := by
  unfold linspace
  rw [if_neg (by omega)]
  congr 1
  simp only [Int.toNat_natCast]
  apply List.map_congr_left
  intro i hi
  have hi := List.mem_range.1 hi
  unfold gridValue
  by_cases h1 : n = 1
  · subst h1; simp
  · rw [if_neg (by omega), if_neg (by omega), Nat.cast_sub (by omega)]
    push_cast
    ring

theorem gridValue_inj {a b : ℝ} (h : a ≠ b) {n i j : Nat} (hi : i < n) (hj : j < n) (he : gridValue a b n i = gridValue a b n j) : i = j := by
  unfold gridValue at he
  by_cases h1 : n ≤ 1
  · omega
  · rw [if_neg h1, if_neg h1] at he
    have hn : ((n - 1 : Nat) : ℝ) ≠ 0 := Nat.cast_ne_zero.2 (by omega)
    have := mul_left_cancel₀ (sub_ne_zero.2 h.symm) (add_left_cancel he)
    rw [div_left_inj' hn] at this
    exact_mod_cast this

theorem mem_meshgrid {xs ys : List ℝ} {p : ℝ × ℝ} : p ∈ meshgrid xs ys ↔ p.1 ∈ xs ∧ p.2 ∈ ys := by
  unfold meshgrid
  simp only [List.mem_flatMap, List.mem_map]
  constructor
  · rintro ⟨y, hy, x, hx, rfl⟩; exact ⟨hx, hy⟩
  · rintro ⟨hx, hy⟩; exact ⟨p.2, hy, p.1, hx, rfl⟩

theorem regularMesh_ok (low high : ℝ × ℝ) (nx ny : Nat) :
    regularMesh low high nx ny = .ok (meshgrid ((List.range nx).map (gridValue low.1 high.1 nx)) ((List.range ny).map (gridValue low.2 high.2 ny))) := by
  unfold regularMesh
  rw [linspace_ok, linspace_ok]

theorem meshgrid_length (xs ys : List ℝ) : (meshgrid xs ys).length = xs.length * ys.length := by
  unfold meshgrid
  simp [List.length_flatMap, mul_comm]

theorem meshgrid_getElem? (xs ys : List ℝ) (i j : Nat) (hi : i < xs.length) (hj : j < ys.length) : (meshgrid xs ys)[j * xs.length + i]? = some (xs[i], ys[j]) := by
  unfold meshgrid
  induction ys generalizing j with
  | nil => simp at hj
  | cons y ys ih =>
    rw [List.flatMap_cons]
    cases j with
    | zero =>
      rw [List.getElem?_append_left (by simpa using hi)]
      simp [hi]
    | succ j =>
      rw [List.getElem?_append_right (by simp [add_mul]; omega)]
      simp only [List.length_map]
      rw [show (j + 1) * xs.length + i - xs.length = j * xs.length + i by rw [add_mul, one_mul]; omega]
      rw [ih j (by simpa using hj)]
      simp

/-- **C198 (mesh).** For non-negative numbers of values the mesh has `nx * ny` points; the point at position `j * nx + i` has the `i`-th of `nx` equally spaced first and the `j`-th of `ny` equally spaced
second coordinates. These are all points, and if both sides of the box have a length, no point occurs twice. A negative number raises. -/
theorem C198_mesh (low high : ℝ × ℝ) (nx ny : Int) :
    ((∃ X, regularMesh low high nx ny = .ok X) ↔ 0 ≤ nx ∧ 0 ≤ ny) ∧
    ∀ X, regularMesh low high nx ny = .ok X →
      X.length = nx.toNat * ny.toNat ∧
      (∀ i j, i < nx.toNat → j < ny.toNat → X[j * nx.toNat + i]? = some (gridValue low.1 high.1 nx.toNat i, gridValue low.2 high.2 ny.toNat j)) ∧
      (low.1 ≠ high.1 → low.2 ≠ high.2 → X.Nodup) := by
  by_cases hx : 0 ≤ nx
  swap
  · unfold regularMesh linspace
    rw [if_pos (by omega)]
    simp [hx]
  by_cases hy : 0 ≤ ny
  swap
  · unfold regularMesh linspace
    rw [if_neg (by omega), if_pos (by omega)]
    simp [hy]
  obtain ⟨nx, rfl⟩ := Int.eq_ofNat_of_zero_le hx
  obtain ⟨ny, rfl⟩ := Int.eq_ofNat_of_zero_le hy
  rw [regularMesh_ok]
  refine ⟨⟨fun _ => ⟨hx, hy⟩, fun _ => ⟨_, rfl⟩⟩, ?_⟩
  intro X hX
  cases hX
  simp only [Int.toNat_natCast]
  refine ⟨by rw [meshgrid_length]; simp, ?_, ?_⟩
  · intro i j hi hj
    have := meshgrid_getElem? ((List.range nx).map (gridValue low.1 high.1 nx)) ((List.range ny).map (gridValue low.2 high.2 ny)) i j (by simpa using hi) (by simpa using hj)
    simpa using this
  · intro h1 h2
    unfold meshgrid
    have hxs : ((List.range nx).map (gridValue low.1 high.1 nx)).Nodup :=
      List.Nodup.map_on (fun i hi j hj h => gridValue_inj h1 (List.mem_range.1 hi) (List.mem_range.1 hj) h) List.nodup_range
    have hys : ((List.range ny).map (gridValue low.2 high.2 ny)).Nodup :=
      List.Nodup.map_on (fun i hi j hj h => gridValue_inj h2 (List.mem_range.1 hi) (List.mem_range.1 hj) h) List.nodup_range
    refine List.nodup_flatMap.2 ⟨fun y _ => hxs.map (fun a b h => (Prod.mk.inj h).1), ?_⟩
    refine hys.imp (fun {y y'} hne => ?_)
    intro p hp hp'
    simp only [List.mem_map] at hp hp'
    obtain ⟨x, -, rfl⟩ := hp
    obtain ⟨x', -, h⟩ := hp'
    exact hne (Prod.mk.inj h).2.symm

theorem gridValue_mem_Icc {a b : ℝ} (h : a ≤ b) {n i : Nat} (hi : i < n) : a ≤ gridValue a b n i ∧ gridValue a b n i ≤ b := by
  unfold gridValue
  by_cases h1 : n ≤ 1
  · rw [if_pos h1]; exact ⟨le_refl _, h⟩
  · rw [if_neg h1]
    have hpos : (0 : ℝ) < (n - 1 : Nat) := Nat.cast_pos.2 (by omega)
    have h0 : 0 ≤ (i : ℝ) / (n - 1 : Nat) := by positivity
    have h1 : (i : ℝ) / (n - 1 : Nat) ≤ 1 := by
      rw [div_le_one hpos]
      exact_mod_cast (by omega : i ≤ n - 1)
    constructor <;> nlinarith [sub_nonneg.2 h]

theorem gridValue_cover {a b : ℝ} {n : Nat} (hn : 2 ≤ n) {x : ℝ} (hax : a ≤ x) (hxb : x ≤ b) :
    ∃ i < n, |x - gridValue a b n i| ≤ (b - a) / (n - 1 : Nat) / 2 := by
  have hpos : (0 : ℝ) < (n - 1 : Nat) := Nat.cast_pos.2 (by omega)
  rcases (hax.trans hxb).eq_or_lt with hab | hab
  · refine ⟨0, by omega, ?_⟩
    unfold gridValue
    rw [if_neg (by omega)]
    have : x = a := le_antisymm (hab ▸ hxb) hax
    subst this
    subst hab
    simp
  set s := (b - a) / (n - 1 : Nat) with hs
  have hspos : 0 < s := div_pos (sub_pos.2 hab) hpos
  set r := (x - a) / s with hr
  have hr0 : 0 ≤ r := div_nonneg (sub_nonneg.2 hax) hspos.le
  have hr1 : r ≤ (n - 1 : Nat) := by
    rw [hr, div_le_iff₀ hspos, hs, mul_div_cancel₀ _ hpos.ne']
    linarith
  have hround : |r - round r| ≤ 1 / 2 := abs_sub_round r
  have hk0 : 0 ≤ round r := by
    rw [round_eq]
    exact Int.floor_nonneg.2 (by linarith)
  obtain ⟨k, hk⟩ := Int.eq_ofNat_of_zero_le hk0
  have hkle : k ≤ n - 1 := by
    by_contra hcon
    have : ((n - 1 : Nat) : ℝ) + 1 ≤ (k : ℝ) := by exact_mod_cast (by omega : (n - 1) + 1 ≤ k)
    rw [hk] at hround
    simp only [Int.cast_natCast] at hround
    have := (abs_le.1 hround).1
    linarith
  refine ⟨k, by omega, ?_⟩
  have hg : gridValue a b n k = a + k * s := by
    unfold gridValue
    rw [if_neg (by omega), hs]
    ring
  have hx : x = a + r * s := by rw [hr, div_mul_cancel₀ _ hspos.ne']; ring
  rw [hg, hx, show a + r * s - (a + k * s) = (r - k) * s by ring, abs_mul, abs_of_pos hspos]
  rw [hk] at hround
  simp only [Int.cast_natCast] at hround
  nlinarith

/-- **C198 (box).** Every point of the mesh lies in the box. With at least two values per axis the four corners are points of the mesh, and every point of the box has a point of the mesh at most half a spacing
away on each axis. -/
theorem C198_box_partial (low high : ℝ × ℝ) (h1 : low.1 ≤ high.1) (h2 : low.2 ≤ high.2) (nx ny : Int) {X : List (ℝ × ℝ)} (hX : regularMesh low high nx ny = .ok X) :
    (∀ p ∈ X, low.1 ≤ p.1 ∧ p.1 ≤ high.1 ∧ low.2 ≤ p.2 ∧ p.2 ≤ high.2) ∧
    (2 ≤ nx → 2 ≤ ny → (low ∈ X ∧ high ∈ X ∧ (low.1, high.2) ∈ X ∧ (high.1, low.2) ∈ X) ∧
      ∀ p : ℝ × ℝ, low.1 ≤ p.1 → p.1 ≤ high.1 → low.2 ≤ p.2 → p.2 ≤ high.2 →
        ∃ q ∈ X, |p.1 - q.1| ≤ (high.1 - low.1) / (nx - 1) / 2 ∧ |p.2 - q.2| ≤ (high.2 - low.2) / (ny - 1) / 2) := by
  obtain ⟨hx, hy⟩ := (C198_mesh low high nx ny).1.1 ⟨X, hX⟩
  obtain ⟨nx, rfl⟩ := Int.eq_ofNat_of_zero_le hx
  obtain ⟨ny, rfl⟩ := Int.eq_ofNat_of_zero_le hy
  rw [regularMesh_ok] at hX
  cases hX
  constructor
  · intro p hp
    obtain ⟨hp1, hp2⟩ := mem_meshgrid.1 hp
    obtain ⟨i, hi, hi'⟩ := List.mem_map.1 hp1
    obtain ⟨j, hj, hj'⟩ := List.mem_map.1 hp2
    rw [← hi', ← hj']
    have a := gridValue_mem_Icc h1 (List.mem_range.1 hi)
    have b := gridValue_mem_Icc h2 (List.mem_range.1 hj)
    exact ⟨a.1, a.2, b.1, b.2⟩
  · intro hnx hny
    have hnx : 2 ≤ nx := by exact_mod_cast hnx
    have hny : 2 ≤ ny := by exact_mod_cast hny
    have hlo : ∀ (a b : ℝ) {n : Nat}, 2 ≤ n → a ∈ (List.range n).map (gridValue a b n) := by
      intro a b n hn
      refine List.mem_map.2 ⟨0, List.mem_range.2 (by omega), ?_⟩
      unfold gridValue
      split_ifs <;> simp
    have hhi : ∀ (a b : ℝ) {n : Nat}, 2 ≤ n → b ∈ (List.range n).map (gridValue a b n) := by
      intro a b n hn
      refine List.mem_map.2 ⟨n - 1, List.mem_range.2 (by omega), ?_⟩
      unfold gridValue
      rw [if_neg (by omega), div_self (Nat.cast_ne_zero.2 (by omega))]
      ring
    refine ⟨⟨mem_meshgrid.2 ⟨hlo _ _ hnx, hlo _ _ hny⟩, mem_meshgrid.2 ⟨hhi _ _ hnx, hhi _ _ hny⟩, mem_meshgrid.2 ⟨hlo _ _ hnx, hhi _ _ hny⟩, mem_meshgrid.2 ⟨hhi _ _ hnx, hlo _ _ hny⟩⟩, ?_⟩
    intro p a b c d
    obtain ⟨i, hi, hi'⟩ := gridValue_cover hnx a b
    obtain ⟨j, hj, hj'⟩ := gridValue_cover hny c d
    refine ⟨(gridValue low.1 high.1 nx i, gridValue low.2 high.2 ny j), mem_meshgrid.2 ⟨List.mem_map.2 ⟨i, List.mem_range.2 hi, rfl⟩, List.mem_map.2 ⟨j, List.mem_range.2 hj, rfl⟩⟩, ?_⟩
    rw [Nat.cast_sub (by omega)] at hi' hj'
    rw [Nat.cast_one] at hi' hj'
    rw [Int.cast_natCast, Int.cast_natCast]
    exact ⟨hi', hj'⟩

/-- **C198 violated (one value).** With one value on an axis the mesh lies on the lower side of the box: no point is on the upper side, and the middle of the box is half its side away. -/
theorem C198_one_value_violated (low high : ℝ × ℝ) (h1 : low.1 < high.1) (ny : Int) {X : List (ℝ × ℝ)} (hX : regularMesh low high 1 ny = .ok X) :
    (∀ p ∈ X, p.1 = low.1) ∧ high ∉ X := by
  obtain ⟨-, hy⟩ := (C198_mesh low high 1 ny).1.1 ⟨X, hX⟩
  obtain ⟨ny, rfl⟩ := Int.eq_ofNat_of_zero_le hy
  have := regularMesh_ok low high 1 ny
  simp only [Nat.cast_one] at this
  rw [this] at hX
  cases hX
  have hall : ∀ p ∈ meshgrid ((List.range 1).map (gridValue low.1 high.1 1)) ((List.range ny).map (gridValue low.2 high.2 ny)), p.1 = low.1 := by
    intro p hp
    have := (mem_meshgrid.1 hp).1
    simpa [gridValue] using this
  exact ⟨hall, fun h => h1.ne' (hall _ h)⟩

example : ∃ X, regularMesh (-1, -1) (1, 1) 3 2 = .ok X ∧ X.length = 6 ∧ X[4]? = some (0, 1) := by
  obtain ⟨X, hX⟩ := (C198_mesh (-1, -1) (1, 1) 3 2).1.2 ⟨by norm_num, by norm_num⟩
  obtain ⟨h1, h2, -⟩ := (C198_mesh (-1, -1) (1, 1) 3 2).2 X hX
  refine ⟨X, hX, h1, ?_⟩
  have := h2 1 1 (by decide) (by decide)
  rw [show (1 * (3 : Int).toNat + 1) = 4 by decide] at this
  rw [this]
  rw [show (3 : Int).toNat = 3 from rfl, show (2 : Int).toNat = 2 from rfl]
  norm_num [gridValue]

/-- **C198 (initial conditions).** With feature names the mesh is a collection of initial conditions: it exists iff both numbers are positive, and has one series per point, numbered from zero in the order of the mesh,
each with that point at the time value zero. -/
theorem C198_initial_conditions (low high : ℝ × ℝ) (nx ny : Int) :
    ((∃ c, regularMeshIc low high nx ny = .ok c) ↔ 0 < nx ∧ 0 < ny) ∧
    ∀ c, regularMeshIc low high nx ny = .ok c → Tsc.Valid c ∧
      ∃ X, regularMesh low high nx ny = .ok X ∧ Tsc.newIds (c.map (·.id)) = List.range X.length ∧
        (List.range X.length).map (Tsc.content c) = X.map (fun x => [(0, x)]) := by
  unfold regularMeshIc
  have hm := C198_mesh low high nx ny
  cases hX : regularMesh low high nx ny with
  | error e =>
    refine ⟨⟨fun ⟨c, hc⟩ => by simp at hc, fun h => ?_⟩, fun c hc => by simp at hc⟩
    obtain ⟨X, hX'⟩ := hm.1.2 ⟨h.1.le, h.2.le⟩
    rw [hX] at hX'
    simp at hX'
  | ok X =>
    have hn := hm.1.1 ⟨X, hX⟩
    have hlen := (hm.2 X hX).1
    by_cases hne : X = []
    · subst hne
      have hz : ¬ (0 < nx ∧ 0 < ny) := by
        rintro ⟨a, b⟩
        simp only [List.length_nil] at hlen
        have := Nat.mul_pos (Int.pos_iff_toNat_pos.1 a) (Int.pos_iff_toNat_pos.1 b)
        omega
      have : ∃ e, Tsc.icFromArray .int (fun _ : ℝ × ℝ => true) 2 [] 0 none = .error e := ⟨_, rfl⟩
      obtain ⟨e, he⟩ := this
      simp only [he]
      exact ⟨⟨fun ⟨c, hc⟩ => by simp at hc, fun h => absurd h hz⟩, fun c hc => by simp at hc⟩
    · have hpos : 0 < nx ∧ 0 < ny := by
        have : 0 < nx.toNat * ny.toNat := hlen ▸ List.length_pos_iff.2 hne
        have ha : 0 < nx.toNat := Nat.pos_of_ne_zero (fun h => by rw [h, zero_mul] at this; omega)
        have hb : 0 < ny.toNat := Nat.pos_of_ne_zero (fun h => by rw [h, mul_zero] at this; omega)
        omega
      have hia := Tsc.C127_from_array (fun _ : ℝ × ℝ => true) (nCols := 2) (by norm_num) hne 0 none
      obtain ⟨c, hc⟩ := hia.1.2 ⟨le_refl _, by simp, by simp⟩
      simp only [hc]
      refine ⟨⟨fun _ => hpos, fun _ => ⟨c, rfl⟩⟩, ?_⟩
      intro c' hc'
      cases hc'
      obtain ⟨a, b, d⟩ := hia.2 c hc
      simp only [Option.getD_none] at b
      rw [b] at d
      exact ⟨a, X, rfl, b, d⟩

/-- **C198 (symmetric).** `is_symmetric_matrix` returns for square matrices that are not empty, and says true iff corresponding entries differ by at most the tolerance; other matrices raise. -/
theorem C198_symmetric {m n : Nat} (M : Matrix (Fin m) (Fin n) ℝ) (tol : ℝ) :
    ((∃ b, isSymmetricMatrix M tol = .ok b) ↔ m = n ∧ 0 < n) ∧
    (∀ h : m = n, isSymmetricMatrix M tol = .ok true ↔ 0 < n ∧ ∀ i j, |M i (Fin.cast h j) - M j (Fin.cast h i)| ≤ tol) := by
  unfold isSymmetricMatrix
  by_cases h : m = n
  swap
  · rw [dif_neg h]
    exact ⟨⟨fun ⟨b, hb⟩ => by simp at hb, fun hh => absurd hh.1 h⟩, fun hh => absurd hh h⟩
  subst h
  rw [dif_pos rfl]
  by_cases hm : 0 < m
  swap
  · obtain rfl : m = 0 := by omega
    rw [dif_neg (by simp)]
    simp
  have hne : (Finset.univ : Finset (Fin m × Fin m)).Nonempty := ⟨(⟨0, hm⟩, ⟨0, hm⟩), Finset.mem_univ _⟩
  rw [dif_pos hne]
  refine ⟨⟨fun _ => ⟨rfl, hm⟩, fun _ => ⟨_, rfl⟩⟩, fun _ => ?_⟩
  simp only [Except.ok.injEq, decide_eq_true_eq, Finset.sup'_le_iff, Finset.mem_univ, true_implies, Prod.forall]
  exact ⟨fun h => ⟨hm, h⟩, fun h => h.2⟩

/-- **C198 (exactly symmetric).** Without a tolerance the answer is true iff the matrix equals its transpose; a negative tolerance makes it false for every matrix. -/
theorem C198_symmetric_exact {n : Nat} (hn : 0 < n) (M : Matrix (Fin n) (Fin n) ℝ) :
    isSymmetricMatrix M 0 = .ok (decide (M.transpose = M)) ∧ ∀ tol < 0, isSymmetricMatrix M tol = .ok false := by
  have key := fun tol => C198_symmetric M tol
  constructor
  · obtain ⟨b, hb⟩ := (key 0).1.2 ⟨rfl, hn⟩
    rw [hb]
    congr 1
    have := (key 0).2 rfl
    rw [hb] at this
    have hiff : b = true ↔ M.transpose = M := by
      constructor
      · intro h
        subst h
        ext i j
        have := (this.1 rfl).2 j i
        simp only [Fin.cast_eq_self] at this
        simpa [sub_eq_zero] using this
      · intro h
        have hc := this.2 ⟨hn, fun i j => by
          have := congrFun (congrFun h j) i
          simp only [Matrix.transpose_apply] at this
          simp [this]⟩
        simpa using hc
    cases b <;> simp at hiff <;> simp [hiff]
  · intro tol ht
    obtain ⟨b, hb⟩ := (key tol).1.2 ⟨rfl, hn⟩
    cases b with
    | false => exact hb
    | true =>
      have := (((key tol).2 rfl).1 hb).2 ⟨0, hn⟩ ⟨0, hn⟩
      simp only [Fin.cast_eq_self, sub_self, abs_zero] at this
      linarith

example : isSymmetricMatrix (m := 2) (n := 2) (Matrix.of ![![1, 2], ![3, 4]]) 1 = .ok true ∧ ¬ isSymmetricMatrix (m := 2) (n := 2) (Matrix.of ![![1, 2], ![3, 4]]) (1 / 2) = .ok true := by
  rw [(C198_symmetric _ _).2 rfl, (C198_symmetric _ _).2 rfl]
  constructor
  · refine ⟨by norm_num, ?_⟩
    intro i j
    fin_cases i <;> fin_cases j <;> simp <;> norm_num
  · rintro ⟨-, h⟩
    have := h 0 1
    simp at this
    norm_num at this

/-- Column `j` of a matrix as a vector with the usual norm. -/
noncomputable def colVec {m p : Nat} (A : Matrix (Fin m) (Fin p) ℂ) (j : Fin p) : EuclideanSpace ℂ (Fin m) := WithLp.toLp 2 (fun i => A i j)

theorem colNorm_eq {m p : Nat} (A : Matrix (Fin m) (Fin p) ℂ) (j : Fin p) : colNorm A j = ‖colVec A j‖ := by
  unfold colNorm colVec
  rw [EuclideanSpace.norm_eq]

theorem columnAngle_inner {m p q : Nat} (A : Matrix (Fin m) (Fin p) ℂ) (B : Matrix (Fin m) (Fin q) ℂ) (j : Fin p) (k : Fin q) :
    (A.conjTranspose * B) j k = inner ℂ (colVec A j) (colVec B k) := by
  simp [Matrix.mul_apply, colVec, PiLp.inner_apply, mul_comm]

theorem closeToOne_zero {m p q : Nat} (A : Matrix (Fin m) (Fin p) ℂ) (B : Matrix (Fin m) (Fin q) ℂ) (j : Fin p) (k : Fin q) :
    closeToOne 0 (columnAngle A B j k) ↔ colVec A j ≠ 0 ∧ ∃ c : ℂ, c ≠ 0 ∧ colVec B k = c • colVec A j := by
  unfold columnAngle
  rw [colNorm_eq, colNorm_eq, columnAngle_inner, ← norm_inner_div_norm_mul_norm_eq_one_iff]
  by_cases h0 : ‖colVec A j‖ * ‖colVec B k‖ = 0
  · rw [if_pos h0]
    rcases mul_eq_zero.1 h0 with h | h <;> simp [closeToOne, h]
  · rw [if_neg h0]
    simp only [closeToOne, abs_nonpos_iff, sub_eq_zero]
    rw [eq_comm, div_eq_mul_inv]
    simp

/-- **C198 (eigenvectors).** Without a tolerance the comparison of equally many columns passes iff no column of the first matrix is zero and every column of the second is a non-zero multiple of the one of the first. -/
theorem C198_eigenvectors_partial {m p : Nat} (A B : Matrix (Fin m) (Fin p) ℂ) :
    equalEigenvectors A B 0 ↔ ∀ j, (∃ i, A i j ≠ 0) ∧ ∃ c : ℂ, c ≠ 0 ∧ ∀ i, B i j = c * A i j := by
  unfold equalEigenvectors
  have key : ∀ j : Fin p, (colVec A j ≠ 0 ∧ ∃ c : ℂ, c ≠ 0 ∧ colVec B j = c • colVec A j) ↔ ((∃ i, A i j ≠ 0) ∧ ∃ c : ℂ, c ≠ 0 ∧ ∀ i, B i j = c * A i j) := by
    intro j
    have e1 : colVec A j = 0 ↔ ∀ i, A i j = 0 := by
      rw [PiLp.ext_iff]; simp [colVec]
    have e2 : ∀ c : ℂ, colVec B j = c • colVec A j ↔ ∀ i, B i j = c * A i j := by
      intro c; rw [PiLp.ext_iff]; simp [colVec]
    simp only [ne_eq, e1, e2, not_forall]
  constructor
  · intro h j
    exact (key j).1 ((closeToOne_zero A B j j).1 (h j j.2 j.2))
  · intro h j h1 h2
    exact (closeToOne_zero A B _ _).2 ((key _).2 (h ⟨j, h1⟩))

/-- The comparison passes for every larger tolerance. -/
theorem C198_eigenvectors_tolerance {m p q : Nat} (A : Matrix (Fin m) (Fin p) ℂ) (B : Matrix (Fin m) (Fin q) ℂ) {s t : ℝ} (hst : s ≤ t) (h : equalEigenvectors A B s) : equalEigenvectors A B t := by
  intro j h1 h2
  have := h j h1 h2
  revert this
  cases columnAngle A B ⟨j, h1⟩ ⟨j, h2⟩ with
  | none => exact id
  | some a => exact fun h => le_trans h hst

/-- **C198 violated (columns).** Columns beyond those of the narrower matrix are not compared: two matrices with different numbers of columns pass, whatever the last columns are. -/
theorem C198_columns_violated {m p r : Nat} (A : Matrix (Fin m) (Fin p) ℂ) (C : Matrix (Fin m) (Fin r) ℂ) (hA : ∀ j, ∃ i, A i j ≠ 0) :
    equalEigenvectors A (Matrix.of (fun i (k : Fin (p + r)) => Fin.append (A i) (C i) k)) 0 := by
  intro j h1 h2
  rw [closeToOne_zero]
  have : (⟨j, h2⟩ : Fin (p + r)) = Fin.castAdd r ⟨j, h1⟩ := rfl
  refine ⟨?_, 1, one_ne_zero, ?_⟩
  · intro h
    obtain ⟨i, hi⟩ := hA ⟨j, h1⟩
    exact hi (by simpa [colVec] using congrArg (fun v : EuclideanSpace ℂ (Fin m) => v i) h)
  · rw [one_smul, PiLp.ext_iff]
    intro i
    simp only [colVec, Matrix.of_apply, this, Fin.append_left]

example : equalEigenvectors (Matrix.of ![![1], ![Complex.I]] : Matrix (Fin 2) (Fin 1) ℂ) (Matrix.of ![![Complex.I], ![-1]]) 0 := by
  rw [C198_eigenvectors_partial]
  intro j
  fin_cases j
  refine ⟨⟨0, by simp⟩, Complex.I, Complex.I_ne_zero, ?_⟩
  intro i
  fin_cases i <;> simp

end Verif.Utils
