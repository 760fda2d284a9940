import Verif.Utils.Density
/-!
# Properties of the density picture (C212)
-/

namespace Verif.Utils

open Verif.Tsc

/-! ## Specification -/

/-- `a` is the smallest and `b` the largest of the values. -/
def IsRange (l : List ℝ) (a b : ℝ) : Prop := a ∈ l ∧ b ∈ l ∧ ∀ x ∈ l, a ≤ x ∧ x ≤ b

/-- The position of line `j` of `n` equally spaced lines from `a` to `b`. -/
noncomputable def gridLine (a b : ℝ) (n j : Nat) : ℝ := if n = 1 then a else a + j * ((b - a) / (n - 1))

/-- The density at a point: the sum over all samples at the time value. -/
noncomputable def densityAt (pdf : ℝ × ℝ → ℝ × ℝ → ℝ) (c : List (Row Int (ℝ × ℝ))) (t : Int) (p : ℝ × ℝ) : ℝ := ((c.filter (fun r => decide (r.time = t))).map (fun r => pdf r.val p)).sum

/-- The entry in row `i` and column `j` of a picture. -/
noncomputable def pixel (P : List (List ℝ)) (i j : Nat) : Option ℝ := P[i]?.bind (fun row => row[j]?)

/-! ## Lemmas -/

lemma foldl_min_spec (xs : List ℝ) : ∀ x, (xs.foldl min x = x ∨ xs.foldl min x ∈ xs) ∧ xs.foldl min x ≤ x ∧ ∀ y ∈ xs, xs.foldl min x ≤ y := by
  induction xs with
  | nil => intro x; simp
  | cons z xs ih =>
    intro x
    obtain ⟨h1, h2, h3⟩ := ih (min x z)
    refine ⟨?_, le_trans h2 (min_le_left _ _), ?_⟩
    · rcases h1 with h1 | h1
      · rcases min_choice x z with hm | hm
        · left; show xs.foldl min (min x z) = x; rw [h1, hm]
        · right; show xs.foldl min (min x z) ∈ z :: xs; rw [h1, hm]; simp
      · right; exact List.mem_cons_of_mem _ h1
    · intro y hy
      rcases List.mem_cons.1 hy with rfl | hy
      · exact le_trans h2 (min_le_right _ _)
      · exact h3 y hy

lemma foldl_max_spec (xs : List ℝ) : ∀ x, (xs.foldl max x = x ∨ xs.foldl max x ∈ xs) ∧ x ≤ xs.foldl max x ∧ ∀ y ∈ xs, y ≤ xs.foldl max x := by
  induction xs with
  | nil => intro x; simp
  | cons z xs ih =>
    intro x
    obtain ⟨h1, h2, h3⟩ := ih (max x z)
    refine ⟨?_, le_trans (le_max_left _ _) h2, ?_⟩
    · rcases h1 with h1 | h1
      · rcases max_choice x z with hm | hm
        · left; show xs.foldl max (max x z) = x; rw [h1, hm]
        · right; show xs.foldl max (max x z) ∈ z :: xs; rw [h1, hm]; simp
      · right; exact List.mem_cons_of_mem _ h1
    · intro y hy
      rcases List.mem_cons.1 hy with rfl | hy
      · exact le_trans (le_max_right _ _) h2
      · exact h3 y hy

lemma range_spec (l : List ℝ) (h : l ≠ []) : IsRange l (minOf l) (maxOf l) := by
  cases l with
  | nil => exact absurd rfl h
  | cons x xs =>
    obtain ⟨a1, a2, a3⟩ := foldl_min_spec xs x
    obtain ⟨b1, b2, b3⟩ := foldl_max_spec xs x
    refine ⟨?_, ?_, ?_⟩
    · rcases a1 with a1 | a1
      · show xs.foldl min x ∈ x :: xs; rw [a1]; simp
      · exact List.mem_cons_of_mem _ a1
    · rcases b1 with b1 | b1
      · show xs.foldl max x ∈ x :: xs; rw [b1]; simp
      · exact List.mem_cons_of_mem _ b1
    · intro y hy
      rcases List.mem_cons.1 hy with rfl | hy
      · exact ⟨a2, b2⟩
      · exact ⟨a3 y hy, b3 y hy⟩

lemma range_unique (l : List ℝ) (a b a' b' : ℝ) (h : IsRange l a b) (h' : IsRange l a' b') : a = a' ∧ b = b' :=
  ⟨le_antisymm (h.2.2 _ h'.1).1 (h'.2.2 _ h.1).1, le_antisymm (h'.2.2 _ h.2.1).2 (h.2.2 _ h'.2.1).2⟩

lemma linspace_nat (a b : ℝ) (n : Nat) : linspace a b n = .ok ((List.range n).map (gridLine a b n)) := by
  unfold linspace
  rw [if_neg (by omega)]
  congr 1
  simp only [Int.toNat_natCast]
  apply List.map_congr_left
  intro i _
  unfold gridLine
  by_cases h : n = 1
  · simp [h]
  · rw [if_neg (by exact_mod_cast h), if_neg h]
    push_cast
    ring

lemma meshgrid_get (xs ys : List ℝ) : ∀ k, k < ys.length * xs.length → ∃ x y, xs[k % xs.length]? = some x ∧ ys[k / xs.length]? = some y ∧ (meshgrid xs ys)[k]? = some (x, y) := by
  induction ys with
  | nil => intro k hk; simp at hk
  | cons y ys ih =>
    intro k hk
    have hpos : 0 < xs.length := by
      by_contra h
      have : xs.length = 0 := by omega
      rw [this] at hk; simp at hk
    have hmesh : meshgrid xs (y :: ys) = xs.map (fun x => (x, y)) ++ meshgrid xs ys := by simp [meshgrid]
    rw [hmesh]
    by_cases h : k < xs.length
    · refine ⟨xs[k], y, ?_, ?_, ?_⟩
      · rw [Nat.mod_eq_of_lt h]; exact List.getElem?_eq_getElem h
      · rw [Nat.div_eq_of_lt h]; rfl
      · rw [List.getElem?_append_left (by simpa using h), List.getElem?_map, List.getElem?_eq_getElem h]; rfl
    · push Not at h
      obtain ⟨x, y', h1, h2, h3⟩ := ih (k - xs.length) (by
        rw [List.length_cons, Nat.add_mul, Nat.one_mul] at hk; omega)
      have hk' : k = (k - xs.length) + xs.length := by omega
      refine ⟨x, y', ?_, ?_, ?_⟩
      · rw [hk', Nat.add_mod_right]; exact h1
      · rw [hk', Nat.add_div_right _ hpos]; exact h2
      · rw [List.getElem?_append_right (by simpa using h)]
        simpa using h3

lemma meshgrid_len (xs ys : List ℝ) : (meshgrid xs ys).length = ys.length * xs.length := by
  induction ys with
  | nil => simp [meshgrid]
  | cons y ys ih =>
    have : meshgrid xs (y :: ys) = xs.map (fun x => (x, y)) ++ meshgrid xs ys := by simp [meshgrid]
    rw [this, List.length_append, ih, List.length_map, List.length_cons]
    ring

lemma reshape2_pixel (rows cols : Nat) (v : List ℝ) (hv : v.length = rows * cols) (i j : Nat) (hi : i < rows) (hj : j < cols) : pixel (reshape2 rows cols v) i j = v[i * cols + j]? := by
  unfold pixel reshape2
  rw [List.getElem?_map, List.getElem?_range hi]
  show ((v.drop (i * cols)).take cols)[j]? = _
  rw [List.getElem?_take_of_lt hj, List.getElem?_drop]

lemma picture_eq (pdf : ℝ × ℝ → ℝ × ℝ → ℝ) (c : List (Row Int (ℝ × ℝ))) (t : Int) (xres yres : Nat) (h : ∃ r ∈ c, r.time = t) (ax bx ay byy : ℝ)
    (hx : IsRange ((samplesAt c t).map (·.1)) ax bx) (hy : IsRange ((samplesAt c t).map (·.2)) ay byy) :
    densityPicture pdf c t xres yres = .ok (reshape2 xres yres (sumDensity pdf (samplesAt c t) (meshgrid ((List.range xres).map (gridLine ax bx xres)) ((List.range yres).map (gridLine ay byy yres))))) := by
  have hne : samplesAt c t ≠ [] := by
    obtain ⟨r, hr, ht⟩ := h
    unfold samplesAt
    intro h0
    rw [List.map_eq_nil_iff, List.filter_eq_nil_iff] at h0
    exact h0 r hr (by simp [ht])
  obtain ⟨e1, e2⟩ := range_unique _ _ _ _ _ (range_spec ((samplesAt c t).map (·.1)) (by simpa using hne)) hx
  obtain ⟨e3, e4⟩ := range_unique _ _ _ _ _ (range_spec ((samplesAt c t).map (·.2)) (by simpa using hne)) hy
  unfold densityPicture
  rw [if_neg hne, linspace_nat, linspace_nat, e1, e2, e3, e4]

/-! ## C212 -/

/-- **C212 (part).** What the picture shows, for all resolutions: it has `xres` rows and `yres` columns, and the entry in row `i` and column `j` is the density at the point with the number `i * yres + j` of the mesh, whose
first coordinate runs fastest. -/
theorem C212_pixels (pdf : ℝ × ℝ → ℝ × ℝ → ℝ) (c : List (Row Int (ℝ × ℝ))) (t : Int) (xres yres : Nat) (h : ∃ r ∈ c, r.time = t) (ax bx ay byy : ℝ)
    (hx : IsRange ((samplesAt c t).map (·.1)) ax bx) (hy : IsRange ((samplesAt c t).map (·.2)) ay byy) :
    ∃ P, densityPicture pdf c t xres yres = .ok P ∧ P.length = xres ∧ (∀ row ∈ P, row.length = yres) ∧
      ∀ i j, i < xres → j < yres → pixel P i j = some (densityAt pdf c t (gridLine ax bx xres ((i * yres + j) % xres), gridLine ay byy yres ((i * yres + j) / xres))) := by
  refine ⟨_, picture_eq pdf c t xres yres h ax bx ay byy hx hy, by simp [reshape2], ?_, ?_⟩
  · intro row hrow
    unfold reshape2 at hrow
    obtain ⟨i, hi, rfl⟩ := List.mem_map.1 hrow
    rw [List.mem_range] at hi
    rw [List.length_take, List.length_drop]
    have hl : (sumDensity pdf (samplesAt c t) (meshgrid ((List.range xres).map (gridLine ax bx xres)) ((List.range yres).map (gridLine ay byy yres)))).length = yres * xres := by
      unfold sumDensity; rw [List.length_map, meshgrid_len]; simp
    rw [hl]
    have : i * yres + yres ≤ yres * xres := by
      have := Nat.mul_le_mul_right yres (Nat.succ_le_of_lt hi)
      rw [Nat.succ_mul] at this
      rw [Nat.mul_comm yres xres]; exact this
    omega
  · intro i j hi hj
    have hlen : (sumDensity pdf (samplesAt c t) (meshgrid ((List.range xres).map (gridLine ax bx xres)) ((List.range yres).map (gridLine ay byy yres)))).length = xres * yres := by
      unfold sumDensity; rw [List.length_map, meshgrid_len]; simp [Nat.mul_comm]
    rw [reshape2_pixel xres yres _ hlen i j hi hj]
    have hlt : i * yres + j < xres * yres := by
      have := Nat.mul_le_mul_right yres (Nat.succ_le_of_lt hi)
      rw [Nat.succ_mul] at this
      omega
    obtain ⟨x, y, q1, q2, q3⟩ := meshgrid_get ((List.range xres).map (gridLine ax bx xres)) ((List.range yres).map (gridLine ay byy yres)) (i * yres + j) (by simpa [Nat.mul_comm] using hlt)
    simp only [List.length_map, List.length_range] at q1 q2
    have hxpos : 0 < xres := by omega
    rw [List.getElem?_map, List.getElem?_range (Nat.mod_lt _ hxpos)] at q1
    rw [List.getElem?_map, List.getElem?_range ((Nat.div_lt_iff_lt_mul hxpos).2 (by rw [Nat.mul_comm yres xres]; exact hlt))] at q2
    simp only [Option.map_some, Option.some.injEq] at q1 q2
    unfold sumDensity
    rw [List.getElem?_map, q3, ← q1, ← q2]
    simp only [Option.map_some, Option.some.injEq, densityAt, samplesAt, List.map_map]
    rfl

/-- **C212 (part).** With equal resolutions the picture is right: row `i` and column `j` show the density on the `i`-th horizontal and the `j`-th vertical line. -/
theorem C212_square_partial (pdf : ℝ × ℝ → ℝ × ℝ → ℝ) (c : List (Row Int (ℝ × ℝ))) (t : Int) (n : Nat) (h : ∃ r ∈ c, r.time = t) (ax bx ay byy : ℝ)
    (hx : IsRange ((samplesAt c t).map (·.1)) ax bx) (hy : IsRange ((samplesAt c t).map (·.2)) ay byy) :
    ∃ P, densityPicture pdf c t n n = .ok P ∧ P.length = n ∧ (∀ row ∈ P, row.length = n) ∧ ∀ i j, i < n → j < n → pixel P i j = some (densityAt pdf c t (gridLine ax bx n j, gridLine ay byy n i)) := by
  obtain ⟨P, h1, h2, h3, h4⟩ := C212_pixels pdf c t n n h ax bx ay byy hx hy
  refine ⟨P, h1, h2, h3, fun i j hi hj => ?_⟩
  rw [h4 i j hi hj]
  have e1 : (i * n + j) % n = j := by rw [Nat.mul_comm, Nat.mul_add_mod, Nat.mod_eq_of_lt hj]
  have e2 : (i * n + j) / n = i := by rw [Nat.mul_comm, Nat.mul_add_div (by omega), Nat.div_eq_of_lt hj, Nat.add_zero]
  rw [e1, e2]

/-- **C212 (part).** The picture does not depend on the order of the rows. -/
theorem C212_order (pdf : ℝ × ℝ → ℝ × ℝ → ℝ) (c c' : List (Row Int (ℝ × ℝ))) (hp : c.Perm c') (t : Int) (xres yres : Nat) : densityPicture pdf c t xres yres = densityPicture pdf c' t xres yres := by
  have hs : (samplesAt c t).Perm (samplesAt c' t) := (hp.filter _).map _
  by_cases hne : samplesAt c t = []
  · have hne' : samplesAt c' t = [] := by rw [hne] at hs; exact hs.nil_eq.symm
    unfold densityPicture
    rw [if_pos hne, if_pos hne']
  · have hne' : samplesAt c' t ≠ [] := by
      intro h0
      rw [h0] at hs
      exact hne hs.eq_nil
    have hr : ∀ f : ℝ × ℝ → ℝ, minOf ((samplesAt c t).map f) = minOf ((samplesAt c' t).map f) ∧ maxOf ((samplesAt c t).map f) = maxOf ((samplesAt c' t).map f) := by
      intro f
      refine range_unique _ _ _ _ _ (range_spec _ (by simpa using hne)) ?_
      obtain ⟨g1, g2, g3⟩ := range_spec ((samplesAt c' t).map f) (by simpa using hne')
      have hm : ∀ x, x ∈ (samplesAt c t).map f ↔ x ∈ (samplesAt c' t).map f := fun x => (hs.map f).mem_iff
      exact ⟨(hm _).2 g1, (hm _).2 g2, fun x hx => g3 x ((hm x).1 hx)⟩
    have hd : ∀ g, sumDensity pdf (samplesAt c t) g = sumDensity pdf (samplesAt c' t) g := by
      intro g
      unfold sumDensity
      apply List.map_congr_left
      intro p _
      exact (hs.map _).sum_eq
    unfold densityPicture
    rw [if_neg hne, if_neg hne', (hr (·.1)).1, (hr (·.1)).2, (hr (·.2)).1, (hr (·.2)).2]
    simp only [linspace_nat, hd]

/-- **C212 (part).** A picture is drawn exactly for the time values that occur. -/
theorem C212_unknown (pdf : ℝ × ℝ → ℝ × ℝ → ℝ) (c : List (Row Int (ℝ × ℝ))) (t : Int) (xres yres : Nat) : (∃ P, densityPicture pdf c t xres yres = .ok P) ↔ ∃ r ∈ c, r.time = t := by
  constructor
  · rintro ⟨P, h⟩
    by_contra hc
    push Not at hc
    have : samplesAt c t = [] := by
      unfold samplesAt
      rw [List.map_eq_nil_iff, List.filter_eq_nil_iff]
      intro r hr
      simpa using hc r hr
    unfold densityPicture at h
    rw [if_pos this] at h
    cases h
  · intro h
    have hne : samplesAt c t ≠ [] := by
      obtain ⟨r, hr, ht⟩ := h
      unfold samplesAt
      intro h0
      rw [List.map_eq_nil_iff, List.filter_eq_nil_iff] at h0
      exact h0 r hr (by simp [ht])
    exact ⟨_, picture_eq pdf c t xres yres h _ _ _ _ (range_spec _ (by simpa using hne)) (range_spec _ (by simpa using hne))⟩

/-- **C212 is violated.** With different resolutions the picture has the wrong shape, and the entry in the first row behind the last vertical line (or in the second row and first column) is the density at another point than its place. -/
theorem C212_shape_violated (pdf : ℝ × ℝ → ℝ × ℝ → ℝ) (c : List (Row Int (ℝ × ℝ))) (t : Int) (xres yres : Nat) (h : ∃ r ∈ c, r.time = t) (ax bx ay byy : ℝ)
    (hx : IsRange ((samplesAt c t).map (·.1)) ax bx) (hy : IsRange ((samplesAt c t).map (·.2)) ay byy) (hxy : xres ≠ yres) :
    ∃ P, densityPicture pdf c t xres yres = .ok P ∧ P.length ≠ yres ∧
      (0 < xres → xres < yres → pixel P 0 xres = some (densityAt pdf c t (gridLine ax bx xres 0, gridLine ay byy yres 1))) ∧
      (0 < yres → yres < xres → pixel P 1 0 = some (densityAt pdf c t (gridLine ax bx xres yres, gridLine ay byy yres 0))) := by
  obtain ⟨P, h1, h2, h3, h4⟩ := C212_pixels pdf c t xres yres h ax bx ay byy hx hy
  refine ⟨P, h1, by rw [h2]; exact hxy, ?_, ?_⟩
  · intro h0 hlt
    rw [h4 0 xres h0 hlt]
    simp [Nat.div_self h0]
  · intro h0 hlt
    rw [h4 1 0 (by omega) h0]
    simp [Nat.mod_eq_of_lt hlt, Nat.div_eq_of_lt hlt]

/-- Three samples at the time value 0. -/
def demoCloud : List (Row Int (ℝ × ℝ)) := [⟨0, 0, (0, 0)⟩, ⟨1, 0, (1, 1)⟩, ⟨2, 0, (1, 0)⟩]

lemma demoCloud_samples : samplesAt demoCloud 0 = [(0, 0), (1, 1), (1, 0)] := by simp [samplesAt, demoCloud]

lemma demoCloud_range : IsRange ((samplesAt demoCloud 0).map (·.1)) 0 1 ∧ IsRange ((samplesAt demoCloud 0).map (·.2)) 0 1 := by
  rw [demoCloud_samples]
  constructor <;> refine ⟨by simp, by simp, ?_⟩ <;> intro x hx <;> simp at hx <;> rcases hx with rfl | hx <;> (try rcases hx with rfl | rfl) <;> (try subst hx) <;> norm_num

/-- **C212 is violated (numbers).** Three samples and three vertical and two horizontal lines: the entry that is shown at the place of the point `(0, 1)` is not the density there. -/
theorem C212_place_violated : ∃ P, densityPicture normalPdf demoCloud 0 3 2 = .ok P ∧ ∃ v, pixel P 1 0 = some v ∧ densityAt normalPdf demoCloud 0 (0, 1) < v := by
  obtain ⟨P, h1, -, -, h4⟩ := C212_shape_violated normalPdf demoCloud 0 3 2 ⟨⟨0, 0, (0, 0)⟩, by simp [demoCloud], rfl⟩ 0 1 0 1 demoCloud_range.1 demoCloud_range.2 (by decide)
  refine ⟨P, h1, _, h4 (by norm_num) (by norm_num), ?_⟩
  have e : ((3 : ℕ) : ℝ) - 1 = 2 := by norm_num
  have hpi : 0 < 2 * Real.pi := by positivity
  have hexp : Real.exp (-1) < 1 := by rw [Real.exp_lt_one_iff]; norm_num
  simp only [densityAt, demoCloud, gridLine, normalPdf]
  norm_num
  have h2 : Real.exp (-2 / 2) = Real.exp (-1) := by norm_num
  field_simp
  linarith

/-- The hypotheses are met by three samples, two of them on one vertical line. -/
example : ∃ P, densityPicture normalPdf demoCloud 0 2 2 = .ok P ∧ pixel P 1 0 = some (densityAt normalPdf demoCloud 0 (0, 1)) := by
  obtain ⟨P, h1, -, -, h4⟩ := C212_square_partial normalPdf demoCloud 0 2 ⟨⟨0, 0, (0, 0)⟩, by simp [demoCloud], rfl⟩ 0 1 0 1 demoCloud_range.1 demoCloud_range.2
  refine ⟨P, h1, ?_⟩
  rw [h4 1 0 (by norm_num) (by norm_num)]
  norm_num [gridLine]

end Verif.Utils
