import Verif.Props.Metric
import Verif.Model.Polygon
import Verif.Model.Meshgen
import Verif.Spec.Polygon

/-! # C33, C34: point-in-triangle and segment intersection tests -/

set_option linter.unusedSectionVars false

namespace Geom3d

section
variable {K : Type} [Field K] [LinearOrder K] [IsStrictOrderedRing K] [Env K]

/-! ### C33 -/

theorem isInsideTriangle_iff (a b c p : V2 K) : isInsideTriangle a b c p = true ↔
    0 ≤ Spec.triArea2 p a b ∧ 0 ≤ Spec.triArea2 p b c ∧ 0 ≤ Spec.triArea2 p c a := by
  have e : ∀ q r : V2 K, (q - p).perpDot (r - p) = Spec.triArea2 p q r := by
    intro q r; simp only [V2.perpDot, Spec.triArea2, V2.sub_x, V2.sub_y]; ring
  simp only [isInsideTriangle, e, Bool.and_eq_true, decide_eq_true_eq, and_assoc]

/-- The three sub-areas sum up to the whole. -/
theorem triArea2_split (a b c p : V2 K) :
    Spec.triArea2 p a b + Spec.triArea2 p b c + Spec.triArea2 p c a = Spec.triArea2 a b c := by
  simp only [Spec.triArea2]; ring

theorem inTriangle_of_areas {a b c p : V2 K} (h : 0 < Spec.triArea2 a b c) (h1 : 0 ≤ Spec.triArea2 p a b)
    (h2 : 0 ≤ Spec.triArea2 p b c) (h3 : 0 ≤ Spec.triArea2 p c a) : Spec.InTriangle a b c p := by
  have hs := triArea2_split a b c p
  have hx : Spec.triArea2 p b c * a.x + Spec.triArea2 p c a * b.x + Spec.triArea2 p a b * c.x
      = Spec.triArea2 a b c * p.x := by simp only [Spec.triArea2]; ring
  have hy : Spec.triArea2 p b c * a.y + Spec.triArea2 p c a * b.y + Spec.triArea2 p a b * c.y
      = Spec.triArea2 a b c * p.y := by simp only [Spec.triArea2]; ring
  refine ⟨Spec.triArea2 p b c / Spec.triArea2 a b c, Spec.triArea2 p c a / Spec.triArea2 a b c,
    Spec.triArea2 p a b / Spec.triArea2 a b c, by positivity, by positivity, by positivity, ?_, ?_, ?_⟩
  · rw [← add_div, ← add_div, div_eq_one_iff_eq h.ne']; linarith
  · field_simp; linarith
  · field_simp; linarith

theorem areas_of_inTriangle {a b c p : V2 K} (h : Spec.InTriangle a b c p) :
    ∃ u v w : K, 0 ≤ u ∧ 0 ≤ v ∧ 0 ≤ w ∧ u + v + w = 1 ∧
      Spec.triArea2 p a b = w * Spec.triArea2 a b c ∧ Spec.triArea2 p b c = u * Spec.triArea2 a b c ∧
      Spec.triArea2 p c a = v * Spec.triArea2 a b c := by
  obtain ⟨u, v, w, hu, hv, hw, hs, hx, hy⟩ := h
  refine ⟨u, v, w, hu, hv, hw, hs, ?_, ?_, ?_⟩ <;>
  · simp only [Spec.triArea2, hx, hy]
    obtain rfl : u = 1 - v - w := by linarith
    ring

/-- **C33**: on a counter-clockwise triangle the ear-clipping test is exactly "convex combination of the
corners". -/
theorem C33_exact {a b c : V2 K} (h : 0 < Spec.triArea2 a b c) (p : V2 K) :
    isInsideTriangle a b c p = true ↔ Spec.InTriangle a b c p := by
  rw [isInsideTriangle_iff]
  constructor
  · rintro ⟨h1, h2, h3⟩
    exact inTriangle_of_areas h h1 h2 h3
  · intro hp
    obtain ⟨u, v, w, hu, hv, hw, -, e1, e2, e3⟩ := areas_of_inTriangle hp
    rw [e1, e2, e3]
    exact ⟨by positivity, by positivity, by positivity⟩

/-- **C33**: the public test with tolerance accepts every convex combination of the corners. -/
theorem C33_tolerant_accepts {a b c : V2 K} (h : 0 ≤ Spec.triArea2 a b c) {p : V2 K}
    (hp : Spec.InTriangle a b c p) : isInsideTriangleTol p a b c = true := by
  have e : ∀ q r : V2 K, (q - p).perpDot (r - p) = Spec.triArea2 p q r := by
    intro q r; simp only [V2.perpDot, Spec.triArea2, V2.sub_x, V2.sub_y]; ring
  obtain ⟨u, v, w, hu, hv, hw, -, e1, e2, e3⟩ := areas_of_inTriangle hp
  simp only [isInsideTriangleTol, e, e1, e2, e3, Bool.and_eq_true, Bool.or_eq_true, decide_eq_true_eq]
  exact ⟨⟨.inl (by positivity), .inl (by positivity)⟩, .inl (by positivity)⟩

/-- **C33**: the public test accepts exactly the points whose three edge cross products are at least `-tol`. -/
theorem C33_tolerant_iff (htol : (0 : K) ≤ Env.tol) (a b c p : V2 K) : isInsideTriangleTol p a b c = true ↔
    -Env.tol ≤ Spec.triArea2 p a b ∧ -Env.tol ≤ Spec.triArea2 p b c ∧ -Env.tol ≤ Spec.triArea2 p c a := by
  have e : ∀ q r : V2 K, (q - p).perpDot (r - p) = Spec.triArea2 p q r := by
    intro q r; simp only [V2.perpDot, Spec.triArea2, V2.sub_x, V2.sub_y]; ring
  have key : ∀ x : K, (decide (0 ≤ x) || near x 0) = true ↔ -Env.tol ≤ x := by
    intro x
    simp only [near, fabs_eq, sub_zero, Bool.or_eq_true, decide_eq_true_eq, abs_le]
    constructor
    · rintro (h | ⟨h, -⟩)
      · linarith
      · exact h
    · intro h
      rcases le_total 0 x with h' | h'
      · exact .inl h'
      · exact .inr ⟨h, by linarith⟩
  simp only [isInsideTriangleTol, e, Bool.and_eq_true, key, and_assoc]

/-- **C33**: on a clockwise triangle the exact test accepts no point at all, in particular no interior point. -/
theorem C33_clockwise {a b c : V2 K} (h : Spec.triArea2 a b c < 0) (p : V2 K) :
    isInsideTriangle a b c p = false := by
  rw [Bool.eq_false_iff]
  intro hp
  rw [isInsideTriangle_iff] at hp
  have := triArea2_split a b c p
  linarith [hp.1, hp.2.1, hp.2.2]

/-- Non-vacuity of C33. -/
example : (0 : ℚ) < Spec.triArea2 ⟨0, 0⟩ ⟨4, 0⟩ ⟨0, 4⟩ ∧ Spec.InTriangle (⟨0, 0⟩ : V2 ℚ) ⟨4, 0⟩ ⟨0, 4⟩ ⟨1, 1⟩ ∧
    isInsideTriangle (⟨0, 0⟩ : V2 ℚ) ⟨4, 0⟩ ⟨0, 4⟩ ⟨1, 1⟩ = true ∧
    isInsideTriangle (⟨0, 0⟩ : V2 ℚ) ⟨4, 0⟩ ⟨0, 4⟩ ⟨3, 3⟩ = false ∧
    isInsideTriangle (⟨0, 0⟩ : V2 ℚ) ⟨0, 4⟩ ⟨4, 0⟩ ⟨1, 1⟩ = false :=
  ⟨by norm_num [Spec.triArea2], ⟨1 / 2, 1 / 4, 1 / 4, by norm_num⟩, by decide +kernel, by decide +kernel,
    by decide +kernel⟩

/-! ### C34 -/

theorem fmin_eq (a b : K) : fmin a b = min a b := by
  unfold fmin; split
  · rename_i h; exact (min_eq_right h.le).symm
  · rename_i h; exact (min_eq_left (not_lt.1 h)).symm

theorem fmax_eq (a b : K) : fmax a b = max a b := by
  unfold fmax; split
  · rename_i h; exact (max_eq_right h.le).symm
  · rename_i h; exact (max_eq_left (not_lt.1 h)).symm

theorem isSegmentsIntersect_iff (a b c d : V2 K) : isSegmentsIntersect a b c d = true ↔
    (min a.x b.x ≤ max c.x d.x ∧ min c.x d.x ≤ max a.x b.x ∧ min a.y b.y ≤ max c.y d.y ∧
      min c.y d.y ≤ max a.y b.y) ∧
    Spec.triArea2 a c d * Spec.triArea2 b c d ≤ 0 ∧ Spec.triArea2 c a b * Spec.triArea2 d a b ≤ 0 := by
  have e1 : (c - a).perpDot (d - a) * (d - b).perpDot (c - b)
      = -(Spec.triArea2 a c d * Spec.triArea2 b c d) := by
    simp only [V2.perpDot, Spec.triArea2, V2.sub_x, V2.sub_y]; ring
  have e2 : (c - a).perpDot (c - b) * (d - b).perpDot (d - a)
      = -(Spec.triArea2 c a b * Spec.triArea2 d a b) := by
    simp only [V2.perpDot, Spec.triArea2, V2.sub_x, V2.sub_y]; ring
  unfold isSegmentsIntersect
  simp only [e1, e2, fmin_eq, fmax_eq]
  split
  · rename_i h
    simp only [Bool.false_eq_true, false_iff, not_and]
    rintro ⟨h1, h2, h3, h4⟩
    rcases h with h | h | h | h
    · exact absurd h (not_lt.2 h1)
    · exact absurd h (not_lt.2 h2)
    · exact absurd h (not_lt.2 h3)
    · exact absurd h (not_lt.2 h4)
  · rename_i h
    simp only [not_or, not_lt] at h
    split
    · rename_i h'
      simp only [Bool.false_eq_true, false_iff, not_and, not_le]
      intro _ h''; linarith
    · split
      · rename_i h'
        simp only [Bool.false_eq_true, false_iff, not_and, not_le]
        intro _ _; linarith
      · rename_i h1 h2
        simp only [true_iff]
        exact ⟨h, by linarith, by linarith⟩

theorem onSegment_swap {a b p : V2 K} (h : Spec.OnSegment a b p) : Spec.OnSegment b a p := by
  obtain ⟨t, h0, h1, hx, hy⟩ := h
  exact ⟨1 - t, by linarith, by linarith, by rw [hx]; ring, by rw [hy]; ring⟩

theorem between_of_onSegment {a b t : K} (h0 : 0 ≤ t) (h1 : t ≤ 1) :
    min a b ≤ a + t * (b - a) ∧ a + t * (b - a) ≤ max a b := by
  rcases le_total a b with h | h
  · rw [min_eq_left h, max_eq_right h]; constructor <;> nlinarith
  · rw [min_eq_right h, max_eq_left h]; constructor <;> nlinarith

/-- A shared point makes the two end points of one segment lie on both closed sides of the other. -/
theorem straddle_of_common {a b c d p : V2 K} (h1 : Spec.OnSegment a b p) (h2 : Spec.OnSegment c d p) :
    Spec.triArea2 a c d * Spec.triArea2 b c d ≤ 0 := by
  obtain ⟨s, hs0, hs1, hx, hy⟩ := h1
  obtain ⟨t, ht0, ht1, hx', hy'⟩ := h2
  have hp : (1 - s) * Spec.triArea2 a c d + s * Spec.triArea2 b c d = 0 := by
    have e : (1 - s) * Spec.triArea2 a c d + s * Spec.triArea2 b c d = Spec.triArea2 p c d := by
      simp only [Spec.triArea2, hx, hy]; ring
    rw [e]; simp only [Spec.triArea2, hx', hy']; ring
  rcases eq_or_lt_of_le hs0 with rfl | hs
  · have : Spec.triArea2 a c d = 0 := by linarith
    rw [this, zero_mul]
  · have : s * (Spec.triArea2 a c d * Spec.triArea2 b c d) = -((1 - s) * Spec.triArea2 a c d ^ 2) := by
      linear_combination (Spec.triArea2 a c d) * hp
    have h3 : 0 ≤ (1 - s) * Spec.triArea2 a c d ^ 2 := mul_nonneg (by linarith) (sq_nonneg _)
    by_contra hc
    push Not at hc
    have := mul_pos hs hc
    linarith

/-- Two intervals given by end points in any order that overlap share a parameter: one interval is `[0,1]`. -/
theorem overlap_param {g e : K} (h1 : min g e ≤ 1) (h2 : 0 ≤ max g e) :
    ∃ l, 0 ≤ l ∧ l ≤ 1 ∧ min g e ≤ l ∧ l ≤ max g e :=
  ⟨max 0 (min g e), le_max_left _ _, max_le (by norm_num) h1, le_max_right _ _,
    max_le h2 (le_trans (min_le_left _ _) (le_max_left _ _))⟩

theorem between_param {g e l : K} (h1 : min g e ≤ l) (h2 : l ≤ max g e) :
    ∃ t, 0 ≤ t ∧ t ≤ 1 ∧ l = g + t * (e - g) := by
  rcases lt_trichotomy g e with h | h | h
  · rw [min_eq_left h.le] at h1; rw [max_eq_right h.le] at h2
    have : 0 < e - g := by linarith
    exact ⟨(l - g) / (e - g), div_nonneg (by linarith) this.le, by rw [div_le_one this]; linarith, by
      field_simp; ring⟩
  · subst h
    rw [min_self] at h1; rw [max_self] at h2
    exact ⟨0, le_refl _, by norm_num, by rw [le_antisymm h2 h1]; ring⟩
  · rw [min_eq_right h.le] at h1; rw [max_eq_left h.le] at h2
    have h3 : 0 < g - e := by linarith
    have h4 : e - g ≠ 0 := by linarith
    refine ⟨(g - l) / (g - e), div_nonneg (by linarith) h3.le, by rw [div_le_one h3]; linarith, ?_⟩
    have h5 : g - e ≠ 0 := h3.ne'
    field_simp; ring

/-- If `a ≠ b` and `c`, `d` are on the line `ab`, overlapping boxes give a shared point. -/
theorem collinear_common {a b c d : V2 K} (hab : a ≠ b) (hc : Spec.triArea2 c a b = 0)
    (hd : Spec.triArea2 d a b = 0)
    (hx1 : min a.x b.x ≤ max c.x d.x) (hx2 : min c.x d.x ≤ max a.x b.x) (hy1 : min a.y b.y ≤ max c.y d.y)
    (hy2 : min c.y d.y ≤ max a.y b.y) : ∃ p, Spec.OnSegment a b p ∧ Spec.OnSegment c d p := by
  -- parameters of c and d on the line
  have main : ∃ g e : K, c.x = a.x + g * (b.x - a.x) ∧ c.y = a.y + g * (b.y - a.y) ∧
      d.x = a.x + e * (b.x - a.x) ∧ d.y = a.y + e * (b.y - a.y) := by
    simp only [Spec.triArea2] at hc hd
    by_cases hx : b.x - a.x = 0
    · have hy : b.y - a.y ≠ 0 := fun h => hab (V2.ext (by linarith) (by linarith))
      rw [sub_eq_zero] at hx
      refine ⟨(c.y - a.y) / (b.y - a.y), (d.y - a.y) / (b.y - a.y), ?_, by field_simp; ring, ?_, by field_simp; ring⟩
      · have : (c.x - a.x) * (b.y - a.y) = 0 := by rw [hx] at hc; linear_combination -hc
        rcases mul_eq_zero.1 this with h | h
        · rw [hx]; linarith
        · exact absurd h hy
      · have : (d.x - a.x) * (b.y - a.y) = 0 := by rw [hx] at hd; linear_combination -hd
        rcases mul_eq_zero.1 this with h | h
        · rw [hx]; linarith
        · exact absurd h hy
    · refine ⟨(c.x - a.x) / (b.x - a.x), (d.x - a.x) / (b.x - a.x), by field_simp; ring, ?_, by field_simp; ring, ?_⟩
      · field_simp; linear_combination hc
      · field_simp; linear_combination hd
  obtain ⟨g, e, hcx, hcy, hdx, hdy⟩ := main
  have hov : min g e ≤ 1 ∧ 0 ≤ max g e := by
    have aux : ∀ (α δ : K), δ ≠ 0 →
        min α (α + δ) ≤ max (α + g * δ) (α + e * δ) → min (α + g * δ) (α + e * δ) ≤ max α (α + δ) →
        min g e ≤ 1 ∧ 0 ≤ max g e := by
      intro α δ hδ h1 h2
      rcases lt_or_gt_of_ne hδ with hneg | hpos
      · rw [min_eq_right (by linarith)] at h1
        rw [max_eq_left (by linarith)] at h2
        rw [le_max_iff] at h1
        rw [min_le_iff] at h2
        constructor
        · rw [min_le_iff]
          rcases h1 with h | h
          · left; by_contra hc; push Not at hc; nlinarith
          · right; by_contra hc; push Not at hc; nlinarith
        · rw [le_max_iff]
          rcases h2 with h | h
          · left; by_contra hc; push Not at hc; nlinarith
          · right; by_contra hc; push Not at hc; nlinarith
      · rw [min_eq_left (by linarith)] at h1
        rw [max_eq_right (by linarith)] at h2
        rw [le_max_iff] at h1
        rw [min_le_iff] at h2
        constructor
        · rw [min_le_iff]
          rcases h2 with h | h
          · left; by_contra hc; push Not at hc; nlinarith
          · right; by_contra hc; push Not at hc; nlinarith
        · rw [le_max_iff]
          rcases h1 with h | h
          · left; by_contra hc; push Not at hc; nlinarith
          · right; by_contra hc; push Not at hc; nlinarith
    by_cases hx : b.x - a.x = 0
    · have hy : b.y - a.y ≠ 0 := fun h => hab (V2.ext (by linarith) (by linarith))
      apply aux a.y (b.y - a.y) hy
      · rw [← hcy, ← hdy, add_sub_cancel]; exact hy1
      · rw [← hcy, ← hdy, add_sub_cancel]; exact hy2
    · apply aux a.x (b.x - a.x) hx
      · rw [← hcx, ← hdx, add_sub_cancel]; exact hx1
      · rw [← hcx, ← hdx, add_sub_cancel]; exact hx2
  obtain ⟨l, hl0, hl1, hlm, hlM⟩ := overlap_param hov.1 hov.2
  obtain ⟨t, ht0, ht1, rfl⟩ := between_param hlm hlM
  refine ⟨⟨a.x + (g + t * (e - g)) * (b.x - a.x), a.y + (g + t * (e - g)) * (b.y - a.y)⟩,
    ⟨_, hl0, hl1, rfl, rfl⟩, ⟨t, ht0, ht1, ?_, ?_⟩⟩
  · simp only [hcx, hdx]; ring
  · simp only [hcy, hdy]; ring

/-- **C34**: the segment test is exact, for all (also touching, collinear or degenerate) segments. -/
theorem C34_exact (a b c d : V2 K) : isSegmentsIntersect a b c d = true ↔
    ∃ p, Spec.OnSegment a b p ∧ Spec.OnSegment c d p := by
  rw [isSegmentsIntersect_iff]
  constructor
  · rintro ⟨⟨hx1, hx2, hy1, hy2⟩, h1, h2⟩
    have hD : Spec.triArea2 a c d - Spec.triArea2 b c d = Spec.triArea2 d a b - Spec.triArea2 c a b := by
      simp only [Spec.triArea2]; ring
    by_cases hne : Spec.triArea2 a c d = Spec.triArea2 b c d
    · have hne' : Spec.triArea2 d a b = Spec.triArea2 c a b := by linarith
      rw [hne] at h1; rw [hne'] at h2
      have hb : Spec.triArea2 b c d = 0 := by nlinarith [mul_self_nonneg (Spec.triArea2 b c d)]
      have hc : Spec.triArea2 c a b = 0 := by nlinarith [mul_self_nonneg (Spec.triArea2 c a b)]
      by_cases hab : a = b
      · by_cases hcd : c = d
        · subst hab; subst hcd
          simp only [min_self, max_self] at hx1 hx2 hy1 hy2
          have : a = c := V2.ext (le_antisymm hx1 hx2) (le_antisymm hy1 hy2)
          subst this
          exact ⟨a, ⟨0, le_refl _, zero_le_one, by ring, by ring⟩, ⟨0, le_refl _, zero_le_one, by ring, by ring⟩⟩
        · obtain ⟨p, hp1, hp2⟩ := collinear_common (a := c) (b := d) (c := a) (d := b) hcd (hne.trans hb) hb
            hx2 hx1 hy2 hy1
          exact ⟨p, hp2, hp1⟩
      · exact collinear_common hab hc (hne'.trans hc) hx1 hx2 hy1 hy2
    · -- proper crossing of the two lines
      set A := Spec.triArea2 a c d with hA
      set B := Spec.triArea2 b c d with hB
      set C := Spec.triArea2 c a b with hC
      set D := Spec.triArea2 d a b with hD'
      have hAB : A - B ≠ 0 := sub_ne_zero.2 hne
      have ratio : ∀ X Y : K, X - Y ≠ 0 → X * Y ≤ 0 → 0 ≤ X / (X - Y) ∧ X / (X - Y) ≤ 1 := by
        intro X Y hXY hle
        have hsq : 0 < (X - Y) ^ 2 := by positivity
        have e1 : X / (X - Y) = X * (X - Y) / (X - Y) ^ 2 := by field_simp
        rw [e1]
        constructor
        · apply div_nonneg _ hsq.le; nlinarith [sq_nonneg X]
        · rw [div_le_one hsq]; nlinarith [sq_nonneg Y]
      have hCD : C - D ≠ 0 := by intro h; apply hAB; linarith
      obtain ⟨s0, s1⟩ := ratio A B hAB h1
      obtain ⟨t0, t1⟩ := ratio C D hCD h2
      refine ⟨⟨a.x + A / (A - B) * (b.x - a.x), a.y + A / (A - B) * (b.y - a.y)⟩, ⟨_, s0, s1, rfl, rfl⟩,
        ⟨_, t0, t1, ?_, ?_⟩⟩
      · have e : C - D = -(A - B) := by linarith
        rw [e]
        simp only [div_neg]
        have : a.x * (A - B) + A * (b.x - a.x) = c.x * (A - B) - C * (d.x - c.x) := by
          simp only [hA, hB, hC, Spec.triArea2]; ring
        field_simp
        linear_combination this
      · have e : C - D = -(A - B) := by linarith
        rw [e]
        simp only [div_neg]
        have : a.y * (A - B) + A * (b.y - a.y) = c.y * (A - B) - C * (d.y - c.y) := by
          simp only [hA, hB, hC, Spec.triArea2]; ring
        field_simp
        linear_combination this
  · rintro ⟨p, h1, h2⟩
    refine ⟨?_, straddle_of_common h1 h2, straddle_of_common h2 h1⟩
    obtain ⟨s, hs0, hs1, hx, hy⟩ := h1
    obtain ⟨t, ht0, ht1, hx', hy'⟩ := h2
    have bx := between_of_onSegment (a := a.x) (b := b.x) hs0 hs1
    have by' := between_of_onSegment (a := a.y) (b := b.y) hs0 hs1
    have cx := between_of_onSegment (a := c.x) (b := d.x) ht0 ht1
    have cy := between_of_onSegment (a := c.y) (b := d.y) ht0 ht1
    rw [← hx] at bx; rw [← hy] at by'; rw [← hx'] at cx; rw [← hy'] at cy
    exact ⟨bx.1.trans cx.2, cx.1.trans bx.2, by'.1.trans cy.2, cy.1.trans by'.2⟩

/-- The test is symmetric in the two segments and in the end points of each. -/
theorem C34_symmetric (a b c d : V2 K) : isSegmentsIntersect a b c d = isSegmentsIntersect c d a b ∧
    isSegmentsIntersect a b c d = isSegmentsIntersect b a c d := by
  constructor <;> rw [Bool.eq_iff_iff, C34_exact, C34_exact]
  · exact ⟨fun ⟨p, h⟩ => ⟨p, h.symm⟩, fun ⟨p, h⟩ => ⟨p, h.symm⟩⟩
  · exact ⟨fun ⟨p, h⟩ => ⟨p, onSegment_swap h.1, h.2⟩, fun ⟨p, h⟩ => ⟨p, onSegment_swap h.1, h.2⟩⟩

/-- Cases of C34: crossing, touching at an end point, collinear overlapping, collinear apart, point on segment. -/
example : isSegmentsIntersect (⟨0, 0⟩ : V2 ℚ) ⟨2, 2⟩ ⟨0, 2⟩ ⟨2, 0⟩ = true ∧
    isSegmentsIntersect (⟨0, 0⟩ : V2 ℚ) ⟨2, 2⟩ ⟨2, 2⟩ ⟨5, 0⟩ = true ∧
    isSegmentsIntersect (⟨0, 0⟩ : V2 ℚ) ⟨2, 2⟩ ⟨1, 1⟩ ⟨5, 5⟩ = true ∧
    isSegmentsIntersect (⟨0, 0⟩ : V2 ℚ) ⟨2, 2⟩ ⟨3, 3⟩ ⟨5, 5⟩ = false ∧
    isSegmentsIntersect (⟨0, 0⟩ : V2 ℚ) ⟨2, 2⟩ ⟨1, 1⟩ ⟨1, 1⟩ = true ∧
    isSegmentsIntersect (⟨0, 0⟩ : V2 ℚ) ⟨2, 2⟩ ⟨2, 0⟩ ⟨2, 1⟩ = false := by decide +kernel

end

end Geom3d
