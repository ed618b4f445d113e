import Verif.Props.SurfaceDeviation
import Mathlib.MeasureTheory.Integral.IntervalIntegral.Basic
import Mathlib.Analysis.Calculus.MeanValue
import Mathlib.MeasureTheory.Integral.DominatedConvergence

/-!
# The area of meshes (C160)

`SurfacePatch::get_triangle_mesh` (`src/face.rs:16-66`): the area of the triangles approaches the area of the surface when the
divisions grow, at a rate that follows from bounds for the tangents; on planes and cylinders it is known exactly.
-/

namespace Geom3d
open Spec

/-- The area of a triangle, and of a list of triangles. -/
noncomputable def Spec.triangleArea (T : Tri ℝ) : ℝ := ((T.2.1 - T.1).cross (T.2.2 - T.1)).length / 2
noncomputable def Spec.totalArea (ts : List (Tri ℝ)) : ℝ := (ts.map triangleArea).sum

/-- The area of a surface with the tangents `su`, `sv` over a rectangle. -/
noncomputable def Spec.surfaceArea (su sv : ℝ → ℝ → V3 ℝ) (U V : ℝ × ℝ) : ℝ :=
  ∫ u in U.1..U.2, ∫ v in V.1..V.2, ((su u v).cross (sv u v)).length

/-- `su`, `sv` are the tangents of `S` on the rectangle; they are no longer than `L` and change by at most `M` times the
distance of the parameters. -/
structure Spec.Tangents (S su sv : ℝ → ℝ → V3 ℝ) (U V : ℝ × ℝ) (L M : ℝ) : Prop where
  du : ∀ u ∈ Set.Icc U.1 U.2, ∀ v ∈ Set.Icc V.1 V.2, ∀ w : V3 ℝ,
    HasDerivWithinAt (fun x => w.dot (S x v)) (w.dot (su u v)) (Set.Icc U.1 U.2) u
  dv : ∀ u ∈ Set.Icc U.1 U.2, ∀ v ∈ Set.Icc V.1 V.2, ∀ w : V3 ℝ,
    HasDerivWithinAt (fun y => w.dot (S u y)) (w.dot (sv u v)) (Set.Icc V.1 V.2) v
  su_le : ∀ u ∈ Set.Icc U.1 U.2, ∀ v ∈ Set.Icc V.1 V.2, (su u v).length ≤ L
  sv_le : ∀ u ∈ Set.Icc U.1 U.2, ∀ v ∈ Set.Icc V.1 V.2, (sv u v).length ≤ L
  su_lip : ∀ u ∈ Set.Icc U.1 U.2, ∀ v ∈ Set.Icc V.1 V.2, ∀ u' ∈ Set.Icc U.1 U.2, ∀ v' ∈ Set.Icc V.1 V.2,
    (su u v - su u' v').length ≤ M * (|u - u'| + |v - v'|)
  sv_lip : ∀ u ∈ Set.Icc U.1 U.2, ∀ v ∈ Set.Icc V.1 V.2, ∀ u' ∈ Set.Icc U.1 U.2, ∀ v' ∈ Set.Icc V.1 V.2,
    (sv u v - sv u' v').length ≤ M * (|u - u'| + |v - v'|)

namespace Area

theorem cross_le (a b : V3 ℝ) : (a.cross b).length ≤ a.length * b.length := by
  refine abs_le_of_sq_le_sq' ?_ (mul_nonneg (V3.length_nonneg _) (V3.length_nonneg _)) |>.2
  rw [mul_pow, V3.length_sq, V3.length_sq, V3.length_sq, V3.lagrange]
  nlinarith [sq_nonneg (a.dot b)]

theorem length_diff (x y : V3 ℝ) : |x.length - y.length| ≤ (x - y).length := by
  have h1 := V3.length_add_le (x - y) y
  have h2 := V3.length_add_le (y - x) x
  rw [sub_add_cancel] at h1 h2
  rw [← V3.length_neg (y - x), neg_sub] at h2
  rw [abs_le]
  constructor <;> linarith

theorem cross_add_left (a b c : V3 ℝ) : (a + b).cross c = a.cross c + b.cross c := by ext <;> simp [V3.cross] <;> ring
theorem cross_sub_left (a b c : V3 ℝ) : (a - b).cross c = a.cross c - b.cross c := by ext <;> simp [V3.cross] <;> ring
theorem cross_sub_right (a b c : V3 ℝ) : a.cross (b - c) = a.cross b - a.cross c := by ext <;> simp [V3.cross] <;> ring
theorem cross_smul_left (s : ℝ) (a b : V3 ℝ) : (s • a).cross b = s • a.cross b := by ext <;> simp [V3.cross] <;> ring
theorem cross_smul_right (s : ℝ) (a b : V3 ℝ) : a.cross (s • b) = s • a.cross b := by ext <;> simp [V3.cross] <;> ring

/-- Cross products of nearly equal vectors. -/
theorem cross_near_vec {a b c d : V3 ℝ} {ε δ A B : ℝ} (h1 : (a - c).length ≤ ε) (h2 : (b - d).length ≤ δ) (hb : b.length ≤ B)
    (hc : c.length ≤ A) : (a.cross b - c.cross d).length ≤ ε * B + A * δ := by
  have e : a.cross b - c.cross d = (a - c).cross b + c.cross (b - d) := by
    rw [cross_sub_left, cross_sub_right]; module
  rw [e]
  refine (V3.length_add_le _ _).trans (add_le_add ((cross_le _ _).trans ?_) ((cross_le _ _).trans ?_))
  · exact mul_le_mul h1 hb (V3.length_nonneg _) ((V3.length_nonneg _).trans h1)
  · exact mul_le_mul hc h2 (V3.length_nonneg _) ((V3.length_nonneg _).trans hc)

theorem cross_near {a b c d : V3 ℝ} {ε δ A B : ℝ} (h1 : (a - c).length ≤ ε) (h2 : (b - d).length ≤ δ) (hb : b.length ≤ B)
    (hc : c.length ≤ A) : |(a.cross b).length - (c.cross d).length| ≤ ε * B + A * δ :=
  (length_diff _ _).trans (cross_near_vec h1 h2 hb hc)

/-- The mean value theorem for curves. -/
theorem mean_value {c c' : ℝ → V3 ℝ} {a b : ℝ} (hab : a ≤ b)
    (hd : ∀ x ∈ Set.Icc a b, ∀ w : V3 ℝ, HasDerivWithinAt (fun x => w.dot (c x)) (w.dot (c' x)) (Set.Icc a b) x) {z : V3 ℝ} {ε : ℝ}
    (hz : ∀ x ∈ Set.Icc a b, (c' x - z).length ≤ ε) : (c b - c a - (b - a) • z).length ≤ ε * (b - a) := by
  set X := c b - c a - (b - a) • z with hX
  have hε : 0 ≤ ε := (V3.length_nonneg _).trans (hz a ⟨le_rfl, hab⟩)
  have key := (convex_Icc a b).norm_image_sub_le_of_norm_hasDerivWithin_le (f := fun x => X.dot (c x) - x * X.dot z)
    (f' := fun x => X.dot (c' x) - 1 * X.dot z) (C := X.length * ε) (x := a) (y := b)
    (fun x hx => (hd x hx X).sub ((hasDerivWithinAt_id x _).mul_const _)) (fun x hx => by
      rw [one_mul, ← V3.dot_sub, Real.norm_eq_abs]
      exact Deviation.abs_dot_le (hz x hx)) ⟨le_rfl, hab⟩ ⟨hab, le_rfl⟩
  have e : X.dot (c b) - b * X.dot z - (X.dot (c a) - a * X.dot z) = X.length * X.length := by
    rw [V3.length_mul_self]
    conv_rhs => rw [hX]
    rw [← hX, V3.dot_sub, V3.dot_sub, V3.dot_smul]
    ring
  rw [Real.norm_eq_abs, Real.norm_eq_abs, e, abs_of_nonneg (by linarith : 0 ≤ b - a), abs_of_nonneg (by have := V3.length_nonneg X; positivity)] at key
  rcases (V3.length_nonneg X).lt_or_eq with h | h
  · exact le_of_mul_le_mul_left (by linarith) h
  · rw [← h]; exact mul_nonneg hε (by linarith)

/-- Riemann sums. -/
theorem riemann {f : ℝ → ℝ} {x0 g ε : ℝ} (hg : 0 < g) (n : Nat) (hf : ContinuousOn f (Set.Icc x0 (x0 + n * g))) {c : Nat → ℝ}
    (hc : ∀ i, i < n → ∀ x, x0 + i * g ≤ x → x ≤ x0 + i * g + g → |c i - g * f x| ≤ g * ε) :
    |∑ i ∈ Finset.range n, c i - ∫ x in x0..(x0 + n * g), f x| ≤ n * g * ε := by
  induction n with
  | zero => simp
  | succ n ih =>
    have e : x0 + ((n + 1 : ℕ) : ℝ) * g = x0 + n * g + g := by push_cast; ring
    have hn0 : (0 : ℝ) ≤ n * g := by positivity
    have hf1 : ContinuousOn f (Set.Icc x0 (x0 + n * g)) := hf.mono (Set.Icc_subset_Icc le_rfl (by rw [e]; linarith))
    have hf2 : ContinuousOn f (Set.Icc (x0 + n * g) (x0 + n * g + g)) := hf.mono (Set.Icc_subset_Icc (by linarith) (by rw [e]))
    have i1 : IntervalIntegrable f MeasureTheory.volume x0 (x0 + n * g) := by
      refine ContinuousOn.intervalIntegrable ?_
      rwa [Set.uIcc_of_le (by linarith)]
    have i2 : IntervalIntegrable f MeasureTheory.volume (x0 + n * g) (x0 + n * g + g) := by
      refine ContinuousOn.intervalIntegrable ?_
      rwa [Set.uIcc_of_le (by linarith)]
    rw [e, Finset.sum_range_succ, ← intervalIntegral.integral_add_adjacent_intervals i1 i2]
    have h1 := ih hf1 (fun i hi => hc i (by omega))
    have h2 : |c n - ∫ x in (x0 + n * g)..(x0 + n * g + g), f x| ≤ g * ε := by
      have e2 : c n - ∫ x in (x0 + n * g)..(x0 + n * g + g), f x = ∫ x in (x0 + n * g)..(x0 + n * g + g), (c n / g - f x) := by
        rw [intervalIntegral.integral_sub intervalIntegrable_const i2, intervalIntegral.integral_const]
        simp only [smul_eq_mul]
        congr 1
        rw [add_sub_cancel_left]
        field_simp
      rw [e2, ← Real.norm_eq_abs]
      have := intervalIntegral.norm_integral_le_of_norm_le_const (a := x0 + n * g) (b := x0 + n * g + g) (C := ε)
        (f := fun x => c n / g - f x) (fun x hx => by
          rw [Set.uIoc_of_le (by linarith)] at hx
          have h3 := hc n (by omega) x hx.1.le hx.2
          rw [show c n - g * f x = g * (c n / g - f x) by field_simp, abs_mul, abs_of_pos hg] at h3
          rw [Real.norm_eq_abs]
          exact le_of_mul_le_mul_left h3 hg)
      rw [add_sub_cancel_left, abs_of_pos hg] at this
      linarith
    have e3 : ∑ i ∈ Finset.range n, c i + c n - ((∫ x in x0..(x0 + n * g), f x) + ∫ x in (x0 + n * g)..(x0 + n * g + g), f x)
        = (∑ i ∈ Finset.range n, c i - ∫ x in x0..(x0 + n * g), f x) + (c n - ∫ x in (x0 + n * g)..(x0 + n * g + g), f x) := by ring
    rw [e3]
    refine (abs_add_le _ _).trans ?_
    push_cast
    linarith

theorem totalArea_flatMap {α : Type} (l : List α) (f : α → List (Tri ℝ)) :
    totalArea (l.flatMap f) = (l.map fun x => totalArea (f x)).sum := by
  induction l with
  | nil => rfl
  | cons x l ih =>
    rw [List.flatMap_cons, List.map_cons, List.sum_cons, ← ih]
    simp [totalArea]

theorem sum_range_list (n : Nat) (f : Nat → ℝ) : ((List.range n).map f).sum = ∑ i ∈ Finset.range n, f i := by
  induction n with
  | zero => rfl
  | succ n ih => rw [List.range_succ, Finset.sum_range_succ, ← ih]; simp

theorem totalArea_grid (q : Nat → Nat → V3 ℝ) (a b : Nat) : totalArea (gridTriangles q a b) =
    ∑ i ∈ Finset.range a, ∑ j ∈ Finset.range b,
      (((q (i + 1) j - q i j).cross (q i (j + 1) - q i j)).length / 2
        + ((q (i + 1) (j + 1) - q i (j + 1)).cross (q (i + 1) (j + 1) - q (i + 1) j)).length / 2) := by
  unfold gridTriangles
  rw [totalArea_flatMap, sum_range_list]
  refine Finset.sum_congr rfl fun i _ => ?_
  rw [totalArea_flatMap, sum_range_list]
  refine Finset.sum_congr rfl fun j _ => ?_
  unfold totalArea triangleArea
  simp only [List.map_cons, List.map_nil, List.sum_cons, List.sum_nil, add_zero]
  congr 3
  ext <;> simp [V3.cross] <;> ring

variable {S su sv : ℝ → ℝ → V3 ℝ} {u0 u1 v0 v1 L M : ℝ}

theorem nonneg (h : Tangents S su sv (u0, u1) (v0, v1) L M) (hu : u0 < u1) (hv : v0 ≤ v1) : 0 ≤ L ∧ 0 ≤ M := by
  have h1 := (V3.length_nonneg _).trans (h.su_le u0 ⟨le_rfl, hu.le⟩ v0 ⟨le_rfl, hv⟩)
  have h2 := (V3.length_nonneg _).trans (h.su_lip u0 ⟨le_rfl, hu.le⟩ v0 ⟨le_rfl, hv⟩ u1 ⟨hu.le, le_rfl⟩ v0 ⟨le_rfl, hv⟩)
  rw [sub_self, abs_zero, add_zero] at h2
  refine ⟨h1, ?_⟩
  by_contra hc
  have : 0 < |u0 - u1| := abs_pos.2 (by linarith)
  nlinarith

/-- The integrand is Lipschitz. -/
theorem density_lip (h : Tangents S su sv (u0, u1) (v0, v1) L M) {u v u' v' : ℝ} (hu : u ∈ Set.Icc u0 u1) (hv : v ∈ Set.Icc v0 v1)
    (hu' : u' ∈ Set.Icc u0 u1) (hv' : v' ∈ Set.Icc v0 v1) :
    |((su u v).cross (sv u v)).length - ((su u' v').cross (sv u' v')).length| ≤ 2 * (L * M) * (|u - u'| + |v - v'|) := by
  refine (cross_near (h.su_lip u hu v hv u' hu' v' hv') (h.sv_lip u hu v hv u' hu' v' hv') (h.sv_le u hu v hv) (h.su_le u' hu' v' hv')).trans ?_
  linarith

/-- The sides of the two triangles of a cell. -/
theorem cell_vectors (h : Tangents S su sv (u0, u1) (v0, v1) L M) (hu01 : u0 < u1) (hv01 : v0 ≤ v1) {a b g k : ℝ} (hg : 0 ≤ g)
    (hk : 0 ≤ k) (ha0 : u0 ≤ a) (ha1 : a + g ≤ u1) (hb0 : v0 ≤ b) (hb1 : b + k ≤ v1) {u v : ℝ} (hu : a ≤ u ∧ u ≤ a + g)
    (hv : b ≤ v ∧ v ≤ b + k) :
    ((S (a + g) b - S a b).cross (S a (b + k) - S a b) - g • k • (su u v).cross (sv u v)).length ≤ g * (k * (2 * (L * M) * (g + k))) ∧
    ((S (a + g) (b + k) - S a (b + k)).cross (S (a + g) (b + k) - S (a + g) b) - g • k • (su u v).cross (sv u v)).length ≤
      g * (k * (2 * (L * M) * (g + k))) := by
  obtain ⟨hL, hM⟩ := nonneg h hu01 hv01
  have mu : ∀ x, a ≤ x → x ≤ a + g → x ∈ Set.Icc u0 u1 := fun x h1 h2 => ⟨by linarith, by linarith⟩
  have mv : ∀ x, b ≤ x → x ≤ b + k → x ∈ Set.Icc v0 v1 := fun x h1 h2 => ⟨by linarith, by linarith⟩
  have hU : ∀ y, b ≤ y → y ≤ b + k → (S (a + g) y - S a y - g • su u v).length ≤ M * (g + k) * g := by
    intro y hy0 hy1
    have := mean_value (c := fun x => S x y) (c' := fun x => su x y) (a := a) (b := a + g) (by linarith) (z := su u v) (ε := M * (g + k))
      (fun x hx w => (h.du x (mu x hx.1 hx.2) y (mv y hy0 hy1) w).mono (Set.Icc_subset_Icc ha0 ha1)) (fun x hx => by
        refine (h.su_lip x (mu x hx.1 hx.2) y (mv y hy0 hy1) u (mu u hu.1 hu.2) v (mv v hv.1 hv.2)).trans (mul_le_mul_of_nonneg_left ?_ hM)
        exact add_le_add (abs_le.2 ⟨by linarith [hx.1], by linarith [hx.2]⟩) (abs_le.2 ⟨by linarith, by linarith⟩))
    rwa [add_sub_cancel_left] at this
  have hV : ∀ x, a ≤ x → x ≤ a + g → (S x (b + k) - S x b - k • sv u v).length ≤ M * (g + k) * k := by
    intro x hx0 hx1
    have := mean_value (c := fun y => S x y) (c' := fun y => sv x y) (a := b) (b := b + k) (by linarith) (z := sv u v) (ε := M * (g + k))
      (fun y hy w => (h.dv x (mu x hx0 hx1) y (mv y hy.1 hy.2) w).mono (Set.Icc_subset_Icc hb0 hb1)) (fun y hy => by
        refine (h.sv_lip x (mu x hx0 hx1) y (mv y hy.1 hy.2) u (mu u hu.1 hu.2) v (mv v hv.1 hv.2)).trans (mul_le_mul_of_nonneg_left ?_ hM)
        exact add_le_add (abs_le.2 ⟨by linarith, by linarith⟩) (abs_le.2 ⟨by linarith [hy.1], by linarith [hy.2]⟩))
    rwa [add_sub_cancel_left] at this
  have hVL : ∀ x, a ≤ x → x ≤ a + g → (S x (b + k) - S x b).length ≤ L * k := by
    intro x hx0 hx1
    have := mean_value (c := fun y => S x y) (c' := fun y => sv x y) (a := b) (b := b + k) (by linarith) (z := 0) (ε := L)
      (fun y hy w => (h.dv x (mu x hx0 hx1) y (mv y hy.1 hy.2) w).mono (Set.Icc_subset_Icc hb0 hb1)) (fun y hy => by
        rw [sub_zero]; exact h.sv_le x (mu x hx0 hx1) y (mv y hy.1 hy.2))
    rwa [add_sub_cancel_left, smul_zero, sub_zero] at this
  have hc : (g • su u v).length ≤ g * L := by
    rw [V3.length_smul, abs_of_nonneg hg]
    exact mul_le_mul_of_nonneg_left (h.su_le u (mu u hu.1 hu.2) v (mv v hv.1 hv.2)) hg
  have k1 := cross_near_vec (hU b le_rfl (by linarith)) (hV a le_rfl (by linarith)) (hVL a le_rfl (by linarith)) hc
  have k2 := cross_near_vec (hU (b + k) (by linarith) le_rfl) (hV (a + g) (by linarith) le_rfl) (hVL (a + g) (by linarith) le_rfl) hc
  rw [cross_smul_left, cross_smul_right] at k1 k2
  exact ⟨k1.trans (le_of_eq (by ring)), k2.trans (le_of_eq (by ring))⟩

/-- The two triangles of a cell. -/
theorem cell_area (h : Tangents S su sv (u0, u1) (v0, v1) L M) (hu01 : u0 < u1) (hv01 : v0 ≤ v1) {a b g k : ℝ} (hg : 0 ≤ g)
    (hk : 0 ≤ k) (ha0 : u0 ≤ a) (ha1 : a + g ≤ u1) (hb0 : v0 ≤ b) (hb1 : b + k ≤ v1) {u v : ℝ} (hu : a ≤ u ∧ u ≤ a + g)
    (hv : b ≤ v ∧ v ≤ b + k) :
    |((S (a + g) b - S a b).cross (S a (b + k) - S a b)).length / 2
      + ((S (a + g) (b + k) - S a (b + k)).cross (S (a + g) (b + k) - S (a + g) b)).length / 2
      - g * (k * ((su u v).cross (sv u v)).length)| ≤ g * (k * (2 * (L * M) * (g + k))) := by
  obtain ⟨k1, k2⟩ := cell_vectors h hu01 hv01 hg hk ha0 ha1 hb0 hb1 hu hv
  have k1 := (length_diff _ _).trans k1
  have k2 := (length_diff _ _).trans k2
  rw [V3.length_smul, V3.length_smul, abs_of_nonneg hg, abs_of_nonneg hk] at k1 k2
  rw [abs_le] at k1 k2 ⊢
  constructor <;> linarith [k1.1, k1.2, k2.1, k2.2]

end Area

open Area

/-- **C160** The area of the triangles of a grid differs from the area of the surface by at most `2 L M (g + h)` times the area
of the rectangle of parameters. -/
theorem C160_grid {S su sv : ℝ → ℝ → V3 ℝ} {u0 u1 v0 v1 L M : ℝ} (h : Tangents S su sv (u0, u1) (v0, v1) L M) (hu : u0 < u1)
    (hv : v0 < v1) {a b : Nat} (ha : 1 ≤ a) (hb : 1 ≤ b) :
    |totalArea (gridTriangles (fun i j => S (u0 + i * ((u1 - u0) / a)) (v0 + j * ((v1 - v0) / b))) a b)
      - surfaceArea su sv (u0, u1) (v0, v1)| ≤ (u1 - u0) * (v1 - v0) * (2 * (L * M) * ((u1 - u0) / a + (v1 - v0) / b)) := by
  obtain ⟨hL, hM⟩ := nonneg h hu hv.le
  have ha' : (0 : ℝ) < a := by exact_mod_cast ha
  have hb' : (0 : ℝ) < b := by exact_mod_cast hb
  have hg : 0 < (u1 - u0) / a := div_pos (by linarith) ha'
  have hh : 0 < (v1 - v0) / b := div_pos (by linarith) hb'
  have eg : (a : ℝ) * ((u1 - u0) / a) = u1 - u0 := by field_simp
  have eh : (b : ℝ) * ((v1 - v0) / b) = v1 - v0 := by field_simp
  generalize (u1 - u0) / (a : ℝ) = g at *
  generalize (v1 - v0) / (b : ℝ) = k at *
  have eu : u0 + a * g = u1 := by linarith
  have ev : v0 + b * k = v1 := by linarith
  have bi : ∀ {n i : Nat} {x : ℝ}, 0 < x → i < n → (0 : ℝ) ≤ i * x ∧ (i : ℝ) * x + x ≤ n * x := by
    intro n i x hx hi
    have h1 : (i : ℝ) + 1 ≤ n := by exact_mod_cast hi
    exact ⟨by positivity, by nlinarith⟩
  set ε := 2 * (L * M) * (g + k) with hε
  set f : ℝ → ℝ → ℝ := fun u v => ((su u v).cross (sv u v)).length with hf
  rw [totalArea_grid]
  unfold surfaceArea
  simp only
  -- the integrand and the inner integral are continuous
  have fc : ∀ u ∈ Set.Icc u0 u1, ContinuousOn (f u) (Set.Icc v0 v1) := by
    intro u hu'
    refine LipschitzOnWith.continuousOn (K := ⟨2 * (L * M), by positivity⟩) (LipschitzOnWith.of_dist_le_mul fun x hx y hy => ?_)
    have := density_lip h hu' hx hu' hy
    rw [sub_self, abs_zero, zero_add] at this
    exact this
  have ii : ∀ u ∈ Set.Icc u0 u1, IntervalIntegrable (f u) MeasureTheory.volume v0 v1 := by
    intro u hu'
    refine ContinuousOn.intervalIntegrable ?_
    rw [Set.uIcc_of_le hv.le]
    exact fc u hu'
  have Fc : ContinuousOn (fun u => ∫ v in v0..v1, f u v) (Set.Icc u0 u1) := by
    refine LipschitzOnWith.continuousOn (K := ⟨2 * (L * M) * (v1 - v0), mul_nonneg (by positivity) (by linarith)⟩)
      (LipschitzOnWith.of_dist_le_mul fun x hx y hy => ?_)
    rw [Real.dist_eq, ← intervalIntegral.integral_sub (ii x hx) (ii y hy), ← Real.norm_eq_abs]
    have := intervalIntegral.norm_integral_le_of_norm_le_const (a := v0) (b := v1) (C := 2 * (L * M) * |x - y|)
      (f := fun v => f x v - f y v) (fun v hv' => by
        rw [Set.uIoc_of_le hv.le] at hv'
        have := density_lip h hx ⟨hv'.1.le, hv'.2⟩ hy ⟨hv'.1.le, hv'.2⟩
        rw [sub_self, abs_zero, add_zero] at this
        exact this)
    rw [abs_of_pos (by linarith : 0 < v1 - v0)] at this
    refine this.trans (le_of_eq ?_)
    rw [Real.dist_eq]
    show _ = 2 * (L * M) * (v1 - v0) * |x - y|
    ring
  have e1 : ∀ i : Nat, u0 + ((i + 1 : ℕ) : ℝ) * g = u0 + i * g + g := fun i => by push_cast; ring
  have e2 : ∀ j : Nat, v0 + ((j + 1 : ℕ) : ℝ) * k = v0 + j * k + k := fun j => by push_cast; ring
  simp only [e1, e2]
  have outer := riemann (f := fun u => ∫ v in v0..v1, f u v) (x0 := u0) (ε := (v1 - v0) * ε) hg a (by rw [eu]; exact Fc)
    (c := fun i => ∑ j ∈ Finset.range b,
      (((S (u0 + i * g + g) (v0 + j * k) - S (u0 + i * g) (v0 + j * k)).cross (S (u0 + i * g) (v0 + j * k + k) - S (u0 + i * g) (v0 + j * k))).length / 2
        + ((S (u0 + i * g + g) (v0 + j * k + k) - S (u0 + i * g) (v0 + j * k + k)).cross
          (S (u0 + i * g + g) (v0 + j * k + k) - S (u0 + i * g + g) (v0 + j * k))).length / 2))
    (by
      intro i hi u hu0 hu1'
      obtain ⟨b1, b2⟩ := bi hg hi
      have hu' : u ∈ Set.Icc u0 u1 := ⟨by linarith, by linarith⟩
      have inner := riemann (f := f u) (x0 := v0) (ε := ε) hh b (by rw [ev]; exact fc u hu')
        (c := fun j => (((S (u0 + i * g + g) (v0 + j * k) - S (u0 + i * g) (v0 + j * k)).cross (S (u0 + i * g) (v0 + j * k + k) - S (u0 + i * g) (v0 + j * k))).length / 2
          + ((S (u0 + i * g + g) (v0 + j * k + k) - S (u0 + i * g) (v0 + j * k + k)).cross
            (S (u0 + i * g + g) (v0 + j * k + k) - S (u0 + i * g + g) (v0 + j * k))).length / 2) / g)
        (by
          intro j hj v hv0 hv1'
          obtain ⟨c1, c2⟩ := bi hh hj
          have := cell_area h hu hv.le hg.le hh.le (a := u0 + i * g) (b := v0 + j * k) (by linarith) (by linarith) (by linarith) (by linarith)
            ⟨hu0, hu1'⟩ ⟨hv0, hv1'⟩
          refine le_of_mul_le_mul_left ?_ hg
          rw [← abs_of_pos hg, ← abs_mul, abs_of_pos hg, mul_sub, mul_div_cancel₀ _ hg.ne']
          exact this)
      rw [ev, eh, ← Finset.sum_div] at inner
      have := mul_le_mul_of_nonneg_left inner hg.le
      rw [← abs_of_pos hg, ← abs_mul, abs_of_pos hg, mul_sub, mul_div_cancel₀ _ hg.ne'] at this
      exact this)
  rw [eu, eg] at outer
  refine outer.trans (le_of_eq ?_)
  ring

/-- **C160** The area of the mesh of a surface with tangents `su`, `sv`, no longer than `L` and `M`-Lipschitz. -/
theorem C160_mesh {s : Surface ℝ} {S su sv : ℝ → ℝ → V3 ℝ} {u0 u1 v0 v1 L M : ℝ}
    (hs : ∀ u v, u ∈ Set.Icc u0 u1 → v ∈ Set.Icc v0 v1 → s.getPoint u v = .ok (S u v))
    (hn : ∀ us vs, (∀ u ∈ us, u ∈ Set.Icc u0 u1) → (∀ v ∈ vs, v ∈ Set.Icc v0 v1) →
      ∃ N, s.getNormals (gridParams us vs) = .ok N ∧ (N = [] ∨ N.length = (gridParams us vs).length))
    (h : Tangents S su sv (u0, u1) (v0, v1) L M) (hu : u0 < u1) (hv : v0 < v1) {a b : Nat} (ha : 1 ≤ a) (hb : 1 ≤ b)
    (hsz : (a + 1) * (b + 1) ≤ 2 ^ 32) :
    ∃ mesh ts, (SurfacePatch.mk s ((u0, u1), (v0, v1)) (a, b)).getTriangleMesh = .ok mesh ∧ corners mesh = some ts ∧
      |totalArea ts - surfaceArea su sv (u0, u1) (v0, v1)| ≤
        (u1 - u0) * (v1 - v0) * (2 * (L * M) * ((u1 - u0) / a + (v1 - v0) / b)) := by
  obtain ⟨mesh, h1, h2⟩ := grid_mesh hs hn hu hv ha hb hsz
  exact ⟨mesh, _, h1, h2, C160_grid h hu hv ha hb⟩

/-- **C160** The area of the triangles of the grids converges to the area of the surface. -/
theorem C160_limit {S su sv : ℝ → ℝ → V3 ℝ} {u0 u1 v0 v1 L M : ℝ} (h : Tangents S su sv (u0, u1) (v0, v1) L M) (hu : u0 < u1)
    (hv : v0 < v1) {ε : ℝ} (hε : 0 < ε) : ∃ N : Nat, 1 ≤ N ∧ ∀ a b, N ≤ a → N ≤ b →
      |totalArea (gridTriangles (fun i j => S (u0 + i * ((u1 - u0) / a)) (v0 + j * ((v1 - v0) / b))) a b)
        - surfaceArea su sv (u0, u1) (v0, v1)| ≤ ε := by
  obtain ⟨hL, hM⟩ := nonneg h hu hv.le
  have hu' : 0 < u1 - u0 := by linarith
  have hv' : 0 < v1 - v0 := by linarith
  set K := (u1 - u0) * (v1 - v0) * (2 * (L * M) * ((u1 - u0) + (v1 - v0))) with hK
  have hK0 : 0 ≤ K := by positivity
  obtain ⟨N, hN⟩ := exists_nat_ge (K / ε)
  refine ⟨N + 1, by omega, fun a b ha hb => (C160_grid h hu hv (by omega) (by omega)).trans ?_⟩
  have hN1 : (0 : ℝ) < ((N + 1 : ℕ) : ℝ) := by positivity
  have ha' : ((N + 1 : ℕ) : ℝ) ≤ a := by exact_mod_cast ha
  have hb' : ((N + 1 : ℕ) : ℝ) ≤ b := by exact_mod_cast hb
  have i1 : (u1 - u0) / a ≤ (u1 - u0) / ((N + 1 : ℕ) : ℝ) := div_le_div_of_nonneg_left hu'.le hN1 ha'
  have i2 : (v1 - v0) / b ≤ (v1 - v0) / ((N + 1 : ℕ) : ℝ) := div_le_div_of_nonneg_left hv'.le hN1 hb'
  calc (u1 - u0) * (v1 - v0) * (2 * (L * M) * ((u1 - u0) / a + (v1 - v0) / b))
      ≤ (u1 - u0) * (v1 - v0) * (2 * (L * M) * ((u1 - u0) / ((N + 1 : ℕ) : ℝ) + (v1 - v0) / ((N + 1 : ℕ) : ℝ))) := by gcongr
    _ = K / ((N + 1 : ℕ) : ℝ) := by rw [hK]; field_simp
    _ ≤ ε := by
      rw [div_le_iff₀ hN1]
      rw [div_le_iff₀ hε] at hN
      push_cast
      nlinarith

/-! ### Planes and cylinders -/

/-- **C160** The tangents of a plane, and its area. -/
theorem C160_plane (p : Plane ℝ) {u0 u1 v0 v1 : ℝ} (hu : u0 < u1) (hv : v0 < v1) {a b : Nat} (ha : 1 ≤ a) (hb : 1 ≤ b)
    (hsz : (a + 1) * (b + 1) ≤ 2 ^ 32) :
    ∃ mesh ts, (SurfacePatch.mk p.surface ((u0, u1), (v0, v1)) (a, b)).getTriangleMesh = .ok mesh ∧ corners mesh = some ts ∧
      totalArea ts = (u1 - u0) * (v1 - v0) * (p.uAxis.cross p.vAxis).length := by
  have ht : Tangents p.getPoint (fun _ _ => p.uAxis) (fun _ _ => p.vAxis) (u0, u1) (v0, v1) (max p.uAxis.length p.vAxis.length) 0 := by
    refine ⟨fun u _ v _ w => ?_, fun u _ v _ w => ?_, fun _ _ _ _ => le_max_left _ _, fun _ _ _ _ => le_max_right _ _,
      fun _ _ _ _ _ _ _ _ => ?_, fun _ _ _ _ _ _ _ _ => ?_⟩
    · have e : (fun x => w.dot (p.getPoint x v)) = fun x => x * w.dot p.uAxis + w.dot (p.origin + v • p.vAxis) := by
        funext x
        simp only [Plane.getPoint, V3.rmul_eq, V3.dot_add, V3.dot_smul]
        ring
      rw [e]
      simpa using (((hasDerivAt_id u).mul_const (w.dot p.uAxis)).add_const (w.dot (p.origin + v • p.vAxis))).hasDerivWithinAt
    · have e : (fun y => w.dot (p.getPoint u y)) = fun y => y * w.dot p.vAxis + w.dot (p.origin + u • p.uAxis) := by
        funext x
        simp only [Plane.getPoint, V3.rmul_eq, V3.dot_add, V3.dot_smul]
        ring
      rw [e]
      simpa using (((hasDerivAt_id v).mul_const (w.dot p.vAxis)).add_const (w.dot (p.origin + u • p.uAxis))).hasDerivWithinAt
    · simp [V3.length_zero]
    · simp [V3.length_zero]
  obtain ⟨mesh, ts, h1, h2, h3⟩ := C160_mesh (s := p.surface) (S := p.getPoint) (fun u v _ _ => rfl) (fun us vs _ _ => ⟨[], rfl, Or.inl rfl⟩) ht hu hv ha hb hsz
  refine ⟨mesh, ts, h1, h2, ?_⟩
  rw [mul_zero, mul_zero, zero_mul, mul_zero] at h3
  have := abs_nonpos_iff.1 h3
  rw [sub_eq_zero] at this
  rw [this]
  unfold surfaceArea
  simp only [intervalIntegral.integral_const, smul_eq_mul]
  ring

namespace Area

/-- The points of a cylinder. -/
theorem cylinder_point {c : Cylinder ℝ} (h : CylFramed c) (l a : ℝ) : c.getPoint l a =
    (c.origin + l • c.axis) + Real.cos a • (c.radius • c.refDir) + Real.sin a • (c.radius • c.axis.cross c.refDir) := by
  rw [cylinder_getPoint, circle_getPoint h.base]
  simp only [Cylinder.base]
  module

theorem cylinder_frame {c : Cylinder ℝ} (h : CylFramed c) :
    c.refDir.dot (c.axis.cross c.refDir) = 0 ∧ (c.axis.cross c.refDir).dot (c.axis.cross c.refDir) = 1 ∧
    c.axis.dot (c.axis.cross c.refDir) = 0 := by
  have e2 := framed_cross h.base
  simp only [Cylinder.base] at e2
  exact ⟨V3.dot_cross_right c.axis c.refDir, e2, V3.dot_cross_left c.axis c.refDir⟩

/-- The length of a combination of the directions of the circle. -/
theorem ring_dot {c : Cylinder ℝ} (h : CylFramed c) (x y : ℝ) :
    (x • (c.radius • c.refDir) + y • (c.radius • c.axis.cross c.refDir)).dot
      (x • (c.radius • c.refDir) + y • (c.radius • c.axis.cross c.refDir)) = c.radius ^ 2 * (x ^ 2 + y ^ 2) ∧
    c.axis.dot (x • (c.radius • c.refDir) + y • (c.radius • c.axis.cross c.refDir)) = 0 := by
  obtain ⟨f1, f2, f3⟩ := cylinder_frame h
  constructor
  · simp only [V3.dot_add, V3.add_dot, V3.dot_smul, V3.smul_dot, V3.dot_comm (c.axis.cross c.refDir) c.refDir, f1, f2, h.ref]
    ring
  · simp only [V3.dot_add, V3.dot_smul, f3, h.perp]
    ring

/-- The cross product of orthogonal vectors. -/
theorem cross_length {a b : V3 ℝ} (h : a.dot b = 0) : (a.cross b).length = a.length * b.length := by
  rw [V3.length_eq, V3.lagrange, h]
  rw [show a.dot a * b.dot b - (0 : ℝ) ^ 2 = a.dot a * b.dot b by ring, Real.sqrt_mul (V3.dot_self_nonneg a)]
  rfl

theorem chord_sq (a k : ℝ) : (Real.cos (a + k) - Real.cos a) ^ 2 + (Real.sin (a + k) - Real.sin a) ^ 2 = (2 * Real.sin (k / 2)) ^ 2 := by
  have h1 := Real.sin_sq_add_cos_sq a
  have h2 := Real.sin_sq_add_cos_sq (a + k)
  have h3 : Real.cos (a + k) * Real.cos a + Real.sin (a + k) * Real.sin a = Real.cos k := by
    rw [← Real.cos_sub, add_sub_cancel_left]
  have h4 : Real.cos k = 1 - 2 * Real.sin (k / 2) ^ 2 := by
    have := Real.cos_two_mul (k / 2)
    rw [mul_div_cancel₀ _ (two_ne_zero)] at this
    have h5 := Real.sin_sq_add_cos_sq (k / 2)
    linarith
  nlinarith

end Area

/-- **C160** The area of the mesh of a cylinder: the sides of the prism over the chords of the circle. -/
theorem C160_cylinder {c : Cylinder ℝ} (h : CylFramed c) (hr : 0 ≤ c.radius) {u0 u1 v0 v1 : ℝ} (hu : u0 < u1) (hv : v0 < v1)
    (hv' : v1 - v0 ≤ 2 * Real.pi) {a b : Nat} (ha : 1 ≤ a) (hb : 1 ≤ b) (hsz : (a + 1) * (b + 1) ≤ 2 ^ 32) :
    ∃ mesh ts, (SurfacePatch.mk c.surface ((u0, u1), (v0, v1)) (a, b)).getTriangleMesh = .ok mesh ∧ corners mesh = some ts ∧
      totalArea ts = (u1 - u0) * (b * (2 * c.radius * Real.sin ((v1 - v0) / (2 * b)))) ∧
      totalArea ts ≤ (u1 - u0) * (c.radius * (v1 - v0)) ∧
      (u1 - u0) * (c.radius * (v1 - v0)) * (1 - (v1 - v0) ^ 2 / (24 * b ^ 2)) ≤ totalArea ts := by
  obtain ⟨mesh, h1, h2⟩ := grid_mesh (s := c.surface) (S := c.getPoint) (fun u v _ _ => rfl) (fun us vs _ _ => ⟨[], rfl, Or.inl rfl⟩)
    hu hv ha hb hsz
  have ha' : (0 : ℝ) < a := by exact_mod_cast ha
  have hb' : (0 : ℝ) < b := by exact_mod_cast hb
  have hb1 : (1 : ℝ) ≤ b := by exact_mod_cast hb
  have hdv : 0 < v1 - v0 := by linarith
  have hdu : 0 < u1 - u0 := by linarith
  have hx0 : 0 < (v1 - v0) / (2 * b) := by positivity
  have hxpi : (v1 - v0) / (2 * b) ≤ Real.pi := by
    rw [div_le_iff₀ (by positivity)]
    nlinarith [Real.pi_pos]
  have hsin : 0 ≤ Real.sin ((v1 - v0) / (2 * b)) := Real.sin_nonneg_of_nonneg_of_le_pi hx0.le hxpi
  have tri : ∀ l m y x k g : ℝ, 0 ≤ g → 0 ≤ Real.sin (k / 2) →
      ((c.getPoint (l + g) y - c.getPoint l y).cross (c.getPoint m (x + k) - c.getPoint m x)).length = g * (2 * c.radius * Real.sin (k / 2)) := by
    intro l m y x k g hg hk
    have e1 : c.getPoint (l + g) y - c.getPoint l y = g • c.axis := by
      rw [cylinder_point h, cylinder_point h]; module
    have e2 : c.getPoint m (x + k) - c.getPoint m x = (Real.cos (x + k) - Real.cos x) • (c.radius • c.refDir)
        + (Real.sin (x + k) - Real.sin x) • (c.radius • c.axis.cross c.refDir) := by
      rw [cylinder_point h, cylinder_point h]; module
    obtain ⟨r1, r2⟩ := ring_dot h (Real.cos (x + k) - Real.cos x) (Real.sin (x + k) - Real.sin x)
    rw [e1, e2, cross_length (by rw [V3.smul_dot, r2, mul_zero]), V3.length_smul, abs_of_nonneg hg, V3.length_eq c.axis, h.axis,
      Real.sqrt_one, mul_one, V3.length_eq, r1, chord_sq, ← mul_pow, Real.sqrt_sq (by positivity)]
    ring
  have harea : totalArea (gridTriangles (fun i j => c.getPoint (u0 + i * ((u1 - u0) / a)) (v0 + j * ((v1 - v0) / b))) a b)
      = (u1 - u0) * (b * (2 * c.radius * Real.sin ((v1 - v0) / (2 * b)))) := by
    rw [totalArea_grid]
    have e1 : ∀ i : Nat, u0 + ((i + 1 : ℕ) : ℝ) * ((u1 - u0) / a) = u0 + i * ((u1 - u0) / a) + (u1 - u0) / a := fun i => by push_cast; ring
    have e2 : ∀ j : Nat, v0 + ((j + 1 : ℕ) : ℝ) * ((v1 - v0) / b) = v0 + j * ((v1 - v0) / b) + (v1 - v0) / b := fun j => by push_cast; ring
    have e3 : (v1 - v0) / b / 2 = (v1 - v0) / (2 * b) := by field_simp
    have hk : 0 ≤ Real.sin ((v1 - v0) / b / 2) := by rw [e3]; exact hsin
    simp only [e1, e2]
    simp only [tri _ _ _ _ _ _ (by positivity : 0 ≤ (u1 - u0) / (a : ℝ)) hk, e3, Finset.sum_const, Finset.card_range, nsmul_eq_mul]
    field_simp
    ring
  refine ⟨mesh, _, h1, h2, harea, ?_, ?_⟩
  · rw [harea]
    refine mul_le_mul_of_nonneg_left ?_ hdu.le
    have := Real.sin_le hx0.le
    calc b * (2 * c.radius * Real.sin ((v1 - v0) / (2 * b))) ≤ b * (2 * c.radius * ((v1 - v0) / (2 * b))) := by gcongr
      _ = c.radius * (v1 - v0) := by field_simp
  · rw [harea]
    have hs := (Real.sin_gt_sub_cube hx0).le
    calc (u1 - u0) * (c.radius * (v1 - v0)) * (1 - (v1 - v0) ^ 2 / (24 * b ^ 2))
        = (u1 - u0) * (b * (2 * c.radius * ((v1 - v0) / (2 * b) - ((v1 - v0) / (2 * b)) ^ 3 / 6))) := by field_simp; ring
      _ ≤ _ := by gcongr

/-! ### Bézier patches -/

/-- The first differences of the control points are not longer than `D` along the first index and `E` along the second. -/
structure Spec.NetSlopes (m n : Nat) (P : Nat → Nat → V3 ℝ) (D E : ℝ) : Prop where
  u : ∀ i j, i + 1 ≤ m → j ≤ n → (P (i + 1) j - P i j).length ≤ D
  v : ∀ i j, i ≤ m → j + 1 ≤ n → (P i (j + 1) - P i j).length ≤ E
  nonneg : 0 ≤ D ∧ 0 ≤ E

/-- The tangents of a patch: patches of the differences. -/
noncomputable def Spec.patchU (m n : Nat) (P : Nat → Nat → V3 ℝ) (u v : ℝ) : V3 ℝ :=
  (m : ℝ) • patchPoint (m - 1) n (fun i j => P (i + 1) j - P i j) u v
noncomputable def Spec.patchV (m n : Nat) (P : Nat → Nat → V3 ℝ) (u v : ℝ) : V3 ℝ :=
  (n : ℝ) • patchPoint m (n - 1) (fun i j => P i (j + 1) - P i j) u v

namespace Area
open Deviation

theorem length_le_of_dot {X : V3 ℝ} {M : ℝ} (hM : 0 ≤ M) (h : X.dot X ≤ X.length * M) : X.length ≤ M := by
  rw [← V3.length_mul_self] at h
  rcases (V3.length_nonneg X).eq_or_lt with h0 | h0
  · rw [← h0]; exact hM
  · exact le_of_mul_le_mul_left h h0

theorem patch_le {m n : Nat} {P : Nat → Nat → V3 ℝ} {L : ℝ} (hL : 0 ≤ L) (h : ∀ i j, i ≤ m → j ≤ n → (P i j).length ≤ L) {u v : ℝ}
    (hu0 : 0 ≤ u) (hu1 : u ≤ 1) (hv0 : 0 ≤ v) (hv1 : v ≤ 1) : (patchPoint m n P u v).length ≤ L := by
  apply length_le_of_dot hL
  conv_lhs => rw [dot_patch]
  exact (le_abs_self _).trans (abs_tens_le (fun i j hi hj => abs_dot_le (h i j hi hj)) hu0 hu1 hv0 hv1)

/-- A polynomial over the unit square with bounded derivatives. -/
theorem tens_lip {m n : Nat} {c : Nat → Nat → ℝ} {M : ℝ}
    (h1 : ∀ u v : ℝ, 0 ≤ u → u ≤ 1 → 0 ≤ v → v ≤ 1 → |m * tens (m - 1) n (du c) u v| ≤ M)
    (h2 : ∀ u v : ℝ, 0 ≤ u → u ≤ 1 → 0 ≤ v → v ≤ 1 → |n * tens m (n - 1) (dv c) u v| ≤ M) {u v u' v' : ℝ}
    (hu0 : 0 ≤ u) (hu1 : u ≤ 1) (hv0 : 0 ≤ v) (hv1 : v ≤ 1) (hu0' : 0 ≤ u') (hu1' : u' ≤ 1) (hv0' : 0 ≤ v') (hv1' : v' ≤ 1) :
    |tens m n c u v - tens m n c u' v'| ≤ M * (|u - u'| + |v - v'|) := by
  have key := (convex_Icc (0 : ℝ) 1).norm_image_sub_le_of_norm_hasDerivWithin_le
    (f := fun t => tens m n c (u' + t * (u - u')) (v' + t * (v - v')))
    (f' := fun t => (u - u') * (m * tens (m - 1) n (du c) (u' + t * (u - u')) (v' + t * (v - v'))) +
        (v - v') * (n * tens m (n - 1) (dv c) (u' + t * (u - u')) (v' + t * (v - v'))))
    (C := M * (|u - u'| + |v - v'|)) (x := 0) (y := 1)
    (fun t _ => (hasDerivAt_tens m n c u' v' (u - u') (v - v') t).hasDerivWithinAt) (fun t ht => ?_) (by simp) (by simp)
  · simp only [one_mul, zero_mul, add_zero, add_sub_cancel, sub_zero, Real.norm_eq_abs, abs_one, mul_one] at key
    exact key
  · obtain ⟨t0, t1⟩ := ht
    have i1 : 0 ≤ u' + t * (u - u') := by nlinarith
    have i2 : u' + t * (u - u') ≤ 1 := by nlinarith
    have i3 : 0 ≤ v' + t * (v - v') := by nlinarith
    have i4 : v' + t * (v - v') ≤ 1 := by nlinarith
    rw [Real.norm_eq_abs]
    refine (abs_add_le _ _).trans ?_
    rw [abs_mul (u - u'), abs_mul (v - v')]
    have j1 := mul_le_mul_of_nonneg_left (h1 _ _ i1 i2 i3 i4) (abs_nonneg (u - u'))
    have j2 := mul_le_mul_of_nonneg_left (h2 _ _ i1 i2 i3 i4) (abs_nonneg (v - v'))
    linarith

theorem patch_lip {m n : Nat} {P : Nat → Nat → V3 ℝ} {k M : ℝ} (hk : 0 ≤ k) (hM : 0 ≤ M)
    (h1 : ∀ i j, i + 1 ≤ m → j ≤ n → k * m * (P (i + 1) j - P i j).length ≤ M)
    (h2 : ∀ i j, i ≤ m → j + 1 ≤ n → k * n * (P i (j + 1) - P i j).length ≤ M) {u v u' v' : ℝ}
    (hu0 : 0 ≤ u) (hu1 : u ≤ 1) (hv0 : 0 ≤ v) (hv1 : v ≤ 1) (hu0' : 0 ≤ u') (hu1' : u' ≤ 1) (hv0' : 0 ≤ v') (hv1' : v' ≤ 1) :
    (k • patchPoint m n P u v - k • patchPoint m n P u' v').length ≤ M * (|u - u'| + |v - v'|) := by
  apply length_le_of_dot (by positivity)
  set X := k • patchPoint m n P u v - k • patchPoint m n P u' v' with hX
  have e : X.dot X = k * (tens m n (fun i j => X.dot (P i j)) u v - tens m n (fun i j => X.dot (P i j)) u' v') := by
    conv_lhs => rw [hX]
    rw [← hX, V3.dot_sub, V3.dot_smul, V3.dot_smul, dot_patch, dot_patch]
    ring
  have hX0 := V3.length_nonneg X
  rcases hk.eq_or_lt with h0 | h0
  · rw [e, ← h0, zero_mul]; positivity
  have key := tens_lip (m := m) (n := n) (c := fun i j => X.dot (P i j)) (M := X.length * M / k) (fun u v a b c d => ?_)
    (fun u v a b c d => ?_) hu0 hu1 hv0 hv1 hu0' hu1' hv0' hv1'
  · rw [e]
    have := mul_le_mul_of_nonneg_left ((le_abs_self _).trans key) hk
    refine this.trans (le_of_eq ?_)
    field_simp
  · rw [abs_mul, Nat.abs_cast, le_div_iff₀ h0]
    rcases Nat.eq_zero_or_pos m with hm | hm
    · subst hm; simp; positivity
    · have hm' : (0 : ℝ) < m := by exact_mod_cast hm
      have := abs_tens_le (n := m - 1) (m := n) (c := du fun i j => X.dot (P i j)) (M := X.length * (M / (k * m))) (fun i j hi hj => by
        simp only [du]
        rw [← V3.dot_sub]
        refine abs_dot_le ?_
        rw [le_div_iff₀ (by positivity), mul_comm]
        exact h1 i j (by omega) hj) a b c d
      calc (m : ℝ) * _ * k ≤ m * (X.length * (M / (k * m))) * k := by gcongr
        _ = X.length * M := by field_simp
  · rw [abs_mul, Nat.abs_cast, le_div_iff₀ h0]
    rcases Nat.eq_zero_or_pos n with hm | hm
    · subst hm; simp; positivity
    · have hm' : (0 : ℝ) < n := by exact_mod_cast hm
      have := abs_tens_le (n := m) (m := n - 1) (c := dv fun i j => X.dot (P i j)) (M := X.length * (M / (k * n))) (fun i j hi hj => by
        simp only [dv]
        rw [← V3.dot_sub]
        refine abs_dot_le ?_
        rw [le_div_iff₀ (by positivity), mul_comm]
        exact h2 i j hi (by omega)) a b c d
      calc (n : ℝ) * _ * k ≤ n * (X.length * (M / (k * n))) * k := by gcongr
        _ = X.length * M := by field_simp

/-- The tangents of a Bézier patch over a rectangle in the unit square. -/
theorem patch_tangents {m n : Nat} {P : Nat → Nat → V3 ℝ} {A B C D E L M : ℝ} (hS : NetSlopes m n P D E) (hN : NetBends m n P A B C)
    (l1 : m * D ≤ L) (l2 : n * E ≤ L) (m1 : m * (m - 1 : ℕ) * A ≤ M) (m2 : m * n * B ≤ M) (m3 : n * (n - 1 : ℕ) * C ≤ M)
    {u0 u1 v0 v1 : ℝ} (hu0 : 0 ≤ u0) (hu1 : u1 ≤ 1) (hv0 : 0 ≤ v0) (hv1 : v1 ≤ 1) :
    Tangents (patchPoint m n P) (patchU m n P) (patchV m n P) (u0, u1) (v0, v1) L M := by
  obtain ⟨nA, nB, nC⟩ := hN.nonneg
  obtain ⟨nD, nE⟩ := hS.nonneg
  have hM : 0 ≤ M := le_trans (by positivity) m2
  refine ⟨fun u hu v hv w => ?_, fun u hu v hv w => ?_, fun u hu v hv => ?_, fun u hu v hv => ?_, fun u hu v hv u' hu' v' hv' => ?_,
    fun u hu v hv u' hu' v' hv' => ?_⟩
  · have := hasDerivAt_tens m n (fun i j => w.dot (P i j)) 0 v 1 0 u
    simp only [zero_add, mul_one, mul_zero, add_zero, one_mul, zero_mul] at this
    simp only [dot_patch, patchU, V3.dot_smul, V3.dot_sub]
    exact this.hasDerivWithinAt
  · have := hasDerivAt_tens m n (fun i j => w.dot (P i j)) u 0 0 1 v
    simp only [zero_add, mul_one, mul_zero, add_zero, one_mul, zero_mul] at this
    simp only [dot_patch, patchV, V3.dot_smul, V3.dot_sub]
    exact this.hasDerivWithinAt
  · rw [patchU, V3.length_smul, Nat.abs_cast]
    rcases Nat.eq_zero_or_pos m with hm | hm
    · subst hm; simp only [Nat.cast_zero, zero_mul] at l1 ⊢; exact l1
    · refine (mul_le_mul_of_nonneg_left (patch_le nD (fun i j hi hj => hS.u i j (by omega) hj) (hu0.trans hu.1) (hu.2.trans hu1)
        (hv0.trans hv.1) (hv.2.trans hv1)) (Nat.cast_nonneg m)).trans l1
  · rw [patchV, V3.length_smul, Nat.abs_cast]
    rcases Nat.eq_zero_or_pos n with hm | hm
    · subst hm; simp only [Nat.cast_zero, zero_mul] at l2 ⊢; exact l2
    · refine (mul_le_mul_of_nonneg_left (patch_le nE (fun i j hi hj => hS.v i j hi (by omega)) (hu0.trans hu.1) (hu.2.trans hu1)
        (hv0.trans hv.1) (hv.2.trans hv1)) (Nat.cast_nonneg n)).trans l2
  · unfold patchU
    refine patch_lip (Nat.cast_nonneg m) hM (fun i j hi hj => ?_) (fun i j hi hj => ?_) (hu0.trans hu.1) (hu.2.trans hu1)
      (hv0.trans hv.1) (hv.2.trans hv1) (hu0.trans hu'.1) (hu'.2.trans hu1) (hv0.trans hv'.1) (hv'.2.trans hv1)
    · refine (mul_le_mul_of_nonneg_left ?_ (by positivity)).trans m1
      have := hN.uu i j (by omega) hj
      rwa [show P (i + 1 + 1) j - P (i + 1) j - (P (i + 1) j - P i j) = P (i + 2) j - (2 : ℝ) • P (i + 1) j + P i j by module]
    · rcases Nat.eq_zero_or_pos m with hm | hm
      · subst hm; simpa using hM
      refine (mul_le_mul_of_nonneg_left ?_ (by positivity)).trans m2
      have := hN.uv i j (by omega) hj
      rwa [show P (i + 1) (j + 1) - P i (j + 1) - (P (i + 1) j - P i j) = P (i + 1) (j + 1) - P (i + 1) j - P i (j + 1) + P i j by abel]
  · unfold patchV
    refine patch_lip (Nat.cast_nonneg n) hM (fun i j hi hj => ?_) (fun i j hi hj => ?_) (hu0.trans hu.1) (hu.2.trans hu1)
      (hv0.trans hv.1) (hv.2.trans hv1) (hu0.trans hu'.1) (hu'.2.trans hu1) (hv0.trans hv'.1) (hv'.2.trans hv1)
    · rcases Nat.eq_zero_or_pos n with hm | hm
      · subst hm; simpa using hM
      rw [mul_comm (n : ℝ)]
      refine (mul_le_mul_of_nonneg_left ?_ (by positivity)).trans m2
      have := hN.uv i j hi (by omega)
      rwa [show P (i + 1) (j + 1) - P (i + 1) j - (P i (j + 1) - P i j) = P (i + 1) (j + 1) - P (i + 1) j - P i (j + 1) + P i j by abel]
    · refine (mul_le_mul_of_nonneg_left ?_ (by positivity)).trans m3
      have := hN.vv i j hi (by omega)
      rwa [show P i (j + 1 + 1) - P i (j + 1) - (P i (j + 1) - P i j) = P i (j + 2) - (2 : ℝ) • P i (j + 1) + P i j by module]

end Area

/-- **C160** The area of the mesh of a Bézier patch differs from the area of the patch by at most a bound that the differences of the
control points give, and that shrinks with the sides of the cells. -/
theorem C160_bezier {s : BezierSurface (V3 ℝ)} (hg : NetOk s.controlPoints) (hr : 1 ≤ s.controlPoints.rows)
    (hc : 1 ≤ s.controlPoints.cols) {m n : Nat} (hm : s.controlPoints.rows = m + 1) (hn : s.controlPoints.cols = n + 1)
    {A B C D E L M : ℝ} (hS : NetSlopes m n (entry s.controlPoints) D E) (hN : NetBends m n (entry s.controlPoints) A B C)
    (l1 : m * D ≤ L) (l2 : n * E ≤ L) (m1 : m * (m - 1 : ℕ) * A ≤ M) (m2 : m * n * B ≤ M) (m3 : n * (n - 1 : ℕ) * C ≤ M)
    {u0 u1 v0 v1 : ℝ} (hu : u0 < u1) (hv : v0 < v1) (hu0 : 0 ≤ u0) (hu1 : u1 ≤ 1) (hv0 : 0 ≤ v0) (hv1 : v1 ≤ 1) {a b : Nat}
    (ha : 1 ≤ a) (hb : 1 ≤ b) (hsz : (a + 1) * (b + 1) ≤ 2 ^ 32) :
    ∃ mesh ts, (SurfacePatch.mk s.surface ((u0, u1), (v0, v1)) (a, b)).getTriangleMesh = .ok mesh ∧ corners mesh = some ts ∧
      |totalArea ts - surfaceArea (patchU m n (entry s.controlPoints)) (patchV m n (entry s.controlPoints)) (u0, u1) (v0, v1)| ≤
        (u1 - u0) * (v1 - v0) * (2 * (L * M) * ((u1 - u0) / a + (v1 - v0) / b)) := by
  have hp := surface_patchPoint hg hr hc
  rw [hm, hn] at hp
  exact C160_mesh (s := s.surface) (S := patchPoint m n (entry s.controlPoints)) (fun u v _ _ => hp u v)
    (fun us vs _ _ => ⟨[], rfl, Or.inl rfl⟩) (Area.patch_tangents hS hN l1 l2 m1 m2 m3 hu0 hu1 hv0 hv1) hu hv ha hb hsz

/-! ### Examples -/

/-- **C160**, an example: the parabolic trough `(u, v, u²)`, whose area is the integral of `√(1 + 4 u²)`. -/
example {a b : Nat} (ha : 1 ≤ a) (hb : 1 ≤ b) (hsz : (a + 1) * (b + 1) ≤ 2 ^ 32) :
    ∃ mesh ts, (SurfacePatch.mk (BezierSurface.mk trough).surface ((0, 1), (0, 1)) (a, b)).getTriangleMesh = .ok mesh ∧
      corners mesh = some ts ∧ |totalArea ts - ∫ u in (0 : ℝ)..1, Real.sqrt (1 + 4 * u ^ 2)| ≤ 12 * (1 / a + 1 / b) := by
  have hS : NetSlopes 2 1 (entry trough) (3 / 2) 1 := by
    refine ⟨fun i j hi hj => ?_, fun i j hi hj => ?_, by norm_num, by norm_num⟩
    · have hi' : i ≤ 1 := by omega
      rw [V3.length_eq]
      apply Real.sqrt_le_iff.2
      refine ⟨by norm_num, ?_⟩
      interval_cases i <;> interval_cases j <;> norm_num [entry, trough, V3.dot]
    · have hj' : j = 0 := by omega
      subst hj'
      rw [V3.length_eq]
      apply Real.sqrt_le_iff.2
      refine ⟨by norm_num, ?_⟩
      interval_cases i <;> norm_num [entry, trough, V3.dot]
  obtain ⟨mesh, ts, h1, h2, h3⟩ := C160_bezier (s := ⟨trough⟩) rfl (by simp [trough]) (by simp [trough]) (m := 2) (n := 1) rfl rfl hS
    trough_bends (L := 3) (M := 2) (by norm_num) (by norm_num) (by norm_num) (by norm_num) (by norm_num)
    (show (0 : ℝ) < 1 by norm_num) (show (0 : ℝ) < 1 by norm_num) (le_refl _) (le_refl _) (le_refl _) (le_refl _) ha hb hsz
  refine ⟨mesh, ts, h1, h2, ?_⟩
  have e : surfaceArea (patchU 2 1 (entry trough)) (patchV 2 1 (entry trough)) (0, 1) (0, 1)
      = ∫ u in (0 : ℝ)..1, Real.sqrt (1 + 4 * u ^ 2) := by
    unfold surfaceArea
    apply intervalIntegral.integral_congr
    intro u _
    have e1 : ∀ v, patchU 2 1 (entry trough) u v = ⟨1, 0, 2 * u⟩ := by
      intro v
      unfold patchU patchPoint
      ext <;> (simp [Finset.sum_range_succ, bernsteinPoly, entry, trough]; try ring)
    have e2 : ∀ v, patchV 2 1 (entry trough) u v = ⟨0, 1, 0⟩ := by
      intro v
      unfold patchV patchPoint
      ext <;> (simp [Finset.sum_range_succ, bernsteinPoly, entry, trough]; try ring)
    simp only [e1, e2, V3.length_eq]
    simp [V3.cross, V3.dot]
    ring_nf
  simp only [e, sub_zero] at h3
  refine h3.trans (le_of_eq (by ring))

/-- **C160**, an example: the cylinder of the test in `src/surface/cylinder.rs:130-143`: the mesh misses less than one part in five hundred of the area `30 π`. -/
example {c : Cylinder ℝ} (h : CylFramed c) (hr : c.radius = 3) :
    ∃ mesh ts, (SurfacePatch.mk c.surface ((0, 10), (0, Real.pi)) (16, 16)).getTriangleMesh = .ok mesh ∧ corners mesh = some ts ∧
      totalArea ts ≤ 30 * Real.pi ∧ 30 * Real.pi * (1 - 1 / 500) ≤ totalArea ts := by
  obtain ⟨mesh, ts, h1, h2, -, h3, h4⟩ := C160_cylinder h (by rw [hr]; norm_num) (show (0 : ℝ) < 10 by norm_num) Real.pi_pos
    (by linarith [Real.pi_pos]) (a := 16) (b := 16) (by norm_num) (by norm_num) (by norm_num)
  rw [hr] at h3 h4
  refine ⟨mesh, ts, h1, h2, by linarith, le_trans ?_ h4⟩
  have hp := Real.pi_lt_d2
  have hp0 := Real.pi_pos
  have : Real.pi ^ 2 ≤ 10 := by nlinarith
  have h5 : (Real.pi - 0) ^ 2 / (24 * ((16 : ℕ) : ℝ) ^ 2) ≤ 1 / 500 := by
    rw [sub_zero, div_le_iff₀ (by norm_num)]
    push_cast
    linarith
  nlinarith

end Geom3d
