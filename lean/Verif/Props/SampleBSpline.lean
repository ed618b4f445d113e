import Verif.Props.SampleCount
import Verif.Props.Subdivide
import Mathlib.Tactic.IntervalCases

/-! # C152 for B-spline curves -/

set_option linter.unusedSectionVars false

namespace Geom3d
open Spec

/-- Control point `i` of the derivative of a B-spline curve. -/
noncomputable def Spec.slopePoint (c : BSplineCurve ℝ (V3 ℝ)) (i : Nat) : V3 ℝ :=
  ((c.degree : ℝ) / (knot c.knots (i + c.degree + 1) - knot c.knots (i + 1))) •
    (cp c.controlPoints (i + 1) - cp c.controlPoints i)

/-- A function whose derivative is Lipschitz, and its chords. -/
theorem chord_of_lip {f f' : ℝ → ℝ} {D lo hi : ℝ}
    (h1 : ∀ x ∈ Set.Icc lo hi, HasDerivWithinAt f (f' x) (Set.Icc lo hi) x)
    (h2 : ∀ x ∈ Set.Icc lo hi, ∀ y ∈ Set.Icc lo hi, |f' x - f' y| ≤ D * |x - y|) (hD : 0 ≤ D) {a b : ℝ}
    (ha : a ∈ Set.Icc lo hi) (hb : b ∈ Set.Icc lo hi) {t : ℝ} (ht0 : 0 ≤ t) (ht1 : t ≤ 1) :
    |f (a + (b - a) * t) - (f a + (f b - f a) * t)| ≤ D * (b - a) ^ 2 / 8 := by
  have up : ∀ (σ : ℝ), |σ| = 1 → σ * (f (a + (b - a) * t) - (f a + (f b - f a) * t)) ≤ D * (b - a) ^ 2 / 8 := by
    intro σ hσ
    have hder : ∀ x ∈ Set.Icc lo hi,
        HasDerivWithinAt (fun x => σ * f x + D / 2 * x ^ 2) (σ * f' x + D * x) (Set.Icc lo hi) x := by
      intro x hx
      have := (((h1 x hx).const_mul σ).add (((hasDerivWithinAt_id x (Set.Icc lo hi)).pow 2).const_mul (D / 2)))
      exact this.congr_deriv (by simp; ring)
    have hcv : ConvexOn ℝ (Set.Icc lo hi) fun x => σ * f x + D / 2 * x ^ 2 := by
      have hd : ∀ x ∈ interior (Set.Icc lo hi), deriv (fun x => σ * f x + D / 2 * x ^ 2) x = σ * f' x + D * x :=
        fun x hx => ((hder x (interior_subset hx)).hasDerivAt (mem_interior_iff_mem_nhds.1 hx)).deriv
      refine MonotoneOn.convexOn_of_deriv (convex_Icc lo hi) (fun x hx => (hder x hx).continuousWithinAt) ?_ ?_
      · intro x hx
        exact ((hder x (interior_subset hx)).hasDerivAt (mem_interior_iff_mem_nhds.1 hx)).differentiableAt.differentiableWithinAt
      · intro x hx y hy hxy
        rw [hd x hx, hd y hy]
        have k := h2 x (interior_subset hx) y (interior_subset hy)
        rw [abs_sub_comm x y, abs_of_nonneg (sub_nonneg.2 hxy)] at k
        have k2 : |σ * (f' x - f' y)| ≤ D * (y - x) := by rw [abs_mul, hσ, one_mul]; exact k
        have := (abs_le.1 k2).2
        linarith
    have hj := hcv.2 ha hb (show 0 ≤ 1 - t by linarith) ht0 (by ring)
    simp only [smul_eq_mul] at hj
    rw [show (1 - t) * a + t * b = a + (b - a) * t by ring] at hj
    have e : D / 2 * ((1 - t) * a ^ 2 + t * b ^ 2 - (a + (b - a) * t) ^ 2) = D * (b - a) ^ 2 / 2 * (t * (1 - t)) := by ring
    have k : D * (b - a) ^ 2 / 2 * (t * (1 - t)) ≤ D * (b - a) ^ 2 / 2 * (1 / 4) :=
      mul_le_mul_of_nonneg_left (by nlinarith [sq_nonneg (t - 1 / 2)]) (by positivity)
    linarith
  rw [abs_le]
  have u1 := up 1 (by simp)
  have u2 := up (-1) (by simp)
  constructor <;> linarith

/-- **C152** Clamped B-spline curves of degree `p ≥ 2` without inner knots of a multiplicity above `p - 1`: `D` bounds the
control points of the second derivative. -/
theorem C152_bspline {c : BSplineCurve ℝ (V3 ℝ)} (hv : c.Valid) (hp : 2 ≤ c.degree)
    (h0 : knot c.knots 0 = knot c.knots c.degree)
    (h1 : knot c.knots c.controlPoints.length = knot c.knots (c.controlPoints.length + c.degree))
    (hmult : ∀ x, knot c.knots 0 < x → x < knot c.knots (c.controlPoints.length + c.degree) →
      c.knots.count x ≤ c.degree - 1) {D : ℝ} (hD : 0 ≤ D)
    (h : ∀ i, i + 2 < c.controlPoints.length →
      ((c.degree : ℝ) - 1) * (slopePoint c (i + 1) - slopePoint c i).length /
        (knot c.knots (i + c.degree + 1) - knot c.knots (i + 2)) ≤ D) :
    Bows c.getPoint D (knot c.knots 0) (knot c.knots (c.controlPoints.length + c.degree)) := by
  have hp1 : 1 ≤ c.degree := by omega
  obtain ⟨c', hd, hv', d1, d2, d3, k0, k1, d4, hR, hL⟩ := derivative_sides hv hp1 h0 h1
  have hpts : ∀ i, i < c'.controlPoints.length → cp c'.controlPoints i = slopePoint c i := by
    intro i hi
    have hN := (clamped_inner hv hp1 h0 h1).1
    rw [derivative_eq hv.len hp1 (by omega) hv.resolved] at hd
    cases hd
    simp only [tab, List.length_map, List.length_range] at hi
    simp [cp, tab, hi, slopePoint]
  intro a b t ha hb ht0 ht1
  have hm : a + (b - a) * t ∈ Set.Icc (knot c.knots 0) (knot c.knots (c.controlPoints.length + c.degree)) := by
    obtain ⟨a0, a1⟩ := ha
    obtain ⟨b0, b1⟩ := hb
    constructor <;> nlinarith
  obtain ⟨sa, -, ea⟩ := getPoint_eq hv ha.1
  obtain ⟨sb, -, eb⟩ := getPoint_eq hv hb.1
  obtain ⟨sm, -, em⟩ := getPoint_eq hv hm.1
  refine ⟨_, _, _, ea, eb, em, ?_⟩
  unfold V3.distance
  set X := c.pieceSum sm (a + (b - a) * t) - (c.pieceSum sa a + (c.pieceSum sb b - c.pieceSum sa a) * t) with hX
  have hl := V3.length_nonneg X
  have hlip := bspline_coord_lip hv' (by omega) (by rw [k0, d3 _ (by omega), d1, h0])
    (by rw [k1, d3 _ (by omega), d2, h1]) (fun x g1 g2 => by
      rw [k0] at g1
      rw [k1] at g2
      exact le_trans (d4.count_le x) (le_trans (hmult x g1 g2) (by omega))) (V3.dotL X) (L := X.length * D) (by
    intro i hi
    have hlen := hv.len
    rw [hpts _ hi, hpts _ (by omega), d3 _ (by omega), d3 _ (by omega), map_smul, smul_eq_mul]
    have ei : i + c'.degree + 1 + 1 = i + c.degree + 1 := by omega
    have ed : (c'.degree : ℝ) = c.degree - 1 := by rw [← d1]; push_cast; ring
    rw [ei, ed, show i + 1 + 1 = i + 2 from rfl]
    have hk : 0 ≤ knot c.knots (i + c.degree + 1) - knot c.knots (i + 2) :=
      sub_nonneg.2 (hv.mono _ _ (by omega) (by omega))
    have hdeg : (0 : ℝ) ≤ (c.degree : ℝ) - 1 := by
      have : (2 : ℝ) ≤ c.degree := by exact_mod_cast hp
      linarith
    rw [abs_mul, abs_of_nonneg (div_nonneg hdeg hk)]
    have h4 : |V3.dotL X (slopePoint c (i + 1) - slopePoint c i)| ≤ X.length * (slopePoint c (i + 1) - slopePoint c i).length :=
      Deviation.abs_dot_le (le_refl _)
    calc _ ≤ ((c.degree : ℝ) - 1) / (knot c.knots (i + c.degree + 1) - knot c.knots (i + 2)) *
          (X.length * (slopePoint c (i + 1) - slopePoint c i).length) :=
          mul_le_mul_of_nonneg_left h4 (div_nonneg hdeg hk)
      _ = X.length * (((c.degree : ℝ) - 1) * (slopePoint c (i + 1) - slopePoint c i).length /
        (knot c.knots (i + c.degree + 1) - knot c.knots (i + 2))) := by ring
      _ ≤ _ := mul_le_mul_of_nonneg_left (h i (by omega)) hl)
  rw [k0, k1] at hlip
  have key := chord_of_lip (f := fun u => V3.dotL X (valOf (c.getPoint u))) (f' := fun u => V3.dotL X (valOf (c'.getPoint u)))
    (D := X.length * D) (fun u hu => by
      have hl : HasDerivWithinAt (fun v => V3.dotL X (valOf (c.getPoint v))) (V3.dotL X (valOf (c'.getPoint u)))
          (Set.Icc (knot c.knots 0) u) u := by
        rcases eq_or_lt_of_le hu.1 with h | h
        · rw [h, Set.Icc_self]; exact HasFDerivWithinAt.of_subsingleton Set.subsingleton_singleton
        · exact (hL hmult u h hu.2 _).mono fun v hv => hv.2
      have hr : HasDerivWithinAt (fun v => V3.dotL X (valOf (c.getPoint v))) (V3.dotL X (valOf (c'.getPoint u)))
          (Set.Icc u (knot c.knots (c.controlPoints.length + c.degree))) u := by
        rcases eq_or_lt_of_le hu.2 with h | h
        · rw [← h, Set.Icc_self]; exact HasFDerivWithinAt.of_subsingleton Set.subsingleton_singleton
        · exact (hR u hu.1 h _).mono fun v hv => hv.1
      refine (hl.union hr).mono fun v hv => ?_
      rcases le_total v u with h | h
      · exact Or.inl ⟨hv.1, h⟩
      · exact Or.inr ⟨h, hv.2⟩) hlip (mul_nonneg hl hD) ha hb ht0 ht1
  simp only [ea, eb, em] at key
  have e : V3.dotL X (valOf (.ok (c.pieceSum sm (a + (b - a) * t)))) - (V3.dotL X (valOf (.ok (c.pieceSum sa a))) +
      (V3.dotL X (valOf (.ok (c.pieceSum sb b))) - V3.dotL X (valOf (.ok (c.pieceSum sa a)))) * t) = X.length * X.length := by
    rw [V3.length_mul_self]
    change X.dot _ - (X.dot _ + (X.dot _ - X.dot _) * t) = _
    conv_rhs => rw [hX]
    rw [← hX, V3.dot_sub, V3.dot_add, V3.rmul_eq, V3.dot_smul, V3.dot_sub]
    simp only [valOf]
    ring
  rw [e] at key
  have k2 := (le_abs_self _).trans key
  rcases hl.eq_or_lt with hz | hz
  · rw [← hz]; positivity
  · exact le_of_mul_le_mul_left (k2.trans (le_of_eq (by ring))) hz

/-- **C152**, an example: a cubic curve of two pieces with a double inner knot and tolerance 0.01 gives at most 21 points. -/
theorem C152_bspline_example (rnd : List Bool → ℝ) (hr : InUnit rnd) (fuel : Nat) (l : List ℝ)
    (hl : parameterDivision (⟨[⟨0, 0, 0⟩, ⟨1 / 3, 0, 0⟩, ⟨2 / 3, 1 / 3, 0⟩, ⟨4 / 3, 5 / 3, 0⟩, ⟨5 / 3, 2, 0⟩, ⟨2, 2, 0⟩],
      [0, 0, 0, 0, 1, 1, 2, 2, 2, 2], 3⟩ : BSplineCurve ℝ (V3 ℝ)).getPoint rnd (1 / 100) fuel [] (0, 2) = .ok l) :
    l.length ≤ 21 := by
  have hb := C152_bspline (cubic_valid ⟨0, 0, 0⟩ ⟨1 / 3, 0, 0⟩ ⟨2 / 3, 1 / 3, 0⟩ ⟨4 / 3, 5 / 3, 0⟩ ⟨5 / 3, 2, 0⟩ ⟨2, 2, 0⟩)
    (by norm_num) (by simp [knot]) (by simp [knot]) (cubic_mult _ _ _ _ _ _) (D := 2) (by norm_num) (by
      intro i hi
      simp only [List.length_cons, List.length_nil] at hi
      have hi : i < 4 := by omega
      interval_cases i <;>
      · rw [V3.length_eq]
        simp [slopePoint, knot, cp, V3.dot]
        norm_num)
  obtain ⟨_, hf⟩ := C152_points hb (show (0 : ℝ) < 1 / 100 by norm_num) (range := (0, 2)) (by simp [knot]) (by simp [knot])
  obtain ⟨h2, h3⟩ := (hf rnd hr).2 fuel l hl
  norm_num at h3
  by_contra hlt
  have : (22 : ℝ) ≤ l.length := by exact_mod_cast (show 22 ≤ l.length by omega)
  nlinarith

end Geom3d
