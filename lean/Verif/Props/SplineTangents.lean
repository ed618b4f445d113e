import Verif.Props.FacetNormals
import Verif.Props.SplineDeviation

/-!
# The tangents of B-spline surfaces (C160, C161)

Clamped B-spline surfaces of degrees 2 or more: the surfaces of `derivative_u` and `derivative_v` (`src/surface/bspline.rs`) are
tangents in the sense of C160, with the bounds of their control points; so the area of the meshes converges, and the normals stored
in the meshes face the sense of the triangles.
-/

set_option linter.unusedSectionVars false

namespace Geom3d
open Spec Deviation

namespace Area

/-- Clamped knots without jumps. -/
structure Joined (knots : List ℝ) (N p : Nat) : Prop where
  degree : 1 ≤ p
  first : knot knots 0 = knot knots p
  last : knot knots N = knot knots (N + p)
  mult : ∀ x, knot knots 0 < x → x < knot knots (N + p) → knots.count x ≤ p

theorem vo (x : V3 ℝ) : valOf (.ok x : Res (V3 ℝ)) = x := rfl

theorem surface_le {s : BSplineSurface ℝ (V3 ℝ)} (hs : s.Valid) {L : ℝ} (hL : 0 ≤ L)
    (h : ∀ i j, i < s.controlPoints.rows → j < s.controlPoints.cols → (entry s.controlPoints i j).length ≤ L) {u v : ℝ}
    (hu : u ∈ Set.Icc (knot s.knots.1 0) (knot s.knots.1 (s.controlPoints.rows + s.degree.1)))
    (hv : v ∈ Set.Icc (knot s.knots.2 0) (knot s.knots.2 (s.controlPoints.cols + s.degree.2))) :
    (valOf (s.getPoint u v)).length ≤ L := by
  obtain ⟨wu, eu, nu, su⟩ := weights hs.lenU hs.rows hs.sortedU hs.nonconstU hu
  obtain ⟨wv, ev, nv, sv⟩ := weights hs.lenV hs.cols hs.sortedV hs.nonconstV hv
  rw [valOf_columns hs.net hs.lenU hs.lenV ev eu, vo]
  refine mean_le nv sv hL fun j hj => ?_
  rw [bspline_linComb eu, vo, show s.knots.1.length - 1 - s.degree.1 = s.controlPoints.rows by have := hs.lenU; omega]
  refine mean_le nu su hL fun i hi => ?_
  rw [cp_column hi]
  exact h i j hi hj

theorem curve_lip {c : BSplineCurve ℝ (V3 ℝ)} (hv : c.Valid) (hj : Joined c.knots c.controlPoints.length c.degree) {L : ℝ} (hL : 0 ≤ L)
    (h : ∀ i, i + 1 < c.controlPoints.length → (slopePoint c i).length ≤ L) {x y : ℝ}
    (hx : x ∈ Set.Icc (knot c.knots 0) (knot c.knots (c.controlPoints.length + c.degree)))
    (hy : y ∈ Set.Icc (knot c.knots 0) (knot c.knots (c.controlPoints.length + c.degree))) :
    (valOf (c.getPoint x) - valOf (c.getPoint y)).length ≤ L * |x - y| := by
  set X := valOf (c.getPoint x) - valOf (c.getPoint y) with hX
  apply length_le_of_dot (by positivity)
  have key := bspline_coord_lip hv hj.degree hj.first hj.last hj.mult (V3.dotL X) (L := X.length * L)
    (fun i hi => abs_dot_le (h i hi)) x hx y hy
  rw [← map_sub, ← hX] at key
  have e : V3.dotL X X = X.dot X := rfl
  rw [e] at key
  refine (le_abs_self _).trans (key.trans (le_of_eq (by ring)))

theorem surface_lip {s : BSplineSurface ℝ (V3 ℝ)} (hs : s.Valid) (hU : Joined s.knots.1 s.controlPoints.rows s.degree.1)
    (hV : Joined s.knots.2 s.controlPoints.cols s.degree.2) {A B : ℝ} (hA : 0 ≤ A) (hB : 0 ≤ B)
    (hsu : ∀ i j, i + 1 < s.controlPoints.rows → j < s.controlPoints.cols → (slopeU s i j).length ≤ A)
    (hsv : ∀ i j, i < s.controlPoints.rows → j + 1 < s.controlPoints.cols → (slopeV s i j).length ≤ B) {u v u' v' : ℝ}
    (hu : u ∈ Set.Icc (knot s.knots.1 0) (knot s.knots.1 (s.controlPoints.rows + s.degree.1)))
    (hv : v ∈ Set.Icc (knot s.knots.2 0) (knot s.knots.2 (s.controlPoints.cols + s.degree.2)))
    (hu' : u' ∈ Set.Icc (knot s.knots.1 0) (knot s.knots.1 (s.controlPoints.rows + s.degree.1)))
    (hv' : v' ∈ Set.Icc (knot s.knots.2 0) (knot s.knots.2 (s.controlPoints.cols + s.degree.2))) :
    (valOf (s.getPoint u v) - valOf (s.getPoint u' v')).length ≤ A * |u - u'| + B * |v - v'| := by
  obtain ⟨wu, eu, nu, su⟩ := weights hs.lenU hs.rows hs.sortedU hs.nonconstU hu
  obtain ⟨wv, ev, nv, sv⟩ := weights hs.lenV hs.cols hs.sortedV hs.nonconstV hv
  obtain ⟨wu', eu', nu', su'⟩ := weights hs.lenU hs.rows hs.sortedU hs.nonconstU hu'
  obtain ⟨wv', ev', nv', sv'⟩ := weights hs.lenV hs.cols hs.sortedV hs.nonconstV hv'
  have h1 : (valOf (s.getPoint u v) - valOf (s.getPoint u' v)).length ≤ A * |u - u'| := by
    rw [valOf_columns hs.net hs.lenU hs.lenV ev eu, valOf_columns hs.net hs.lenU hs.lenV ev eu', vo, vo, ← Finset.sum_sub_distrib]
    simp only [← smul_sub]
    refine mean_le nv sv (by positivity) fun j hj => ?_
    refine curve_lip (hs.curveU (column_length s.controlPoints j)) (by simp only [column_length]; exact hU) hA (fun i hi => ?_)
      (by simp only [column_length]; exact hu) (by simp only [column_length]; exact hu')
    simp only [column_length] at hi
    have := hsu i j hi hj
    unfold slopePoint
    simp only []
    rw [cp_column hi, cp_column (by omega)]
    exact this
  have h2 : (valOf (s.getPoint u' v) - valOf (s.getPoint u' v')).length ≤ B * |v - v'| := by
    rw [valOf_rows hs.net hs.lenU hs.lenV ev eu', valOf_rows hs.net hs.lenU hs.lenV ev' eu', vo, vo, ← Finset.sum_sub_distrib]
    simp only [← smul_sub]
    refine mean_le nu' su' (by positivity) fun i hi => ?_
    refine curve_lip (hs.curveV (row_length s.controlPoints i)) (by simp only [row_length]; exact hV) hB (fun j hj => ?_)
      (by simp only [row_length]; exact hv) (by simp only [row_length]; exact hv')
    simp only [row_length] at hj
    have := hsv i j hi hj
    unfold slopePoint
    simp only []
    rw [cp_row hj, cp_row (by omega)]
    exact this
  have h3 := V3.length_add_le (valOf (s.getPoint u v) - valOf (s.getPoint u' v)) (valOf (s.getPoint u' v) - valOf (s.getPoint u' v'))
  rw [sub_add_sub_cancel] at h3
  linarith

/-- The knots of the derivative. -/
theorem joined_shrunk {l : List ℝ} {N p : Nat} (hl : l.length = N + p + 1) (hN : 0 < N) (hs : Sorted l)
    (hne : knot l 0 < knot l (N + p)) (h : SmoothKnots l N p) :
    Joined ((l.take (l.length - 1)).drop 1) (N - 1) (p - 1) ∧ (∀ j, j < N + p - 1 → knot ((l.take (l.length - 1)).drop 1) j = knot l (j + 1)) ∧
      knot ((l.take (l.length - 1)).drop 1) (N - 1 + (p - 1)) = knot l (N + p) := by
  have hp := h.degree
  obtain ⟨hpN, -, -, k0, -⟩ := shrunk hl hp hN hs h.first h.last hne
  have hk : ∀ j, j < N + p - 1 → knot ((l.take (l.length - 1)).drop 1) j = knot l (j + 1) := by
    intro j hj
    unfold knot
    simp only [List.getD_eq_getElem?_getD]
    rw [List.getElem?_drop, List.getElem?_take, if_pos (by omega), Nat.add_comm]
  have hlast : knot ((l.take (l.length - 1)).drop 1) (N - 1 + (p - 1)) = knot l (N + p) := by
    rw [hk _ (by omega)]
    refine le_antisymm (hs.knot_le (by omega) (by omega)) ?_
    rw [← h.last]
    exact hs.knot_le (by omega) (by omega)
  refine ⟨⟨by omega, ?_, ?_, ?_⟩, hk, hlast⟩
  · rw [k0, hk _ (by omega), show p - 1 + 1 = p by omega, h.first]
  · rw [hlast, hk _ (by omega), show N - 1 + 1 = N by omega, h.last]
  · intro x h0 h1
    rw [k0] at h0
    rw [hlast] at h1
    exact (((List.drop_sublist _ _).trans (List.take_sublist _ _)).count_le x).trans (h.mult x h0 h1)

theorem joined_smooth {l : List ℝ} {N p : Nat} (h : SmoothKnots l N p) : Joined l N p := by
  have := h.degree
  exact ⟨by omega, h.first, h.last, fun x h0 h1 => (h.mult x h0 h1).trans (by omega)⟩

end Area

open Area

/-- The tangents of a B-spline surface: what `derivative_u` and `derivative_v` evaluate to. -/
noncomputable def Spec.splineU (s : BSplineSurface ℝ (V3 ℝ)) (u v : ℝ) : V3 ℝ :=
  valOf (do let d ← s.derivativeU; d.getPoint u v)
noncomputable def Spec.splineV (s : BSplineSurface ℝ (V3 ℝ)) (u v : ℝ) : V3 ℝ :=
  valOf (do let d ← s.derivativeV; d.getPoint u v)

/-- Bounds of the control points of the first derivatives. -/
structure Spec.FirstBounds (s : BSplineSurface ℝ (V3 ℝ)) (L : ℝ) : Prop where
  u : ∀ i j, i + 1 < s.controlPoints.rows → j < s.controlPoints.cols → (slopeU s i j).length ≤ L
  v : ∀ i j, i < s.controlPoints.rows → j + 1 < s.controlPoints.cols → (slopeV s i j).length ≤ L
  nonneg : 0 ≤ L

namespace Area

theorem mixed_slopes (s : BSplineSurface ℝ (V3 ℝ)) (i j : Nat) :
    ((s.degree.1 : ℝ) / (knot s.knots.1 (i + s.degree.1 + 1) - knot s.knots.1 (i + 1))) • (slopeV s (i + 1) j - slopeV s i j) =
    ((s.degree.2 : ℝ) / (knot s.knots.2 (j + s.degree.2 + 1) - knot s.knots.2 (j + 1))) • (slopeU s i (j + 1) - slopeU s i j) := by
  unfold slopeU slopeV
  module

/-- The two derivatives of a clamped surface of degrees 2 or more. -/
theorem derivatives {s : BSplineSurface ℝ (V3 ℝ)} (hs : s.Valid)
    (hu : SmoothKnots s.knots.1 s.controlPoints.rows s.degree.1) (hv : SmoothKnots s.knots.2 s.controlPoints.cols s.degree.2) :
    ∃ U V, s.derivativeU = .ok U ∧ s.derivativeV = .ok V ∧
      U = ⟨⟨netTab (s.controlPoints.rows - 1) s.controlPoints.cols (slopeU s), s.controlPoints.rows - 1, s.controlPoints.cols⟩,
        ((s.knots.1.take (s.knots.1.length - 1)).drop 1, s.knots.2), (s.degree.1 - 1, s.degree.2)⟩ ∧
      V = ⟨⟨netTab s.controlPoints.rows (s.controlPoints.cols - 1) (slopeV s), s.controlPoints.rows, s.controlPoints.cols - 1⟩,
        (s.knots.1, (s.knots.2.take (s.knots.2.length - 1)).drop 1), (s.degree.1, s.degree.2 - 1)⟩ ∧ U.Valid ∧ V.Valid := by
  obtain ⟨k0, k1, k2, k3, k4⟩ := shrunk hs.lenU hu.degree hs.rows hs.sortedU hu.first hu.last hs.nonconstU
  obtain ⟨k0', k5, k6, k7, k8⟩ := shrunk hs.lenV hv.degree hs.cols hs.sortedV hv.first hv.last hs.nonconstV
  have hr := hs.rows
  have hc := hs.cols
  have hp := hu.degree
  have hq := hv.degree
  exact ⟨_, _, derivativeU_eq hs.net hs.lenU (by omega) (by omega) hc hs.resolvedU,
    derivativeV_eq hs.net hs.lenV (by omega) (by omega) hr hs.resolvedV, rfl, rfl,
    ⟨netTab_ok _ _ _, k1, hs.lenV, k2, hs.sortedV, resolved_real _, hs.resolvedV, k4, hs.nonconstV, by simp only []; omega, hc⟩,
    ⟨netTab_ok _ _ _, hs.lenU, k5, hs.sortedU, k6, hs.resolvedU, resolved_real _, hs.nonconstU, k8, hr, by simp only []; omega⟩⟩

/-- The Lipschitz constants of the first derivative by `u`. -/
theorem splineU_bounds {s U : BSplineSurface ℝ (V3 ℝ)} (hs : s.Valid)
    (hu : SmoothKnots s.knots.1 s.controlPoints.rows s.degree.1) (hv : SmoothKnots s.knots.2 s.controlPoints.cols s.degree.2)
    (hU : U = ⟨⟨netTab (s.controlPoints.rows - 1) s.controlPoints.cols (slopeU s), s.controlPoints.rows - 1, s.controlPoints.cols⟩,
        ((s.knots.1.take (s.knots.1.length - 1)).drop 1, s.knots.2), (s.degree.1 - 1, s.degree.2)⟩) (vU : U.Valid)
    {L D C E : ℝ} (hL : FirstBounds s L) (hD : 0 ≤ D) (hC : 0 ≤ C) (hb : SecondBounds s D C E)
    {u v u' v' : ℝ}
    (mu : u ∈ Set.Icc (knot s.knots.1 0) (knot s.knots.1 (s.controlPoints.rows + s.degree.1)))
    (mv : v ∈ Set.Icc (knot s.knots.2 0) (knot s.knots.2 (s.controlPoints.cols + s.degree.2)))
    (mu' : u' ∈ Set.Icc (knot s.knots.1 0) (knot s.knots.1 (s.controlPoints.rows + s.degree.1)))
    (mv' : v' ∈ Set.Icc (knot s.knots.2 0) (knot s.knots.2 (s.controlPoints.cols + s.degree.2))) :
    (valOf (U.getPoint u v)).length ≤ L ∧
    (valOf (U.getPoint u v) - valOf (U.getPoint u' v')).length ≤ D * |u - u'| + C * |v - v'| := by
  obtain ⟨hj, hk, hl⟩ := joined_shrunk hs.lenU hs.rows hs.sortedU hs.nonconstU hu
  obtain ⟨-, -, -, k0, -⟩ := shrunk hs.lenU hu.degree hs.rows hs.sortedU hu.first hu.last hs.nonconstU
  have hr := hs.rows
  have hp := hu.degree
  have ent : ∀ i j, i + 1 < s.controlPoints.rows → j < s.controlPoints.cols → entry U.controlPoints i j = slopeU s i j := by
    intro i j hi hj
    rw [hU]
    exact entry_netTab _ (by omega) hj
  have r1 : U.controlPoints.rows = s.controlPoints.rows - 1 := by rw [hU]
  have r2 : U.controlPoints.cols = s.controlPoints.cols := by rw [hU]
  have r3 : U.knots.1 = (s.knots.1.take (s.knots.1.length - 1)).drop 1 := by rw [hU]
  have r4 : U.knots.2 = s.knots.2 := by rw [hU]
  have r5 : U.degree.1 = s.degree.1 - 1 := by rw [hU]
  have r6 : U.degree.2 = s.degree.2 := by rw [hU]
  have I1 : Set.Icc (knot U.knots.1 0) (knot U.knots.1 (U.controlPoints.rows + U.degree.1)) =
      Set.Icc (knot s.knots.1 0) (knot s.knots.1 (s.controlPoints.rows + s.degree.1)) := by
    rw [r1, r3, r5, hl, k0]
  have I2 : Set.Icc (knot U.knots.2 0) (knot U.knots.2 (U.controlPoints.cols + U.degree.2)) =
      Set.Icc (knot s.knots.2 0) (knot s.knots.2 (s.controlPoints.cols + s.degree.2)) := by
    rw [r2, r4, r6]
  refine ⟨surface_le vU hL.nonneg (fun i j hi hj => ?_) (by rw [I1]; exact mu) (by rw [I2]; exact mv),
    surface_lip vU (by rw [r1, r3, r5]; exact hj) (by rw [r2, r4, r6]; exact joined_smooth hv) hD hC (fun i j hi hj => ?_) (fun i j hi hj => ?_)
      (by rw [I1]; exact mu) (by rw [I2]; exact mv) (by rw [I1]; exact mu') (by rw [I2]; exact mv')⟩
  · rw [r1] at hi
    rw [r2] at hj
    rw [ent i j (by omega) hj]
    exact hL.u i j (by omega) hj
  · rw [r1] at hi
    rw [r2] at hj
    have := hb.uu i j (by omega) hj
    unfold slopeU
    rw [ent _ j (by omega) hj, ent _ j (by omega) hj, r3, r5, hk _ (by omega), hk _ (by omega), V3.length_smul, abs_of_nonneg (by
      refine div_nonneg (Nat.cast_nonneg _) (sub_nonneg.2 (hs.monoU _ _ (by omega) (by omega))))]
    rw [show i + (s.degree.1 - 1) + 1 + 1 = i + s.degree.1 + 1 by omega, show i + 1 + 1 = i + 2 by omega,
      Nat.cast_sub (by omega : 1 ≤ s.degree.1), Nat.cast_one, div_mul_eq_mul_div]
    exact this
  · rw [r1] at hi
    rw [r2] at hj
    have := hb.uv i j (by omega) hj
    unfold slopeV
    rw [ent i _ (by omega) hj, ent i _ (by omega) (by omega), r4, r6, V3.length_smul, abs_of_nonneg (by
      refine div_nonneg (Nat.cast_nonneg _) (sub_nonneg.2 (hs.monoV _ _ (by omega) (by omega)))), div_mul_eq_mul_div]
    exact this

/-- The Lipschitz constants of the first derivative by `v`. -/
theorem splineV_bounds {s V : BSplineSurface ℝ (V3 ℝ)} (hs : s.Valid)
    (hu : SmoothKnots s.knots.1 s.controlPoints.rows s.degree.1) (hv : SmoothKnots s.knots.2 s.controlPoints.cols s.degree.2)
    (hV : V = ⟨⟨netTab s.controlPoints.rows (s.controlPoints.cols - 1) (slopeV s), s.controlPoints.rows, s.controlPoints.cols - 1⟩,
        (s.knots.1, (s.knots.2.take (s.knots.2.length - 1)).drop 1), (s.degree.1, s.degree.2 - 1)⟩) (vV : V.Valid)
    {L D C E : ℝ} (hL : FirstBounds s L) (hC : 0 ≤ C) (hE : 0 ≤ E) (hb : SecondBounds s D C E)
    {u v u' v' : ℝ}
    (mu : u ∈ Set.Icc (knot s.knots.1 0) (knot s.knots.1 (s.controlPoints.rows + s.degree.1)))
    (mv : v ∈ Set.Icc (knot s.knots.2 0) (knot s.knots.2 (s.controlPoints.cols + s.degree.2)))
    (mu' : u' ∈ Set.Icc (knot s.knots.1 0) (knot s.knots.1 (s.controlPoints.rows + s.degree.1)))
    (mv' : v' ∈ Set.Icc (knot s.knots.2 0) (knot s.knots.2 (s.controlPoints.cols + s.degree.2))) :
    (valOf (V.getPoint u v)).length ≤ L ∧
    (valOf (V.getPoint u v) - valOf (V.getPoint u' v')).length ≤ C * |u - u'| + E * |v - v'| := by
  obtain ⟨hj, hk, hl⟩ := joined_shrunk hs.lenV hs.cols hs.sortedV hs.nonconstV hv
  obtain ⟨-, -, -, k0, -⟩ := shrunk hs.lenV hv.degree hs.cols hs.sortedV hv.first hv.last hs.nonconstV
  have hr := hs.cols
  have hp := hv.degree
  have ent : ∀ i j, i < s.controlPoints.rows → j + 1 < s.controlPoints.cols → entry V.controlPoints i j = slopeV s i j := by
    intro i j hi hj
    rw [hV]
    exact entry_netTab _ hi (by omega)
  have r1 : V.controlPoints.rows = s.controlPoints.rows := by rw [hV]
  have r2 : V.controlPoints.cols = s.controlPoints.cols - 1 := by rw [hV]
  have r3 : V.knots.1 = s.knots.1 := by rw [hV]
  have r4 : V.knots.2 = (s.knots.2.take (s.knots.2.length - 1)).drop 1 := by rw [hV]
  have r5 : V.degree.1 = s.degree.1 := by rw [hV]
  have r6 : V.degree.2 = s.degree.2 - 1 := by rw [hV]
  have I1 : Set.Icc (knot V.knots.1 0) (knot V.knots.1 (V.controlPoints.rows + V.degree.1)) =
      Set.Icc (knot s.knots.1 0) (knot s.knots.1 (s.controlPoints.rows + s.degree.1)) := by
    rw [r1, r3, r5]
  have I2 : Set.Icc (knot V.knots.2 0) (knot V.knots.2 (V.controlPoints.cols + V.degree.2)) =
      Set.Icc (knot s.knots.2 0) (knot s.knots.2 (s.controlPoints.cols + s.degree.2)) := by
    rw [r2, r4, r6, hl, k0]
  refine ⟨surface_le vV hL.nonneg (fun i j hi hj => ?_) (by rw [I1]; exact mu) (by rw [I2]; exact mv),
    surface_lip vV (by rw [r1, r3, r5]; exact joined_smooth hu) (by rw [r2, r4, r6]; exact hj) hC hE (fun i j hi hj => ?_) (fun i j hi hj => ?_)
      (by rw [I1]; exact mu) (by rw [I2]; exact mv) (by rw [I1]; exact mu') (by rw [I2]; exact mv')⟩
  · rw [r1] at hi
    rw [r2] at hj
    rw [ent i j hi (by omega)]
    exact hL.v i j hi (by omega)
  · rw [r1] at hi
    rw [r2] at hj
    have := hb.uv i j hi (by omega)
    unfold slopeU
    rw [ent _ j hi (by omega), ent _ j (by omega) (by omega), r3, r5, mixed_slopes, V3.length_smul, abs_of_nonneg (by
      refine div_nonneg (Nat.cast_nonneg _) (sub_nonneg.2 (hs.monoV _ _ (by omega) (by omega)))), div_mul_eq_mul_div]
    exact this
  · rw [r1] at hi
    rw [r2] at hj
    have := hb.vv i j hi (by omega)
    unfold slopeV
    rw [ent i _ hi (by omega), ent i _ hi (by omega), r4, r6, hk _ (by omega), hk _ (by omega), V3.length_smul, abs_of_nonneg (by
      refine div_nonneg (Nat.cast_nonneg _) (sub_nonneg.2 (hs.monoV _ _ (by omega) (by omega))))]
    rw [show j + (s.degree.2 - 1) + 1 + 1 = j + s.degree.2 + 1 by omega, show j + 1 + 1 = j + 2 by omega,
      Nat.cast_sub (by omega : 1 ≤ s.degree.2), Nat.cast_one, div_mul_eq_mul_div]
    exact this

end Area

/-- **C161** What `derivative_u` and `derivative_v` of a clamped B-spline surface of degrees 2 or more evaluate to are its tangents
on the whole domain, knots included. -/
theorem C161_tangents {s : BSplineSurface ℝ (V3 ℝ)} (hs : s.Valid)
    (hu : SmoothKnots s.knots.1 s.controlPoints.rows s.degree.1) (hv : SmoothKnots s.knots.2 s.controlPoints.cols s.degree.2)
    {L M : ℝ} (hL : FirstBounds s L) (hM : 0 ≤ M) (hb : SecondBounds s M M M) :
    Tangents (fun u v => valOf (s.getPoint u v)) (splineU s) (splineV s)
      (knot s.knots.1 0, knot s.knots.1 (s.controlPoints.rows + s.degree.1))
      (knot s.knots.2 0, knot s.knots.2 (s.controlPoints.cols + s.degree.2)) L M := by
  obtain ⟨U, V, eU, eV, dU, dV, vU, vV⟩ := derivatives hs hu hv
  have sU : ∀ u v, splineU s u v = valOf (U.getPoint u v) := fun u v => by unfold splineU; rw [eU]; rfl
  have sV : ∀ u v, splineV s u v = valOf (V.getPoint u v) := fun u v => by unfold splineV; rw [eV]; rfl
  have hp := hu.degree
  have hq := hv.degree
  obtain ⟨hpN, -, -, k0, -⟩ := shrunk hs.lenU hu.degree hs.rows hs.sortedU hu.first hu.last hs.nonconstU
  obtain ⟨hqN, -, -, k0', -⟩ := shrunk hs.lenV hv.degree hs.cols hs.sortedV hv.first hv.last hs.nonconstV
  obtain ⟨-, -, hlU⟩ := joined_shrunk hs.lenU hs.rows hs.sortedU hs.nonconstU hu
  obtain ⟨-, -, hlV⟩ := joined_shrunk hs.lenV hs.cols hs.sortedV hs.nonconstV hv
  refine ⟨fun u mu v mv w => ?_, fun u mu v mv w => ?_, fun u mu v mv => ?_, fun u mu v mv => ?_, fun u mu v mv u' mu' v' mv' => ?_,
    fun u mu v mv u' mu' v' mv' => ?_⟩
  · obtain ⟨wv, ev, -, -⟩ := weights hs.lenV hs.cols hs.sortedV hs.nonconstV mv
    have ev' : KnotVector.bsplineBasis U.knots.2 U.degree.2 v = .ok wv := by rw [dU]; exact ev
    obtain ⟨wu', eu', -, -⟩ := weights vU.lenU vU.rows vU.sortedU vU.nonconstU (u := u) (by
      rw [dU]; simp only []; rw [k0, hlU]; exact mu)
    have hcol : ∀ j ∈ Finset.range s.controlPoints.cols, HasDerivWithinAt
        (fun x => wv.getD j 0 * w.dot (valOf ((BSplineCurve.mk (column s.controlPoints j) s.knots.1 s.degree.1).getPoint x)))
        (wv.getD j 0 * w.dot (valOf ((BSplineCurve.mk (column U.controlPoints j) U.knots.1 U.degree.1).getPoint u)))
        (Set.Icc (knot s.knots.1 0) (knot s.knots.1 (s.controlPoints.rows + s.degree.1))) u := by
      intro j hj
      have hj := Finset.mem_range.1 hj
      obtain ⟨c', hd, hf⟩ := C108_differentiable (hs.curveU (column_length s.controlPoints j)) (by simp only []; omega) hu.first
        (by simp only [column_length]; exact hu.last) (by simp only [column_length]; exact hu.mult)
      have := derivativeU_column hs.lenU (by omega) (by omega) hs.resolvedU hj dU
      rw [this, Except.ok.injEq] at hd
      obtain ⟨d, k1, k2⟩ := (hf (V3.dotL w)).1 u (by simp only [column_length]; exact mu)
      rw [← hd] at k1
      rw [k1]
      simp only [column_length] at k2
      exact k2.const_mul _
    have hsum := HasDerivWithinAt.fun_sum hcol
    have eS : ∀ x ∈ Set.Icc (knot s.knots.1 0) (knot s.knots.1 (s.controlPoints.rows + s.degree.1)),
        w.dot (valOf (s.getPoint x v)) = ∑ j ∈ Finset.range s.controlPoints.cols, wv.getD j 0 *
          w.dot (valOf ((BSplineCurve.mk (column s.controlPoints j) s.knots.1 s.degree.1).getPoint x)) := by
      intro x hx
      obtain ⟨wx, ex, -, -⟩ := weights hs.lenU hs.rows hs.sortedU hs.nonconstU hx
      rw [valOf_columns hs.net hs.lenU hs.lenV ev ex, vo, dot_sum]
      simp only [V3.dot_smul]
    have eU' : w.dot (splineU s u v) = ∑ j ∈ Finset.range s.controlPoints.cols, wv.getD j 0 *
          w.dot (valOf ((BSplineCurve.mk (column U.controlPoints j) U.knots.1 U.degree.1).getPoint u)) := by
      rw [sU, valOf_columns vU.net vU.lenU vU.lenV ev' eu', vo, dot_sum, show U.controlPoints.cols = s.controlPoints.cols by rw [dU]]
      simp only [V3.dot_smul]
    rw [eU']
    exact hsum.congr (fun x hx => eS x hx) (eS u mu)
  · obtain ⟨wu, eu, -, -⟩ := weights hs.lenU hs.rows hs.sortedU hs.nonconstU mu
    have eu' : KnotVector.bsplineBasis V.knots.1 V.degree.1 u = .ok wu := by rw [dV]; exact eu
    obtain ⟨wv', ev', -, -⟩ := weights vV.lenV vV.cols vV.sortedV vV.nonconstV (u := v) (by
      rw [dV]; simp only []; rw [k0', hlV]; exact mv)
    have hrow : ∀ i ∈ Finset.range s.controlPoints.rows, HasDerivWithinAt
        (fun x => wu.getD i 0 * w.dot (valOf ((BSplineCurve.mk (row s.controlPoints i) s.knots.2 s.degree.2).getPoint x)))
        (wu.getD i 0 * w.dot (valOf ((BSplineCurve.mk (row V.controlPoints i) V.knots.2 V.degree.2).getPoint v)))
        (Set.Icc (knot s.knots.2 0) (knot s.knots.2 (s.controlPoints.cols + s.degree.2))) v := by
      intro i hi
      have hi := Finset.mem_range.1 hi
      obtain ⟨c', hd, hf⟩ := C108_differentiable (hs.curveV (row_length s.controlPoints i)) (by simp only []; omega) hv.first
        (by simp only [row_length]; exact hv.last) (by simp only [row_length]; exact hv.mult)
      have := derivativeV_row hs.lenV (by omega) (by omega) hs.resolvedV hi dV
      rw [this, Except.ok.injEq] at hd
      obtain ⟨d, k1, k2⟩ := (hf (V3.dotL w)).1 v (by simp only [row_length]; exact mv)
      rw [← hd] at k1
      rw [k1]
      simp only [row_length] at k2
      exact k2.const_mul _
    have hsum := HasDerivWithinAt.fun_sum hrow
    have eS : ∀ x ∈ Set.Icc (knot s.knots.2 0) (knot s.knots.2 (s.controlPoints.cols + s.degree.2)),
        w.dot (valOf (s.getPoint u x)) = ∑ i ∈ Finset.range s.controlPoints.rows, wu.getD i 0 *
          w.dot (valOf ((BSplineCurve.mk (row s.controlPoints i) s.knots.2 s.degree.2).getPoint x)) := by
      intro x hx
      obtain ⟨wx, ex, -, -⟩ := weights hs.lenV hs.cols hs.sortedV hs.nonconstV hx
      rw [valOf_rows hs.net hs.lenU hs.lenV ex eu, vo, dot_sum]
      simp only [V3.dot_smul]
    have eV' : w.dot (splineV s u v) = ∑ i ∈ Finset.range s.controlPoints.rows, wu.getD i 0 *
          w.dot (valOf ((BSplineCurve.mk (row V.controlPoints i) V.knots.2 V.degree.2).getPoint v)) := by
      rw [sV, valOf_rows vV.net vV.lenU vV.lenV ev' eu', vo, dot_sum, show V.controlPoints.rows = s.controlPoints.rows by rw [dV]]
      simp only [V3.dot_smul]
    rw [eV']
    exact hsum.congr (fun x hx => eS x hx) (eS v mv)
  · rw [sU]
    exact (splineU_bounds hs hu hv dU vU hL hM hM hb mu mv mu mv).1
  · rw [sV]
    exact (splineV_bounds hs hu hv dV vV hL hM hM hb mu mv mu mv).1
  · rw [sU, sU, mul_add]
    exact (splineU_bounds hs hu hv dU vU hL hM hM hb mu mv mu' mv').2
  · rw [sV, sV, mul_add]
    exact (splineV_bounds hs hu hv dV vV hL hM hM hb mu mv mu' mv').2

/-! ### The meshes -/

namespace Area

/-- The normals of the surface, where the derivatives are evaluated. -/
theorem spline_normals_eq {s : BSplineSurface ℝ (V3 ℝ)} (hs : s.Valid)
    (hu : SmoothKnots s.knots.1 s.controlPoints.rows s.degree.1) (hv : SmoothKnots s.knots.2 s.controlPoints.cols s.degree.2)
    {l : List (V2 ℝ)} (hl : ∀ r ∈ l, knot s.knots.1 0 ≤ r.x ∧ knot s.knots.2 0 ≤ r.y) :
    s.getNormals l = .ok (l.map fun r => ((splineU s r.x r.y).cross (splineV s r.x r.y)).normalize) := by
  obtain ⟨U, V, eU, eV, dU, dV, vU, vV⟩ := derivatives hs hu hv
  obtain ⟨-, -, -, k3, -⟩ := shrunk hs.lenU hu.degree hs.rows hs.sortedU hu.first hu.last hs.nonconstU
  obtain ⟨-, -, -, k7, -⟩ := shrunk hs.lenV hv.degree hs.cols hs.sortedV hv.first hv.last hs.nonconstV
  have sU : ∀ u v, splineU s u v = valOf (U.getPoint u v) := fun u v => by unfold splineU; rw [eU]; rfl
  have sV : ∀ u v, splineV s u v = valOf (V.getPoint u v) := fun u v => by unfold splineV; rw [eV]; rfl
  unfold BSplineSurface.getNormals
  rw [eU, eV]
  simp only [ok_bind]
  clear eU eV
  induction l with
  | nil => rfl
  | cons r l ih =>
    obtain ⟨g1, g2⟩ := hl r (by simp)
    obtain ⟨x, hx⟩ := C59_total vU (u := r.x) (v := r.y) (by rw [dU]; exact k3.trans_le g1) (by rw [dU]; exact g2)
    obtain ⟨y, hy⟩ := C59_total vV (u := r.x) (v := r.y) (by rw [dV]; exact g1) (by rw [dV]; exact k7.trans_le g2)
    rw [List.mapM_cons, ih fun q hq => hl q (by simp [hq]), hx, hy, List.map_cons, sU, sV, hx, hy]
    rfl

theorem params_from {us vs : List ℝ} {u0 u1 v0 v1 : ℝ} (h1 : ∀ u ∈ us, u ∈ Set.Icc u0 u1) (h2 : ∀ v ∈ vs, v ∈ Set.Icc v0 v1) :
    ∀ r ∈ gridParams us vs, u0 ≤ r.x ∧ v0 ≤ r.y := by
  intro r hr
  simp only [gridParams, List.mem_flatMap, List.mem_map] at hr
  obtain ⟨u, hu', v, hv', rfl⟩ := hr
  exact ⟨(h1 u hu').1, (h2 v hv').1⟩

theorem spline_point {s : BSplineSurface ℝ (V3 ℝ)} (hs : s.Valid) {u v : ℝ} (h1 : knot s.knots.1 0 ≤ u) (h2 : knot s.knots.2 0 ≤ v) :
    s.surface.getPoint u v = .ok (valOf (s.getPoint u v)) := by
  obtain ⟨x, hx⟩ := C59_total hs h1 h2
  change s.getPoint u v = _
  rw [hx]
  rfl

end Area

/-- **C160** The area of the mesh of a clamped B-spline surface of degrees 2 or more over its domain, with the bounds of the
control points of the derivatives. -/
theorem C160_bspline {s : BSplineSurface ℝ (V3 ℝ)} (hs : s.Valid)
    (hu : SmoothKnots s.knots.1 s.controlPoints.rows s.degree.1) (hv : SmoothKnots s.knots.2 s.controlPoints.cols s.degree.2)
    {L M : ℝ} (hL : FirstBounds s L) (hM : 0 ≤ M) (hb : SecondBounds s M M M) {u0 u1 v0 v1 : ℝ}
    (hu0 : u0 = knot s.knots.1 0) (hu1 : u1 = knot s.knots.1 (s.controlPoints.rows + s.degree.1))
    (hv0 : v0 = knot s.knots.2 0) (hv1 : v1 = knot s.knots.2 (s.controlPoints.cols + s.degree.2)) {a b : Nat} (ha : 1 ≤ a)
    (hb' : 1 ≤ b) (hsz : (a + 1) * (b + 1) ≤ 2 ^ 32) :
    ∃ mesh ts, (SurfacePatch.mk s.surface ((u0, u1), (v0, v1)) (a, b)).getTriangleMesh = .ok mesh ∧ corners mesh = some ts ∧
      |totalArea ts - surfaceArea (splineU s) (splineV s) (u0, u1) (v0, v1)| ≤
        (u1 - u0) * (v1 - v0) * (2 * (L * M) * ((u1 - u0) / a + (v1 - v0) / b)) := by
  subst hu0 hu1 hv0 hv1
  exact C160_mesh (fun u v h1 h2 => spline_point hs h1.1 h2.1)
    (fun us vs h1 h2 => ⟨_, spline_normals_eq hs hu hv (params_from h1 h2), Or.inr (by simp)⟩)
    (C161_tangents hs hu hv hL hM hb) hs.nonconstU hs.nonconstV ha hb' hsz

/-- **C161** The mesh of a regular clamped B-spline surface of degrees 2 or more over its domain: every triangle turns in the sense of
the three normals stored at its corners, up to the angle whose sine is `δ`. -/
theorem C161_bspline {s : BSplineSurface ℝ (V3 ℝ)} (hs : s.Valid)
    (hu : SmoothKnots s.knots.1 s.controlPoints.rows s.degree.1) (hv : SmoothKnots s.knots.2 s.controlPoints.cols s.degree.2)
    {L M κ δ : ℝ} (hL : FirstBounds s L) (hM : 0 ≤ M) (hb : SecondBounds s M M M) {u0 u1 v0 v1 : ℝ}
    (hu0 : u0 = knot s.knots.1 0) (hu1 : u1 = knot s.knots.1 (s.controlPoints.rows + s.degree.1))
    (hv0 : v0 = knot s.knots.2 0) (hv1 : v1 = knot s.knots.2 (s.controlPoints.cols + s.degree.2)) (hκ : 0 < κ)
    (hreg : ∀ u ∈ Set.Icc u0 u1, ∀ v ∈ Set.Icc v0 v1, κ ≤ ((splineU s u v).cross (splineV s u v)).length) {a b : Nat} (ha : 1 ≤ a)
    (hb' : 1 ≤ b) (hsz : (a + 1) * (b + 1) ≤ 2 ^ 32) (hδ : 2 * (L * M) * ((u1 - u0) / a + (v1 - v0) / b) ≤ δ * κ) (hδ1 : δ < 1) :
    ∃ mesh ts ns, (SurfacePatch.mk s.surface ((u0, u1), (v0, v1)) (a, b)).getTriangleMesh = .ok mesh ∧ corners mesh = some ts ∧
      corners ⟨mesh.normals, [], mesh.triangles⟩ = some ns ∧
      List.Forall₂ (fun T N => Facing δ (facet T) N.1 ∧ Facing δ (facet T) N.2.1 ∧ Facing δ (facet T) N.2.2) ts ns := by
  subst hu0 hu1 hv0 hv1
  exact C161_normals (S := fun u v => valOf (s.getPoint u v)) (fun u v h1 h2 => spline_point hs h1.1 h2.1)
    (fun us vs h1 h2 => spline_normals_eq hs hu hv (params_from h1 h2))
    (C161_tangents hs hu hv hL hM hb) hs.nonconstU hs.nonconstV hκ hreg ha hb' hsz hδ hδ1

/-! ### An example -/

namespace Area

theorem joined_span {l : List ℝ} {N p : Nat} (hl : l.length = N + p + 1) (hs : Sorted l) (hne : knot l 0 < knot l (N + p))
    (h : Joined l N p) {u : ℝ} (hu : u ∈ Set.Icc (knot l 0) (knot l (N + p))) : ∃ a, InSpan l N p a u := by
  obtain ⟨a, _, _, ha⟩ := exists_contains hl hs (resolved_real _) hne hu.1
  have hlt := ha.lt
  have hn := ha.nonempty
  refine ⟨a, ?_, ?_, hn, ha.left, ?_⟩
  · by_contra hc
    have h1 : knot l (a + 1) ≤ knot l p := hs.knot_le (by omega) (by omega)
    have h2 : knot l 0 ≤ knot l a := hs.knot_le (by omega) (by omega)
    rw [← h.first] at h1
    linarith
  · by_contra hc
    have h1 : knot l N ≤ knot l a := hs.knot_le (by omega) (by omega)
    have h2 : knot l (a + 1) ≤ knot l (N + p) := hs.knot_le (by omega) (by omega)
    rw [h.last] at h1
    linarith
  · rcases ha.right with h' | ⟨h', h''⟩
    · exact Or.inl h'
    · exact Or.inr ⟨le_antisymm (by rw [h'']; exact hu.2) (by rw [h'']; exact h'), h''⟩

/-- A coordinate that is the same at all control points. -/
theorem surface_coord {s : BSplineSurface ℝ (V3 ℝ)} (hs : s.Valid) (hU : Joined s.knots.1 s.controlPoints.rows s.degree.1)
    (hV : Joined s.knots.2 s.controlPoints.cols s.degree.2) {f : V3 ℝ →ₗ[ℝ] ℝ} {c : ℝ}
    (hc : ∀ i j, i < s.controlPoints.rows → j < s.controlPoints.cols → f (entry s.controlPoints i j) = c) {u v : ℝ}
    (hu : u ∈ Set.Icc (knot s.knots.1 0) (knot s.knots.1 (s.controlPoints.rows + s.degree.1)))
    (hv : v ∈ Set.Icc (knot s.knots.2 0) (knot s.knots.2 (s.controlPoints.cols + s.degree.2))) :
    f (valOf (s.getPoint u v)) = c := by
  obtain ⟨a, ha⟩ := joined_span hs.lenU hs.sortedU hs.nonconstU hU hu
  obtain ⟨b, hb⟩ := joined_span hs.lenV hs.sortedV hs.nonconstV hV hv
  obtain ⟨x, hx, hcc⟩ := C59_hull hs ha hb
  rw [hx, vo]
  have hm : ∀ p ∈ block s.controlPoints (a - s.degree.1) (b - s.degree.2) (s.degree.1 + 1) (s.degree.2 + 1), f p = c := by
    intro p hp
    simp only [block, List.mem_flatMap, List.mem_range, List.mem_map] at hp
    obtain ⟨i, hi, j, hj, rfl⟩ := hp
    have := ha.hi
    have := hb.hi
    have := ha.lo
    have := hb.lo
    exact hc _ _ (by omega) (by omega)
  exact le_antisymm (hcc.le f fun p hp => (hm p hp).le) (ConvexComb.ge hcc f fun p hp => (hm p hp).ge)

theorem rise_entry {i j : Nat} (hi : i < 4) (hj : j < 4) : entry rise.controlPoints i j = ⟨greville i, greville j, ramp i * ramp j⟩ :=
  entry_netTab _ hi hj

theorem rise_slopeU {i j : Nat} (hi : i < 3) (hj : j < 4) : slopeU rise i j = ⟨1, 0, if i = 1 then 2 * ramp j else 0⟩ := by
  unfold slopeU
  rw [rise_entry (by omega) hj, rise_entry (by omega) hj, show rise.degree.1 = 2 from rfl,
    show rise.knots.1 = [0, 0, 0, 1 / 2, 1, 1, 1] from rfl]
  interval_cases i <;> interval_cases j <;> ext <;> norm_num [knot, greville, ramp]

theorem rise_slopeV {i j : Nat} (hi : i < 4) (hj : j < 3) : slopeV rise i j = ⟨0, 1, if j = 1 then 2 * ramp i else 0⟩ := by
  unfold slopeV
  rw [rise_entry hi (by omega), rise_entry hi (by omega), show rise.degree.2 = 2 from rfl,
    show rise.knots.2 = [0, 0, 0, 1 / 2, 1, 1, 1] from rfl]
  interval_cases i <;> interval_cases j <;> ext <;> norm_num [knot, greville, ramp]

theorem rise_first : FirstBounds rise 3 := by
  refine ⟨fun i j hi hj => ?_, fun i j hi hj => ?_, by norm_num⟩
  · change i + 1 < 4 at hi
    change j < 4 at hj
    have hi : i < 3 := by omega
    rw [rise_slopeU hi hj, V3.length_eq]
    apply Real.sqrt_le_iff.2
    refine ⟨by norm_num, ?_⟩
    interval_cases i <;> interval_cases j <;> norm_num [V3.dot, ramp]
  · change i < 4 at hi
    change j + 1 < 4 at hj
    have hj : j < 3 := by omega
    rw [rise_slopeV hi hj, V3.length_eq]
    apply Real.sqrt_le_iff.2
    refine ⟨by norm_num, ?_⟩
    interval_cases i <;> interval_cases j <;> norm_num [V3.dot, ramp]

/-- The surface of the example is the graph of a function: its tangents over the axes. -/
theorem rise_tangents {u v : ℝ} (hu : u ∈ Set.Icc (0 : ℝ) 1) (hv : v ∈ Set.Icc (0 : ℝ) 1) :
    (splineU rise u v).x = 1 ∧ (splineU rise u v).y = 0 ∧ (splineV rise u v).x = 0 ∧ (splineV rise u v).y = 1 := by
  obtain ⟨U, V, eU, eV, dU, dV, vU, vV⟩ := derivatives rise_valid rise_knots rise_knots
  have sU : splineU rise u v = valOf (U.getPoint u v) := by unfold splineU; rw [eU]; rfl
  have sV : splineV rise u v = valOf (V.getPoint u v) := by unfold splineV; rw [eV]; rfl
  obtain ⟨hj, -, -⟩ := joined_shrunk rise_valid.lenU rise_valid.rows rise_valid.sortedU rise_valid.nonconstU rise_knots
  have hj' := joined_smooth rise_knots
  have ent : ∀ i j, i < U.controlPoints.rows → j < U.controlPoints.cols →
      (entry U.controlPoints i j).x = 1 ∧ (entry U.controlPoints i j).y = 0 := by
    intro i j hi hj
    rw [dU] at hi hj
    change i < 3 at hi
    change j < 4 at hj
    have e : entry U.controlPoints i j = slopeU rise i j := by rw [dU]; exact entry_netTab _ hi hj
    rw [e, rise_slopeU hi hj]
    exact ⟨rfl, rfl⟩
  have ent' : ∀ i j, i < V.controlPoints.rows → j < V.controlPoints.cols →
      (entry V.controlPoints i j).x = 0 ∧ (entry V.controlPoints i j).y = 1 := by
    intro i j hi hj
    rw [dV] at hi hj
    change i < 4 at hi
    change j < 3 at hj
    have e : entry V.controlPoints i j = slopeV rise i j := by rw [dV]; exact entry_netTab _ hi hj
    rw [e, rise_slopeV hi hj]
    exact ⟨rfl, rfl⟩
  have jU1 : Joined U.knots.1 U.controlPoints.rows U.degree.1 := by rw [dU]; exact hj
  have jU2 : Joined U.knots.2 U.controlPoints.cols U.degree.2 := by rw [dU]; exact hj'
  have jV1 : Joined V.knots.1 V.controlPoints.rows V.degree.1 := by rw [dV]; exact hj'
  have jV2 : Joined V.knots.2 V.controlPoints.cols V.degree.2 := by rw [dV]; exact hj
  have iU1 : u ∈ Set.Icc (knot U.knots.1 0) (knot U.knots.1 (U.controlPoints.rows + U.degree.1)) := by
    rw [dU]; simpa [rise, knot] using hu
  have iU2 : v ∈ Set.Icc (knot U.knots.2 0) (knot U.knots.2 (U.controlPoints.cols + U.degree.2)) := by
    rw [dU]; simpa [rise, knot] using hv
  have iV1 : u ∈ Set.Icc (knot V.knots.1 0) (knot V.knots.1 (V.controlPoints.rows + V.degree.1)) := by
    rw [dV]; simpa [rise, knot] using hu
  have iV2 : v ∈ Set.Icc (knot V.knots.2 0) (knot V.knots.2 (V.controlPoints.cols + V.degree.2)) := by
    rw [dV]; simpa [rise, knot] using hv
  have ex : ∀ p : V3 ℝ, V3.dotL ⟨1, 0, 0⟩ p = p.x := fun p => by
    change (V3.mk 1 0 0 : V3 ℝ).dot p = _
    simp [V3.dot]
  have ey : ∀ p : V3 ℝ, V3.dotL ⟨0, 1, 0⟩ p = p.y := fun p => by
    change (V3.mk 0 1 0 : V3 ℝ).dot p = _
    simp [V3.dot]
  rw [sU, sV]
  refine ⟨?_, ?_, ?_, ?_⟩
  · rw [← ex]
    exact surface_coord vU jU1 jU2 (fun i j hi hj => by rw [ex]; exact (ent i j hi hj).1) iU1 iU2
  · rw [← ey]
    exact surface_coord vU jU1 jU2 (fun i j hi hj => by rw [ey]; exact (ent i j hi hj).2) iU1 iU2
  · rw [← ex]
    exact surface_coord vV jV1 jV2 (fun i j hi hj => by rw [ex]; exact (ent' i j hi hj).1) iV1 iV2
  · rw [← ey]
    exact surface_coord vV jV1 jV2 (fun i j hi hj => by rw [ey]; exact (ent' i j hi hj).2) iV1 iV2

theorem rise_regular {u v : ℝ} (hu : u ∈ Set.Icc (0 : ℝ) 1) (hv : v ∈ Set.Icc (0 : ℝ) 1) :
    1 ≤ ((splineU rise u v).cross (splineV rise u v)).length := by
  obtain ⟨h1, h2, h3, h4⟩ := rise_tangents hu hv
  rw [V3.length_eq]
  apply Real.one_le_sqrt.2
  simp only [V3.cross, V3.dot, h1, h2, h3, h4]
  nlinarith [sq_nonneg (splineU rise u v).z, sq_nonneg (splineV rise u v).z]

end Area

/-- **C161**, an example: with 96 by 96 cells all triangles are within 30 degrees of the normals stored at their corners. -/
theorem C161_example :
    ∃ mesh ts ns, (SurfacePatch.mk rise.surface ((0, 1), (0, 1)) (96, 96)).getTriangleMesh = .ok mesh ∧ corners mesh = some ts ∧
      corners ⟨mesh.normals, [], mesh.triangles⟩ = some ns ∧
      List.Forall₂ (fun T N => Facing (1 / 2) (facet T) N.1 ∧ Facing (1 / 2) (facet T) N.2.1 ∧ Facing (1 / 2) (facet T) N.2.2) ts ns :=
  C161_bspline rise_valid rise_knots rise_knots rise_first (M := 4) (κ := 1) (by norm_num) rise_bounds (u0 := 0) (u1 := 1) (v0 := 0) (v1 := 1)
    (by norm_num [rise, knot]) (by norm_num [rise, knot]) (by norm_num [rise, knot]) (by norm_num [rise, knot]) (by norm_num)
    (fun _ hu _ hv => rise_regular hu hv) (by norm_num) (by norm_num) (by norm_num) (by norm_num) (by norm_num)

/-- **C160**, an example: the mesh of the same surface misses its area by at most `24 (1/a + 1/b)`. -/
example {a b : Nat} (ha : 1 ≤ a) (hb : 1 ≤ b) (hsz : (a + 1) * (b + 1) ≤ 2 ^ 32) :
    ∃ mesh ts, (SurfacePatch.mk rise.surface ((0, 1), (0, 1)) (a, b)).getTriangleMesh = .ok mesh ∧ corners mesh = some ts ∧
      |totalArea ts - surfaceArea (splineU rise) (splineV rise) (0, 1) (0, 1)| ≤ 24 * (1 / a + 1 / b) := by
  obtain ⟨mesh, ts, h1, h2, h3⟩ := C160_bspline rise_valid rise_knots rise_knots rise_first (M := 4) (by norm_num) rise_bounds (u0 := 0)
    (u1 := 1) (v0 := 0) (v1 := 1) (by norm_num [rise, knot]) (by norm_num [rise, knot]) (by norm_num [rise, knot])
    (by norm_num [rise, knot]) ha hb hsz
  refine ⟨mesh, ts, h1, h2, h3.trans (le_of_eq ?_)⟩
  norm_num

end Geom3d
