import Verif.Props.SurfaceDeviation
import Verif.Props.SampleBSpline
import Verif.Props.PolygonDistance
import Verif.Props.Examples

/-! # C155: how far the mesh of a B-spline surface is from the surface -/

set_option linter.unusedSectionVars false

namespace Geom3d
open Spec Deviation

/-- Control points of the partial derivative by the first parameter. -/
noncomputable def Spec.slopeU (s : BSplineSurface ℝ (V3 ℝ)) (i j : Nat) : V3 ℝ :=
  ((s.degree.1 : ℝ) / (knot s.knots.1 (i + s.degree.1 + 1) - knot s.knots.1 (i + 1))) •
    (entry s.controlPoints (i + 1) j - entry s.controlPoints i j)

/-- Control points of the partial derivative by the second parameter. -/
noncomputable def Spec.slopeV (s : BSplineSurface ℝ (V3 ℝ)) (i j : Nat) : V3 ℝ :=
  ((s.degree.2 : ℝ) / (knot s.knots.2 (j + s.degree.2 + 1) - knot s.knots.2 (j + 1))) •
    (entry s.controlPoints i (j + 1) - entry s.controlPoints i j)

/-- Bounds of the control points of the three second derivatives. -/
structure Spec.SecondBounds (s : BSplineSurface ℝ (V3 ℝ)) (D C E : ℝ) : Prop where
  uu : ∀ i j, i + 2 < s.controlPoints.rows → j < s.controlPoints.cols →
    ((s.degree.1 : ℝ) - 1) * (slopeU s (i + 1) j - slopeU s i j).length /
      (knot s.knots.1 (i + s.degree.1 + 1) - knot s.knots.1 (i + 2)) ≤ D
  uv : ∀ i j, i + 1 < s.controlPoints.rows → j + 1 < s.controlPoints.cols →
    (s.degree.2 : ℝ) * (slopeU s i (j + 1) - slopeU s i j).length /
      (knot s.knots.2 (j + s.degree.2 + 1) - knot s.knots.2 (j + 1)) ≤ C
  vv : ∀ i j, i < s.controlPoints.rows → j + 2 < s.controlPoints.cols →
    ((s.degree.2 : ℝ) - 1) * (slopeV s i (j + 1) - slopeV s i j).length /
      (knot s.knots.2 (j + s.degree.2 + 1) - knot s.knots.2 (j + 2)) ≤ E

/-- Clamped knots of `N` control points of degree `p` of at least 2, and no inner knot of a multiplicity above `p - 1`. -/
structure Spec.SmoothKnots (knots : List ℝ) (N p : Nat) : Prop where
  degree : 2 ≤ p
  first : knot knots 0 = knot knots p
  last : knot knots N = knot knots (N + p)
  mult : ∀ x, knot knots 0 < x → x < knot knots (N + p) → knots.count x ≤ p - 1

namespace Deviation

theorem weights {knots : List ℝ} {N p : Nat} (hlen : knots.length = N + p + 1) (hN : 0 < N) (hs : Sorted knots)
    (hne : knot knots 0 < knot knots (N + p)) {u : ℝ} (hu : u ∈ Set.Icc (knot knots 0) (knot knots (N + p))) :
    ∃ w, KnotVector.bsplineBasis knots p u = .ok w ∧ (∀ i, i < N → 0 ≤ w.getD i 0) ∧
      ∑ i ∈ Finset.range N, w.getD i 0 ≤ 1 := by
  obtain ⟨w, -, h1, h2, h3, -⟩ := C04_range hlen hs (resolved_real _) hne (p := p) (by omega) hu.1 hu.2
  obtain ⟨a, _, _, ha⟩ := exists_contains hlen hs (resolved_real _) hne hu.1
  have e := basis_of_contains (p := p) hlen hs (resolved_real _) (by omega) hne ha
  have e2 := h1.symm.trans e
  rw [Except.ok.injEq, show N + p - p = N by omega] at e2
  have hl : w.length = N := by rw [e2, tab_length]
  refine ⟨w, h1, fun i hi => ?_, ?_⟩
  · rw [List.getD_eq_getElem?_getD, List.getElem?_eq_getElem (by omega)]
    exact h3 _ (List.getElem_mem _)
  · have e3 := eq_tab_getD w 0
    rw [e3, sum_tab, hl] at h2
    exact h2

theorem mean_le {n : Nat} {w : Nat → ℝ} {y : Nat → V3 ℝ} {B : ℝ} (hw : ∀ i, i < n → 0 ≤ w i)
    (hw1 : ∑ i ∈ Finset.range n, w i ≤ 1) (hB : 0 ≤ B) (hy : ∀ i, i < n → (y i).length ≤ B) :
    (∑ i ∈ Finset.range n, w i • y i).length ≤ B := by
  refine (Legs.length_sum_le _ _).trans ?_
  calc _ ≤ ∑ i ∈ Finset.range n, w i * B := by
        apply Finset.sum_le_sum
        intro i hi
        have hi := Finset.mem_range.1 hi
        rw [V3.length_smul, abs_of_nonneg (hw i hi)]
        exact mul_le_mul_of_nonneg_left (hy i hi) (hw i hi)
    _ = (∑ i ∈ Finset.range n, w i) * B := by rw [Finset.sum_mul]
    _ ≤ 1 * B := mul_le_mul_of_nonneg_right hw1 hB
    _ = B := one_mul B

theorem cp_tab {n : Nat} (f : Nat → V3 ℝ) {i : Nat} (hi : i < n) : cp (tab n f) i = f i := by
  rw [← cp_getElem (by rw [tab_length]; exact hi)]
  simp

end Deviation

/-- **C155** Clamped B-spline surfaces of degrees 2 or more: the bounds of C154 are the bounds of the control points of the
second derivatives. -/
theorem C155_bows {s : BSplineSurface ℝ (V3 ℝ)} (hs : s.Valid)
    (hu : SmoothKnots s.knots.1 s.controlPoints.rows s.degree.1) (hv : SmoothKnots s.knots.2 s.controlPoints.cols s.degree.2)
    {D C E : ℝ} (hD : 0 ≤ D) (hC : 0 ≤ C) (hE : 0 ≤ E) (hb : SecondBounds s D C E) :
    SurfaceBows (fun u v => valOf (s.getPoint u v))
      (knot s.knots.1 0, knot s.knots.1 (s.controlPoints.rows + s.degree.1))
      (knot s.knots.2 0, knot s.knots.2 (s.controlPoints.cols + s.degree.2)) D C E := by
  have vo : ∀ x : V3 ℝ, valOf (.ok x : Res (V3 ℝ)) = x := fun _ => rfl
  have mid : ∀ {I : ℝ × ℝ} {a b t : ℝ}, a ∈ Set.Icc I.1 I.2 → b ∈ Set.Icc I.1 I.2 → 0 ≤ t → t ≤ 1 →
      a + (b - a) * t ∈ Set.Icc I.1 I.2 := by
    intro I a b t ha hb h0 h1
    obtain ⟨a0, a1⟩ := ha
    obtain ⟨b0, b1⟩ := hb
    constructor <;> nlinarith
  have col : ∀ j, j < s.controlPoints.cols → Bows (BSplineCurve.mk (column s.controlPoints j) s.knots.1 s.degree.1).getPoint D
      (knot s.knots.1 0) (knot s.knots.1 (s.controlPoints.rows + s.degree.1)) := by
    intro j hj
    have := C152_bspline (hs.curveU (column_length s.controlPoints j)) hu.degree hu.first
      (by simp only [column_length]; exact hu.last) (by simp only [column_length]; exact hu.mult) hD (by
        intro i hi
        simp only [column_length] at hi
        have e : ∀ k, k + 1 < s.controlPoints.rows →
            slopePoint (BSplineCurve.mk (column s.controlPoints j) s.knots.1 s.degree.1) k = slopeU s k j := by
          intro k hk
          unfold slopePoint slopeU
          simp only []
          rw [cp_column hk, cp_column (by omega)]
        rw [e _ (by omega), e _ (by omega)]
        exact hb.uu i j hi hj)
    simpa only [column_length] using this
  have rowb : ∀ i, i < s.controlPoints.rows → Bows (BSplineCurve.mk (row s.controlPoints i) s.knots.2 s.degree.2).getPoint E
      (knot s.knots.2 0) (knot s.knots.2 (s.controlPoints.cols + s.degree.2)) := by
    intro i hi
    have := C152_bspline (hs.curveV (row_length s.controlPoints i)) hv.degree hv.first
      (by simp only [row_length]; exact hv.last) (by simp only [row_length]; exact hv.mult) hE (by
        intro j hj
        simp only [row_length] at hj
        have e : ∀ k, k + 1 < s.controlPoints.cols →
            slopePoint (BSplineCurve.mk (row s.controlPoints i) s.knots.2 s.degree.2) k = slopeV s i k := by
          intro k hk
          unfold slopePoint slopeV
          simp only []
          rw [cp_row hk, cp_row (by omega)]
        rw [e _ (by omega), e _ (by omega)]
        exact hb.vv i j hi hj)
    simpa only [row_length] using this
  have wu := fun u hu' => weights hs.lenU hs.rows hs.sortedU hs.nonconstU (u := u) hu'
  have wv := fun v hv' => weights hs.lenV hs.cols hs.sortedV hs.nonconstV (u := v) hv'
  refine ⟨?_, ?_, ?_⟩
  · intro a b v t ha hb' hv' h0 h1
    have hm := mid ha hb' h0 h1
    obtain ⟨w, k1, k2, k3⟩ := wv v hv'
    obtain ⟨wa, ea, -⟩ := wu a ha
    obtain ⟨wb, eb, -⟩ := wu b hb'
    obtain ⟨wm, em, -⟩ := wu _ hm
    rw [valOf_columns hs.net hs.lenU hs.lenV k1 ea, valOf_columns hs.net hs.lenU hs.lenV k1 eb,
      valOf_columns hs.net hs.lenU hs.lenV k1 em]
    simp only [vo]
    unfold V3.distance
    rw [← Finset.sum_sub_distrib, Finset.smul_sum, ← Finset.sum_add_distrib, ← Finset.sum_sub_distrib]
    have := mean_le (w := fun j => w.getD j 0) (y := fun j =>
      valOf ((BSplineCurve.mk (column s.controlPoints j) s.knots.1 s.degree.1).getPoint (a + (b - a) * t)) -
      (valOf ((BSplineCurve.mk (column s.controlPoints j) s.knots.1 s.degree.1).getPoint a) + t •
        (valOf ((BSplineCurve.mk (column s.controlPoints j) s.knots.1 s.degree.1).getPoint b) -
          valOf ((BSplineCurve.mk (column s.controlPoints j) s.knots.1 s.degree.1).getPoint a)))) k2 k3
      (show 0 ≤ D * (b - a) ^ 2 / 8 by positivity) (by
        intro j hj
        obtain ⟨x, y, z, e1, e2, e3, hd⟩ := col j hj a b t ha hb' h0 h1
        simp only [e1, e2, e3, valOf]
        rw [V3.rmul_eq] at hd
        exact hd)
    refine le_trans (le_of_eq ?_) this
    congr 1
    apply Finset.sum_congr rfl
    intro j _
    module
  · intro u c d t hu' hc hd h0 h1
    have hm := mid hc hd h0 h1
    obtain ⟨w, k1, k2, k3⟩ := wu u hu'
    obtain ⟨wa, ea, -⟩ := wv c hc
    obtain ⟨wb, eb, -⟩ := wv d hd
    obtain ⟨wm, em, -⟩ := wv _ hm
    rw [valOf_rows hs.net hs.lenU hs.lenV ea k1, valOf_rows hs.net hs.lenU hs.lenV eb k1,
      valOf_rows hs.net hs.lenU hs.lenV em k1]
    simp only [vo]
    unfold V3.distance
    rw [← Finset.sum_sub_distrib, Finset.smul_sum, ← Finset.sum_add_distrib, ← Finset.sum_sub_distrib]
    have := mean_le (w := fun j => w.getD j 0) (y := fun j =>
      valOf ((BSplineCurve.mk (row s.controlPoints j) s.knots.2 s.degree.2).getPoint (c + (d - c) * t)) -
      (valOf ((BSplineCurve.mk (row s.controlPoints j) s.knots.2 s.degree.2).getPoint c) + t •
        (valOf ((BSplineCurve.mk (row s.controlPoints j) s.knots.2 s.degree.2).getPoint d) -
          valOf ((BSplineCurve.mk (row s.controlPoints j) s.knots.2 s.degree.2).getPoint c)))) k2 k3
      (show 0 ≤ E * (d - c) ^ 2 / 8 by positivity) (by
        intro j hj
        obtain ⟨x, y, z, e1, e2, e3, hd⟩ := rowb j hj c d t hc hd h0 h1
        simp only [e1, e2, e3, valOf]
        rw [V3.rmul_eq] at hd
        exact hd)
    refine le_trans (le_of_eq ?_) this
    congr 1
    apply Finset.sum_congr rfl
    intro j _
    module
  · intro a b c d ha hb' hc hd
    obtain ⟨wa, ea, -⟩ := wu a ha
    obtain ⟨wb, eb, -⟩ := wu b hb'
    obtain ⟨wc, ec, -⟩ := wv c hc
    obtain ⟨wd, ed, -⟩ := wv d hd
    set X := valOf (s.getPoint b d) - valOf (s.getPoint a d) - (valOf (s.getPoint b c) - valOf (s.getPoint a c)) with hX
    have hl := V3.length_nonneg X
    set R : Nat → V3 ℝ := fun j =>
      valOf ((BSplineCurve.mk (column s.controlPoints j) s.knots.1 s.degree.1).getPoint b) -
      valOf ((BSplineCurve.mk (column s.controlPoints j) s.knots.1 s.degree.1).getPoint a) with hR
    have ev : ∀ v w, KnotVector.bsplineBasis s.knots.2 s.degree.2 v = .ok w →
        valOf (s.getPoint b v) - valOf (s.getPoint a v) =
          valOf ((BSplineCurve.mk (tab s.controlPoints.cols R) s.knots.2 s.degree.2).getPoint v) := by
      intro v w hw
      rw [valOf_columns hs.net hs.lenU hs.lenV hw ea, valOf_columns hs.net hs.lenU hs.lenV hw eb, bspline_linComb hw,
        show s.knots.2.length - 1 - s.degree.2 = s.controlPoints.cols by have := hs.lenV; omega]
      simp only [vo]
      rw [← Finset.sum_sub_distrib]
      apply Finset.sum_congr rfl
      intro j hj
      rw [cp_tab R (Finset.mem_range.1 hj), hR, smul_sub]
    have evu : ∀ j, j + 1 < s.controlPoints.cols → ∀ u w, KnotVector.bsplineBasis s.knots.1 s.degree.1 u = .ok w →
        valOf ((BSplineCurve.mk (column s.controlPoints (j + 1)) s.knots.1 s.degree.1).getPoint u) -
        valOf ((BSplineCurve.mk (column s.controlPoints j) s.knots.1 s.degree.1).getPoint u) =
        valOf ((BSplineCurve.mk (tab s.controlPoints.rows fun i =>
          entry s.controlPoints i (j + 1) - entry s.controlPoints i j) s.knots.1 s.degree.1).getPoint u) := by
      intro j hj u w hw
      rw [bspline_linComb hw, bspline_linComb hw, bspline_linComb hw,
        show s.knots.1.length - 1 - s.degree.1 = s.controlPoints.rows by have := hs.lenU; omega]
      simp only [vo]
      rw [← Finset.sum_sub_distrib]
      apply Finset.sum_congr rfl
      intro i hi
      have hi := Finset.mem_range.1 hi
      rw [cp_tab _ hi, cp_column hi, cp_column hi, smul_sub]
    have hdu := hu.degree
    have hdv := hv.degree
    have key := bspline_coord_lip (hs.curveV (l := tab s.controlPoints.cols R) (tab_length _ _)) (by simp only []; omega) hv.first
      (by simp only [tab_length]; exact hv.last)
      (fun x g1 g2 => by
        simp only [tab_length] at g1 g2
        exact (hv.mult x g1 g2).trans (by simp only []; omega)) (V3.dotL X) (L := X.length * C * |b - a|) (by
        intro j hj
        simp only [tab_length] at hj
        simp only []
        rw [cp_tab R hj, cp_tab R (by omega)]
        have e : R (j + 1) - R j = valOf ((BSplineCurve.mk (tab s.controlPoints.rows fun i =>
          entry s.controlPoints i (j + 1) - entry s.controlPoints i j) s.knots.1 s.degree.1).getPoint b) -
          valOf ((BSplineCurve.mk (tab s.controlPoints.rows fun i =>
          entry s.controlPoints i (j + 1) - entry s.controlPoints i j) s.knots.1 s.degree.1).getPoint a) := by
          rw [← evu j hj b wb eb, ← evu j hj a wa ea, hR]
          simp only []
          abel
        set κ := (s.degree.2 : ℝ) / (knot s.knots.2 (j + s.degree.2 + 1) - knot s.knots.2 (j + 1)) with hκ
        have hκ0 : 0 ≤ κ := div_nonneg (Nat.cast_nonneg _) (sub_nonneg.2 (hs.monoV _ _ (by omega) (by omega)))
        have k := bspline_coord_lip (hs.curveU (l := tab s.controlPoints.rows fun i =>
            entry s.controlPoints i (j + 1) - entry s.controlPoints i j) (tab_length _ _)) (by simp only []; omega) hu.first
          (by simp only [tab_length]; exact hu.last)
          (fun x g1 g2 => by
            simp only [tab_length] at g1 g2
            exact (hu.mult x g1 g2).trans (by simp only []; omega)) (κ • V3.dotL X) (L := X.length * C) (by
            intro i hi
            simp only [tab_length] at hi
            simp only []
            rw [cp_tab _ hi, cp_tab _ (by omega)]
            have e2 : ((s.degree.1 : ℝ) / (knot s.knots.1 (i + s.degree.1 + 1) - knot s.knots.1 (i + 1))) •
                (entry s.controlPoints (i + 1) (j + 1) - entry s.controlPoints (i + 1) j -
                  (entry s.controlPoints i (j + 1) - entry s.controlPoints i j)) = slopeU s i (j + 1) - slopeU s i j := by
              unfold slopeU
              module
            rw [e2, LinearMap.smul_apply, smul_eq_mul, abs_mul, abs_of_nonneg hκ0]
            have h4 : |V3.dotL X (slopeU s i (j + 1) - slopeU s i j)| ≤
              X.length * (slopeU s i (j + 1) - slopeU s i j).length := abs_dot_le (le_refl _)
            calc _ ≤ κ * (X.length * (slopeU s i (j + 1) - slopeU s i j).length) := mul_le_mul_of_nonneg_left h4 hκ0
              _ = X.length * ((s.degree.2 : ℝ) * (slopeU s i (j + 1) - slopeU s i j).length /
                (knot s.knots.2 (j + s.degree.2 + 1) - knot s.knots.2 (j + 1))) := by rw [hκ]; ring
              _ ≤ _ := mul_le_mul_of_nonneg_left (hb.uv i j hi hj) hl)
          b (by simp only [tab_length]; exact hb') a (by simp only [tab_length]; exact ha)
        rw [LinearMap.smul_apply, LinearMap.smul_apply, ← smul_sub, ← map_sub, ← e, ← map_smul] at k
        exact k)
      d (by simp only [tab_length]; exact hd) c (by simp only [tab_length]; exact hc)
    rw [← ev d wd ed, ← ev c wc ec, ← map_sub, ← hX] at key
    have k2 := (le_abs_self _).trans key
    have e : V3.dotL X X = X.length * X.length := (V3.length_mul_self X).symm
    rw [e] at k2
    rcases hl.eq_or_lt with hz | hz
    · rw [← hz]; positivity
    · exact le_of_mul_le_mul_left (k2.trans (le_of_eq (by ring))) hz

namespace Deviation

theorem shrunk {l : List ℝ} {N p : Nat} (hl : l.length = N + p + 1) (hp : 2 ≤ p) (hN : 0 < N) (hs : Sorted l)
    (h0 : knot l 0 = knot l p) (h1 : knot l N = knot l (N + p)) (hne : knot l 0 < knot l (N + p)) :
    p < N ∧ ((l.take (l.length - 1)).drop 1).length = (N - 1) + (p - 1) + 1 ∧ Sorted ((l.take (l.length - 1)).drop 1) ∧
      knot ((l.take (l.length - 1)).drop 1) 0 = knot l 0 ∧
      knot ((l.take (l.length - 1)).drop 1) 0 < knot ((l.take (l.length - 1)).drop 1) ((N - 1) + (p - 1)) := by
  have hm : ∀ i j, i ≤ j → j < l.length → knot l i ≤ knot l j := fun i j hij hj => hs.knot_le hij hj
  have hpN : p < N := by
    by_contra h
    have := hm N p (by omega) (by omega)
    rw [h1, ← h0] at this
    linarith
  have hk : ∀ j, j < N + p - 1 → knot ((l.take (l.length - 1)).drop 1) j = knot l (j + 1) := by
    intro j hj
    unfold knot
    simp only [List.getD_eq_getElem?_getD]
    rw [List.getElem?_drop, List.getElem?_take, if_pos (by omega), Nat.add_comm]
  have e0 : knot l 1 = knot l 0 := by
    refine le_antisymm ?_ (hm 0 1 (by omega) (by omega))
    rw [h0]
    exact hm 1 p (by omega) (by omega)
  refine ⟨hpN, by simp; omega, (hs.sublist (List.take_sublist _ _)).sublist (List.drop_sublist _ _), by rw [hk 0 (by omega), e0], ?_⟩
  rw [hk 0 (by omega), e0, hk _ (by omega)]
  refine lt_of_lt_of_le hne ?_
  rw [← h1]
  exact hm _ _ (by omega) (by omega)

end Deviation

/-- The normals of a clamped surface are computed for all parameters from the first knots on. -/
theorem spline_normals {s : BSplineSurface ℝ (V3 ℝ)} (hs : s.Valid)
    (hu : SmoothKnots s.knots.1 s.controlPoints.rows s.degree.1) (hv : SmoothKnots s.knots.2 s.controlPoints.cols s.degree.2)
    {l : List (V2 ℝ)} (hl : ∀ r ∈ l, knot s.knots.1 0 ≤ r.x ∧ knot s.knots.2 0 ≤ r.y) :
    ∃ N, s.getNormals l = .ok N ∧ N.length = l.length := by
  obtain ⟨k0, k1, k2, k3, k4⟩ := shrunk hs.lenU hu.degree hs.rows hs.sortedU hu.first hu.last hs.nonconstU
  obtain ⟨k0', k5, k6, k7, k8⟩ := shrunk hs.lenV hv.degree hs.cols hs.sortedV hv.first hv.last hs.nonconstV
  have hr := hs.rows
  have hc := hs.cols
  have hp := hu.degree
  have hq := hv.degree
  unfold BSplineSurface.getNormals
  rw [derivativeU_eq hs.net hs.lenU (by omega) (by omega) hc hs.resolvedU,
    derivativeV_eq hs.net hs.lenV (by omega) (by omega) hr hs.resolvedV]
  simp only [ok_bind]
  generalize hU : (BSplineSurface.mk _ _ (s.degree.1 - 1, s.degree.2) : BSplineSurface ℝ (V3 ℝ)) = U
  generalize hV : (BSplineSurface.mk _ _ (s.degree.1, s.degree.2 - 1) : BSplineSurface ℝ (V3 ℝ)) = V
  have vU : U.Valid := by
    rw [← hU]
    exact ⟨netTab_ok _ _ _, k1, hs.lenV, k2, hs.sortedV, resolved_real _, hs.resolvedV, k4, hs.nonconstV,
      by simp only []; omega, hc⟩
  have vV : V.Valid := by
    rw [← hV]
    exact ⟨netTab_ok _ _ _, hs.lenU, k5, hs.sortedU, k6, hs.resolvedU, resolved_real _, hs.nonconstU, k8, hr,
      by simp only []; omega⟩
  obtain ⟨N, h1, h2⟩ := mapM_ok (f := fun r : V2 ℝ => (do
      let a ← U.getPoint r.x r.y
      let b ← V.getPoint r.x r.y
      pure (a.cross b).normalize : Res (V3 ℝ))) (P := fun _ _ => True) (l := l) (by
    intro r hr
    obtain ⟨g1, g2⟩ := hl r hr
    obtain ⟨x, hx⟩ := C59_total vU (u := r.x) (v := r.y) (by rw [← hU]; exact k3.trans_le g1)
      (by rw [← hU]; exact g2)
    obtain ⟨y, hy⟩ := C59_total vV (u := r.x) (v := r.y) (by rw [← hV]; exact g1)
      (by rw [← hV]; exact k7.trans_le g2)
    exact ⟨_, by rw [hx, hy]; rfl, trivial⟩)
  exact ⟨N, h1, h2.length_eq.symm⟩

/-- **C155** The mesh of a clamped B-spline surface of degrees 2 or more, over its domain. -/
theorem C155_mesh {s : BSplineSurface ℝ (V3 ℝ)} (hs : s.Valid)
    (hu : SmoothKnots s.knots.1 s.controlPoints.rows s.degree.1) (hv : SmoothKnots s.knots.2 s.controlPoints.cols s.degree.2)
    {D C E : ℝ} (hD : 0 ≤ D) (hC : 0 ≤ C) (hE : 0 ≤ E) (hb : SecondBounds s D C E) {u0 u1 v0 v1 : ℝ}
    (hu0 : u0 = knot s.knots.1 0) (hu1 : u1 = knot s.knots.1 (s.controlPoints.rows + s.degree.1))
    (hv0 : v0 = knot s.knots.2 0) (hv1 : v1 = knot s.knots.2 (s.controlPoints.cols + s.degree.2)) {a b : Nat} (ha : 1 ≤ a)
    (hb' : 1 ≤ b) (hsz : (a + 1) * (b + 1) ≤ 2 ^ 32) :
    ∃ mesh ts, (SurfacePatch.mk s.surface ((u0, u1), (v0, v1)) (a, b)).getTriangleMesh = .ok mesh ∧ corners mesh = some ts ∧
      ts.length = 2 * (a * b) ∧
      CloseMesh (fun u v => valOf (s.getPoint u v)) (u0, u1) (v0, v1) ts
        (cellError D C E ((u1 - u0) / a) ((v1 - v0) / b)) := by
  subst hu0 hu1 hv0 hv1
  refine C154_mesh (fun u v h1 h2 => ?_) (fun us vs h1 h2 => ?_) (C155_bows hs hu hv hD hC hE hb) hs.nonconstU hs.nonconstV
    ha hb' hsz
  · obtain ⟨x, hx⟩ := C59_total hs h1.1 h2.1
    change s.getPoint u v = _
    rw [hx]
    rfl
  · obtain ⟨N, e1, e2⟩ := spline_normals hs hu hv (l := gridParams us vs) (by
      intro r hr
      simp only [gridParams, List.mem_flatMap, List.mem_map] at hr
      obtain ⟨u, hu', v, hv', rfl⟩ := hr
      exact ⟨(h1 u hu').1, (h2 v hv').1⟩)
    exact ⟨N, e1, Or.inr e2⟩

theorem uniform_smooth {p d : Nat} (hp : 2 ≤ p) (hd : 1 ≤ d) :
    SmoothKnots (KnotVector.uniformKnot p d : List ℝ) (p + d) p := by
  have hc := uniform_clamped (K := ℝ) p d hd
  obtain ⟨e0, e1⟩ := uniform_ends (K := ℝ) p d hd
  have hd0 : (0 : ℝ) < d := by exact_mod_cast hd
  refine ⟨hp, hc.first, hc.last, fun x h0 h1 => ?_⟩
  rw [e0] at h0
  have h1 : x < 1 := by
    rw [← e1]
    exact lt_of_lt_of_le h1 (le_of_eq (by congr 1))
  unfold KnotVector.uniformKnot
  simp only []
  rw [List.count_append, List.count_append, List.count_replicate, List.count_replicate,
    if_neg (by simpa using h0.ne), if_neg (by simpa using h1.ne')]
  have : ((List.range' 1 (d - 1)).map fun i : Nat => (i : ℝ) * (1 / (d : ℝ))).count x ≤ 1 := by
    refine List.nodup_iff_count_le_one.1 (List.Nodup.map ?_ List.nodup_range') x
    intro i j hij
    have : (1 : ℝ) / d ≠ 0 := by positivity
    exact_mod_cast mul_right_cancel₀ this hij
  omega

/-- **C155** The surfaces made by `uniform_clamped`. -/
theorem C155_uniform {g : Grid (V3 ℝ)} (hg : NetOk g) {degree : Nat × Nat} (h1 : 2 ≤ degree.1) (h2 : 2 ≤ degree.2)
    (h3 : degree.1 < 256) (h4 : degree.2 < 256) {s : BSplineSurface ℝ (V3 ℝ)}
    (h : BSplineSurface.uniformClamped g degree = .ok s) {D C E : ℝ} (hD : 0 ≤ D) (hC : 0 ≤ C) (hE : 0 ≤ E)
    (hb : SecondBounds s D C E) {a b : Nat} (ha : 1 ≤ a) (hb' : 1 ≤ b) (hsz : (a + 1) * (b + 1) ≤ 2 ^ 32) :
    ∃ mesh ts, (SurfacePatch.mk s.surface ((0, 1), (0, 1)) (a, b)).getTriangleMesh = .ok mesh ∧ corners mesh = some ts ∧
      ts.length = 2 * (a * b) ∧
      CloseMesh (fun u v => valOf (s.getPoint u v)) (0, 1) (0, 1) ts (cellError D C E ((1 - 0) / a) ((1 - 0) / b)) := by
  obtain ⟨hs, k0, kd, k1, k2, k3, k4, -, -⟩ := uniformClamped_valid hg h h3 h4 (resolved_real _) (resolved_real _)
  have hlt := (C61_new (F := ℝ) g degree).1.1 ⟨s, h⟩
  have e := h
  rw [uniformClamped_eq hlt.1 hlt.2, Nat.mod_eq_of_lt h3, Nat.mod_eq_of_lt h4] at e
  cases e
  have s1 := uniform_smooth h1 (d := g.rows - degree.1) (by omega)
  have s2 := uniform_smooth h2 (d := g.cols - degree.2) (by omega)
  rw [show degree.1 + (g.rows - degree.1) = g.rows by omega] at s1
  rw [show degree.2 + (g.cols - degree.2) = g.cols by omega] at s2
  exact C155_mesh hs s1 s2 hD hC hE hb k1.symm k3.symm k2.symm k4.symm ha hb' hsz

/-! ### An example -/

/-- The ramps of the net of the example. -/
def Spec.ramp (i : Nat) : ℝ := if i < 2 then 0 else 1

/-- The abscissas at which the example has its net. -/
noncomputable def Spec.greville (i : Nat) : ℝ := if i = 0 then 0 else if i = 1 then 1 / 4 else if i = 2 then 3 / 4 else 1

/-- A surface rising from one corner to the opposite one. -/
noncomputable def Spec.rise : BSplineSurface ℝ (V3 ℝ) :=
  ⟨⟨netTab 4 4 fun i j => ⟨greville i, greville j, ramp i * ramp j⟩, 4, 4⟩, ([0, 0, 0, 1 / 2, 1, 1, 1], [0, 0, 0, 1 / 2, 1, 1, 1]),
    (2, 2)⟩

theorem rise_knots : SmoothKnots [0, 0, 0, 1 / 2, 1, 1, (1 : ℝ)] 4 2 := by
  refine ⟨le_refl _, by simp [knot], by simp [knot], ?_⟩
  intro x h0 h1
  simp only [knot, List.getD_eq_getElem?_getD] at h0 h1
  norm_num at h0 h1
  simp only [List.count_cons, List.count_nil]
  have e1 : ((0 : ℝ) == x) = false := by simpa using h0.ne
  have e2 : ((1 : ℝ) == x) = false := by simpa using h1.ne'
  rw [e1, e2]
  simp only [Bool.false_eq_true, if_false]
  split <;> norm_num

theorem rise_valid : rise.Valid := by
  have hk : Sorted [0, 0, 0, 1 / 2, 1, 1, (1 : ℝ)] := by
    unfold Sorted
    norm_num
  exact ⟨netTab_ok _ _ _, rfl, rfl, hk, hk, resolved_real _, resolved_real _, by norm_num [rise, knot], by norm_num [rise, knot],
    by norm_num [rise], by norm_num [rise]⟩

theorem rise_bounds : SecondBounds rise 4 4 4 := by
  have hent : ∀ i j, i < 4 → j < 4 → entry rise.controlPoints i j = ⟨greville i, greville j, ramp i * ramp j⟩ :=
    fun i j hi hj => entry_netTab _ hi hj
  have h4 : Real.sqrt 4 = 2 := by rw [show (4 : ℝ) = 2 ^ 2 by norm_num, Real.sqrt_sq (by norm_num)]
  have hd1 : rise.degree.1 = 2 := rfl
  have hd2 : rise.degree.2 = 2 := rfl
  have hk1 : rise.knots.1 = [0, 0, 0, 1 / 2, 1, 1, 1] := rfl
  have hk2 : rise.knots.2 = [0, 0, 0, 1 / 2, 1, 1, 1] := rfl
  refine ⟨?_, ?_, ?_⟩
  · intro i j hi hj
    change i + 2 < 4 at hi
    change j < 4 at hj
    unfold slopeU
    rw [hent _ _ (by omega) hj, hent _ _ (by omega) hj, hent _ _ (by omega) hj, hd1, hk1, V3.length_eq]
    have hi : i < 2 := by omega
    interval_cases i <;> interval_cases j <;> norm_num [knot, V3.dot, greville, ramp, h4]
  · intro i j hi hj
    change i + 1 < 4 at hi
    change j + 1 < 4 at hj
    unfold slopeU
    rw [hent _ _ (by omega) hj, hent _ _ (by omega) hj, hent _ _ (by omega) (by omega), hent _ _ (by omega) (by omega),
      hd1, hd2, hk1, hk2, V3.length_eq]
    have hi : i < 3 := by omega
    have hj : j < 3 := by omega
    interval_cases i <;> interval_cases j <;> norm_num [knot, V3.dot, greville, ramp, h4]
  · intro i j hi hj
    change i < 4 at hi
    change j + 2 < 4 at hj
    unfold slopeV
    rw [hent _ _ hi (by omega), hent _ _ hi (by omega), hent _ _ hi (by omega), hd2, hk2, V3.length_eq]
    have hj : j < 2 := by omega
    interval_cases i <;> interval_cases j <;> norm_num [knot, V3.dot, greville, ramp, h4]

/-- **C155**, an example: 20 by 20 cells are within 1/200. -/
theorem C155_example :
    ∃ mesh ts, (SurfacePatch.mk rise.surface ((0, 1), (0, 1)) (20, 20)).getTriangleMesh = .ok mesh ∧ corners mesh = some ts ∧
      ts.length = 800 ∧ CloseMesh (fun u v => valOf (rise.getPoint u v)) (0, 1) (0, 1) ts (1 / 200) := by
  obtain ⟨mesh, ts, h1, h2, h3, h4⟩ := C155_mesh rise_valid rise_knots rise_knots (D := 4) (C := 4) (E := 4) (by norm_num)
    (by norm_num) (by norm_num) rise_bounds (u0 := 0) (u1 := 1) (v0 := 0) (v1 := 1) (by norm_num [rise, knot])
    (by norm_num [rise, knot]) (by norm_num [rise, knot]) (by norm_num [rise, knot]) (a := 20) (b := 20) (by norm_num)
    (by norm_num) (by norm_num)
  refine ⟨mesh, ts, h1, h2, h3, ?_⟩
  have e : cellError 4 4 4 ((1 - 0) / ((20 : ℕ) : ℝ)) ((1 - 0) / ((20 : ℕ) : ℝ)) = 1 / 200 := by norm_num [cellError]
  rwa [e] at h4

end Geom3d
